{
 "claims": [
  {
   "property": "C01",
   "status": "proved",
   "theorems": [
    "CC.Props.C01_fresh",
    "CC.Props.C01_permanent",
    "CC.Props.C01_definition"
   ],
   "note": "over every history of API calls with arbitrary arguments; C01_definition additionally pins the gate each call creates"
  },
  {
   "property": "C02",
   "status": "proved",
   "theorems": [
    "CC.Props.C02_inputs",
    "CC.Props.C02_outputs",
    "CC.Props.C02_output_wire"
   ],
   "note": ""
  },
  {
   "property": "C03",
   "status": "proved",
   "theorems": [
    "CC.Props.C03_accepts",
    "CC.Props.C03_rejects"
   ],
   "note": "ids created include the inner gate of equivalent/identity, which the caller never sees but output() accepts"
  },
  {
   "property": "C04",
   "status": "proved",
   "theorems": [
    "CC.Props.C04_counters"
   ],
   "note": ""
  },
  {
   "property": "C05",
   "status": "proved",
   "theorems": [
    "CC.Props.C05_dependents",
    "CC.Props.C05_none",
    "CC.Props.C05_list"
   ],
   "note": ""
  },
  {
   "property": "C06",
   "status": "proved",
   "theorems": [
    "CC.Props.C06_const_gates",
    "CC.Props.C06_values",
    "CC.Props.C06_complete"
   ],
   "note": ""
  },
  {
   "property": "C07",
   "status": "proved",
   "theorems": [
    "CC.Props.C07_lookup",
    "CC.Props.C07_register_id",
    "CC.Props.C07_sub_circuit",
    "CC.Props.C07_permanent",
    "CC.Props.C07_shared"
   ],
   "note": ""
  },
  {
   "property": "C08",
   "status": "proved",
   "theorems": [
    "CC.Props.C08_frame",
    "CC.Props.C08_frame_register",
    "CC.Props.C08_frame_modules"
   ],
   "note": ""
  },
  {
   "property": "C09",
   "status": "proved",
   "theorems": [
    "CC.Props.C09_module",
    "CC.Props.C09_succeeds_iff",
    "CC.Props.C09_unknown",
    "CC.Props.C09_self"
   ],
   "note": "C09_succeeds_iff gives the exact success condition: the code underflows when the callee's num_wire < input_len + output_len (e.g. an input wired straight to an output)"
  },
  {
   "property": "C10",
   "status": "proved",
   "theorems": [
    "CC.Props.C10_sound",
    "CC.Props.C10_unique",
    "CC.Props.C10_total"
   ],
   "note": ""
  },
  {
   "property": "C11",
   "status": "partial",
   "theorems": [
    "CC.Props.C11_fails",
    "CC.Props.C11_frugal_iff",
    "CC.Props.C11_full_false",
    "CC.Props.C11_partial",
    "CC.Props.C11_local_partial"
   ],
   "note": "false of the code as stated: C11_full_false exhibits a validly built circuit whose evaluation fails for every input (an input that is also an output is evicted after its last reader). C11_partial / C11_local_partial: success and correct bits whenever every output gate is still readable (unread, or read outside the cone of earlier outputs, or read by a multi-output module call). C11_fails: conversely, if an output gate is not readable and computing it again needs an input with no read to spare, evaluation fails for every input and depth; C11_frugal_iff: exact condition for circuits in which every gate is needed"
  },
  {
   "property": "C12",
   "status": "proved",
   "theorems": [
    "CC.Props.C12_wrong_length",
    "CC.Props.C12_ok_length"
   ],
   "note": ""
  },
  {
   "property": "C13",
   "status": "proved",
   "theorems": [
    "CC.Props.C13_stable",
    "CC.Props.C13_bound",
    "CC.Props.C13_bound_local"
   ],
   "note": "C13_bound holds for every well-built circuit, also those on which evaluation fails"
  },
  {
   "property": "C14",
   "status": "proved",
   "theorems": [
    "CC.Props.C14_gate",
    "CC.Props.C14_call"
   ],
   "note": ""
  },
  {
   "property": "C15",
   "status": "proved",
   "theorems": [
    "CC.Props.C15_equivalent",
    "CC.Props.C15_identity"
   ],
   "note": ""
  },
  {
   "property": "C16",
   "status": "proved",
   "theorems": [
    "CC.Props.C16_read",
    "CC.Props.C16_eval",
    "CC.Props.C16_evicted"
   ],
   "note": "any target circuit of any reachable heap (existing inputs are allowed); C16_eval goes through the evaluator for a new target under the condition that no line reads an output wire, C16_evicted shows the evaluator fails without it"
  },
  {
   "property": "C17",
   "status": "proved",
   "theorems": [
    "CC.Props.C17_rejects",
    "CC.Props.C17_not_valid",
    "CC.Props.C17_unique"
   ],
   "note": "Malformed names the first defect and its error; C17_not_valid and C17_unique show the classes are disjoint. Wrong operand counts and undefined output wires make the code panic (index, unwrap), outside this property"
  },
  {
   "property": "C18",
   "status": "proved",
   "theorems": [
    "CC.Props.C18_extends",
    "CC.Props.C18_values"
   ],
   "note": "any text and any previous reader state, success or failure; also: other circuits and storages unchanged, existing gates keep their values"
  },
  {
   "property": "C19",
   "status": "proved",
   "theorems": [
    "CC.Props.C19_computes",
    "CC.Props.C19_built",
    "CC.Props.C19_unique",
    "CC.Props.C19_stale_false"
   ],
   "note": "well-built = made by valid calls (ValidRun); C19_built covers any history under Fits (constants fit in the reserved wires); C19_stale_false shows that this fails, and the file is wrong, when a called circuit gains a constant after the call"
  },
  {
   "property": "C20",
   "status": "proved",
   "theorems": [
    "CC.Props.C20_wires",
    "CC.Props.C20_once"
   ],
   "note": "exact wire numbers: line i writes wire input_len+num_const+i"
  },
  {
   "property": "C21",
   "status": "proved",
   "theorems": [
    "CC.Props.C21_built",
    "CC.Props.C21_returns",
    "CC.Props.C21_unique",
    "CC.Props.C21_panics"
   ],
   "note": "Inlined gives the constants and the number of lines by recursion over needed module calls, independent of the writer; C21_unique: it determines them (constants up to order). C21_panics for every heap, depth and writer state"
  },
  {
   "property": "C22",
   "status": "partial",
   "theorems": [
    "CC.Props.C22_reads_iff",
    "CC.Props.C22_const_false",
    "CC.Props.C22_dead_false",
    "CC.Props.C22_roundtrip_partial",
    "CC.Props.C22_reads_as",
    "CC.Props.C22_shared_false",
    "CC.Props.C22_full_false"
   ],
   "note": "false of the code. C22_reads_iff: exactly which circuits can be read back (no constants anywhere, no unneeded logic gate, or no outputs); C22_const_false, C22_dead_false, C22_full_false: the others panic in the reader. C22_reads_as: what is read. C22_shared_false: outputs in a different order. C22_roundtrip_partial: the round trip under LastOutputs (the outputs are the last gates written: own logic gates no output needs for its operands, or all outputs of one call of such a circuit), including evaluation. Header numbers below 2^64 assumed"
  },
  {
   "property": "C23",
   "status": "proved",
   "theorems": [
    "CC.Props.C23_roundtrip",
    "CC.Props.C23_accepts",
    "CC.Props.C23_rejects",
    "CC.Props.C23_token"
   ],
   "note": "64-bit usize; the decimal printer and parser of std are modelled at character level"
  },
  {
   "property": "C24",
   "status": "proved",
   "theorems": [
    "CC.Props.C24_config",
    "CC.Props.C24_add"
   ],
   "note": "every width n >= 1, on any circuit of any reachable heap, at any later time (calls on the configuration's own module circuits excluded)"
  },
  {
   "property": "C25",
   "status": "proved",
   "theorems": [
    "CC.Props.C25_sub",
    "CC.Props.C25_neg"
   ],
   "note": ""
  },
  {
   "property": "C26",
   "status": "proved",
   "theorems": [
    "CC.Props.C26_mul"
   ],
   "note": ""
  },
  {
   "property": "C27",
   "status": "proved",
   "theorems": [
    "CC.Props.C27_build",
    "CC.Props.C27_mulExtend"
   ],
   "note": ""
  },
  {
   "property": "C28",
   "status": "proved",
   "theorems": [
    "CC.Props.C28_eq",
    "CC.Props.C28_neq",
    "CC.Props.C28_bits"
   ],
   "note": ""
  },
  {
   "property": "C29",
   "status": "partial",
   "theorems": [
    "CC.Props.C29_exact",
    "CC.Props.C29_order_partial",
    "CC.Props.C29_false"
   ],
   "note": "false of the code as stated: less takes the sign bit of the wrapped difference. C29_false: for every n >= 2, less(-2^(n-1), 1) is false and larger is true. C29_exact: the exact function computed, for all operands. C29_order_partial: the stated order whenever the difference does not overflow"
  },
  {
   "property": "C30",
   "status": "proved",
   "theorems": [
    "CC.Props.C30_shl",
    "CC.Props.C30_shr",
    "CC.Props.C30_too_far"
   ],
   "note": "C30_too_far: for k > n shift_right panics and shift_left returns k gates instead of n"
  },
  {
   "property": "C31",
   "status": "proved",
   "theorems": [
    "CC.Props.C31_fromBiguint",
    "CC.Props.C31_fromBiguint_panic",
    "CC.Props.C31_fromGateIds",
    "CC.Props.C31_fromGateIds_panic",
    "CC.Props.C31_zero",
    "CC.Props.C31_one"
   ],
   "note": "both success and panic conditions; note that from_biguint counts whole bytes, so a value of fewer than n bits can still panic"
  },
  {
   "property": "C32",
   "status": "partial",
   "theorems": [
    "CC.Props.C32_program_partial",
    "CC.Props.C32_single_partial",
    "CC.Props.C32_full_false",
    "CC.Props.C32_order_needed",
    "CC.Props.C32_width_needed",
    "CC.Props.C32_repaired"
   ],
   "note": "holds for every program whose constants fit and whose shift amounts are at most N (any number of results in any order for N >= 2; comparisons are covered too, with an order condition). False as stated for larger left shifts: C32_full_false is a program that builds but cannot be evaluated because shift_left returns too many gates. C32_order_needed and C32_width_needed show that the order condition cannot be dropped for comparisons or N = 1. C32_repaired: no condition on order, width or comparisons if every output is negated twice first."
  },
  {
   "property": "C33",
   "status": "proved",
   "theorems": [
    "CC.Props.C33_config",
    "CC.Props.C33_not",
    "CC.Props.C33_and_or_xor"
   ],
   "note": ""
  },
  {
   "property": "C34",
   "status": "proved",
   "theorems": [
    "CC.Props.C34_mux"
   ],
   "note": ""
  },
  {
   "property": "C35",
   "status": "partial",
   "theorems": [
    "CC.Props.C35_config",
    "CC.Props.C35_add_partial",
    "CC.Props.C35_full_false"
   ],
   "note": "false of the code as stated: the comparison with p is strict, so operands with a+b=p give p instead of 0 (C35_full_false, for every p >= 2). C35_add_partial: correct for all other operands below p; exact in both cases. Room for 2p means 2p <= 2^(N-1), since AllocInt is signed; constants must fit in whole bytes (FieldFits)"
  },
  {
   "property": "C36",
   "status": "proved",
   "theorems": [
    "CC.Props.C36_sub",
    "CC.Props.C36_neg",
    "CC.Props.C36_room_needed"
   ],
   "note": "for every p, N with 2p <= 2^(N-1) (signed room for 2p) and constants that fit in whole bytes; C36_room_needed: with 2p between 2^(N-1) and 2^N the claim fails"
  },
  {
   "property": "C37",
   "status": "partial",
   "theorems": [
    "CC.Props.C37_mul_partial",
    "CC.Props.C37_full_false"
   ],
   "note": "false of the code: r2 is R*R mod R = 0 instead of R*R mod p, so every product is 0 (C37_full_false: 1*1 = 0 for every p >= 2). C37_mul_partial: exact characterisation; correct iff p divides a*b"
  },
  {
   "property": "C38",
   "status": "partial",
   "theorems": [
    "CC.Props.C38_montRed_partial",
    "CC.Props.C38_full_false"
   ],
   "note": "false of the code: when the unreduced quotient t is below p the module returns 0 - t instead of t (C38_full_false: T = R fails for every odd p >= 3). C38_montRed_partial: the result is the canonical representative or its two's-complement negation, with the exact condition, for all T < pR"
  },
  {
   "property": "C39",
   "status": "proved",
   "theorems": [
    "CC.Props.C39_constant",
    "CC.Props.C39_config"
   ],
   "note": "for whatever heap and integer configuration; also shows the subtraction r - p_inv cannot underflow"
  },
  {
   "property": "C40",
   "status": "proved",
   "theorems": [
    "CC.Props.C40_bezout",
    "CC.Props.C40_gcd",
    "CC.Props.C40_dvd",
    "CC.Props.C40_nonneg"
   ],
   "note": "all integers; termination is part of the model (well-founded on |b|)"
  },
  {
   "property": "C41",
   "status": "proved",
   "theorems": [
    "CC.Props.C41_bytes_bits_bytes_le",
    "CC.Props.C41_bytes_bits_bytes_be",
    "CC.Props.C41_bits_bytes_bits_le",
    "CC.Props.C41_bits_bytes_bits_be",
    "CC.Props.C41_bad_length",
    "CC.Props.C41_lengths"
   ],
   "note": ""
  },
  {
   "property": "C42",
   "status": "proved",
   "theorems": [
    "CC.Props.C42_le_positions",
    "CC.Props.C42_be_positions",
    "CC.Props.C42_le_value",
    "CC.Props.C42_be_value",
    "CC.Props.C42_le_bytes",
    "CC.Props.C42_be_bytes"
   ],
   "note": ""
  },
  {
   "property": "C43",
   "status": "proved",
   "theorems": [
    "CC.Props.C43_encode",
    "CC.Props.C43_round_trip",
    "CC.Props.C43_odd",
    "CC.Props.C43_decode",
    "CC.Props.C43_bad_char"
   ],
   "note": "bytes2hex/hex2bytes delegate to the external crate hex; the model states its documented behaviour"
  },
  {
   "property": "C44",
   "status": "proved",
   "theorems": [
    "CC.Props.C44_adder64",
    "CC.Props.C44_into"
   ],
   "note": "the text of adder64.txt is part of the model (tools/mktext.py --check compares it with the repository); parsed and checked slice by slice in the kernel, composed for all operands. C44_into: same for any target circuit with existing content"
  },
  {
   "property": "C45",
   "status": "proved",
   "theorems": [
    "CC.Props.C45_sub64"
   ],
   "note": "as C44, for sub64.txt"
  },
  {
   "property": "C46",
   "status": "proved",
   "theorems": [
    "CC.Props.C46_neg64"
   ],
   "note": "as C44, for neg64.txt"
  },
  {
   "property": "C47",
   "status": "proved",
   "theorems": [
    "CC.Props.C47_new_int",
    "CC.Props.C47_new_bits"
   ],
   "note": ""
  },
  {
   "property": "C48",
   "status": "proved",
   "theorems": [
    "CC.Props.C48_mult64",
    "CC.Props.C48_into"
   ],
   "note": "the text of mult2_64.txt is part of the model (tools/mkpacked.py --check compares it with the repository); the kernel checks all 28032 lines against a certificate of adder cells; the composition is proved for all operands"
  },
  {
   "property": "C49",
   "status": "proved",
   "theorems": [
    "CC.Props.C49_udiv64",
    "CC.Props.C49_into"
   ],
   "note": "as C48, for udivide64.txt (restoring divider)"
  },
  {
   "property": "C50",
   "status": "proved",
   "theorems": [
    "CC.Props.C50_div64",
    "CC.Props.C50_into"
   ],
   "note": "as C48, for divide64.txt (non-restoring divider of the absolute values)"
  },
  {
   "property": "C51",
   "status": "proved",
   "theorems": [
    "CC.Props.C51_aes128",
    "CC.Props.C51_into"
   ],
   "note": "the text of AES-non-expanded.txt is part of the model (tools/mkpacked.py --check compares it with the repository); cipher specified after FIPS 197 in Spec/Aes, checked on the vector of appendix C.1"
  },
  {
   "property": "C52",
   "status": "proved",
   "theorems": [
    "CC.Props.C52_same_error",
    "CC.Props.C52_one_run"
   ],
   "note": "C52_same_error for all circuits of reachable heaps; C52_one_run for well-built circuits"
  },
  {
   "property": "C53",
   "status": "proved",
   "theorems": [
    "CC.Props.C53_exact",
    "CC.Props.C53_history",
    "CC.Props.C53_caught",
    "CC.Props.C53_plain",
    "CC.Props.C53_short",
    "CC.Props.C53_overflow"
   ],
   "note": "Model/Checked repeats the circuit API with checked additions; C53_overflow is the concrete history that overflows; C53_caught: every history, also after panics"
  },
  {
   "property": "C54",
   "status": "partial",
   "theorems": [
    "CC.Props.C54_count",
    "CC.Props.C54_const",
    "CC.Props.C54_iff",
    "CC.Props.C54_wires_decide",
    "CC.Props.C54_partial",
    "CC.Props.C54_plain",
    "CC.Props.C54_storage",
    "CC.Props.C54_clone",
    "CC.Props.C54_false"
   ],
   "note": "false of the code as stated: == ignores the module storage (C54_false: two equal circuits, one NOT, one constant 0). C54_partial: true whenever module ids mean the same module in both, in particular without module calls (C54_plain) or on the same storage (C54_storage); C54_const, C54_clone hold without restriction; C54_iff: four of the ten compared fields decide"
  },
  {
   "property": "C55",
   "status": "partial",
   "theorems": [
    "CC.Props.C55_accepts_iff",
    "CC.Props.C55_fails_iff",
    "CC.Props.C55_accepts",
    "CC.Props.C55_rejects_partial",
    "CC.Props.C55_valid",
    "CC.Props.C55_false"
   ],
   "note": "false of the code: gate_of_wire is never cleared, so a text that reads an undefined wire is rejected by a new reader but accepted by a used one, with a gate of another circuit (C55_false). C55_accepts, C55_valid: accepted texts are read identically by every reader; C55_rejects_partial: so are texts rejected for another reason than an undefined wire. C55_accepts_iff, C55_fails_iff: exactly which texts a reader in any state accepts, and which error it reports otherwise"
  },
  {
   "property": "C56",
   "status": "partial",
   "theorems": [
    "CC.Props.C56_object",
    "CC.Props.C56_again",
    "CC.Props.C56_same_iff",
    "CC.Props.C56_map",
    "CC.Props.C56_map_again",
    "CC.Props.C56_false",
    "CC.Props.C56_failed_false",
    "CC.Props.C56_map_false"
   ],
   "note": "false of the code in three ways: num_wire is never reset (C56_false), c_ref is not restored when writing a called module fails (C56_failed_false), and gates in the caller's map are not written (C56_map_false). Exact statements: C56_object (the object behaves like the function of C19-C22 and only adds text), C56_again and C56_same_iff (a used writer writes the same lines with wires shifted by its counter; the same text iff the counter is 0 or there is no line), C56_map and C56_map_again (header only)"
  },
  {
   "property": "C57",
   "status": "partial",
   "theorems": [
    "CC.Props.C57_numbering",
    "CC.Props.C57_same_circuit",
    "CC.Props.C57_stable_partial",
    "CC.Props.C57_full_false"
   ],
   "note": "false for circuits with modules (C57_full_false: the second text differs and cannot be read at all). Proved for circuits without modules: C57_numbering (renumbered circuits are written alike), C57_same_circuit (what is read back is the original renumbered), C57_stable_partial (same text)"
  },
  {
   "property": "C58",
   "status": "proved",
   "theorems": [
    "CC.Props.C58_eval_chain",
    "CC.Props.C58_write_chain",
    "CC.Props.C58_bound_local",
    "CC.Props.C58_bound",
    "CC.Props.C58_eval",
    "CC.Props.C58_write",
    "CC.Props.C58_tight",
    "CC.Props.C58_tight_ok"
   ],
   "note": "C58_eval_chain/C58_write_chain: longest chain of requests; C58_bound(_local): number of gates; C58_eval, C58_write: success at that depth; C58_tight, C58_tight_ok: lower bound for every size"
  },
  {
   "property": "C59",
   "status": "partial",
   "theorems": [
    "CC.Props.C59_utf8",
    "CC.Props.C59_text",
    "CC.Props.C59_lines",
    "CC.Props.C59_unreadable",
    "CC.Props.C59_source",
    "CC.Props.C59_fourth",
    "CC.Props.C59_success_partial",
    "CC.Props.C59_full_false"
   ],
   "note": "false for the fourth line only: its result is dropped (C59_full_false, C59_fourth). Proved: C59_utf8, C59_text (bytes of a text behave as the text), C59_lines, C59_unreadable (error returned, rest ignored), C59_success_partial (all other lines were readable)"
  },
  {
   "property": "C60",
   "status": "partial",
   "theorems": [
    "CC.Props.C60_every",
    "CC.Props.C60_truncated",
    "CC.Props.C60_reliable",
    "CC.Props.C60_small",
    "CC.Props.C60_file",
    "CC.Props.C60_success_partial",
    "CC.Props.C60_lost",
    "CC.Props.C60_full_false"
   ],
   "note": "the last sentence is false: write never flushes, and dropping ignores errors, so an output that fails gives Ok and loses the text (C60_full_false, C60_lost: every text below the capacity). Proved: C60_every, C60_truncated, C60_reliable (no I/O error and everything arrives if the output never fails), C60_small, C60_file (with C59: the bytes read back as the text), C60_success_partial (everything arrives if the last flush succeeds)"
  },
  {
   "property": "C61",
   "status": "proved",
   "theorems": [
    "CC.Props.C61_same",
    "CC.Props.C61_history",
    "CC.Props.C61_total",
    "CC.Props.C61_module",
    "CC.Props.C61_wires",
    "CC.Props.C61_sound",
    "CC.Props.C61_eval",
    "CC.Props.C61_differ",
    "CC.Props.C61_wraps"
   ],
   "note": "C61_same, C61_history, C61_total, C61_module, C61_wires, C61_sound, C61_eval; C61_differ and C61_wraps are concrete histories on which the builds differ"
  },
  {
   "property": "C62",
   "status": "proved",
   "theorems": [
    "CC.Props.C62_reasons",
    "CC.Props.C62_never",
    "CC.Props.C62_built",
    "CC.Props.C62_release",
    "CC.Props.C62_occurs",
    "CC.Props.C62_endless"
   ],
   "note": "C62_reasons, C62_never, C62_built, C62_release; C62_occurs and C62_endless show that the remaining reasons do occur, with a panic on circuits built by valid calls"
  },
  {
   "property": "C63",
   "status": "proved",
   "theorems": [
    "CC.Props.C63_accepts",
    "CC.Props.C63_rejects",
    "CC.Props.C63_panics",
    "CC.Props.C63_total",
    "CC.Props.C63_result",
    "CC.Props.C63_extends",
    "CC.Props.C63_debug",
    "CC.Props.C63_release",
    "CC.Props.C63_silent",
    "CC.Props.C63_wraps",
    "CC.Props.C63_wraps_occurs"
   ],
   "note": "C63_accepts, C63_rejects, C63_panics, C63_total, C63_result (iff), C63_extends (C16 and C17 are special cases), C63_debug, C63_release, C63_silent, C63_wraps; sums of input widths beyond 2^64 in release builds are left open (they need 2^64 inputs)"
  },
  {
   "property": "C64",
   "status": "proved",
   "theorems": [
    "CC.Props.C64_iff",
    "CC.Props.C64_writes",
    "CC.Props.C64_reasons",
    "CC.Props.C64_never",
    "CC.Props.C64_stable",
    "CC.Props.C64_evaluates",
    "CC.Props.C64_converse_false",
    "CC.Props.C64_occurs",
    "CC.Props.C64_few"
   ],
   "note": "C64_iff, C64_writes, C64_reasons, C64_never, C64_stable, C64_evaluates; C64_occurs: every error occurs; C64_few: calls with too few arguments are written silently; C64_converse_false: a circuit that is written but cannot be evaluated"
  },
  {
   "property": "C65",
   "status": "proved",
   "theorems": [
    "CC.Props.C65_wires",
    "CC.Props.C65_added",
    "CC.Props.C65_add",
    "CC.Props.C65_sub",
    "CC.Props.C65_neg",
    "CC.Props.C65_mul",
    "CC.Props.C65_compare",
    "CC.Props.C65_shift",
    "CC.Props.C65_values",
    "CC.Props.C65_mulExtend",
    "CC.Props.C65_bits",
    "CC.Props.C65_field"
   ],
   "note": "C65_add, C65_sub, C65_neg, C65_mul, C65_mulExtend, C65_compare, C65_shift, C65_values, C65_bits, C65_field; C65_wires and C65_added relate them to num_wire. Stated for calls that succeed; success is C24-C39."
  },
  {
   "property": "C66",
   "status": "partial",
   "theorems": [
    "CC.Props.C66_same",
    "CC.Props.C66_exact_partial",
    "CC.Props.C66_limit",
    "CC.Props.C66_once_partial",
    "CC.Props.C66_per_output",
    "CC.Props.C66_lines_partial",
    "CC.Props.C66_num_gate_partial",
    "CC.Props.C66_once_false"
   ],
   "note": "false in general: C66_once_false (an evicted gate is computed again for a later output). C66_exact_partial, C66_once_partial, C66_lines_partial, C66_num_gate_partial: holds if outputs are Readable, the condition of C11. Unconditional: C66_same, C66_limit, C66_per_output (a gate is computed at most once per output)."
  },
  {
   "property": "C67",
   "status": "proved",
   "theorems": [
    "CC.Props.C67_add_sub_mul",
    "CC.Props.C67_less",
    "CC.Props.C67_larger",
    "CC.Props.C67_field",
    "CC.Props.C67_not",
    "CC.Props.C67_and",
    "CC.Props.C67_or",
    "CC.Props.C67_xor",
    "CC.Props.C67_narrow_false",
    "CC.Props.C67_blind"
   ],
   "note": "C67_add_sub_mul, C67_less, C67_larger, C67_field, C67_not, C67_and, C67_or, C67_xor; C67_narrow_false: width 1 is excluded for less; C67_blind: the field test passes although every product is wrong."
  },
  {
   "property": "C68",
   "status": "partial",
   "theorems": [
    "CC.Props.C68_program_partial",
    "CC.Props.C68_single_partial",
    "CC.Props.C68_max",
    "CC.Props.C68_max_false",
    "CC.Props.C68_abs",
    "CC.Props.C68_order_needed",
    "CC.Props.C68_mux_order_needed",
    "CC.Props.C68_repaired"
   ],
   "note": "false for outputs out of order (C68_order_needed, C68_mux_order_needed). C68_program_partial: holds if outputs are declared in the order in which their gates were made; C68_single_partial: no such condition for one output. C68_max and C68_abs: two programs; C68_max_false: the maximum is wrong when the difference overflows (C29). C68_repaired: no such condition for any program whose outputs are copied first (numbers and bit strings complemented twice, bits by identity)."
  },
  {
   "property": "C69",
   "status": "proved",
   "theorems": [
    "CC.Props.C69_independent",
    "CC.Props.C69_same_calls",
    "CC.Props.C69_self",
    "CC.Props.C69_register",
    "CC.Props.C69_store",
    "CC.Props.C69_trace_plain",
    "CC.Props.C69_trace_clone"
   ],
   "note": "C69_self: the proviso on module calls is needed; a circuit registered in its own table cannot call itself, but its clone can call it"
  },
  {
   "property": "C70",
   "status": "proved",
   "theorems": [
    "CC.Props.C70_exact",
    "CC.Props.C70_again",
    "CC.Props.C70_tests",
    "CC.Props.C70_false",
    "CC.Props.C70_module_test"
   ],
   "note": "C70_exact is an equivalence; C70_false: a full adder that reads back correctly but is not equal to the original; C70_again: after one round it is; C70_tests, C70_module_test: the assertions of the tests"
  },
  {
   "property": "C71",
   "status": "proved",
   "theorems": [
    "CC.Props.C71_adder",
    "CC.Props.C71_mult",
    "CC.Props.C71_neg",
    "CC.Props.C71_aes_exchanged",
    "CC.Props.C71_aes",
    "CC.Props.C71_utils"
   ],
   "note": "C71_adder, C71_mult, C71_neg, C71_aes, C71_utils; C71_aes_exchanged: what aes128 computes"
  },
  {
   "property": "C72",
   "status": "partial",
   "theorems": [
    "CC.Props.C72_plain_partial",
    "CC.Props.C72_eq_partial",
    "CC.Props.C72_false",
    "CC.Props.C72_rejected_false"
   ],
   "note": "false: the operand of EQ is read as a wire number (C72_false: wrong value; C72_rejected_false: valid file rejected). C72_plain_partial: holds for files without EQ lines; C72_eq_partial: with EQ lines it holds for inputs that begin with 0, 1 if these wires are not overwritten."
  },
  {
   "property": "C73",
   "status": "proved",
   "theorems": [
    "CC.Props.C73_exact",
    "CC.Props.C73_atomic",
    "CC.Props.C73_circular",
    "CC.Props.C73_overflow"
   ],
   "note": "exact list of failing calls for every reachable heap; Needs is transitive closure of operand and called-circuit steps; C73_overflow is the converse of C73_circular up to other errors"
  },
  {
   "property": "C74",
   "status": "partial",
   "theorems": [
    "CC.Props.C74_partial",
    "CC.Props.C74_false",
    "CC.Props.C74_loop",
    "CC.Props.C74_ignored",
    "CC.Props.C74_ignored_bits",
    "CC.Props.C74_ignored_fp",
    "CC.Props.C74_mixed_false"
   ],
   "note": "false: only output checks gate ids. C74_false: not, xor and module accept unknown ids and a wrong number of arguments; C74_loop: a gate can be its own operand, and evaluation recurses for ever; C74_ignored, C74_mixed_false: operators ignore which circuit the second operand belongs to, x + y becomes x + x or a circular circuit. C74_ignored_bits, C74_ignored_fp: the same for bit strings and field elements. C74_partial: what is refused."
  },
  {
   "property": "C75",
   "status": "proved",
   "theorems": [
    "CC.Props.C75_meaning",
    "CC.Props.C75_texts"
   ],
   "note": "C75_meaning: one text, reader in any state, any part of what it knows; C75_texts: any number of texts with one new reader. Self-calls are excluded because new inputs change the meaning of such calls"
  },
  {
   "property": "C76",
   "status": "partial",
   "theorems": [
    "CC.Props.C76_words",
    "CC.Props.C76_modulo_partial",
    "CC.Props.C76_compare_partial",
    "CC.Props.C76_false_zero",
    "CC.Props.C76_false_mul",
    "CC.Props.C76_repaired"
   ],
   "note": "false of the code: products are 0 (C76_false_mul, as C37), and zero may be returned as p, which == does not identify with 0 (C76_false_zero). C76_words: exactly what every program returns on all inputs, as words. C76_modulo_partial: without multiplication every returned element is at most p and congruent to the meaning. C76_compare_partial: == is right unless both sides are zero modulo p. Outputs in the order of computation, as in C32 and C68. C76_repaired: in any order if the returned elements are negated twice first."
  },
  {
   "property": "C77",
   "status": "partial",
   "theorems": [
    "CC.Props.C77_program_partial",
    "CC.Props.C77_no_room",
    "CC.Props.C77_adder",
    "CC.Props.C77_nested",
    "CC.Props.C77_order_needed",
    "CC.Props.C77_room_needed"
   ],
   "note": "false of the code in two cases: results declared in an order other than that of computation cannot be evaluated (C77_order_needed, as C32), and a call of a function with more results than wires panics (C77_room_needed, as C09). C77_program_partial: all programs without these, for all inputs and any depth of calls, with the number of wires. C77_no_room: a program builds if and only if all calls have room. C77_adder (n calls of a full adder add n-bit numbers, all n) and C77_nested (towers of k functions, all k) are families of programs to which it applies"
  },
  {
   "property": "C78",
   "status": "proved",
   "theorems": [
    "CC.Props.C78_text",
    "CC.Props.C78_evaluator",
    "CC.Props.C78_numbers",
    "CC.Props.C78_mixed",
    "CC.Props.C78_field",
    "CC.Props.C78_functions",
    "CC.Props.C78_adder"
   ],
   "note": "C78_text: for every circuit built by valid calls the text computes the truth table of the outputs. C78_numbers, C78_mixed, C78_field and C78_functions: for the programs of C32, C68, C76 and C77, the results of the main circuit in any order (no evaluation, so nothing is dropped). C78_evaluator: the text agrees with the evaluator. C78_adder: the text of the adder with functions adds, for all widths. Reading the text back is C22 and C69, not this property; functions in libraries are ordered as in C77."
  },
  {
   "property": "C79",
   "status": "proved",
   "theorems": [
    "CC.Props.C79_same",
    "CC.Props.C79_log",
    "CC.Props.C79_cost",
    "CC.Props.C79_time"
   ],
   "note": "C79_same: the evaluator with a log (Model/Log) returns what the evaluator returns. C79_log: equal logs for input vectors of equal length, in every heap, at every depth, also if the evaluation fails. C79_cost: the time of C66 is read off the log; C79_time: so it does not depend on the bits. Hash map internals (hashing, resizing) are not in the log."
  },
  {
   "property": "C80",
   "status": "proved",
   "theorems": [
    "CC.Props.C80_space",
    "CC.Props.C80_bound",
    "CC.Props.C80_heap",
    "CC.Props.C80_sparing",
    "CC.Props.C80_told",
    "CC.Props.C80_freed",
    "CC.Props.C80_exponential"
   ],
   "note": "C80_space, C80_bound, C80_heap: the number of stored bits at every moment is at most the number of gates on the longest chain of calling circuits, of the circuits involved, of the heap. C80_sparing: bits are dropped at the last use. C80_told: lookups and counts in the log agree with what is stored and with the gates computed. C80_freed: nothing is left after success. C80_exponential: a family with time 2^n, and memory and depth 3n+2. A bit is one entry in each of the two maps; bytes are not counted."
  },
  {
   "property": "C81",
   "status": "proved",
   "theorems": [
    "CC.Props.C81_circuits",
    "CC.Props.C81_evaluator",
    "CC.Props.C81_builder"
   ],
   "note": "C81_circuits, C81_evaluator, C81_builder; the tests of bristol_converter.rs are C70_tests and C70_module_test, ext_gcd_test is an instance of C40"
  },
  {
   "property": "C82",
   "status": "partial",
   "theorems": [
    "CC.Props.C82_waste_false",
    "CC.Props.C82_int_false",
    "CC.Props.C82_bits_false",
    "CC.Props.C82_field_false",
    "CC.Props.C82_program_false",
    "CC.Props.C82_bitwise_partial",
    "CC.Props.C82_select_partial",
    "CC.Props.C82_neat_partial",
    "CC.Props.C82_accepted",
    "CC.Props.C82_idle_false",
    "CC.Props.C82_wires",
    "CC.Props.C82_moves_false",
    "CC.Props.C82_source",
    "CC.Props.C82_shift_false"
   ],
   "note": "false of the code for most operations. C82_waste_false, C82_int_false, C82_bits_false, C82_field_false: after any of these operations the text of the circuit can never be read back, whatever else is done; C82_program_false: the same for whole programs. The adder makes the OR of the lowest bits, which nobody reads; the others use constants, which the header counts twice. C82_bitwise_partial: NOT, AND, OR, XOR of bit strings of any width are read back and compute the operation; C82_select_partial: selection too. C82_wires, C82_moves_false, C82_shift_false: a circuit without gates, such as a shift to the right, is read back as its last inputs, so the text is accepted and computes something else. C82_neat_partial, C82_idle_false: programs of bitwise operations, selections, single gates, new values and conversions between words whose only result is a computed value, converted or not, are read back and compute the program if every computing statement is of use for the result, and can never be read back otherwise. C82_source: if the only result is a new value, converted or not, and nothing is idle, what is read computes the program exactly if no value was made new after the result; so programs of these statements with one result are settled. C82_accepted: with any results, the text of such a program is accepted exactly if every computing statement is of use for a result and there are no more outputs than wires. Not settled: whether what is accepted computes the program when there are several results (C22_roundtrip_partial and C22_shared_false show that both happen). Header numbers below 2^64 assumed"
  },
  {
   "property": "C83",
   "status": "proved",
   "theorems": [
    "CC.Props.C83_repaired",
    "CC.Props.C83_text",
    "CC.Props.C83_readable",
    "CC.Props.C83_constant",
    "CC.Props.C83_unused",
    "CC.Props.C83_wasteful"
   ],
   "note": "C83_repaired: the repaired program builds and evaluates to the meaning of the original, with the exact number of wires; C83_text: its text is read back as the program or refused; C83_readable: it is read back if no line of the main function or of a function it calls, directly or not, is a constant, and every line is used or returned; C83_wasteful: otherwise it is refused, if all functions return something; C83_constant, C83_unused: the same without that condition, for constants and gates of the main function. Header numbers below 2^64 assumed for the text. Not settled: calls of functions that return nothing. A program that is not repaired can fail to build or to evaluate (C77_order_needed, C77_room_needed)."
  }
 ]
}