# Formal model of SoraSuegami/circuit_converters (Lean 4)

## 1. Layout

| path | content |
|---|---|
| `lean/Verif/Model/*.lean` | the executable model, one file per Rust source file, every definition cites file and lines |
| `lean/Verif/Spec/*.lean` | small independent specifications, see section 4 |
| `lean/Verif/Proofs/*.lean` | helper lemmas, invariants, program logics |
| `lean/Verif/Props/*.lean` | the property theorems `C01_…`, `C02_…`, each with non-vacuity examples |
| `MANIFEST.json` | property -> theorem names and status (made by `tools/mkman.py` from `tools/notes.json`) |
| `AXIOMS.md` | every property theorem with the axioms it depends on (made by `tools/mkaxioms.py`) |
| `seeded/LOG.jsonl` | experiments with deliberately wrong programs (see the end) |
| `tools/mktext.py`, `tools/mkpacked.py` | generate the bundled Bristol texts of the model; `--check` compares them with the repository |
| `tools/mkcert.py`, `tools/mkaes.py` | generate the certificates (hints checked by the kernel) for the large bundled circuits |

## 2. Trusted base

A reader who wants to rely on the theorems has to trust:

1. **Lean's kernel** (Lean 4.33.0), which checks every proof. No `native_decide`, `bv_decide`, `sorry`, `unsafe`,
   `implemented_by` or own axioms are used. Computations inside proofs (`decide`, `rfl`) are done by the kernel.
2. **The axioms** `propext`, `Classical.choice`, `Quot.sound` (Lean's standard ones). `AXIOMS.md` lists per theorem which
   of them it uses; nothing else occurs.
3. **The model** (`lean/Verif/Model`): that it says what the Rust code does. Section 3 says how and what is left out.
4. **The specifications** (`lean/Verif/Spec`) and the statements of the theorems in `lean/Verif/Props`: that they say
   what the English properties say. Section 4 describes the vocabulary.
5. **External code whose behaviour is assumed**: Rust's `HashMap`, `Vec`, `str::lines`/`BufRead::lines`,
   `split_whitespace`, `parse::<usize>`, decimal formatting, `from_utf8`, `BufWriter`, `Write::write_all`; crate `hex` 0.4.3 (`encode`, `decode`); crate `num-bigint`
   (`BigInt` division truncates, `to_bytes_le`, `BigUint` subtraction panics on underflow).
6. **The bundled texts**: `tools/mktext.py --check` and `tools/mkpacked.py --check` compare the texts in the model with the
   files of the repository. The gate lines of the large files are stored as numbers, 64 bits per line; `lineText` in
   `Model/Packed` (15 lines) turns a number into the characters of the line, and the texts the theorems speak about are built
   with it.

Proofs in `lean/Verif/Proofs` need not be read or trusted.

## 3. How the code is modelled

* `BoolCircuitRef` (`Rc<RefCell<NXAOBoolCircuit>>`) is an index into a heap of circuits; `ModuleStorageRef`
  is an index into a heap of module tables. A `World` is the pair of heaps. Aliasing (a sub-circuit sharing its
  parent's table, a module mutated after having been called) is therefore expressible.
* An API call is a function `World → Result × World`; the world is returned also when the call fails, so that
  "unchanged on error" can be stated. `Result` is `Except Err`, where `Err` contains the Rust error values and
  an explicit `panic` (assertion, index out of range, missing map key, arithmetic underflow, double borrow) and
  `outOfFuel` (stack exhausted / no termination).
* `HashMap<K,V>` is a function `K → Option V`.
* `u64`/`usize` are `Nat`; a subtraction that would underflow is a panic (the behaviour of debug and test builds;
  a release build wraps). Additions are unbounded, except in `Model/Checked`, which repeats the circuit API with the additions
  checked as in debug builds (C53 says when the two agree), and `Model/Wrapping`, which repeats it with wrap-around as in release builds (C61). `parse::<usize>` does reject values ≥ 2^64.
* Unbounded recursion (`eval_single_gate`, `write_single_gate`) takes a fuel argument = recursion depth. C13 and C21 show
  that for well-built circuits a depth depending only on the circuit is enough.
* Text is `List Char`; `lines`, `split_whitespace`, `parse::<usize>` and decimal formatting are modelled
  character by character.
* `BigUint`/`BigInt` are `Nat`/`Int` with truncating division as in num-bigint.
* Generic code (`G: Gate, C: BoolCircuit<G>`) is modelled at its only instance `NXAOBoolGate/NXAOBoolCircuit`; const
  generics (`N`) are arguments.

| Rust | model | remarks |
|---|---|---|
| `src/gates.rs` | `Model/Basic` | ids are numbers, gates an inductive type |
| `src/bool_circuit.rs` | `Model/Circuit` | everything that is not commented out |
| the same with checked additions | `Model/Checked` | debug builds |
| the same with wrapping additions and subtractions | `Model/Wrapping` | release builds |
| `==` of circuits | `Model/Equality` | a proposition, since maps are functions; `clone` is in `Model/Circuit` |
| `src/evaluator.rs` | `Model/Evaluator` | `eval_single_output` only with both maps given, the only call there is |
| the same with a clock | `Model/Ticks` | returns the same (`C66_same`) |
| the same with a log of all accesses to its two maps | `Model/Log` | returns the same (`C79_same`) |
| `src/utils.rs` | `Model/Utils` | bytes are numbers below 256 |
| `src/bristol_converter.rs` | `Model/Bristol` | reader and writer |
| the reader with 64-bit sums in the header | `Model/BristolSums` | debug and release builds |
| the reader over bytes that may fail to be read or to be UTF-8 | `Model/ByteReader` | agrees with `Model/Bristol` on texts |
| the writer as an object, with its state after a failed call | `Model/WriterObj` | shown to agree with `Model/Bristol` |
| the writer over a `BufWriter` around an output that may fail | `Model/SinkWriter` | compared with `Model/WriterObj` |
| `src/circuits/logic/mod.rs` | `Model/Logic` | `&=` etc. make the same call as `&` etc. |
| `src/circuits/arithmetic/int.rs` | `Model/Arith` | |
| `src/circuits/finite_field/mod.rs` | `Model/Fp` | |
| the unit tests with random inputs, `#[cfg(test)]` in `int.rs`, `logic/mod.rs`, `finite_field/mod.rs` | `Model/Tests` | the circuits they build; their random bits are the input vector |
| the unit tests with random inputs in `evaluator.rs` and `utils.rs` | `Model/TestsBundled` | the whole tests, with what they draw as an argument |
| the unit tests with fixed inputs in `evaluator.rs` and `bool_circuit.rs` | `Model/TestsFixed` | the whole tests |
| `src/circuits/mod.rs`, `arithmetic/mod.rs`, `cryptography/mod.rs` | `Model/Bundled` | the macro `build_circuit_from_bristol` and the bundled texts; the large ones in `Model/Mult64`, `Udiv64`, `Div64`, `Aes128` |

The tests of `bristol_converter.rs` are `C70_tests` and `C70_module_test`, `ext_gcd_test` is an instance of C40.

Not modelled: commented-out code, tests included; `Debug`/`Display`; the move/borrow distinction of operator traits; memory
use in bytes (C80 counts the entries of the evaluator's maps); additions beyond 2^64 and wrap-around outside `bool_circuit.rs` and the Bristol header (the evaluator's `num_depend - 1` is checked in the model; a run that succeeds never underflows); outside code that
writes public fields directly or keeps a `borrow_mut` of a circuit during a call.

## 4. Specification vocabulary

* `Spec/History`: `Op` (an API call with arbitrary arguments), `Run`/`Reachable` (any history of calls, failed calls
  included), `Ev` (what a call returned), `trace` (the calls a circuit went through; a clone starts with those of its original),
  counting functions over these. C01–C09 speak about these. The calls are all the public ways of changing circuits and storages.
* `Spec/Twin`: `onto`, the same call on another circuit.
* `Spec/Semantics`: `Val w r ins g b`, the truth-table meaning of a gate, an inductive relation that mentions neither the
  evaluation order nor caches; `Built` (well-built circuit), `Readable`/`Evaluable` (the condition under which the evaluator
  does not lose a value).
* `Spec/Drain`: `Drained` (computing the gate a second time needs a second read of an input that has no read to spare),
  `Frugal` (every gate is needed for an output, every output depends on an input).
* `Spec/Bounded`: `Fits` (all counters below 2^64), histories with checked additions.
* `Spec/Valid`: `ValidRun`, histories of calls with valid arguments.
* `Spec/Bristol`: what a text says (`Lines`, `Layout`, `Numeral`, `Text`: relations, not a parser), the meaning of a gate
  list (`exec`), `Malformed` (first defect and its error).
* `Spec/Refused`: `Refused` (which calls fail), `Needs`, `Circular` (a gate that needs itself).
* `Spec/Verdict`: what happens to any text at all (`Accepts`, `Rejects`, `Panics`), and widths whose sum exceeds 64 bits (`Oversized`).
* `Spec/Continue`: what a reader that already knows wires makes of any text (`AcceptsFrom`, `FailsFrom`), and texts that continue
  earlier ones (`Chain`, `chainOutputs`).
* `Spec/Cost`: the counters added to a circuit (`Added`) and closed formulas for the sizes of the module circuits.
* `Spec/Memory`: replaying a log: what is stored at a moment (`frames`, `held`), gates on a chain of calls (`Space`), bits that still have readers (`Sparing`), truth of an event (`Told`).
* `Spec/Effort`: how much there is to compute for a circuit (`Effort`: each needed gate once; `Limit`: all gates once per output).
* `Spec/WriteFailure`: circuits that can be written (`Writable`) and why writing fails (`Unwritable`).
* `Spec/Writer`: a file as printed, `Inlined` (how many lines and which constants flattening takes).
* `Spec/Renaming`: `Renamed`, two circuits that differ in the numbering of their gates.
* `Spec/Readers`: `readers`, the gates that read a gate, in order of creation.
* `Spec/Order`: `InOrder`, circuits whose gates are numbered in depth-first order from the outputs.
* `Spec/Utf8`: the bytes of a text, by `String.utf8EncodeChar` of Lean's core library.
* `Spec/Depth`: `Within` (longest chain of requests from a gate), `gates` (number of gates in the heap).
* `Spec/Bits`, `Spec/Alloc`, `Spec/Field`: numbers held by gates (`Num`, `SNum`), "made by `new` in some reachable heap, any
  calls since" (`Made`, `Since`), success with frame (`Gives`), canonical quotients.
* `Spec/Aes`: AES-128 as in FIPS 197, on lists of bytes.
* `Spec/Program`: straight-line integer programs, compiled with the API and run on `BitVec`.
* `Spec/Mixed`: typed programs over integers, bit strings and bits, compiled with the API and run on `BitVec` and `Bool`.
* `Spec/FieldProgram`: programs over field elements, compiled with the API; the words they compute, and what they mean modulo p.
* `Spec/Functions`: programs with functions of their own, compiled with `register_module` and `module`; what they mean; which of
  them are well formed.
* `Spec/Guard`: such a program, with the results of all functions passed through `identity`.
* `Spec/Tests`: `Passes`, a test returns what it expects for every random choice.
* `Spec/Fashion`: EQ lines as the Bristol Fashion format defines them.

Besides the API functions and the data (`World`, `Circuit`, `Gate`), specifications refer to three small functions of the model:
`Gate.operands` (the ids a gate reads), `World.module?` (look-up of a module), `isWhite` (Unicode white space).

## 5. Findings: properties that are false of the code

Each of these is a theorem with a concrete witness, next to an exact or `_partial` positive theorem.

* **C03** (as first worded): `output` also accepts the inner gate of `equivalent`/`identity`, an id the caller never saw.
* **C09**: `module` computes `num_wire - input_len - output_len`; a callee that passes an input straight to an output makes
  this underflow, so a correct module cannot be called (`C09_succeeds_iff`).
* **C11**: the evaluator evicts a value after its last reader. A gate that is an output and is also read may be gone when it
  is read as an output: an evicted logic gate is recomputed from operands that may be gone, an evicted input is never restored
  (`C11_full_false`, also `C16_evicted`). Values read by multi-output module calls are never evicted, since the
  counter counts one reader per output gate but is decreased once per call. `C11_fails` is the general negative statement.
* **C19**: if a module is changed after a call, the constant count taken at call time is stale and written gate wires can collide with constants
  (`C19_stale_false`).
* **C22**: constants are counted twice in the header, dead gates are counted although never written, and two outputs sharing
  structure may be written in swapped order, so the file often does not read back (`C22_const_false`, `C22_dead_false`,
  `C22_shared_false`).
* **C82**: so no circuit that adds, subtracts, multiplies, negates, compares, shifts left or uses a constant or the field can be read
  back by the library (`C82_int_false`, `C82_bits_false`, `C82_field_false`, `C82_program_false`); bitwise operations and selection can
  (`C82_bitwise_partial`, `C82_select_partial`), and so can programs of them and single gates, exactly if nothing is computed in vain
  (`C82_neat_partial`, `C82_idle_false`; which texts are accepted, with any results: `C82_accepted`; a result that is an input: `C82_source`). A shift to the right is read back as no shift (`C82_shift_false`, `C82_wires`).
* **C29**: order comparisons use the sign of the wrapped difference: wrong when the difference overflows (`C29_false`).
* **C30/C32**: `shift_left(k)` with `k > N` returns `k` gates (`C30_too_far`, `C32_full_false`); `shift_right` panics.
* **C31**: `from_biguint` counts whole bytes, so a value that fits in `N` bits may be rejected.
* **C35**: field addition compares with `>` instead of `>=`: `a + b = p` gives `p`.
* **C37**: `r2 = R*R mod R = 0`, so every field product is 0.
* **C38**: when the unreduced quotient is below `p`, Montgomery reduction returns its negation.
* **C49/C50** (values the documentation does not give): unsigned division by zero gives `2^64 - 1`; signed division by zero gives
  -1, 1 (negative dividend) or 2 (dividend `-2^63`). **C48**: the upper half of the product comes first.
* **C53**: `num_wire` and `num_gate` count the contents of called modules, so they double with each level of a tower of modules;
  the 383rd call of a valid history panics (`C53_overflow`).
* **C70**: writing and reading back does not preserve `==`: gates get the numbers of a depth-first traversal (`C70_false`, a full adder;
  `C70_exact` says when it does). The tests of bristol_converter.rs compare only circuits with one gate.
* **C69**: not everything can be done alike with a circuit and its clone: a circuit registered in its own table panics when it calls
  itself, its clone can call it (`C69_self`).
* **C54**: `==` on circuits ignores the module storage: two equal circuits can compute different functions (`C54_false`).
* **C55**: a reader never forgets wires: a text that reads an undefined wire is accepted by a reader that has seen the wire in
  another text (`C55_false`). `C55_accepts_iff` and `C55_fails_iff` say exactly what a used reader does; C75 what it means when the
  earlier texts were read into the same circuit.
* **C56**: a writer object cannot be used twice: the second `write` continues the wire numbers of the first, so that its input wires
  are undefined (`C56_false`). After a call that failed inside a called module it still refers to that module and writes it
  (`C56_failed_false`). With the wire map of an earlier call no gate is written (`C56_map_false`).
* **C57**: what was written for a circuit with modules and read back need not survive a second round: unused outputs of a module are
  inlined by the first writing, left out by the second, but still counted in the header (`C57_full_false`).
* **C58** (not a wrong result, but a limit): evaluator and writer recurse once per gate of a chain, so a long enough circuit overflows
  the call stack (`C58_tight`); the number of gates is the exact bound.
* **C59**: the result of reading the fourth line is dropped, so an I/O error or invalid UTF-8 there goes unnoticed (`C59_full_false`).
* **C60**: `write` never flushes its `BufWriter`, so the last 8192 bytes (for most circuits: everything) are written when the writer is
  dropped, where errors are ignored: `Ok`, and nothing arrives (`C60_full_false`, `C60_lost`). The field `writer` is public, so a caller can flush it.
* **C61** (a difference between builds): calling a module whose outputs are its inputs panics in a debug build (C09) and works in a
  release build (`C61_differ`); a circuit with 2^64 gates, called modules included, says it has none (`C61_wraps`).
* **C62**: on circuits built by valid calls the evaluator can not only return `UnknownEvaledBit` (C11) but also panic on a missing key
  (`C62_occurs`); a gate can be made its own operand, and then evaluation is endless (`C62_endless`).
* **C63**: gate lines may list too many operands and output wires; the surplus is ignored without a message. Too few, more outputs
  than wires, and outputs without a value make the reader panic instead of returning an error. In a release build a text with more
  outputs than wires is accepted and gives a circuit without outputs (`C63_silent`), and 2^64 + 1 outputs are read as one (`C63_wraps_occurs`).
* **C64**: the writer accepts a module call with too few arguments without a message: the inputs without an argument get wires that
  nothing computes, and the reader rejects the file (`C64_few`). A call with too many arguments ends with `UnknownInput`, an id never
  issued with `UnknownGate`, a cycle does not end (`C64_occurs`).
* **C65**: the sizes of the circuits as functions of the width. Less and not-less differ by one gate, but `less_or_eq` and `larger`
  contain a separate equality test, so they cost `3n + 1` gates more than `less` (`C65_compare`). A field multiplication contains ten
  integer multiplications (`C65_field`), of which eight are in the two reductions.
* **C66**: the evaluator may compute a gate again for a later output after evicting it (`C66_once_false`). Under the condition of C11
  each needed gate is computed exactly once, and the logic gates computed are as many as the lines written; in general a gate is
  computed at most once per output (`C66_per_output`). Module calls are evaluated one by one, so the time is that of the inlined
  circuit, which can be exponential in the depth of nested modules.
* **C67**: the field test passes for every choice although every product is wrong: it only compares products with each other
  (`C67_blind`). The test `less` would fail at width 1 (`C67_narrow_false`).
* **C68**: as C32, programs that mix integers, bit strings and single gates compute what they say only if outputs are declared in the
  order in which their gates were made (`C68_order_needed`, `C68_mux_order_needed`), or if they are copied first, by operations of the
  library (`C32_repaired`, `C68_repaired`, `C76_repaired`). The obvious program for the maximum returns
  the smaller number when the difference overflows (`C68_max_false`, a consequence of C29); the absolute value is always right (`C68_abs`).
* **C71**: the tests of the bundled circuits write `[rng.gen(); 64]`, which draws one bit and repeats it: each operand is 0 or
  2^64 - 1. The tests of the adder and of the multiplier are the same (`Tests.exchange`), so that each would accept the other's
  circuit; the multiplier's looks at the upper half only. `aes128` passes key and message in the wrong order
  (`C71_aes_exchanged`), which it does not notice because it checks no result.
* **C72**: in the Bristol Fashion format the operand of an EQ line is a constant; the code takes it for a wire number, as in EQW. A
  constant becomes one of the first two inputs (`C72_false`, `C72_eq_partial`), or the file is rejected (`C72_rejected_false`). The
  bundled files contain no EQ lines.
* **C74**: gate ids are checked by `output` only. A gate can be its own operand, and then evaluation recurses for ever (`C74_loop`).
  The operators on integers do not check that both operands belong to the same circuit: `x + y` with `y` from another circuit
  becomes `x + x` or a circular circuit (`C74_ignored`, `C74_mixed_false`; `C74_ignored_bits` and `C74_ignored_fp` for the other types).
* **C76**: programs over field elements compute modulo p only without multiplication (`C76_false_mul`), and only up to the
  representative: zero may come out as p, and `==` then says that it is not zero (`C76_false_zero`).
* **C77**: functions whose results are declared in an order other than that of computation cannot be evaluated
  (`C77_order_needed`), and a call of a function with more results than wires panics (`C77_room_needed`, `C77_no_room`).
  Returning copies made with `identity` avoids both (`C83_repaired`).

## 6. Proof plan per property

* C01–C09: an inductive type `Op` of API calls with arbitrary arguments; `run` over a list of calls; one invariant
  (`WF`) over every reachable world by induction; the properties are corollaries or step lemmas.
* C10: `Val w r ins g b`, an inductive truth-table semantics (spec). Loop invariant: every cached bit is a `Val`.
* C11: well-built circuits (inductive predicate). Invariant relating remaining counts, evaluated gates and
  operand occurrences shows no needed value is evicted. The full claim is false of the code (a gate that is both
  an output and consumed may have been evicted when it is read as output; an evicted *input* is never recomputed):
  a concrete witness is proved and the positive theorem is `_partial`.
* C12, C13, C14, C15: direct from the evaluator model, fuel monotonicity and `Val`.
* C52: two runs are related by "same control flow"; a counting invariant (reads done so far per gate) gives the converse of C11.
* C53: a relation between checked and unbounded method bodies, compositional over the statements; induction over calls.
* C70: the writer's wire numbers are positions in a depth-first listing (`Visit`); a listing that turns the circuit into itself is the
  identity (downward induction on the gate number); `dependence_map` is determined by the gates (`Tracks`).
* C73: a gate is sound if nothing below it is circular (accessibility); evaluation only stores bits of sound gates; a sound gate needs
  bounded depth; in a finite heap what is not circular is sound.
* C72: two executions of the same lines agree as long as wires 0 and 1 carry 0 and 1; then C16.
* C71: from C44, C46, C48, C51 and C41, C43; every vector of 64 bits is the bits of a number, every vector of 128 bits the bits of
  16 bytes.
* C69: a simulation between heaps in which a circuit and its copy change places.
* C54: an invariant on counters over all calls; evaluation reads only what `==` compares and the called modules.
* C55: the run of a new reader is followed step by step by that of a reader that knows more wires. The exact verdicts are those of
  C63 with the known wires as further inputs; an output wire may also have a gate that is not in the circuit.
* C76: as C68, one statement at a time; the words stand for numbers modulo p (`Rep`: at most p and congruent), which sums and
  differences keep.
* C77: one line at a time as C68; the invariant is that every registered module plays its function in every later heap
  (`Plays`, `Lib`), and one function at a time over the library.
* C83: the repaired program meets the hypotheses of C77 and means the same (`Proofs/Guard`); its outputs are negations made last and in
  order, so C22's round trip applies whenever the reader accepts the text. If every line is used, every gate is needed and the gate
  counter is exact, also in called circuits (`Full` in `Proofs/Thrift`), so the reader accepts it.
  A line nobody uses leaves a gate that no output reaches (`Apart` in `Proofs/Unused`), so fewer lines are written than are counted, here and in
  all circuits that call this one (`Lossy` in `Proofs/Lossy`), and the reader refuses the text.
* C81: the circuits without calls with the rules for building of `Proofs/Builder`, the circuit with a call by computing the heap.
* C82: which statements spoil a circuit (`Spec/ReadBack`) and that this is kept by all later calls (`Spoiled` in `Proofs/Spoil`); the unread
  gate of the adder is followed through its builder (`Proofs/Waste`); the circuits of the bitwise operations are computed gate by gate
  (`Proofs/Rows`, `Proofs/Select` for selection) and meet the conditions of C22's round trip, which allows all outputs of one call (`Spec/LastOutputs`).
  For programs of them (`Proofs/Neat`): every new gate is reached from the value of its statement, and gates use only the values the statement
  names, so usefulness of statements (`Leads`) and of gates (`Needed`) agree.
* C79: two runs of the evaluator with a log, related step by step (`Proofs/Log`); C80: an invariant between the state of the innermost
  evaluation and the replayed log (`Mem` in `Proofs/Memory`), with the frames of the callers untouched; the family is in `Proofs/Storeys`.
* C78: the builder logic records that only valid calls are made (`Bld.valid`, `After.valid`), so C19 applies to compiled circuits;
  the truth tables of their outputs need no order.
* C75: the lemmas of C16 hold for any map the reader starts with; values of old gates are kept when inputs are added (C18).
* C56: the object model is related to the functions step by step; the run of a new writer is followed by that of a used writer under
  a renaming of wires (and, for later use, of gates).
* C57: the writer gives wires one to one and its lines are the gates with operands replaced by wires; the reader rebuilds exactly these
  gates; the simulation of C56 works for any renaming of gates, so renumbered circuits are written alike.
* C58: ids decrease along operands and no circuit calls itself, so a chain of requests visits each gate at most once.
* C59: decoder against encoder by arithmetic; no byte of another character is a line break; the reader over lines is the reader over
  texts with `?` on each line.
* C60: `BufWriter::write_all` keeps "arrived ++ waiting = given" or delivers a prefix; the writer over the buffer follows the writer
  over a perfect output step by step.
* C61: a release heap is compared with a heap of the unbounded model whose `num_wire` is padded so that it never underflows; the maps
  agree as long as no id reaches 2^64 - 1, and evaluation reads only the maps.
* C62: invariant of the evaluator's maps (a bit is stored iff a counter is; counter 0 only for gates without readers); every failing
  step is then traced to the gate that causes it.
* C63: `Spec/Verdict` names the parts of a text; each of the three kinds is followed through the reader, and case analysis on the text
  shows that there is no fourth kind. The readers with 64-bit sums agree with it up to the final subtraction.
* C64: `Spec/WriteFailure` defines `Writable` (a finite tree of gates and calls) and the reasons `Unwritable`; one induction over the
  writer (`WrE.step` in `Proofs/BrWriteErrors`), parametrised by the gates that may be written and the errors that may occur, gives both
  directions of `C64_iff` and the reasons; an induction over the evaluator shows that stored bits belong to writable gates.
* C65: `Spends` (`Proofs/Cost`), a Hoare logic for builder programs that counts gates, constants, inputs and outputs; `Sized` for programs
  that make a module circuit; `made_spends` carries the sizes to later heaps.
* C66: the evaluator in a monad with a clock, equal to the evaluator by erasure; triples with separate conditions for
  success and failure (`Proofs/Ticks`); the invariant of C11 extended by "the time passed is the weight of what is done"
  (`Proofs/TicksB`), summed over outputs and module calls (`Proofs/TicksC`).
* C67: the tests are programs over the API. `test_ok` opens a circuit with any configuration (as in C32), runs a body by the rules of
  the builder for all input vectors at once, and evaluates by C11.
* C68: the rules of the builder for each statement (`cmd_ok` in `Proofs/Mixed`); for each value the gates it consists of are tracked
  (`Base`: they do not need one another, and lie between two ids), so that ordered outputs are readable; `test_at` of C67 concludes.
* C16–C18: Bristol semantics as a spec (`execLines`), reader proved to simulate it; error branches by computation
  over arbitrary remaining text; monotonicity of all reader steps.
* C19–C21: simulation between writer and `Val` with an environment of executed lines.
* C22: full claim false (constants are counted twice in the header; outputs are only the last wires for some
  circuits; dead gates are counted). Witnesses + general negative theorem + `_partial` round trip.
* C23: decimal printing/parsing round trip by induction.
* C24–C34: builders run symbolically in an arbitrary world (loop invariants over the width), giving for each module a
  semantic function; arithmetic lemmas relate bit lists to numbers; then evaluated by C10/C11.
* C29: full claim false (overflow of the difference); witness + theorem under "difference fits" + exact
  characterisation.
* C35: false for a+b=p (result p, not 0): witness + `_partial`. C37: false (r2 = R*R mod R = 0, so every product is
  0): general theorem that the product is always 0. C38: false (sign of the second summand): exact
  characterisation.
* C39–C43: pure functions, induction.
* C44–C46: the bundled text is parsed by the model inside the kernel; a verified checker cuts the circuit at carry
  wires and checks every slice over all assignments; induction over the 64 positions gives the arithmetic claim.
* C48–C50: the kernel scans all lines (well-formed, every wire written once and before it is read, outputs not read). A
  certificate names the lines of every adder, subtractor or multiplexer cell; a verified checker evaluates the truth table of
  each cell, so that the circuit is a sequence of rows; induction over the rows gives the arithmetic claim.
* C51: sums (exclusive or) of variables are numbers, one bit per variable. Between two rounds of AES the variables are the bits of a
  round key and the outputs of the AND gates of the round; the checker computes the sums of all wires between the rounds and
  compares them with the symbolic result of `ShiftRows`, `MixColumns`, `AddRoundKey` and the key schedule. The lines inside a substitution
  box are checked with truth tables over its eight input bits. Soundness is proved for every assignment of the inputs; the
  certificate only says which lines belong to which box or round.

## Wrong programs (`seeded/LOG.jsonl`)

Each line is one edit of the model. `failed` lists the theorems whose proofs no longer build; a proof can also break although its
statement is still true. `refuted_on_cases` lists the theorems for which a concrete case was computed that is false with the edit.
`checked` lists the files of theorems that were rebuilt; the theorems about the large bundled circuits (C48 to C51) were not. Where `failed` is `null` the
proofs were not rebuilt and only the cases were computed; with no refuted case such a line shows nothing. A line gives the last run; the note says if
an earlier run had another result. Some edits are repairs: they make a `_false` theorem fail.
