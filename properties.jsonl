{"id": "C01", "title": "Gate ids are fresh and gate definitions are permanent", "statement": "Every gate-creating call (input, constant, not, xor, and, or, equivalent, identity, module) on a circuit returns ids that this circuit never returned before, and get_gate of an id that was ever returned keeps answering the same gate after any further calls on this or any other circuit.", "quantifier": "every history of API calls on any number of circuits and storages, with arbitrary (also bogus) gate-id arguments; for a circuit made by clone, the calls its original had received before count as its own", "why_tests_cant": "A test replays one short history; freshness and permanence are claims about all histories.", "anchors": ["src/bool_circuit.rs::add_gate", "src/bool_circuit.rs::get_gate", "src/bool_circuit.rs::NXAOBoolCircuit"]}
{"id": "C02", "title": "Input and output wires are numbered consecutively in call order", "statement": "The k-th successful input() call is what input_to_gate_id(k) returns, the k-th successful output(g) call is what output_to_gate_id(k) returns (that very g), input_len/output_len count those calls, and any other wire id is answered with UnknownInput/UnknownOutput.", "quantifier": "every history of API calls with arbitrary arguments, every wire id; for a circuit made by clone, the calls its original had received before count as its own", "why_tests_cant": "Needs all interleavings of inputs, outputs and gate creation.", "anchors": ["src/bool_circuit.rs::input", "src/bool_circuit.rs::output", "src/bool_circuit.rs::input_to_gate_id", "src/bool_circuit.rs::output_to_gate_id"]}
{"id": "C03", "title": "output() accepts exactly existing gates and is atomic on error", "statement": "output(g) succeeds iff g is the id of a gate this circuit has created (every id it returned, and the inner gate of each equivalent/identity call); otherwise it returns UnknownGate(g) and the circuit is left exactly as it was.", "quantifier": "every reachable circuit and every gate id; for a circuit made by clone, the calls its original had received before count as its own", "why_tests_cant": "The rejecting branch must be checked for every id and every state.", "anchors": ["src/bool_circuit.rs::output"]}
{"id": "C04", "title": "Gate, wire and constant counters are exact", "statement": "num_gate is the number of NOT/XOR/AND/OR gates created, num_const the number of constants, num_wire the number of gates of every kind including inputs and constants, where each module call contributes the counters of the called module as they were when it was called (num_wire: minus its inputs).", "quantifier": "every history of API calls, with and without module calls; for a circuit made by clone, the calls its original had received before count as its own", "why_tests_cant": "The counters are written into Bristol headers; exactness is an invariant over histories, not a point check.", "anchors": ["src/bool_circuit.rs::num_gate", "src/bool_circuit.rs::num_wire", "src/bool_circuit.rs::num_const", "src/bool_circuit.rs::module"]}
{"id": "C05", "title": "get_depended_gates lists each consumer once per operand occurrence", "statement": "For every gate x, get_depended_gates(x) contains a gate g exactly as many times as x occurs among g's operands (for a module call: once per occurrence for each output gate), and nothing else; the list is in the order in which the gates were created.", "quantifier": "every history of API calls with arbitrary arguments, every pair of gates", "why_tests_cant": "The evaluator's cache eviction is driven by these counts; an off-by-one for one shape of history makes evaluation fail.", "anchors": ["src/bool_circuit.rs::add_dependence", "src/bool_circuit.rs::get_depended_gates", "src/bool_circuit.rs::module"]}
{"id": "C06", "title": "get_const_gates lists exactly the constants of the circuit in creation order", "statement": "get_const_gates returns exactly the ids returned by constant() on this circuit, in increasing order and without repetition, and each of them is a Const gate with the requested value.", "quantifier": "every history of API calls; for a circuit made by clone, the calls its original had received before count as its own", "why_tests_cant": "Invariant over histories.", "anchors": ["src/bool_circuit.rs::constant", "src/bool_circuit.rs::get_const_gates"]}
{"id": "C07", "title": "Module registration is append-only and sub-circuits share their parent's module table", "statement": "register_module/sub_circuit return consecutive ids; get_module(id) keeps returning the very circuit registered under id; unknown ids give UnknownModule; a sub_circuit starts empty, is registered, and sees the same modules as its parent at all times.", "quantifier": "every history of registrations, through circuits or on the storage itself, interleaved with other calls", "why_tests_cant": "Aliasing through shared references is only visible over histories.", "anchors": ["src/bool_circuit.rs::ModuleStorage", "src/bool_circuit.rs::register_module", "src/bool_circuit.rs::sub_circuit", "src/bool_circuit.rs::get_module"]}
{"id": "C08", "title": "Operations on one circuit do not affect other circuits", "statement": "An API call on one circuit leaves every other circuit (its gates, inputs, outputs, dependents, counters) unchanged.", "quantifier": "every world of circuits, every call", "why_tests_cant": "Circuits are shared through Rc<RefCell>; non-interference is a property of all heaps.", "anchors": ["src/bool_circuit.rs::BoolCircuitRef", "src/bool_circuit.rs::module"]}
{"id": "C09", "title": "module() returns the called circuit's outputs in order", "statement": "A call module(mid, ids) that returns gives exactly output_len fresh consecutive gate ids; the i-th one is a Module gate with out_index i over exactly ids. It returns exactly if mid is registered, the called circuit is another one and its num_wire is not below input_len + output_len: an unregistered mid gives UnknownModule and changes nothing, a circuit calling itself panics, and the count of inner gates panics with underflow.", "quantifier": "every world, module id and argument list", "why_tests_cant": "Depends on arbitrary callee sizes and states.", "anchors": ["src/bool_circuit.rs::module"]}
{"id": "C10", "title": "The evaluator never returns a wrong bit", "statement": "Whenever eval_output(inputs) returns Ok(bits), bits has exactly output_len entries and the i-th one is the Boolean value of the i-th output gate under the gates' truth tables, with module calls meaning the called circuit's outputs on the argument values.", "quantifier": "every history of API calls (arbitrary arguments, shared sub-expressions, nested modules), every input vector", "why_tests_cant": "The evaluator caches and evicts values by reference counts in a depth-first order; wrong-value bugs appear only for particular sharing patterns.", "anchors": ["src/evaluator.rs::eval_output", "src/evaluator.rs::eval_single_output", "src/evaluator.rs::eval_single_gate"]}
{"id": "C11", "title": "The evaluator succeeds on every well-built circuit", "statement": "For a circuit built with valid gate ids, from modules called with the right number of arguments and not changed after being called, eval_output on an input vector of the right length returns Ok.", "quantifier": "every such circuit (any size, any nesting depth), every input vector of the right length", "why_tests_cant": "Success depends on eviction never removing a value that is needed later, for all graph shapes.", "anchors": ["src/evaluator.rs::eval_single_gate", "src/evaluator.rs::eval_output"]}
{"id": "C12", "title": "An input vector of the wrong length is never evaluated", "statement": "eval_output panics (assertion) for every input vector whose length differs from input_len, and never returns Ok.", "quantifier": "every circuit and every wrong length", "why_tests_cant": "Must hold for all lengths.", "anchors": ["src/evaluator.rs::eval_output"]}
{"id": "C13", "title": "Evaluation does not depend on available stack depth once it succeeds", "statement": "If evaluation succeeds within some recursion depth it returns the same bits for every larger depth, and for well-built circuits a depth bound that depends only on the circuit (not on the inputs) always suffices.", "quantifier": "every circuit, input and depth", "why_tests_cant": "A test uses one stack size.", "anchors": ["src/evaluator.rs::eval_single_gate"]}
{"id": "C14", "title": "A module call is transparent", "statement": "Evaluating a circuit that calls a module gives the same result as evaluating the called circuit on the argument bits and using its outputs: the value of the i-th gate returned by module() is the i-th bit of eval_output of the callee.", "quantifier": "every well-built circuit and callee, every argument vector", "why_tests_cant": "Quantifies over all callees.", "anchors": ["src/bool_circuit.rs::module", "src/evaluator.rs::eval_single_gate"]}
{"id": "C15", "title": "equivalent and identity compute XNOR and the identity", "statement": "equivalent(a,b) has value true iff a and b have the same value; identity(a) has a's value.", "quantifier": "every circuit, gates and inputs", "why_tests_cant": "Composite gates must be right in every surrounding circuit.", "anchors": ["src/bool_circuit.rs::equivalent", "src/bool_circuit.rs::identity"]}
{"id": "C16", "title": "Reading a Bristol file builds a circuit that computes the file's function", "statement": "For every syntactically valid Bristol text whose gates (XOR, AND, OR, INV, EQW, and EQ read as a wire copy) use previously defined wires, read succeeds, the circuit gains the declared inputs and outputs, and the i-th output has the value that wire num_wire-#outputs+i has when the gate lines are executed in order on the inputs.", "quantifier": "every valid text (any number of wires and gates), every input vector", "why_tests_cant": "Unbounded family of files.", "anchors": ["src/bristol_converter.rs::BristolReader::read"]}
{"id": "C17", "title": "Malformed Bristol texts are rejected with the documented error", "statement": "A missing header line gives NotFoundLine(n); a missing token LineSplitError; a non-numeric or out-of-range number ParseIntError; an operand wire that was not defined earlier UnknownWire; an unknown operation NotSupportedGate.", "quantifier": "every text of each malformed shape", "why_tests_cant": "Tests sample a few malformed files.", "anchors": ["src/bristol_converter.rs::BristolReader::read"]}
{"id": "C18", "title": "Reading only extends the target circuit", "statement": "read into a circuit that already has content keeps every existing gate, input and output, and does so also when read fails half-way.", "quantifier": "every target circuit and every text", "why_tests_cant": "All texts, including failing ones.", "anchors": ["src/bristol_converter.rs::BristolReader::read"]}
{"id": "C19", "title": "The written gate list computes the circuit", "statement": "When the gate lines written for a well-built circuit are executed in order on the circuit's inputs followed by the returned constant values, the wire assigned to every written gate, in particular to every output gate, carries that gate's value; module calls are inlined correctly at any depth.", "quantifier": "every well-built circuit with modules and constants, every input vector", "why_tests_cant": "Unbounded circuits, sharing and nesting.", "anchors": ["src/bristol_converter.rs::BristolNXAOWriter::write", "src/bristol_converter.rs::write_single_gate", "src/bristol_converter.rs::write_all_gates"]}
{"id": "C20", "title": "Written files define every wire once and before its use", "statement": "In the written gate list every line is an INV, XOR, AND or OR line with the right number of operands, every gate writes a new consecutive wire number above all inputs and constants, and reads only inputs, constants or wires written by earlier lines.", "quantifier": "every well-built circuit", "why_tests_cant": "For all circuits.", "anchors": ["src/bristol_converter.rs::update_wire", "src/bristol_converter.rs::write_single_gate"]}
{"id": "C21", "title": "write succeeds on every well-built circuit and reports the constants", "statement": "For a well-built circuit and num_first_input at most input_len+num_const, write returns Ok and the returned list has one entry per constant gate of the circuit and of every written module call; for more first inputs it panics.", "quantifier": "every well-built circuit, every num_first_input", "why_tests_cant": "For all circuits.", "anchors": ["src/bristol_converter.rs::BristolNXAOWriter::write"]}
{"id": "C22", "title": "Write-then-read gives an equivalent circuit", "statement": "Writing a circuit and reading the text back into an empty circuit succeeds and gives a circuit with the same number of inputs and outputs that computes the same function.", "quantifier": "every well-built circuit", "why_tests_cant": "Depends on header counts and on outputs being the last wires, for every circuit shape.", "anchors": ["src/bristol_converter.rs::BristolNXAOWriter::write", "src/bristol_converter.rs::BristolReader::read"]}
{"id": "C23", "title": "Numbers written by the writer are read back unchanged", "statement": "Every wire number and count below 2^64 printed in decimal is parsed back to itself; the parser rejects everything that is not an optional plus sign followed by digits denoting a number below 2^64.", "quantifier": "every natural number, every token", "why_tests_cant": "Unbounded numbers.", "anchors": ["src/bristol_converter.rs::update_wire", "src/bristol_converter.rs::BristolReader::read"]}
{"id": "C24", "title": "N-bit addition is addition modulo 2^N", "statement": "The gates returned by adding two N-bit values have the little-endian value (a+b) mod 2^N.", "quantifier": "every width N>=1, all operand values", "why_tests_cant": "2^(2N) operand pairs for every N.", "anchors": ["src/circuits/arithmetic/int.rs::build_add_circuit", "src/circuits/arithmetic/int.rs::Add for AllocInt"]}
{"id": "C25", "title": "N-bit subtraction and negation are modulo 2^N", "statement": "a-b has value (a-b) mod 2^N and -a has value (2^N-a) mod 2^N.", "quantifier": "every width N>=1, all operand values", "why_tests_cant": "2^(2N) operand pairs for every N.", "anchors": ["src/circuits/arithmetic/int.rs::build_sub_circuit", "src/circuits/arithmetic/int.rs::Sub for AllocInt", "src/circuits/arithmetic/int.rs::Neg for AllocInt"]}
{"id": "C26", "title": "N-bit multiplication is multiplication modulo 2^N", "statement": "a*b has value (a*b) mod 2^N.", "quantifier": "every width N>=1, all operand values", "why_tests_cant": "2^(2N) operand pairs for every N.", "anchors": ["src/circuits/arithmetic/int.rs::build_mul_circuit", "src/circuits/arithmetic/int.rs::Mul for AllocInt"]}
{"id": "C27", "title": "Extended multiplication gives the full product", "statement": "The module built by build_mul_extend_circuit over a 2n-bit adder outputs the exact 2n-bit product a*b.", "quantifier": "every width n>=1, all operand values", "why_tests_cant": "2^(2n) operand pairs for every n.", "anchors": ["src/circuits/arithmetic/int.rs::build_mul_extend_circuit"]}
{"id": "C28", "title": "Equality and inequality are exact", "statement": "eq is true iff the two values are equal, neq iff they differ, for AllocInt and AllocBits.", "quantifier": "every width, all operand values", "why_tests_cant": "2^(2N) operand pairs for every N.", "anchors": ["src/circuits/logic/mod.rs::build_eq_circuit", "src/circuits/logic/mod.rs::build_neq_circuit"]}
{"id": "C29", "title": "Order comparisons are right for signed values", "statement": "less, less_or_eq, larger, larger_or_eq decide <, <=, >, >= of the two's-complement values of the operands.", "quantifier": "every width N>=1, all operand values", "why_tests_cant": "2^(2N) operand pairs for every N.", "anchors": ["src/circuits/arithmetic/int.rs::build_less_circuit", "src/circuits/arithmetic/int.rs::build_less_or_eq_circuit", "src/circuits/arithmetic/int.rs::build_larger_circuit", "src/circuits/arithmetic/int.rs::build_larger_or_eq_circuit"]}
{"id": "C30", "title": "Shifts are multiplication and floor division by powers of two", "statement": "shift_left(k) has value a*2^k mod 2^N and N bits; shift_right(k) is the arithmetic shift (floor of the signed value by 2^k).", "quantifier": "every width, every shift amount up to N, all operand values", "why_tests_cant": "All widths and amounts.", "anchors": ["src/circuits/arithmetic/int.rs::shift_left", "src/circuits/arithmetic/int.rs::shift_right"]}
{"id": "C31", "title": "Constants denote the requested number", "statement": "from_biguint(v) has value v when v's byte length times 8 is at most N and panics otherwise; zero and one have values 0 and 1; from_gate_ids zero-extends and panics when given more than N gates.", "quantifier": "every width and every number", "why_tests_cant": "All numbers.", "anchors": ["src/circuits/arithmetic/int.rs::from_biguint", "src/circuits/arithmetic/int.rs::zero", "src/circuits/arithmetic/int.rs::one", "src/circuits/arithmetic/int.rs::from_gate_ids"]}
{"id": "C32", "title": "Any arithmetic program evaluates like machine arithmetic", "statement": "For every straight-line program over AllocInt (inputs, constants, +, -, *, negation, shifts, sharing of intermediate values), evaluating the built circuit returns the result of running the program with N-bit wrap-around arithmetic.", "quantifier": "every program, every width N>=2, all inputs", "why_tests_cant": "Unbounded programs.", "anchors": ["src/circuits/arithmetic/int.rs::AllocInt", "src/evaluator.rs::eval_output"]}
{"id": "C33", "title": "Bit-vector operations are bitwise", "statement": "not, and, or, xor on AllocBits act position by position.", "quantifier": "every width, all operands", "why_tests_cant": "All widths and values.", "anchors": ["src/circuits/logic/mod.rs::build_not_circuit", "src/circuits/logic/mod.rs::build_and_circuit", "src/circuits/logic/mod.rs::build_or_circuit", "src/circuits/logic/mod.rs::build_xor_circuit"]}
{"id": "C34", "title": "mux selects", "statement": "self.mux(t, s) has t's bits when s is true and self's bits when s is false.", "quantifier": "every width, all operands", "why_tests_cant": "All widths and values.", "anchors": ["src/circuits/logic/mod.rs::mux"]}
{"id": "C35", "title": "Field addition is addition modulo p", "statement": "For operands below p, a+b is the canonical representative of (a+b) mod p.", "quantifier": "every modulus p and width N with room for 2p, all operands", "why_tests_cant": "All moduli and operands.", "anchors": ["src/circuits/finite_field/mod.rs::AllocFpConfig::build_add_circuit"]}
{"id": "C36", "title": "Field subtraction and negation are modulo p", "statement": "For operands below p, a-b and -a are the canonical representatives modulo p.", "quantifier": "every modulus p and width N with room for 2p, all operands", "why_tests_cant": "All moduli and operands.", "anchors": ["src/circuits/finite_field/mod.rs::AllocFpConfig::build_sub_circuit", "src/circuits/finite_field/mod.rs::Neg for AllocFp"]}
{"id": "C37", "title": "Field multiplication is multiplication modulo p", "statement": "For operands below p, a*b is the canonical representative of a*b mod p.", "quantifier": "every odd modulus p, r_exp and N with room, all operands", "why_tests_cant": "All moduli and operands.", "anchors": ["src/circuits/finite_field/mod.rs::AllocFpConfig::build_mul_circuit", "src/circuits/finite_field/mod.rs::AllocFpConfig::new"]}
{"id": "C38", "title": "Montgomery reduction divides by R modulo p", "statement": "The reduction module maps T to the canonical representative of T*R^-1 mod p.", "quantifier": "every odd p, R=2^r_exp, all T below p*R", "why_tests_cant": "All values.", "anchors": ["src/circuits/finite_field/mod.rs::AllocFpConfig::build_mont_red"]}
{"id": "C39", "title": "The Montgomery constant is -p^-1 mod R", "statement": "The configuration's p_minus_inv satisfies p*p_minus_inv = -1 (mod 2^r_exp) and lies in (0, 2^r_exp].", "quantifier": "every odd p and every r_exp>=1", "why_tests_cant": "All moduli.", "anchors": ["src/circuits/finite_field/mod.rs::AllocFpConfig::mod_inv", "src/utils.rs::ext_gcd"]}
{"id": "C40", "title": "ext_gcd returns Bezout coefficients of the gcd", "statement": "ext_gcd(a,b)=(x,y,d) terminates with a*x+b*y=d, d divides both and |d|=gcd(a,b); for nonnegative arguments d is the nonnegative gcd.", "quantifier": "all integers a, b (any sign)", "why_tests_cant": "Infinitely many inputs and termination.", "anchors": ["src/utils.rs::ext_gcd"]}
{"id": "C41", "title": "Bit/byte conversions are mutually inverse", "statement": "bits2bytes_le(bytes2bits_le(x))=x, bits2bytes_be(bytes2bits_be(x))=x; bytes2bits_*(bits2bytes_*(b))=b when 8 divides the length; otherwise bits2bytes_* panics; lengths are 8:1.", "quantifier": "all byte strings and bit strings", "why_tests_cant": "All lengths and values.", "anchors": ["src/utils.rs::bits2bytes_le", "src/utils.rs::bytes2bits_le", "src/utils.rs::bits2bytes_be", "src/utils.rs::bytes2bits_be"]}
{"id": "C42", "title": "Little-endian bits carry positional value", "statement": "Bit 8*i+j of bytes2bits_le(x) is bit j of byte i, so its value is sum of byte_i*256^i; bytes2bits_be lists each byte from its most significant bit. Conversely bits2bytes_le and bits2bytes_be return bytes with the value of the bits.", "quantifier": "all byte strings and bit strings", "why_tests_cant": "All lengths and values.", "anchors": ["src/utils.rs::bytes2bits_le", "src/utils.rs::bytes2bits_be", "src/utils.rs::bits2bytes_le", "src/utils.rs::bits2bytes_be"]}
{"id": "C43", "title": "Hex conversion round-trips", "statement": "hex2bytes(bytes2hex(x))=x; bytes2hex yields lower-case digits, two per byte; hex2bytes rejects odd lengths and non-hex characters and accepts either case.", "quantifier": "all byte strings, all strings", "why_tests_cant": "All lengths and values.", "anchors": ["src/utils.rs::bytes2hex", "src/utils.rs::hex2bytes"]}
{"id": "C44", "title": "The bundled 64-bit adder adds", "statement": "build_adder64 followed by evaluation returns (a+b) mod 2^64 for 64+64 little-endian input bits.", "quantifier": "all 2^128 operand pairs", "why_tests_cant": "2^128 cases.", "anchors": ["src/circuits/arithmetic/adder64.txt", "src/circuits/arithmetic/mod.rs::build_adder64"]}
{"id": "C45", "title": "The bundled 64-bit subtractor subtracts", "statement": "build_sub64 followed by evaluation returns (a-b) mod 2^64.", "quantifier": "all 2^128 operand pairs", "why_tests_cant": "2^128 cases.", "anchors": ["src/circuits/arithmetic/sub64.txt", "src/circuits/arithmetic/mod.rs::build_sub64"]}
{"id": "C46", "title": "The bundled 64-bit negation negates", "statement": "build_neg64 followed by evaluation returns (-a) mod 2^64.", "quantifier": "all 2^64 operands", "why_tests_cant": "2^64 cases.", "anchors": ["src/circuits/arithmetic/neg64.txt", "src/circuits/arithmetic/mod.rs::build_neg64"]}
{"id": "C47", "title": "New values are fresh inputs", "statement": "AllocInt::new and AllocBits::new add exactly N inputs to the circuit and return gates which, at any later time and after any further calls, carry the bits of the evaluator's input vector at those positions in order.", "quantifier": "every reachable heap, every later call sequence, all input vectors", "why_tests_cant": "Unbounded call sequences before and after.", "anchors": ["src/circuits/arithmetic/int.rs::AllocInt::new", "src/circuits/logic/mod.rs::AllocBits::new"]}
{"id": "C48", "title": "The bundled 64-bit multiplier multiplies", "statement": "build_mult2_64 followed by evaluation returns the 128-bit product of its operands: the first 64 outputs are the upper half, the other 64 the lower half. Built into a circuit with existing content, the new outputs have these values.", "quantifier": "all 2^128 operand pairs; every reachable heap", "why_tests_cant": "2^128 cases on a circuit of 28032 gates; a wrong carry deep in one row shows only for rare operands.", "anchors": ["src/circuits/arithmetic/mult2_64.txt", "src/circuits/arithmetic/mod.rs::build_mult2_64"]}
{"id": "C49", "title": "The bundled unsigned 64-bit divider divides", "statement": "build_divide_unsigned_64 followed by evaluation returns the quotient of its operands, rounded down; the quotient by zero is 2^64-1. Built into a circuit with existing content, the new outputs have these values.", "quantifier": "all 2^128 operand pairs; every reachable heap", "why_tests_cant": "2^128 cases on a circuit of 16952 gates.", "anchors": ["src/circuits/arithmetic/udivide64.txt", "src/circuits/arithmetic/mod.rs::build_divide_unsigned_64"]}
{"id": "C50", "title": "The bundled signed 64-bit divider divides", "statement": "build_divide_signed_64 followed by evaluation returns the quotient of its operands rounded towards zero (-2^63 / -1 wraps around); division by zero gives -1 for a nonnegative dividend, 2 for -2^63 and 1 for the other negative dividends. Built into a circuit with existing content, the new outputs have these values.", "quantifier": "all 2^128 operand pairs; every reachable heap", "why_tests_cant": "2^128 cases on a circuit of 29926 gates; the exceptional value at -2^63 / 0 is one point.", "anchors": ["src/circuits/arithmetic/divide64.txt", "src/circuits/arithmetic/mod.rs::build_divide_signed_64"]}
{"id": "C51", "title": "The bundled AES-128 circuit encrypts", "statement": "build_aes128 followed by evaluation on the bits of a 16-byte block and the bits of a 16-byte key (most significant bit of each byte first) returns the bits of the AES-128 encryption (FIPS 197) of the block under the key. Built into a circuit with existing content, the 128 new outputs have these values.", "quantifier": "all 2^256 pairs of block and key; every reachable heap", "why_tests_cant": "2^256 inputs on a circuit of 33616 gates; a wrong gate in one of the 200 substitution boxes can be visible for one byte value only.", "anchors": ["src/circuits/cryptography/AES-non-expanded.txt", "src/circuits/cryptography/mod.rs::build_aes128"]}
{"id": "C52", "title": "Whether an evaluation succeeds does not depend on the input bits", "statement": "For a circuit, two evaluations with the same recursion depth on input vectors of the same length either both succeed or fail with the same error. In particular, in a well-built circuit one successful evaluation implies that every input vector of that length evaluates successfully, to the bits of the truth-table semantics.", "quantifier": "every reachable heap, every circuit, all input vectors of equal length, every depth", "why_tests_cant": "It relates all 2^n input vectors; that a test passes on one vector says nothing about others unless this is proved.", "anchors": ["src/evaluator.rs"]}
{"id": "C53", "title": "64-bit counters", "statement": "With additions checked as in debug builds, a call does exactly what unbounded counting says if all resulting counters fit in 64 bits, and panics otherwise; histories whose counters fit have the same results and heap. The counters fit after every history, also if panics are caught and the program goes on. No counter overflows in fewer than 2^63 calls without module calls, nor in 62 calls of any kind. With module calls, 382 successful calls reach a state with all counters in range in which the next module call panics.", "quantifier": "every call, every heap whose counters fit, every history", "why_tests_cant": "The boundary lies at 2^64; sizes double per nesting level, so that an overflow needs a specific tower of 63 modules.", "anchors": ["src/bool_circuit.rs"]}
{"id": "C54", "title": "Circuits that compare equal behave equally", "statement": "If two circuits of a reachable heap compare equal with ==, they have the same counters (num_const included, which == does not look at), evaluate to the same result on every input and have the same truth tables. A clone is equal to its original and behaves like it. Supporting invariant: num_wire = input_len + num_const + num_gate. Of the ten fields that == compares, the gates, the outputs, num_wire and num_gate decide the others.", "quantifier": "every reachable heap, every pair of circuits, every input and recursion depth", "why_tests_cant": "It relates all pairs of circuits and all inputs; the counterexample needs two module storages giving one id to different modules of the same size.", "anchors": ["src/bool_circuit.rs::PartialEq for NXAOBoolCircuit", "src/bool_circuit.rs::NXAOBoolCircuit (derive Clone)"]}
{"id": "C55", "title": "A reader can be used again", "statement": "A BristolReader that has read other texts before (successfully or not, into any circuits) treats a text exactly as a new reader does: it accepts and rejects the same texts with the same errors and makes the same changes to the circuit.", "quantifier": "every heap, every circuit, every text, every state of the reader", "why_tests_cant": "It quantifies over all texts and everything the reader may have read before; the failing case needs a second text that uses a wire only the first one defined.", "anchors": ["src/bristol_converter.rs::BristolReader::read"]}
{"id": "C56", "title": "A writer can be used again", "statement": "A BristolNXAOWriter on which write was called before (successfully or not) writes, for the same circuit, the same text as a new writer, whatever map from gates to wires the caller passes; a failed call leaves only additional text behind.", "quantifier": "every heap, every circuit, every state of the writer, every earlier map", "why_tests_cant": "It quantifies over all circuits and all earlier uses of the writer; the failing cases need a second call on the same object, a call that fails inside a module, or a map that is passed twice.", "anchors": ["src/bristol_converter.rs::BristolNXAOWriter::write", "src/bristol_converter.rs::BristolNXAOWriter::write_single_gate"]}
{"id": "C57", "title": "Writing what was read back gives the same text", "statement": "For a circuit that can be written and read back (conditions of C22), the circuit read back is the original with its gates renumbered, and writing it again gives exactly the same text; circuits that differ only in the numbering of their gates are written alike.", "quantifier": "every heap, every such circuit, every width of the first input, every heap with an empty target circuit", "why_tests_cant": "It quantifies over all circuits and numberings; the text depends on the order in which a recursive traversal reaches the gates, and the counterexample needs a module with an unused output and a second round.", "anchors": ["src/bristol_converter.rs::BristolNXAOWriter::write", "src/bristol_converter.rs::BristolReader::read"]}
{"id": "C58", "title": "Explicit bound for the recursion depth", "statement": "Evaluating or writing a circuit built by valid calls never nests more recursive calls than there are gates in the circuit and the circuits it calls, each counted once; at that depth evaluation (of readable circuits) and writing succeed. The bound cannot be improved for the evaluator, and by at most two for the writer: a chain of negations needs a call stack as high as it is long.", "quantifier": "every heap built by valid calls, every circuit, every input vector, every writer state; every chain length for the lower bound", "why_tests_cant": "A test sees a stack overflow only for the circuits tried and the stack size at hand; the bound is over all circuits and all nestings of modules, and that it is attained is shown for every size.", "anchors": ["src/evaluator.rs::NXAOBoolEvaluator::eval_single_gate", "src/bristol_converter.rs::BristolNXAOWriter::write_single_gate"]}
{"id": "C59", "title": "Reading bytes: UTF-8 and I/O errors", "statement": "Reading the UTF-8 bytes of a text gives the result of reading the text. If a line cannot be read (I/O error, or bytes that are not UTF-8), the reader returns that error and ignores what follows, unless it stopped before; reading never succeeds past an unreadable line.", "quantifier": "every sequence of bytes and read errors, every reader state, every heap", "why_tests_cant": "Faults of the source can occur at any byte, and the invalid byte sequences are unboundedly many; tests feed whole valid files.", "anchors": ["src/bristol_converter.rs::BristolReader::read"]}
{"id": "C60", "title": "Writing to an output that may fail", "statement": "Whatever the output behind the BufWriter does (takes only part of the bytes, fails), a call of write either gives the result it gives over a perfect output and no byte is lost, changed or reordered, or it returns an I/O error and only an end of the text is lost: what has arrived and waits is what was there before, followed by a prefix of the text. What has arrived once the writer is dropped is in every case a prefix of the full output. If it returns Ok, the whole text has arrived once the writer is dropped.", "quantifier": "every behaviour of the output, every buffer capacity, every writer state, every circuit and heap", "why_tests_cant": "Tests write to memory or to a disk that does not fail; the failures can occur at any byte, and short writes cut the text at any place.", "anchors": ["src/bristol_converter.rs::BristolNXAOWriter::write", "src/bristol_converter.rs::BristolNXAOWriter::update_wire"]}
{"id": "C61", "title": "Release builds: wrap-around is harmless for evaluation", "statement": "In a release build, where additions and subtractions wrap around at 2^64, no API call panics on arithmetic; a history without arithmetic panic in a debug build behaves the same in a release build; num_wire stays inputs + constants + gates modulo 2^64; a call of a registered module other than the circuit itself always succeeds with one id per output; and as long as no circuit or storage has used the id 2^64 - 1, evaluation never returns a wrong bit, and succeeds on circuits built by valid calls whose outputs are readable, even if the statistics have wrapped.", "quantifier": "every history of API calls with arbitrary arguments, every heap it reaches, every input", "why_tests_cant": "The test profile keeps overflow checks, so tests never run wrapping arithmetic, and reaching 2^64 needs towers of modules.", "anchors": ["src/bool_circuit.rs::NXAOBoolCircuit::module", "src/bool_circuit.rs::NXAOBoolCircuit::add_gate", "src/bool_circuit.rs::register_module"]}
{"id": "C62", "title": "How evaluation can fail", "statement": "In every heap the API can produce, an evaluation with the right number of inputs fails only because: the call stack is exhausted; a gate uses an id never issued; a module is called with the wrong number of arguments; or a stored bit was dropped that is read again (an input, the left operand of a two-operand gate, an operand read twice by one gate, an argument of a module call), in the circuit or a called one. Read counters never underflow, indexes are never out of range, modules, inputs and outputs are always found. Well-built circuits fail only for the last reason. The same holds in release builds.", "quantifier": "every history of API calls with arbitrary arguments, every circuit of the heap, every input vector, every depth", "why_tests_cant": "Errors depend on the order in which shared gates are read across all outputs and called modules.", "anchors": ["src/evaluator.rs::eval_single_gate", "src/evaluator.rs::eval_single_output", "src/evaluator.rs::eval_output"]}
{"id": "C63", "title": "What the reader does with any text", "statement": "Every text is of exactly one of three kinds, whatever the target circuit: it is accepted as exactly one valid file and read with that meaning (surplus operands and output wires of a gate line are ignored); or it is rejected with the error that reports its first defect; or the reader panics, because a gate line has too few operands or no output wire, because there are more outputs than wires, or because an output wire has no value. In debug builds a sum of widths of 2^64 or more panics. In release builds the sum wraps, and a text with more outputs than wires is accepted without outputs.", "quantifier": "every text, every reachable heap and target circuit", "why_tests_cant": "Tests sample a few malformed files; the trichotomy is about all texts.", "anchors": ["src/bristol_converter.rs::BristolReader::read"]}
{"id": "C64", "title": "Which circuits can be written", "statement": "In every heap the API can produce, a circuit is written as a Bristol file, given enough call stack, exactly if the first group of inputs is not larger than the number of inputs and constants and everything its outputs are computed from exists, in the circuit and the circuits it calls, without cycles and without calls with more arguments than inputs. Otherwise writing ends with the assertion, with UnknownGate for an id never issued, with UnknownInput for the first argument in excess, or exhausts the call stack; no other error or panic occurs, whatever the state of the writer and the caller's map. A circuit that can be evaluated can be written.", "quantifier": "every history of API calls with arbitrary arguments, every circuit of the heap, every state of the writer, every map of the caller, every depth", "why_tests_cant": "The circuits that cannot be written are the malformed ones, of which tests contain none.", "anchors": ["src/bristol_converter.rs::BristolNXAOWriter::write", "src/bristol_converter.rs::write_all_gates", "src/bristol_converter.rs::write_single_gate"]}
{"id": "C65", "title": "How many gates the operations cost", "statement": "For every width n, a call of an integer operation adds exactly this many gates and constants to the circuit and changes no other circuit: addition 6n-3 gates; subtraction 13n-6 gates and n constants; negation n constants more; multiplication n(n+1)/2+n(6n-3) gates and n+n(n-1)/2 constants; full-width multiplication n^2+n(12n-3) gates and 2n+n^2 constants; eq 3n and 1, neq 3n+1 and 1, less 13n-4 and n+1, less_or_eq 16n-3 and n+2, larger 16n-2 and n+2, larger_or_eq 13n-3 and n+1; shift_left by k adds k constants, shift_right changes nothing. The bitwise operations add n gates, mux 3n+1. The field operations add the sums of their parts. In every circuit num_wire is the sum of the inputs, num_gate and num_const.", "quantifier": "every width, modulus and radix for which a configuration was made, every history before and after making it that leaves the module circuits alone, every pair of operands", "why_tests_cant": "A test measures one width; a wrong counter or a gate too many in one round of a loop shows only for some widths, and the counters of nested modules add up over several levels.", "anchors": ["src/circuits/arithmetic/int.rs", "src/circuits/logic/mod.rs", "src/circuits/finite_field/mod.rs", "src/bool_circuit.rs::num_gate", "src/bool_circuit.rs::num_const", "src/bool_circuit.rs::num_wire"]}
{"id": "C66", "title": "Evaluation computes each gate once", "statement": "Evaluating a circuit computes each constant, logic gate and module call that is needed for an output exactly once and nothing else, and evaluates the called circuit once per call; so the number of logic gates computed is the number of gate lines of the written circuit and at most num_gate, and does not depend on the input bits.", "quantifier": "every circuit of every reachable heap, every input vector, every recursion depth, every assignment of costs to gates", "why_tests_cant": "Repeated work does not change results; it shows only as time, and depends on sharing, on the order of the outputs and on when values are evicted.", "anchors": ["src/evaluator.rs::eval_output", "src/evaluator.rs::eval_single_output", "src/evaluator.rs::eval_single_gate"]}
{"id": "C67", "title": "The tests with random inputs pass whatever they draw", "statement": "Each unit test of AllocInt, AllocFp and AllocBits that draws random input bits passes for every choice of these bits and not only for the drawn ones: add_sub_mul_test returns [true], less and larger return [true, false], fp_add_sub_mul_test returns [true, true], not, and, or and xor return the bitwise operation of the inputs. The same holds at every other width from 2 on, and for every modulus of at most 2^(n-1) and every radix that fit the width n.", "quantifier": "every input vector, every width, every modulus and radix that fit, every heap the test is started in", "why_tests_cant": "The tests draw one of 2^768, 2^512, 2^256 or 2^24 input vectors per run and use one width.", "anchors": ["src/circuits/arithmetic/int.rs::add_sub_mul_test", "src/circuits/arithmetic/int.rs::less", "src/circuits/arithmetic/int.rs::larger", "src/circuits/finite_field/mod.rs::fp_add_sub_mul_test", "src/circuits/logic/mod.rs::not", "src/circuits/logic/mod.rs::and", "src/circuits/logic/mod.rs::or", "src/circuits/logic/mod.rs::xor"]}
{"id": "C68", "title": "Typed programs over integers, bit strings and bits compute what they say", "statement": "A well-typed straight-line program with AllocInt values (new, constants, sum, difference, product, negation, shifts, the six comparisons), AllocBits values (new, not, and, or, xor, equality, inequality, mux), single gates (input, constant, not, and, or, xor, equivalence, identity) and conversions between the three kinds, with constants that fit the width and shift amounts of at most the width, builds without error in every heap, and evaluating its circuit on any input bits returns the bits of the chosen values as computed on bit vectors and booleans, where an order comparison is the sign of the wrapped difference.", "quantifier": "every well-typed program of any length, every width from 1 on, every list of outputs, every input vector, every heap it is built in", "why_tests_cant": "The programs are unboundedly many; tests use single operations on one width.", "anchors": ["src/circuits/arithmetic/int.rs::AllocInt", "src/circuits/logic/mod.rs::AllocBits", "src/circuits/logic/mod.rs::AllocBits::mux", "src/bool_circuit.rs::BoolCircuitRef", "src/evaluator.rs::NXAOBoolEvaluator"]}
{"id": "C69", "title": "A clone is independent of its original and behaves like it", "statement": "Cloning a circuit makes a new circuit with the same contents. Later calls that are not made on the clone leave the clone as it is, and those that are not made on the original leave the original as it is. If both receive the same gate-creating and output calls, the calls return the same, success or error, and the two circuits are equal again, provided that no module call calls the circuit itself. Registering a module through a circuit is the same as registering it on the circuit's storage, returns the number of modules registered there so far, and makes the module known to all circuits on that storage.", "quantifier": "every reachable heap, every circuit, every sequence of later calls", "why_tests_cant": "Sharing through Rc shows only over histories: a clone shares the module storage but nothing else.", "anchors": ["src/bool_circuit.rs::NXAOBoolCircuit", "src/bool_circuit.rs::ModuleStorageRef", "src/bool_circuit.rs::register_module"]}
{"id": "C70", "title": "When a circuit that is written and read back compares equal to the original", "statement": "The circuit read back from a written file compares equal (==) to the original exactly if the original consists of inputs and logic gates, its inputs come first and in order, its outputs come last and in order, and the gates in between are numbered in the order of a depth-first traversal from the operands of the outputs. For a circuit without modules and constants, all of whose gates are needed and whose outputs are tidy (C57), what is read back survives a second round unchanged. The assertions of the tests in bristol_converter.rs hold.", "quantifier": "every well-built circuit whose header numbers fit in 64 bits, every width of the first input, every reachable heap it is read into", "why_tests_cant": "The four tests that compare with == use one-gate circuits, which are always in order; the condition concerns all circuits and all their numberings.", "anchors": ["src/bristol_converter.rs::BristolNXAOWriter::write", "src/bristol_converter.rs::BristolNXAOReader::read", "src/bristol_converter.rs::not_test", "src/bristol_converter.rs::module_1_test", "src/bool_circuit.rs::PartialEq for NXAOBoolCircuit"]}
{"id": "C71", "title": "The tests of the bundled circuits and conversions pass whatever they draw", "statement": "The tests bristol_adder64, bristol_mult2_64, bristol_neg64 and aes128 of the evaluator pass for all operands, not only for operands whose bits are all equal, which are the only ones they can draw; le_convert_test, be_convert_test and hex_test pass for all four bytes. The test aes128 computes the encryption of its key under its message.", "quantifier": "all operands of 64 or 128 bits, all bytes, every heap the test is started in", "why_tests_cant": "The tests draw one of 2 or 4 input vectors per run ([rng.gen(); 64] draws one bit and repeats it), or one of 2^32 byte strings.", "anchors": ["src/evaluator.rs::bristol_adder64", "src/evaluator.rs::bristol_neg64", "src/evaluator.rs::bristol_mult2_64", "src/evaluator.rs::aes128", "src/utils.rs::le_convert_test", "src/utils.rs::be_convert_test", "src/utils.rs::hex_test"]}
{"id": "C72", "title": "EQ lines assign constants", "statement": "Reading a valid file of the Bristol Fashion format, in which the operand of an EQ line is the constant 0 or 1, succeeds and builds a circuit that computes what the format says.", "quantifier": "every valid file, every text of it, every heap, all inputs", "why_tests_cant": "No file of the repository has an EQ line; files are unboundedly many.", "anchors": ["src/bristol_converter.rs::BristolReader::read"]}
{"id": "C73", "title": "Which calls fail, and which circuits can never be evaluated", "statement": "A call fails exactly in these cases and then changes nothing: output of an id that is not a gate of the circuit; module with an id the storage does not have, with the circuit itself, or with a circuit that has more inputs and outputs than wires. A circuit in which a gate needs itself, through operands or because circuits call each other, never evaluates to a result; and an evaluation that exhausts the stack whatever its size is of such a circuit.", "quantifier": "every heap the API can produce, every call, every circuit, all inputs, every stack depth", "why_tests_cant": "Sequences of calls and circuits are unboundedly many; a test cannot observe that no stack is large enough.", "anchors": ["src/bool_circuit.rs::NXAOBoolCircuit", "src/evaluator.rs::NXAOBoolEvaluator::eval_single_gate"]}
{"id": "C74", "title": "Ids and values that do not belong to a circuit are refused", "statement": "A call that is given a gate id the circuit has not issued, a number of module arguments that does not fit, or an operand that belongs to another circuit fails.", "quantifier": "every heap, every call", "why_tests_cant": "No test passes a foreign id; calls are unboundedly many.", "anchors": ["src/bool_circuit.rs::NXAOBoolCircuit", "src/circuits/arithmetic/int.rs::AllocInt"]}
{"id": "C75", "title": "A text may continue earlier texts", "statement": "A BristolReader that reads several texts into one circuit, one after the other, treats each as a continuation of those before it: a wire that an earlier text defined stands for the gate it was given there, unless the new text defines it again. If every text uses only wires defined by itself or by texts before it, all are accepted, the circuit gains the inputs and outputs of all of them in order, and the outputs carry the bits that executing all gate lines one after the other gives.", "quantifier": "every heap, every circuit that is not called as a module, any number of texts, all inputs, every state of the reader", "why_tests_cant": "No test uses a reader twice; texts and their number are unbounded.", "anchors": ["src/bristol_converter.rs::BristolReader::read"]}
{"id": "C76", "title": "Programs over field elements", "statement": "A program of AllocFp calls (new elements, constants, zero, one, +, -, *, negation, ==, != and gates on the results of comparisons, with values used any number of times) builds without error and computes modulo p: for arguments that are field elements, every returned element is the reduced result modulo p of what the program says, and comparisons tell whether elements are equal modulo p.", "quantifier": "every heap, every program, every choice of outputs in the order of computation, every modulus p with room for 2p and every width, all arguments", "why_tests_cant": "Programs and arguments are unbounded; the single field test compares products with products only (C67).", "anchors": ["src/circuits/finite_field/mod.rs::AllocFp"]}
{"id": "C77", "title": "User-defined modules are functions", "statement": "A program with functions of its own, each a circuit built from constants, gates and calls of functions defined before it, registered as a module, and called any number of times with any values of the caller as arguments, builds without error, and the evaluation of its main circuit returns what the program means: a call returns the results of the function's body on the argument values.", "quantifier": "every heap, any number of functions, any depth of calls, every body, all arguments", "why_tests_cant": "Programs, call depths and inputs are unbounded; the tests define at most one module of a few gates.", "anchors": ["src/bool_circuit.rs::register_module", "src/bool_circuit.rs::module", "src/bool_circuit.rs::sub_circuit", "src/evaluator.rs::eval_output"]}
{"id": "C78", "title": "The text of a program computes the program", "statement": "For every program over numbers (C32), over numbers, bit strings and bits (C68), over field elements (C76, as words) and with functions of its own (C77, functions as there), with the chosen results in any order: the program builds, the writer writes its circuit, and executing the gate lines of the text in order on the input bits followed by the returned constants leaves the bits of the results on the wires the writer reports for the outputs. No order of the results is needed, unlike for the evaluator. Wherever the evaluator returns a result, the text agrees with it.", "quantifier": "every heap built by valid calls, all programs, widths, inputs, sizes of the first input group and depths of the call stack that suffice", "why_tests_cant": "Programs and inputs are unbounded, and no test executes a written text.", "anchors": ["src/bristol_converter.rs::write", "src/bool_circuit.rs::output", "src/circuits/arithmetic", "src/evaluator.rs::eval_output"]}
{"id": "C79", "title": "What an evaluation does apart from the bits does not depend on the bits", "statement": "Two evaluations of a circuit with the same recursion depth on input vectors of the same length make the same accesses to the maps of the evaluator, for the same gates, with the same outcome of every lookup, and compute the same gates, in the same order, in all nested evaluations; failing evaluations do so up to the same failing access. So the time, for any price of the gates, does not depend on the bits.", "quantifier": "every heap, circuit, recursion depth, pair of input vectors of the same length and price of the gates", "why_tests_cant": "Tests compare results, not the sequence of accesses, and cannot compare all pairs of inputs.", "anchors": ["src/evaluator.rs::eval_output", "src/evaluator.rs::eval_single_output", "src/evaluator.rs::eval_single_gate"]}
{"id": "C80", "title": "Bits are dropped after their last use, and memory is linear", "statement": "At every moment of an evaluation, successful or not, and in every nested evaluation that is going on, no bit is stored twice and none that was used as often as its gate has readers (a gate without readers keeps its bit); a lookup finds exactly what was stored and not dropped, and a use is counted exactly once for every reading by a gate that is computed (a module call reads its arguments once). So never more bits are stored than there are gates in the circuits involved, each circuit counted once however often it is called; after a successful evaluation nothing is stored. The time has no such bound: there are circuits built by 6(n+1) calls that take 2^n computations with memory and depth at most 3n+2.", "quantifier": "every reachable heap, every well-built circuit (valid calls for the bound by the heap), every input vector and recursion depth, every moment; the family for every n", "why_tests_cant": "Memory is not visible in results, and the bound is about all moments of all evaluations.", "anchors": ["src/evaluator.rs::eval_output", "src/evaluator.rs::eval_single_gate", "src/bool_circuit.rs::get_depended_gates"]}
{"id": "C81", "title": "The tests with fixed inputs pass", "statement": "The seven tests of the evaluator with fixed inputs (one gate of each kind, two gates, one call of a module) and the six tests of the builder pass whatever circuits and storages exist already; the circuits they build compute the gate or function the test is named after on all inputs.", "quantifier": "every heap the test is started in, every input vector", "why_tests_cant": "A test runs in an empty process. The tests are also evidence for the model: what passes in the repository has to pass in the model.", "anchors": ["src/evaluator.rs::input1_output1", "src/evaluator.rs::input1_not_ouput1", "src/evaluator.rs::input_xor_output1", "src/evaluator.rs::input2_and_output1", "src/evaluator.rs::input2_or_output1", "src/evaluator.rs::input3_and_or_output1", "src/evaluator.rs::module_1", "src/bool_circuit.rs::input3_and_or_output1"]}
{"id": "C82", "title": "The library reads the circuits of its own operations", "statement": "A circuit that uses the operations of the library on integers, bit strings or field elements and has an output is written by the Bristol writer, and what the Bristol reader makes of the text computes the same function. (This holds for the bitwise operations and for selection; for every operation on integers except shifting right, every comparison and every operation of the field the reader panics on the text, whatever the operands, the width and the rest of the circuit; a shift to the right is read back without an error, as no shift.)", "quantifier": "every valid history of calls, every width, all operands, every program over numbers, bit strings and bits with one such statement, every circuit the text is read into", "why_tests_cant": "The repository's tests read back circuits of a few gates without constants. Whether a circuit survives depends on constants and unneeded gates of modules made by the library at any width, anywhere in the circuit.", "anchors": ["src/bristol_converter.rs::BristolNXAOWriter::write", "src/bristol_converter.rs::BristolReader::read", "src/circuits/arithmetic/int.rs", "src/circuits/logic/mod.rs", "src/circuits/finite_field/mod.rs"]}
{"id": "C83", "title": "Returning copies of results repairs every program with functions", "statement": "If every function of a program, and the main circuit, passes each of its results through `identity` before returning it, then every program whose lines use only values and functions that exist builds without error, and evaluating it returns on all inputs what the program means, whatever the order of results and the number of results and wires of its functions. The text written for such a circuit is never read back as a circuit that computes something else; if all functions return something, it is always read back if in the main function and in all functions it calls, directly or not, no line is a constant and every line is used or returned, and never otherwise.", "quantifier": "every reachable heap, every library of functions, every main function, all inputs; for the text every valid history and every circuit the text is read into", "why_tests_cant": "Functions can call each other to any depth and return results in any order; the tests build one circuit with one module.", "anchors": ["src/bool_circuit.rs::BoolCircuit::identity", "src/bool_circuit.rs::BoolCircuit::module", "src/bool_circuit.rs::BoolCircuit::register_module", "src/bristol_converter.rs::BristolNXAOWriter::write"]}
