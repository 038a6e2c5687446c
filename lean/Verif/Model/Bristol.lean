import Verif.Model.Circuit

/-!
# `src/bristol_converter.rs`: `BristolReader` and `BristolNXAOWriter`

Text is a list of characters. `Model/ByteReader.lean` has the reader over bytes, with I/O errors and invalid UTF-8.
-/

namespace CC.Bristol

/-! ## Text primitives of the Rust standard library (external, behaviour assumed) -/

/-- Unicode `White_Space`, what `str::split_whitespace` splits at (std). -/
def isWhite (c : Char) : Bool :=
  let n := c.toNat
  (9 ≤ n && n ≤ 13) || n == 0x20 || n == 0x85 || n == 0xA0 || n == 0x1680 ||
  (0x2000 ≤ n && n ≤ 0x200A) || n == 0x2028 || n == 0x2029 || n == 0x202F || n == 0x205F || n == 0x3000

/-- remove one trailing `\r` of a reversed line -/
def stripCR : List Char → List Char
  | '\r' :: cs => cs
  | cs => cs

/-- `BufRead::lines` (std), called at src/bristol_converter.rs:58: split at `\n`, drop the `\n` and one `\r`
right before it; a last line without `\n` is kept as it is if it is not empty. `cur` is the current line,
reversed. -/
def linesAux (cur : List Char) : List Char → List (List Char)
  | [] => if cur.isEmpty then [] else [cur.reverse]
  | c :: cs => if c = '\n' then (stripCR cur).reverse :: linesAux [] cs else linesAux (c :: cur) cs

/-- `BufRead::lines` -/
def linesOf (text : List Char) : List (List Char) := linesAux [] text

/-- `str::split_whitespace` (std). `cur` is the current token, reversed. -/
def tokensAux (cur : List Char) : List Char → List (List Char)
  | [] => if cur.isEmpty then [] else [cur.reverse]
  | c :: cs =>
    if isWhite c then (if cur.isEmpty then tokensAux [] cs else cur.reverse :: tokensAux [] cs)
    else tokensAux (c :: cur) cs

/-- `str::split_whitespace` -/
def tokensOf (line : List Char) : List (List Char) := tokensAux [] line

/-- value of an ASCII decimal digit -/
def digitVal (c : Char) : Option Nat :=
  if 48 ≤ c.toNat ∧ c.toNat ≤ 57 then some (c.toNat - 48) else none

/-- the digit loop of `usize::from_str` -/
def parseDigits (acc : Nat) : List Char → Option Nat
  | [] => some acc
  | c :: cs =>
    match digitVal c with
    | none => none
    | some d => parseDigits (acc * 10 + d) cs

/-- `str::parse::<usize>` (std) on a 64-bit target: an optional `+`, then at least one ASCII digit; values
of 2^64 and above are an error. -/
def parseUsize (s : List Char) : Except Err Nat :=
  let digits := match s with
    | '+' :: cs => cs
    | cs => cs
  if digits.isEmpty then .error .parseInt
  else
    match parseDigits 0 digits with
    | none => .error .parseInt
    | some n => if n < 2 ^ 64 then .ok n else .error .parseInt

/-- `.next().ok_or(LineSplitError)?` — src/bristol_converter.rs:61-63 and repeats. -/
def nextTok : List (List Char) → Except Err (List Char × List (List Char))
  | [] => .error .lineSplit
  | t :: ts => .ok (t, ts)

/-- `.next().ok_or(LineSplitError)?.parse::<usize>()?` — src/bristol_converter.rs:61-64 and repeats. -/
def nextUsize (ts : List (List Char)) : Except Err (Nat × List (List Char)) := do
  let (t, ts) ← nextTok ts
  let n ← parseUsize t
  .ok (n, ts)

/-! ## Reader -/

/-- `gate_of_wire` — src/bristol_converter.rs:39. -/
abbrev GOW := Map Nat GateId

/-- lift a pure result into the API monad -/
def lift {α} (x : Except Err α) : M α := fun w => (x, w)

/-- The loop `for j in 0..input_bit` — src/bristol_converter.rs:81-83: wires `start, start+1, …`,
`k` of them. -/
def readInputBits (r : Ref) (gow : GOW) : (start k : Nat) → M GOW
  | _, 0 => pure gow
  | start, k + 1 => do
    let g ← input r
    readInputBits r (gow.insert start g) (start + 1) k

/-- The loop over the declared inputs — src/bristol_converter.rs:76-85; `sum` is `input_len_sum`. -/
def readInputs (r : Ref) (gow : GOW) (sum : Nat) : Nat → List (List Char) → M GOW
  | 0, _ => pure gow
  | k + 1, ts => do
    let (bits, ts) ← lift (nextUsize ts)
    let gow ← readInputBits r gow sum bits
    readInputs r gow (sum + bits) k ts

/-- The loop over the declared outputs — src/bristol_converter.rs:92-99; returns `output_len_sum`. -/
def readOutputLens (sum : Nat) : Nat → List (List Char) → Except Err Nat
  | 0, _ => .ok sum
  | k + 1, ts => do
    let (bits, ts) ← nextUsize ts
    readOutputLens (sum + bits) k ts

/-- The operand loop of a gate line — src/bristol_converter.rs:119-129. -/
def readOperands (gow : GOW) : Nat → List (List Char) → Except Err (List GateId × List (List Char))
  | 0, ts => .ok ([], ts)
  | k + 1, ts => do
    let (wire, ts) ← nextUsize ts
    match gow wire with
    | none => .error (.unknownWire wire)
    | some g => do
      let (gs, ts) ← readOperands gow k ts
      .ok (g :: gs, ts)

/-- The output-wire loop of a gate line — src/bristol_converter.rs:131-137. -/
def readOutWires : Nat → List (List Char) → Except Err (List Nat × List (List Char))
  | 0, ts => .ok ([], ts)
  | k + 1, ts => do
    let (wire, ts) ← nextUsize ts
    let (ws, ts) ← readOutWires k ts
    .ok (wire :: ws, ts)

/-- The tokens of one gate line — src/bristol_converter.rs:110-138: operand gates, output wires, operation.
Further tokens are ignored. -/
def readGateTokens (gow : GOW) (ts : List (List Char)) :
    Except Err (List GateId × List Nat × List Char) := do
  let (inputLen, ts) ← nextUsize ts
  let (outputLen, ts) ← nextUsize ts
  let (gs, ts) ← readOperands gow inputLen ts
  let (ws, ts) ← readOutWires outputLen ts
  let (t, _) ← nextTok ts
  .ok (gs, ws, t)

/-- `self.gate_of_wire.insert(output_wire_ids[0], output_gate)` — src/bristol_converter.rs:143 and repeats;
indexing an empty list panics (after the gate was created). -/
def bindOut (gow : GOW) (ws : List Nat) (g : GateId) : M GOW := do
  let o ← M.idx ws 0
  pure (gow.insert o g)

/-- The `match gate_type` — src/bristol_converter.rs:140-162. -/
def readGateOp (r : Ref) (gow : GOW) (gs : List GateId) (ws : List Nat) (op : List Char) : M GOW :=
  if op = "INV".toList then do
    let a ← M.idx gs 0
    let g ← not r a
    bindOut gow ws g
  else if op = "XOR".toList then do
    let a ← M.idx gs 0
    let b ← M.idx gs 1
    let g ← xor r a b
    bindOut gow ws g
  else if op = "AND".toList then do
    let a ← M.idx gs 0
    let b ← M.idx gs 1
    let g ← and r a b
    bindOut gow ws g
  else if op = "OR".toList then do
    let a ← M.idx gs 0
    let b ← M.idx gs 1
    let g ← or r a b
    bindOut gow ws g
  else if op = "EQ".toList ∨ op = "EQW".toList then do
    let a ← M.idx gs 0
    let g ← identity r a
    bindOut gow ws g
  else M.throw (.notSupportedGate op)

/-- The gate-line loop — src/bristol_converter.rs:104-163: stops at an empty line or at the end. -/
def readGates (r : Ref) (gow : GOW) : List (List Char) → M GOW
  | [] => pure gow
  | l :: ls =>
    if l.isEmpty then pure gow
    else do
      let (gs, ws, op) ← lift (readGateTokens gow (tokensOf l))
      let gow ← readGateOp r gow gs ws op
      readGates r gow ls

/-- The final loop over `(num_wire - output_len_sum)..num_wire` — src/bristol_converter.rs:165-168. -/
def readFinal (r : Ref) (gow : GOW) : List Nat → M Unit
  | [] => pure ()
  | i :: is =>
    match gow i with
    | none => M.throw (.panic .missingKey)
    | some g => do
      let _ ← output r g
      readFinal r gow is

/-- `.next().ok_or(NotFoundLine(n))?` — src/bristol_converter.rs:59, 69, 86, 102. -/
def nextLine (n : Nat) : List (List Char) → Except Err (List Char × List (List Char))
  | [] => .error (.notFoundLine n)
  | l :: ls => .ok (l, ls)

/-- `BristolReader::read` — src/bristol_converter.rs:53-170. `gow` is `self.gate_of_wire` before the call
(`BristolReader::new` starts with the empty map, lines 45-51); its new value is returned on success. -/
def read (r : Ref) (gow : GOW) (text : List Char) : M GOW := do
  let (l1, ls) ← lift (nextLine 1 (linesOf text))
  let (_, ts) ← lift (nextUsize (tokensOf l1))
  let (numWire, _) ← lift (nextUsize ts)
  let (l2, ls) ← lift (nextLine 2 ls)
  let (numInput, ts) ← lift (nextUsize (tokensOf l2))
  let gow ← readInputs r gow 0 numInput ts
  let (l3, ls) ← lift (nextLine 3 ls)
  let (numOutput, ts) ← lift (nextUsize (tokensOf l3))
  let outSum ← lift (readOutputLens 0 numOutput ts)
  let (_, ls) ← lift (nextLine 4 ls)
  let gow ← readGates r gow ls
  if numWire < outSum then M.throw (.panic .underflow)
  else do
    readFinal r gow (rangeFromTo (numWire - outSum) numWire)
    pure gow

/-! ## Writer -/

/-- decimal formatting of `usize` (`{}`, std) -/
def dec (n : Nat) : List Char := Nat.toDigits 10 n

/-- `Gate::to_str` of the gates that are written — src/gates.rs:188, 208, 228, 248 (and 150, 169, 271). -/
def gateStr : Gate → List Char
  | .input _ => "INPUT".toList
  | .const _ => "CONST".toList
  | .not _ => "INV".toList
  | .xor _ _ => "XOR".toList
  | .and _ _ => "AND".toList
  | .or _ _ => "OR".toList
  | .module _ _ _ _ _ => "MODULE".toList

/-- The writer object — src/bristol_converter.rs:176-181 — and `const_of_wire` (line 223). `out` is everything
written so far; the heap is not changed by writing. `self.c_ref` is an argument of the functions below. -/
structure WSt where
  numWire : Nat
  lastConstWire : Nat
  out : List Char
  constOf : Map Nat Bool

/-- `BristolNXAOWriter::new` — src/bristol_converter.rs:184-191, over an empty output. -/
def WSt.new : WSt := { numWire := 0, lastConstWire := 0, out := [], constOf := Map.empty }

/-- writer state together with `wire_of_gate` -/
abbrev WS := WSt × Map GateId Nat

/-- the text of a gate line — src/bristol_converter.rs:542-546 -/
def gateLine (wires : List Nat) (outWire : Nat) (str : List Char) : List Char :=
  dec wires.length ++ " 1 ".toList ++ wires.flatMap (fun x => dec x ++ [' ']) ++ dec outWire ++ [' ']
    ++ str ++ ['\n']

/-- `update_wire` — src/bristol_converter.rs:531-553. `num_input` is always the number of wires given. -/
def updateWire (g : GateId) (wires : Option (List Nat)) (str : List Char) (s : WS) : WS :=
  let (st, wog) := s
  let out := match wires with
    | some ws => st.out ++ gateLine ws st.numWire str
    | none => st.out
  ({ st with out := out, numWire := st.numWire + 1 }, wog.insert g st.numWire)

/-- the function type of `write_single_gate` on the current circuit -/
abbrev WriteGate := GateId → Gate → WS → Except Err WS

/-- `if wire_of_gate.get(&id).is_none() { let g = get_gate(&id)?; self.write_single_gate(..)?; }`
— src/bristol_converter.rs:273-276 and repeats. -/
def ensureWire (c : Circuit) (wg : WriteGate) (id : GateId) (s : WS) : Except Err WS :=
  match s.2 id with
  | some _ => .ok s
  | none =>
    match c.gateMap id with
    | none => .error (.unknownGate id)
    | some gate => wg id gate s

/-- the same for a list of operands, in order — src/bristol_converter.rs:272-344, 373-491 -/
def ensureWires (c : Circuit) (wg : WriteGate) : List GateId → WS → Except Err WS
  | [], s => .ok s
  | id :: ids, s => do
    let s ← ensureWire c wg id s
    ensureWires c wg ids s

/-- `wire_of_gate[&id]` for each operand -/
def wiresOf (wog : Map GateId Nat) : List GateId → Except Err (List Nat)
  | [] => .ok []
  | id :: ids =>
    match wog id with
    | none => .error (.panic .missingKey)
    | some x => do
      let xs ← wiresOf wog ids
      .ok (x :: xs)

/-- The constant loop — src/bristol_converter.rs:253-261. -/
def writeConsts (c : Circuit) : List GateId → WS → Except Err WS
  | [], s => .ok s
  | g :: gs, s =>
    match c.gateMap g with
    | none => .error (.unknownGate g)
    | some (.const v) =>
      writeConsts c gs
        ({ s.1 with
            constOf := s.1.constOf.insert s.1.lastConstWire v
            lastConstWire := s.1.lastConstWire + 1 },
          s.2.insert g s.1.lastConstWire)
    | some _ => writeConsts c gs s

/-- The first output loop — src/bristol_converter.rs:267-347: outputs `i, i+1, …`, `k` of them; writes the
operands of the output gates; returns the output gates. -/
def writePass1 (c : Circuit) (wg : WriteGate) : (i k : Nat) → WS → Except Err (List (GateId × Gate) × WS)
  | _, 0, s => .ok ([], s)
  | i, k + 1, s =>
    match c.outputMap i with
    | none => .error (.unknownOutput i)
    | some g =>
      match c.gateMap g with
      | none => .error (.unknownGate g)
      | some gate => do
        let s ← ensureWires c wg gate.operands s
        let (rest, s) ← writePass1 c wg (i + 1) k s
        .ok ((g, gate) :: rest, s)

/-- The second output loop — src/bristol_converter.rs:349-355. -/
def writePass2 (wg : WriteGate) : List (GateId × Gate) → WS → Except Err WS
  | [], s => .ok s
  | (g, gate) :: rest, s =>
    match s.2 g with
    | some _ => writePass2 wg rest s
    | none => do
      let s ← wg g gate s
      writePass2 wg rest s

/-- `write_all_gates` — src/bristol_converter.rs:247-357. -/
def writeAll (c : Circuit) (wg : WriteGate) (s : WS) : Except Err WS := do
  let s ← writeConsts c c.constGates s
  let (outs, s) ← writePass1 c wg 0 c.outputLen s
  writePass2 wg outs s

/-- The loop giving the callee's inputs the wires of the arguments — src/bristol_converter.rs:493-507. -/
def bindArgs (mc : Circuit) (wog : Map GateId Nat) :
    WireId → List GateId → Map GateId Nat → Except Err (Map GateId Nat)
  | _, [], new => .ok new
  | i, id :: ids, new =>
    match mc.inputMap i with
    | none => .error (.unknownInput i)
    | some g =>
      match wog id with
      | none => .error (.panic .missingKey)
      | some x => bindArgs mc wog (i + 1) ids (new.insert g x)

/-- The loop giving the module gates the wires of the callee's outputs — src/bristol_converter.rs:514-519:
outputs `i, i+1, …`, `k` of them. -/
def bindOuts (mc : Circuit) (new : Map GateId Nat) (first : GateId) :
    (i k : Nat) → Map GateId Nat → Except Err (Map GateId Nat)
  | _, 0, wog => .ok wog
  | i, k + 1, wog =>
    match mc.outputMap i with
    | none => .error (.unknownOutput i)
    | some g =>
      match new g with
      | none => .error (.panic .missingKey)
      | some x => bindOuts mc new first (i + 1) k (wog.insert (first + i) x)

/-- `write_single_gate` — src/bristol_converter.rs:359-529. The arms for `Not`, `Xor`, `And`, `Or`
(373-484) have the same shape: ensure the operands, look up their wires, `update_wire`. -/
def writeGate (w : World) : (fuel : Nat) → Ref → WriteGate
  | 0, _, _, _, _ => .error .outOfFuel
  | fuel + 1, r, g, gate, s => do
    let c ← w.circuit r
    match gate with
    | .input _ => .ok (updateWire g none (gateStr gate) s)
    | .const _ => .ok s
    | .module _ outLen ids outIndex mid => do
      let s ← ensureWires c (writeGate w fuel r) ids s
      match w.module? c mid with
      | none => .error (.unknownModule mid)
      | some mr => do
        let mc ← w.circuit mr
        let new ← bindArgs mc s.2 0 ids Map.empty
        let (st, new) ← writeAll mc (writeGate w fuel mr) (s.1, new)
        if g < outIndex then .error (.panic .underflow)
        else do
          let wog ← bindOuts mc new (g - outIndex) 0 outLen s.2
          .ok (st, wog)
    | _ => do
      let s ← ensureWires c (writeGate w fuel r) gate.operands s
      let ws ← wiresOf s.2 gate.operands
      .ok (updateWire g (some ws) (gateStr gate) s)

/-- The input loop of `write` — src/bristol_converter.rs:224-237: input wires `i, i+1, …`, `k` of them. -/
def writeInputs (w : World) (fuel : Nat) (r : Ref) (c : Circuit) : (i k : Nat) → WS → Except Err WS
  | _, 0, s => .ok s
  | i, k + 1, s =>
    match c.inputMap i with
    | none => .error (.unknownInput i)
    | some g =>
      match c.gateMap g with
      | none => .error (.unknownGate g)
      | some gate => do
        let s ← writeGate w fuel r g gate s
        writeInputs w fuel r c (i + 1) k s

/-- The final loop collecting the constants — src/bristol_converter.rs:241-244. -/
def constVals (constOf : Map Nat Bool) : List Nat → Except Err (List Bool)
  | [] => .ok []
  | x :: xs =>
    match constOf x with
    | none => .error (.panic .missingKey)
    | some b => do
      let bs ← constVals constOf xs
      .ok (b :: bs)

/-- The header — src/bristol_converter.rs:203-217. -/
def header (c : Circuit) (numFirst : Nat) : List Char :=
  dec c.numGate ++ [' '] ++ dec (c.numWire + c.numConst) ++ ['\n']
    ++ "2 ".toList ++ dec numFirst ++ [' '] ++ dec (c.inputLen + c.numConst - numFirst) ++ ['\n']
    ++ "1 ".toList ++ dec c.outputLen ++ ['\n'] ++ ['\n']

/-- Result of `write`: the returned constants, the writer afterwards, and `wire_of_gate` afterwards. -/
structure Written where
  consts : List Bool
  st : WSt
  wog : Map GateId Nat

/-- `BristolNXAOWriter::write` — src/bristol_converter.rs:193-246. `st` is the writer before the call, `wog`
the caller's map (`None` is the empty map). Simplification: the text written before a failure is not
returned (the first header line precedes the assertion of line 208). -/
def write (w : World) (fuel : Nat) (r : Ref) (numFirst : Nat) (st : WSt) (wog : Map GateId Nat) :
    Except Err Written := do
  let c ← w.circuit r
  if c.inputLen + c.numConst < numFirst then .error (.panic .assertFailed)
  else do
    let st := { st with out := st.out ++ header c numFirst, constOf := Map.empty }
    let s ← writeInputs w fuel r c 0 c.inputLen (st, wog)
    let s : WS := ({ s.1 with lastConstWire := c.inputLen, numWire := s.1.numWire + c.numConst }, s.2)
    let s ← writeAll c (writeGate w fuel r) s
    let cs ← constVals s.1.constOf (rangeFromTo c.inputLen s.1.lastConstWire)
    .ok { consts := cs, st := s.1, wog := s.2 }

end CC.Bristol
