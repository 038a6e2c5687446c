import Verif.Proofs.Reuse
import Verif.Props.Bristol

/-!
# C55: readers that are used again

A `BristolReader` keeps its map from wires to gates. `gow` is the map before the call, whatever was read before.
-/

namespace CC.Props
open CC Spec Spec.Bristol CC.Bristol

/-- C55: what a new reader accepts, a used reader accepts, and it does the same to the heap. The map afterwards contains that of the
new reader. -/
theorem C55_accepts {w w' : World} {r : Ref} {text : Str} {new : GOW} (h : read r Map.empty text w = (.ok new, w')) (gow : GOW) :
    ∃ gow', read r gow text w = (.ok gow', w') ∧ ∀ x g, new x = some g → gow' x = some g := by
  have := follows_read r text (a := Map.empty) (b := gow) (fun _ _ h => by cases h) w
  rw [h] at this
  exact this

/-- C55: what a new reader rejects for another reason than a wire that no line defines, a used reader rejects with the same error. -/
theorem C55_rejects_partial {w w' : World} {r : Ref} {text : Str} {e : Err} (h : read r Map.empty text w = (.error e, w'))
    (h1 : ∀ n, e ≠ .unknownWire n) (h2 : e ≠ .panic .missingKey) (gow : GOW) : read r gow text w = (.error e, w') := by
  have := follows_read r text (a := Map.empty) (b := gow) (fun _ _ h => by cases h) w
  rw [h] at this
  rcases this with (⟨n, hn⟩ | hp) | this
  · exact absurd hn (h1 n)
  · exact absurd hp h2
  · exact this

/-- C55: a reader in any state reads a text of a valid file correctly: C16 for used readers. -/
theorem C55_valid {w : World} (h : Reachable w) {r : Ref} {c : Circuit} (hc : w.circs[r]? = some c) {f : File} {text : Str}
    (ht : Text f text) (hv : f.Valid) (gow : GOW) : ∃ gow' w' c', read r gow text w = (.ok gow', w') ∧
      w'.circs[r]? = some c' ∧ c'.inputLen = c.inputLen + f.numIn ∧ c'.outputLen = c.outputLen + f.numOut ∧
      (∀ i, i < c.outputLen → c'.outputMap i = c.outputMap i) ∧
      ∀ pre ins : List Bool, pre.length = c.inputLen → ins.length = f.numIn → ∀ i, i < f.numOut →
        ∃ o b, c'.outputMap (c.outputLen + i) = some o ∧ f.output ins i = some b ∧ Val w' r (pre ++ ins) o b := by
  obtain ⟨new, w', c', h1, h2⟩ := C16_read h hc ht hv
  obtain ⟨gow', h3, _⟩ := C55_accepts h1 gow
  exact ⟨gow', w', c', h3, h2⟩

/-- three wires -/
def xorText : Str := chars! "1 3\n1 2\n1 1\n\n2 1 0 1 2 XOR\n"

/-- wire 2 is read, but no line defines it -/
def strayText : Str := chars! "1 2\n1 1\n1 1\n\n1 1 2 1 INV\n"

/-- C55 is false for texts that read an undefined wire: a new reader rejects the text, but a reader that has read another text (into
another circuit) takes the gate that the wire had there. It reports success, and the circuit cannot be evaluated. -/
theorem C55_false : ∃ w used w1 w2 w3 gow, Reachable w ∧ read 0 Map.empty xorText w = (.ok used, w1) ∧
    read 1 Map.empty strayText w1 = (.error (.unknownWire 2), w2) ∧ read 1 used strayText w1 = (.ok gow, w3) ∧
    ∀ b, ∀ fuel ≥ 9, evalOutput w3 fuel 1 [b] = .error (.unknownGate 2) := by
  refine ⟨run [.newStorage, .newCircuit 0, .newCircuit 0], _, _, _, _, _, run_reachable _, rfl, rfl, rfl, fun b fuel hf => ?_⟩
  cases b <;> exact C13_stable (fuel := 9) (fuel' := fuel) _ (by intro h; cases h) hf

/-! ### the hypotheses are satisfiable -/

/-- a reader that has read `xorText` reads it again; the second circuit gets the same gates -/
example : ∃ used w1 used' w2, read 0 Map.empty xorText (run [.newStorage, .newCircuit 0, .newCircuit 0]) = (.ok used, w1) ∧
    used 2 = some 2 ∧ read 1 used xorText w1 = (.ok used', w2) ∧ ∀ a b, evalOutput w2 9 1 [a, b] = .ok [a ^^ b] :=
  ⟨_, _, _, _, rfl, rfl, rfl, by intro a b; cases a <;> cases b <;> rfl⟩

example : ∃ w', read 0 Map.empty (chars! "1 3\n1 2\n1 1\n\n2 1 0 1 2 NAND\n") (run [.newStorage, .newCircuit 0]) =
    (.error (.notSupportedGate (chars! "NAND")), w') := ⟨_, rfl⟩

example : ∃ f, Text f xorText ∧ f.Valid :=
  ⟨⟨1, 3, [2], [1], [⟨.xor, [0, 1], 2⟩]⟩, file?_some (by rfl), valid?_true (by rfl)⟩

/-- C55_accepts and C55_valid: a reader that knows a wire 7, and `xorText` -/
example : ∃ gow' w', read 0 (Map.empty.insert 7 4) xorText (run [.newStorage, .newCircuit 0]) = (.ok gow', w') ∧ gow' 2 = some 2 := by
  have h1 : ∃ new w', read 0 Map.empty xorText (run [.newStorage, .newCircuit 0]) = (.ok new, w') ∧ new 2 = some 2 := ⟨_, _, rfl, rfl⟩
  obtain ⟨new, w', h2, h3⟩ := h1
  obtain ⟨gow', h4, h5⟩ := C55_accepts h2 (Map.empty.insert 7 4)
  exact ⟨gow', w', h4, h5 2 2 h3⟩

/-- a circuit that is not empty -/
def orOps : List Op := [.newStorage, .newCircuit 0, .input 0, .input 0, .or 0 0 1, .output 0 2]

example : ∃ gow' w' c', read 0 (Map.empty.insert 7 4) xorText (run orOps) = (.ok gow', w') ∧ w'.circs[0]? = some c' ∧
    c'.inputLen = 4 ∧ c'.outputLen = 2 := by
  obtain ⟨gow', w', c', h1, h2, h3, h4, _⟩ := C55_valid (run_reachable orOps) (r := 0) (c := (run orOps).circs[0]) rfl
    (f := ⟨1, 3, [2], [1], [⟨.xor, [0, 1], 2⟩]⟩) (text := xorText) (file?_some (by rfl)) (valid?_true (by rfl)) (Map.empty.insert 7 4)
  exact ⟨gow', w', c', h1, h2, h3, h4⟩

/-- C55_rejects_partial -/
example : ∃ w', read 0 (Map.empty.insert 7 4) (chars! "1 3\n1 2\n1 1\n\n2 1 0 1 2 NAND\n") (run [.newStorage, .newCircuit 0]) =
    (.error (.notSupportedGate (chars! "NAND")), w') :=
  ⟨_, C55_rejects_partial (e := .notSupportedGate (chars! "NAND")) rfl (by intros; nofun) nofun _⟩

end CC.Props
