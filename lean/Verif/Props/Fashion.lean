import Verif.Spec.Fashion
import Verif.Props.Bristol

/-!
# C72: EQ lines

`Spec/Fashion.lean`: in the Bristol Fashion format the operand of EQ is a constant. The code reads it as the number of a wire.
-/

namespace CC.Props
open CC Spec Spec.Bristol CC.Bristol

theorem FashionUses.uses {ls : List GLine} : ∀ {P : Nat → Prop}, FashionUses P ls → (P 0 ∧ P 1 ∨ ∀ l ∈ ls, l.op ≠ .eq) → Uses P ls := by
  induction ls with
  | nil => intro P _ _; trivial
  | cons l ls ih =>
    rintro P ⟨h1, h2, h3⟩ hp
    have hrest : Uses (fun x => P x ∨ x = l.out) ls := by
      refine ih h3 ?_
      rcases hp with ⟨p0, p1⟩ | hp
      · exact .inl ⟨.inl p0, .inl p1⟩
      · exact .inr fun x hx => hp x (List.mem_cons_of_mem _ hx)
    by_cases he : l.op = .eq
    · rcases hp with ⟨p0, p1⟩ | hp
      · rcases h1 he with ha | ha
        · exact ⟨by rw [ha, he]; rfl, by rw [ha]; simpa using p0, hrest⟩
        · exact ⟨by rw [ha, he]; rfl, by rw [ha]; simpa using p1, hrest⟩
      · exact absurd he (hp l List.mem_cons_self)
    · exact ⟨(h2 he).1, (h2 he).2, hrest⟩

theorem fashion_plain {ls : List GLine} (h : ∀ l ∈ ls, l.op ≠ .eq) : ∀ e, fashion ls e = exec ls e := by
  induction ls with
  | nil => intro e; rfl
  | cons l ls ih =>
    intro e
    have hl : l.fashion e = l.exec e := by
      funext x
      unfold GLine.fashion GLine.exec
      rw [if_neg (h l List.mem_cons_self)]
    show fashion ls (l.fashion e) = exec ls (l.exec e)
    rw [hl, ih fun x hx => h x (List.mem_cons_of_mem _ hx)]

theorem fashion_eq {ls : List GLine} : ∀ {P : Nat → Prop}, FashionUses P ls → (∀ l ∈ ls, 2 ≤ l.out) → ∀ e : Wires, e 0 = some false →
    e 1 = some true → fashion ls e = exec ls e := by
  induction ls with
  | nil => intro _ _ _ e _ _; rfl
  | cons l ls ih =>
    rintro P ⟨h1, h2, h3⟩ hout e e0 e1
    have ho := hout l List.mem_cons_self
    have hl : l.fashion e = l.exec e := by
      funext x
      unfold GLine.fashion GLine.exec
      by_cases he : l.op = .eq
      · rw [if_pos he, he]
        rcases h1 he with ha | ha <;> rw [ha] <;> simp [vals, e0, e1, GOp.fn, literal]
      · rw [if_neg he]
    show fashion ls (l.fashion e) = exec ls (l.exec e)
    rw [hl]
    refine ih h3 (fun x hx => hout x (List.mem_cons_of_mem _ hx)) _ ?_ ?_ <;> unfold GLine.exec
    · rw [if_neg (by omega), e0]
    · rw [if_neg (by omega), e1]

/-- C72, the part that holds: a valid file of the format without EQ lines computes what the format says, on all inputs. -/
theorem C72_plain_partial {w : World} (h : Reachable w) {r : Ref} {c : Circuit} (hc : w.circs[r]? = some c) {f : File} {text : Str}
    (ht : Text f text) (hv : f.FashionValid) (hne : ∀ l ∈ f.gates, l.op ≠ .eq) : ∃ gow w' c', read r Map.empty text w = (.ok gow, w') ∧
      w'.circs[r]? = some c' ∧ c'.inputLen = c.inputLen + f.numIn ∧ c'.outputLen = c.outputLen + f.numOut ∧
      ∀ pre ins : List Bool, pre.length = c.inputLen → ins.length = f.numIn → ∀ i, i < f.numOut →
        ∃ o b, c'.outputMap (c.outputLen + i) = some o ∧ f.fashion ins i = some b ∧ Val w' r (pre ++ ins) o b := by
  obtain ⟨gow, w', c', h1, h2, h3, h4, _, h5⟩ := C16_read h hc ht ⟨FashionUses.uses hv.uses (.inr hne), hv.room, hv.outs⟩
  refine ⟨gow, w', c', h1, h2, h3, h4, fun pre ins hp hi i hlt => ?_⟩
  obtain ⟨o, b, k1, k2, k3⟩ := h5 pre ins hp hi i hlt
  exact ⟨o, b, k1, by unfold File.fashion; rw [fashion_plain hne]; exact k2, k3⟩

/-- C72: what happens with EQ lines. If there are two inputs, which no line overwrites, the file is read, and EQ 0 stands for the first
input and EQ 1 for the second: the outputs are those of the format on inputs that begin with 0, 1. -/
theorem C72_eq_partial {w : World} (h : Reachable w) {r : Ref} {c : Circuit} (hc : w.circs[r]? = some c) {f : File} {text : Str}
    (ht : Text f text) (hv : f.FashionValid) (h2 : 2 ≤ f.numIn) (hout : ∀ l ∈ f.gates, 2 ≤ l.out) :
    ∃ gow w' c', read r Map.empty text w = (.ok gow, w') ∧
      w'.circs[r]? = some c' ∧ c'.inputLen = c.inputLen + f.numIn ∧ c'.outputLen = c.outputLen + f.numOut ∧
      ∀ pre ins : List Bool, pre.length = c.inputLen → (false :: true :: ins).length = f.numIn → ∀ i, i < f.numOut →
        ∃ o b, c'.outputMap (c.outputLen + i) = some o ∧ f.fashion (false :: true :: ins) i = some b ∧
          Val w' r (pre ++ false :: true :: ins) o b := by
  obtain ⟨gow, w', c', h1, h2, h3, h4, _, h5⟩ :=
    C16_read h hc ht ⟨FashionUses.uses hv.uses (.inl ⟨by omega, by omega⟩), hv.room, hv.outs⟩
  refine ⟨gow, w', c', h1, h2, h3, h4, fun pre ins hp hi i hlt => ?_⟩
  obtain ⟨o, b, k1, k2, k3⟩ := h5 pre _ hp hi i hlt
  exact ⟨o, b, k1, by unfold File.fashion; rw [fashion_eq hv.uses hout _ rfl rfl]; exact k2, k3⟩

/-- two inputs, and an output that is constantly 1 -/
def eqText : Str := chars! "1 3\n1 2\n1 1\n\n1 1 1 2 EQ\n"

def eqFile : File := ⟨1, 3, [2], [1], [⟨.eq, [1], 2⟩]⟩

theorem eqFile_valid : Text eqFile eqText ∧ eqFile.FashionValid := by
  refine ⟨file?_some (by rfl), ⟨fun _ => .inr rfl, fun h => absurd rfl h, trivial⟩, by decide, fun x hx hy => ?_⟩
  have : x = 2 := by simp [eqFile, File.numOut] at hx hy; omega
  exact .inr ⟨_, List.mem_cons_self, this.symm⟩

/-- C72 is false: a file whose output is constantly 1 is read as one whose output is the second input. -/
theorem C72_false : Text eqFile eqText ∧ eqFile.FashionValid ∧ (∀ a b, eqFile.fashion [a, b] 0 = some true) ∧
    ∃ gow w', read 0 Map.empty eqText (run [.newStorage, .newCircuit 0]) = (.ok gow, w') ∧
      ∀ fuel ≥ 9, ∀ a b, evalOutput w' fuel 0 [a, b] = .ok [b] := by
  refine ⟨eqFile_valid.1, eqFile_valid.2, fun a b => rfl, _, _, rfl, fun fuel hf a b => ?_⟩
  cases a <;> cases b <;> exact C13_stable (fuel := 9) (fuel' := fuel) _ (by intro h; cases h) hf

/-- C72 is false in another way: a valid file is rejected because a constant is taken for a wire that does not exist. -/
theorem C72_rejected_false : ∃ f text, Text f text ∧ f.FashionValid ∧ (∀ a, f.fashion [a] 0 = some true) ∧
    ∃ w', read 0 Map.empty text (run [.newStorage, .newCircuit 0]) = (.error (.unknownWire 1), w') := by
  refine ⟨⟨1, 2, [1], [1], [⟨.eq, [1], 1⟩]⟩, chars! "1 2\n1 1\n1 1\n\n1 1 1 1 EQ\n", file?_some (by rfl),
    ⟨⟨fun _ => .inr rfl, fun h => absurd rfl h, trivial⟩, by decide, fun x hx hy => ?_⟩, fun a => rfl, _, rfl⟩
  have : x = 1 := by simp [File.numOut] at hx hy; omega
  exact .inr ⟨_, List.mem_cons_self, this.symm⟩

/-! ### the hypotheses are satisfiable -/

example : Text eqFile eqText ∧ eqFile.FashionValid ∧ 2 ≤ eqFile.numIn ∧ ∀ l ∈ eqFile.gates, 2 ≤ l.out :=
  ⟨eqFile_valid.1, eqFile_valid.2, by decide, by decide⟩

example : ∃ f text, Text f text ∧ f.FashionValid ∧ f.gates ≠ [] ∧ ∀ l ∈ f.gates, l.op ≠ .eq := by
  refine ⟨⟨1, 3, [2], [1], [⟨.xor, [0, 1], 2⟩]⟩, chars! "1 3\n1 2\n1 1\n\n2 1 0 1 2 XOR\n", file?_some (by rfl),
    ⟨⟨by decide, fun _ => ⟨rfl, by decide⟩, trivial⟩, by decide, fun x hx hy => ?_⟩, by decide, by decide⟩
  have : x = 2 := by simp [File.numOut] at hx hy; omega
  exact .inr ⟨_, List.mem_cons_self, this.symm⟩

end CC.Props
