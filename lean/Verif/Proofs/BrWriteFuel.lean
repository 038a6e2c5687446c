import Verif.Proofs.BrWriteFile
import Verif.Proofs.Account

/-!
# Writing with more fuel gives the same result; what inlining a circuit amounts to is unique
-/

namespace CC.Bristol
open CC.Spec CC.Spec.Bristol

/-- `x` ran out of fuel, or is `y` -/
def Fle {α} (x y : Except Err α) : Prop := x = .error .outOfFuel ∨ x = y

theorem Fle.refl {α} (x : Except Err α) : Fle x x := Or.inr rfl

theorem Fle.bind {α β} {x y : Except Err α} {f g : α → Except Err β} (h : Fle x y) (hf : ∀ a, Fle (f a) (g a)) :
    Fle (x >>= f) (y >>= g) := by
  rcases h with rfl | rfl
  · exact Or.inl rfl
  · cases x with
    | error e => exact Or.inr rfl
    | ok a => exact hf a

theorem Fle.trans {α} {x y z : Except Err α} (h : Fle x y) (k : Fle y z) : Fle x z := by
  rcases h with h | rfl
  · exact Or.inl h
  · exact k

section
variable {c : Circuit} {wg wg' : WriteGate} (h : ∀ g gate s, Fle (wg g gate s) (wg' g gate s))
include h

theorem fle_ensureWire (id : GateId) (s : WS) : Fle (ensureWire c wg id s) (ensureWire c wg' id s) := by
  unfold ensureWire
  split
  · exact .refl _
  · split
    · exact .refl _
    · exact h _ _ _

theorem fle_ensureWires : ∀ (ids : List GateId) (s : WS), Fle (ensureWires c wg ids s) (ensureWires c wg' ids s)
  | [], _ => .refl _
  | id :: ids, s => .bind (fle_ensureWire h id s) fun s => fle_ensureWires ids s

theorem fle_writePass1 : ∀ (k i : Nat) (s : WS), Fle (writePass1 c wg i k s) (writePass1 c wg' i k s)
  | 0, _, _ => .refl _
  | k + 1, i, s => by
    unfold writePass1
    split
    · exact .refl _
    · split
      · exact .refl _
      · exact .bind (fle_ensureWires h _ _) fun s => .bind (fle_writePass1 k (i + 1) s) fun _ => .refl _

theorem fle_writePass2 : ∀ (l : List (GateId × Gate)) (s : WS), Fle (writePass2 wg l s) (writePass2 wg' l s)
  | [], _ => .refl _
  | (g, gate) :: l, s => by
    unfold writePass2
    split
    · exact fle_writePass2 l s
    · exact .bind (h _ _ _) fun s => fle_writePass2 l s

theorem fle_writeAll (s : WS) : Fle (writeAll c wg s) (writeAll c wg' s) :=
  .bind (.refl _) fun _ => .bind (fle_writePass1 h _ _ _) fun _ => fle_writePass2 h _ _

end

theorem fle_writeGate (w : World) : ∀ (fuel : Nat) (r : Ref) g gate s,
    Fle (writeGate w fuel r g gate s) (writeGate w (fuel + 1) r g gate s)
  | 0, _, _, _, _ => Or.inl rfl
  | fuel + 1, r, g, gate, s => by
    have ih := fle_writeGate w fuel
    rw [writeGate, writeGate]
    refine .bind (.refl _) fun c => ?_
    cases gate with
    | input => exact .refl _
    | const => exact .refl _
    | module nIn nOut ids oi mid =>
      refine .bind (fle_ensureWires (ih r) _ _) fun s => ?_
      split
      · exact .refl _
      · exact .bind (.refl _) fun _ => .bind (.refl _) fun _ => .bind (fle_writeAll (ih _) _) fun _ => .refl _
    | not => exact .bind (fle_ensureWires (ih r) _ _) fun _ => .refl _
    | xor => exact .bind (fle_ensureWires (ih r) _ _) fun _ => .refl _
    | and => exact .bind (fle_ensureWires (ih r) _ _) fun _ => .refl _
    | or => exact .bind (fle_ensureWires (ih r) _ _) fun _ => .refl _

theorem fle_writeInputs (w : World) (fuel : Nat) (r : Ref) (c : Circuit) : ∀ (k i : Nat) (s : WS),
    Fle (writeInputs w fuel r c i k s) (writeInputs w (fuel + 1) r c i k s)
  | 0, _, _ => .refl _
  | k + 1, i, s => by
    unfold writeInputs
    split
    · exact .refl _
    · split
      · exact .refl _
      · exact .bind (fle_writeGate w fuel r _ _ _) fun s => fle_writeInputs w fuel r c k (i + 1) s

theorem fle_write (w : World) (fuel : Nat) (r : Ref) (numFirst : Nat) (st : WSt) (wog : Map GateId Nat) :
    Fle (write w fuel r numFirst st wog) (write w (fuel + 1) r numFirst st wog) := by
  unfold write
  refine .bind (.refl _) fun c => ?_
  split
  · exact .refl _
  · exact .bind (fle_writeInputs w fuel r c _ _ _) fun s => .bind (fle_writeAll (fle_writeGate w fuel r) _) fun s => .refl _

theorem write_stable {w : World} {fuel fuel' : Nat} {r : Ref} {numFirst : Nat} {st : WSt} {wog : Map GateId Nat}
    (h : write w fuel r numFirst st wog ≠ .error .outOfFuel) (hf : fuel ≤ fuel') :
    write w fuel' r numFirst st wog = write w fuel r numFirst st wog := by
  obtain ⟨d, rfl⟩ : ∃ d, fuel' = fuel + d := ⟨fuel' - fuel, by omega⟩
  clear hf
  induction d with
  | zero => rfl
  | succ d ih =>
    rcases fle_write w (fuel + d) r numFirst st wog with h1 | h1
    · rw [ih] at h1; exact absurd h1 h
    · rw [← Nat.add_assoc, ← h1, ih]

/-! ### uniqueness -/

theorem sorted_ext : ∀ {l l' : List Nat}, l.Pairwise (· < ·) → l'.Pairwise (· < ·) → (∀ x, x ∈ l ↔ x ∈ l') → l = l'
  | [], [], _, _, _ => rfl
  | [], x :: l', _, _, h => absurd ((h x).mpr (by simp)) (by simp)
  | x :: l, [], _, _, h => absurd ((h x).mp (by simp)) (by simp)
  | x :: l, y :: l', h1, h2, h => by
    rw [List.pairwise_cons] at h1 h2
    have e : x = y := by
      rcases List.mem_cons.mp ((h x).mp (by simp)) with e | hx
      · exact e
      · rcases List.mem_cons.mp ((h y).mpr (by simp)) with e | hy
        · exact e.symm
        · have a := h2.1 x hx
          have b := h1.1 y hy
          omega
    subst e
    congr 1
    refine sorted_ext h1.2 h2.2 fun z => ?_
    constructor
    · intro hz
      rcases List.mem_cons.mp ((h z).mp (by simp [hz])) with e | hz'
      · have := h1.1 z hz; omega
      · exact hz'
    · intro hz
      rcases List.mem_cons.mp ((h z).mpr (by simp [hz])) with e | hz'
      · have := h2.1 z hz; omega
      · exact hz'

theorem all2_det {α β} {P : α → β → Prop} (hd : ∀ a b b', P a b → P a b' → b = b') : ∀ {as : List α} {bs bs' : List β},
    All2 P as bs → All2 P as bs' → bs = bs'
  | [], [], [], _, _ => rfl
  | _ :: _, _ :: _, _ :: _, h, h' => by rw [hd _ _ _ h.1 h'.1, all2_det hd h.2 h'.2]
  | [], _ :: _, _, h, _ => h.elim
  | [], _, _ :: _, _, h => h.elim
  | _ :: _, [], _, h, _ => h.elim
  | _ :: _, _, [], _, h => h.elim

theorem ownConsts_det {c : Circuit} {a b : List Bool} (h : OwnConsts c a) (h' : OwnConsts c b) : a = b := by
  obtain ⟨ks, h1, h2, h3⟩ := h
  obtain ⟨ks', h1', h2', h3'⟩ := h'
  have e := sorted_ext h1 h1' fun x => (h2 x).trans (h2' x).symm
  subst e
  refine all2_det ?_ h3 h3'
  intro g v v' h h'
  rw [h] at h'; cases h'; rfl

/-- the number of lines and the constants are determined, the constants up to their order -/
theorem _root_.CC.Spec.Inlined.det {w : World} {r : Ref} {n n' : Nat} {bs bs' : List Bool} (h : Inlined w r n bs)
    (h' : Inlined w r n' bs') : n = n' ∧ bs.Perm bs' := by
  induction h generalizing n' bs' with
  | @mk r c own gs n b hc hown hnd hmem hlog hcall ih =>
    cases h' with
    | @mk _ c' own' gs' n' b' hc' hown' hnd' hmem' hlog' hcall' =>
      rw [hc] at hc'; cases hc'
      have e := ownConsts_det hown hown'
      subst e
      have hp : gs.Perm gs' := (List.perm_ext_iff_of_nodup hnd hnd').mpr fun g => (hmem g).trans (hmem' g).symm
      have hn : ∀ g ∈ gs, n g = n' g ∧ (b g).Perm (b' g) := by
        intro g hg
        rcases ((hmem g).mp hg).2 with h | ⟨mr, h⟩
        · have h1 := hlog g hg h
          have h2 := hlog' g (hp.mem_iff.mp hg) h
          rw [h1.1, h2.1, h1.2, h2.2]; exact ⟨rfl, .nil⟩
        · exact ih g mr hg h (hcall' g mr (hp.mem_iff.mp hg) h)
      constructor
      · rw [← (hp.map n').sum_nat]
        congr 1
        exact List.map_congr_left fun g hg => (hn g hg).1
      · refine List.Perm.append (.refl _) ?_
        refine List.Perm.trans ?_ (hp.flatMap_right b')
        have : ∀ l : List GateId, (∀ g ∈ l, (b g).Perm (b' g)) → (l.flatMap b).Perm (l.flatMap b') := by
          intro l
          induction l with
          | nil => intro _; exact .nil
          | cons x l ih =>
            intro h
            simp only [List.flatMap_cons]
            exact (h x (by simp)).append (ih fun g hg => h g (by simp [hg]))
        exact this gs fun g hg => (hn g hg).2

end CC.Bristol
