import Verif.Spec.Bristol
import Verif.Proofs.Builder
import Verif.Proofs.Num

/-!
# Checking gate lists slice by slice

A gate list that assigns every wire once satisfies one equation per line. The value of a wire can then be computed from
the values of any set of wires that cuts it off from the inputs. A ripple circuit is checked by going through its
slices: each output and each next state bit is computed from the slice's inputs and the state bit, for all assignments.
-/

namespace CC.Bristol
open CC CC.Spec CC.Spec.Bristol

/-! ### single assignment -/

/-- no line changes a wire that an earlier line has written or read -/
def ssa? : List GLine → Bool
  | [] => true
  | l :: ls => l.args.all (fun x => (x.beq l.out).not && ls.all fun m => (m.out.beq x).not) &&
    ls.all (fun m => (m.out.beq l.out).not) && ssa? ls

theorem exec_keep : ∀ {gs : List GLine} {e : Wires} {x : Nat}, (∀ l ∈ gs, l.out ≠ x) → exec gs e x = e x
  | [], _, _, _ => rfl
  | l :: ls, e, x, h => by
    show exec ls (l.exec e) x = _
    rw [exec_keep (fun m hm => h m (by simp [hm]))]
    unfold GLine.exec
    rw [if_neg (fun hx => h l (by simp) hx.symm)]

theorem vals_congr {e e' : Wires} : ∀ {xs : List Nat}, (∀ x ∈ xs, e x = e' x) → vals e xs = vals e' xs
  | [], _ => rfl
  | x :: xs, h => by
    unfold vals
    rw [h x (by simp), vals_congr (fun y hy => h y (by simp [hy]))]

theorem beq_false {a b : Nat} : Nat.beq a b = false ↔ a ≠ b := by
  rw [← Bool.not_eq_true, Nat.beq_eq]

theorem exec_eq : ∀ {gs : List GLine} {e : Wires}, ssa? gs = true → ∀ l ∈ gs,
    exec gs e l.out = (vals (exec gs e) l.args).bind l.op.fn
  | [], _, _, l, hl => by cases hl
  | m :: ls, e, h, l, hl => by
    simp only [ssa?, Bool.and_eq_true, List.all_eq_true, Bool.not_eq_true', beq_false] at h
    obtain ⟨⟨h1, h2⟩, h3⟩ := h
    rcases List.mem_cons.mp hl with rfl | hl
    · show exec ls (l.exec e) l.out = (vals (exec ls (l.exec e)) l.args).bind l.op.fn
      rw [exec_keep h2]
      have : vals (exec ls (l.exec e)) l.args = vals e l.args := by
        apply vals_congr
        intro x hx
        rw [exec_keep (h1 x hx).2]
        unfold GLine.exec
        rw [if_neg (h1 x hx).1]
      rw [this]
      unfold GLine.exec
      rw [if_pos rfl]
    · exact exec_eq (e := m.exec e) h3 l hl

/-! ### cones -/

mutual
/-- value of a wire, computed from the values of the leaves -/
def cone (gs : List GLine) (leaf : Nat → Option Bool) : Nat → Nat → Option Bool
  | 0, _ => none
  | n + 1, x =>
    match leaf x with
    | some b => some b
    | none =>
      match gs.find? (fun l => l.out.beq x) with
      | none => none
      | some l => (cones gs leaf n l.args).bind l.op.fn
/-- values of several wires -/
def cones (gs : List GLine) (leaf : Nat → Option Bool) : Nat → List Nat → Option (List Bool)
  | _, [] => some []
  | 0, _ :: _ => none
  | n + 1, x :: xs =>
    match cone gs leaf n x, cones gs leaf n xs with
    | some b, some bs => some (b :: bs)
    | _, _ => none
end

section
variable {gs : List GLine} {E : Wires} {leaf : Nat → Option Bool}

theorem cone_sound (hE : ∀ l ∈ gs, E l.out = (vals E l.args).bind l.op.fn) (hl : ∀ x b, leaf x = some b → E x = some b) :
    ∀ n, (∀ x b, cone gs leaf n x = some b → E x = some b) ∧ ∀ xs bs, cones gs leaf n xs = some bs → vals E xs = some bs := by
  intro n
  induction n with
  | zero =>
    refine ⟨fun x b h => ?_, fun xs bs h => ?_⟩
    · rw [cone] at h; cases h
    cases xs with
    | nil => rw [cones] at h; exact h
    | cons x xs => rw [cones] at h; cases h
  | succ n ih =>
    refine ⟨fun x b h => ?_, fun xs bs h => ?_⟩
    · rw [cone] at h
      split at h
      · next b' hb => cases h; exact hl x _ hb
      · split at h
        · cases h
        · next l hf =>
          have h1 := List.find?_some hf
          have h2 := List.mem_of_find?_eq_some hf
          simp only [Nat.beq_eq] at h1
          subst h1
          rw [hE l h2]
          cases hc : cones gs leaf n l.args with
          | none => rw [hc] at h; cases h
          | some bs => rw [hc] at h; rw [ih.2 _ _ hc]; exact h
    · cases xs with
      | nil => rw [cones] at h; exact h
      | cons x xs =>
        rw [cones] at h
        split at h
        · next b bs' h1 h2 =>
          cases h
          unfold vals
          rw [ih.1 _ _ h1, ih.2 _ _ h2]
        · cases h

end

/-! ### slices -/

/-- a slice: input wires, the wire that carries the state (possibly negated) and the output wire. In a slice without state
wire the state is `false`. -/
structure Slice where
  ins : List Nat
  st : Option (Nat × Bool)
  out : Nat

/-- all bit lists of a length -/
def allBits : Nat → List (List Bool)
  | 0 => [[]]
  | n + 1 => (allBits n).flatMap fun bs => [false :: bs, true :: bs]

theorem mem_allBits : ∀ bs : List Bool, bs ∈ allBits bs.length
  | [] => by simp [allBits]
  | b :: bs => by
    simp only [allBits, List.length_cons, List.mem_flatMap]
    exact ⟨bs, mem_allBits bs, by cases b <;> simp⟩

def assoc : List Nat → List Bool → Nat → Option Bool
  | i :: is, b :: bs, x => if x = i then some b else assoc is bs x
  | _, _, _ => none

def Slice.leaf (s : Slice) (bs : List Bool) (c : Bool) (x : Nat) : Option Bool :=
  match s.st with
  | none => assoc s.ins bs x
  | some (y, p) => if x = y then some (c != p) else assoc s.ins bs x

/-- checks one slice and its connection to the next one -/
def Slice.ok? (gs : List GLine) (fuel : Nat) (fo fn : List Bool → Bool → Bool) (s : Slice) (next : Option Slice) : Bool :=
  (allBits s.ins.length).all fun bs => (if s.st.isNone then [false] else [false, true]).all fun c =>
    cone gs (s.leaf bs c) fuel s.out == some (fo bs c) &&
    match next with
    | none => true
    | some s' =>
      match s'.st with
      | none => false
      | some (y, p) => cone gs (s.leaf bs c) fuel y == some (fn bs c != p)

def slices? (gs : List GLine) (fuel : Nat) (fo fn : List Bool → Bool → Bool) : List Slice → Bool
  | [] => true
  | s :: ss => s.ok? gs fuel fo fn ss.head? && slices? gs fuel fo fn ss

/-- the state before slice `i` -/
def stateAt (fn : List Bool → Bool → Bool) (inp : Nat → List Bool) (c : Bool) : Nat → Bool
  | 0 => c
  | i + 1 => fn (inp i) (stateAt fn inp c i)

theorem stateAt_shift (fn : List Bool → Bool → Bool) (inp : Nat → List Bool) (c : Bool) : ∀ i,
    stateAt fn inp c (i + 1) = stateAt fn (fun j => inp (j + 1)) (fn (inp 0) c) i
  | 0 => rfl
  | i + 1 => by
    show fn (inp (i + 1)) (stateAt fn inp c (i + 1)) = _
    rw [stateAt_shift fn inp c i]; rfl

theorem assoc_sound {E : Wires} : ∀ {is : List Nat} {bs : List Bool}, All2 (fun x b => E x = some b) is bs →
    ∀ x b, assoc is bs x = some b → E x = some b
  | [], [], _, x, b, h => by cases h
  | i :: is, b' :: bs, ha, x, b, h => by
    unfold assoc at h
    split at h
    · next hx => subst hx; cases h; exact ha.1
    · exact assoc_sound ha.2 x b h
  | [], _ :: _, ha, _, _, _ => ha.elim
  | _ :: _, [], ha, _, _, _ => ha.elim

/-- the state wire of a slice carries `c` -/
def Slice.Carries (E : Wires) (c : Bool) (s : Slice) : Prop :=
  match s.st with
  | none => c = false
  | some (y, p) => E y = some (c != p)

theorem slices_sound {gs : List GLine} {E : Wires} (hE : ∀ l ∈ gs, E l.out = (vals E l.args).bind l.op.fn) {fuel : Nat}
    {fo fn : List Bool → Bool → Bool} : ∀ {ss : List Slice} {inp : Nat → List Bool} {c : Bool},
    slices? gs fuel fo fn ss = true → (∀ i s, ss[i]? = some s → All2 (fun x b => E x = some b) s.ins (inp i)) →
    (∀ s, ss.head? = some s → s.Carries E c) →
    ∀ i s, ss[i]? = some s → E s.out = some (fo (inp i) (stateAt fn inp c i))
  | [], _, _, _, _, _, i, s, hs => by simp at hs
  | s0 :: ss, inp, c, h, hin, hst, i, s, hs => by
    simp only [slices?, Bool.and_eq_true] at h
    have hc := hst s0 rfl
    have hi0 := hin 0 s0 rfl
    have hleaf : ∀ x b, s0.leaf (inp 0) c x = some b → E x = some b := by
      intro x b hx
      unfold Slice.leaf at hx
      unfold Slice.Carries at hc
      split at hx
      · exact assoc_sound hi0 x b hx
      · next y p hy =>
        rw [hy] at hc
        split at hx
        · next hxy => subst hxy; cases hx; exact hc
        · exact assoc_sound hi0 x b hx
    have hs0 := h.1
    unfold Slice.ok? at hs0
    rw [List.all_eq_true] at hs0
    have hs1 := hs0 (inp 0) (by rw [hi0.length]; exact mem_allBits _)
    rw [List.all_eq_true] at hs1
    have hs2 := hs1 c (by
      unfold Slice.Carries at hc
      split
      · next hn =>
        rw [Option.isNone_iff_eq_none] at hn
        rw [hn] at hc
        simp [hc]
      · cases c <;> simp)
    rw [Bool.and_eq_true] at hs2
    obtain ⟨h1, h2⟩ := hs2
    have h1 := (cone_sound hE hleaf fuel).1 _ _ (by simpa using h1)
    cases i with
    | zero => cases hs; exact h1
    | succ i =>
      rw [stateAt_shift]
      refine slices_sound hE h.2 (inp := fun j => inp (j + 1)) (c := fn (inp 0) c) (fun j t ht => hin (j + 1) t ht) ?_ i s hs
      intro t ht
      rw [ht] at h2
      unfold Slice.Carries
      simp only [] at h2
      split at h2
      · cases h2
      · next y p hy =>
        exact (cone_sound hE hleaf fuel).1 _ _ (by simpa using h2)

/-- checks a ripple circuit: single assignment, inputs not assigned, slice `i` computes wire `base + i` -/
def ripple? (gs : List GLine) (numIn base fuel : Nat) (fo fn : List Bool → Bool → Bool) (ss : List Slice) : Bool :=
  ssa? gs && gs.all (fun l => numIn ≤ l.out) && slices? gs fuel fo fn ss &&
    (List.range ss.length).all (fun i => match ss[i]? with | some s => s.out == base + i | none => false) &&
    (match ss with | s :: _ => s.st.isNone | [] => true) && ss.all fun s => s.ins.all (· < numIn)

/-- the input bits of slice `j` -/
def sliceIns (ss : List Slice) (ins : List Bool) (j : Nat) : List Bool :=
  match ss[j]? with
  | some s => s.ins.map fun x => ins[x]?.getD false
  | none => []

theorem ripple_sound {gs : List GLine} {numIn base fuel : Nat} {fo fn : List Bool → Bool → Bool} {ss : List Slice}
    (h : ripple? gs numIn base fuel fo fn ss = true) {ins : List Bool} (hl : ins.length = numIn) {i : Nat}
    (hi : i < ss.length) : exec gs (inputWires ins) (base + i) =
      some (fo ((ss[i].ins).map fun x => ins[x]?.getD false) (stateAt fn (sliceIns ss ins) false i)) := by
  simp only [ripple?, Bool.and_eq_true, List.all_eq_true, decide_eq_true_eq] at h
  obtain ⟨⟨⟨⟨⟨h1, h2⟩, h3⟩, h4⟩, h5⟩, h6⟩ := h
  have hout : ss[i].out = base + i := by
    have := h4 i (by simpa using hi)
    rw [List.getElem?_eq_getElem hi] at this
    simpa using this
  rw [← hout]
  have hinp : ∀ x, x < numIn → exec gs (inputWires ins) x = some (ins[x]?.getD false) := by
    intro x hx
    rw [exec_keep (fun l hl' he => by have := h2 l hl'; omega)]
    show ins[x]? = _
    rw [List.getElem?_eq_getElem (by omega)]; rfl
  have := slices_sound (E := exec gs (inputWires ins)) (fun l hl => exec_eq h1 l hl) h3 (inp := sliceIns ss ins) (c := false) ?_ ?_ i ss[i] (List.getElem?_eq_getElem hi)
  · rw [this]
    simp only [sliceIns, List.getElem?_eq_getElem hi]
  · intro j s hj
    simp only [sliceIns, hj]
    have hs := h6 s (List.mem_of_getElem? hj)
    rw [all2_iff]
    refine ⟨by simp, ?_⟩
    intro k a b ha hb
    rw [List.getElem?_map, ha] at hb
    cases hb
    exact hinp a (hs a (List.mem_of_getElem? ha))
  · intro s hs
    cases ss with
    | nil => cases hs
    | cons s0 ss =>
      cases hs
      simp only [Option.isNone_iff_eq_none] at h5
      unfold Slice.Carries
      rw [h5]

end CC.Bristol
