import Verif.Proofs.Log
import Verif.Proofs.Readers
import Mathlib.Data.List.Perm.Subperm

/-!
# How many bits an evaluation stores (C80)
-/

namespace CC
open Spec

namespace Log

def total (fs : List Frame) : Nat := (fs.map (·.bits.length)).sum

theorem held_eq (l : List Event) : held l = total (frames l) := rfl

theorem frames_snoc (l : List Event) (e : Event) : frames (l ++ [e]) = replay (frames l) e := by
  simp [frames, List.foldl_append]

/-- what is stored in one evaluation of `c` -/
structure Bits (c : Circuit) (f : List (GateId × Nat)) : Prop where
  nodup : (f.map (·.1)).Nodup
  lt : ∀ p ∈ f, p.1 < c.gateIndex
  live : ∀ p ∈ f, p.2 < (c.dependedGates p.1).length ∨ (p.2 = 0 ∧ (c.dependedGates p.1).length = 0)

theorem Bits.length_le {c : Circuit} {f : List (GateId × Nat)} (h : Bits c f) : f.length ≤ c.gateIndex := by
  have := (List.subperm_of_subset h.nodup (l₂ := List.range c.gateIndex) fun g hg => ?_).length_le
  · simpa using this
  · obtain ⟨p, hp, rfl⟩ := List.mem_map.mp hg
    exact List.mem_range.mpr (h.lt p hp)

/-- what is stored after the events of `l` -/
structure Now (w : World) (M : Nat) (l : List Event) : Prop where
  held : held l ≤ M
  bits : ∀ f ∈ frames l, ∃ c, w.circs[f.circuit]? = some c ∧ Bits c f.bits
  told : ∀ p e, l = p ++ [e] → Told w (frames p) e

theorem told_last {w : World} {l : List Event} {e : Event} (h : Told w (frames l) e) :
    ∀ p e', l ++ [e] = p ++ [e'] → Told w (frames p) e' := by
  intro p e' he
  obtain ⟨rfl, h1⟩ := List.append_inj' he rfl
  cases h1
  exact h

/-- the same for all beginnings of `l` -/
def Below (w : World) (M : Nat) (l : List Event) : Prop := ∀ p, p <+: l → Now w M p

variable {w : World} {M : Nat} {rest : List Frame} {q : GateId → Nat}

theorem Below.snoc {l : List Event} {e : Event} (h : Below w M l) (he : Now w M (l ++ [e])) : Below w M (l ++ [e]) := by
  intro p hp
  rcases List.prefix_concat_iff.mp hp with rfl | hp
  · exact he
  · exact h p hp

theorem Below.now {l : List Event} (h : Below w M l) : Now w M l := h l (List.prefix_refl l)

/-- `x` never lets more than `M` bits be stored, and leads from `P` to `Q` -/
structure Trip {α : Type} (w : World) (M : Nat) (P : List Event → Prop) (x : L α) (Q : α → List Event → Prop) : Prop where
  run : ∀ l, Below w M l → P l → Below w M (x l).2 ∧ ∀ a, (x l).1 = .ok a → Q a (x l).2

theorem Trip.pure {α : Type} {P : List Event → Prop} {a : α} {Q : α → List Event → Prop} (h : ∀ l, P l → Q a l) :
    Trip w M P (Pure.pure a) Q := ⟨fun l hb hp => ⟨hb, fun b hb => by cases hb; exact h l hp⟩⟩

theorem Trip.throw {α : Type} {P : List Event → Prop} {e : Err} {Q : α → List Event → Prop} :
    Trip w M P (Log.throw e) Q := ⟨fun l hb _ => ⟨hb, fun b hb => by cases hb⟩⟩

theorem Trip.lift {α : Type} {P : List Event → Prop} {x : Except Err α} {Q : α → List Event → Prop}
    (h : ∀ a, x = .ok a → ∀ l, P l → Q a l) : Trip w M P (Log.lift x) Q :=
  ⟨fun l hb hp => ⟨hb, fun a ha => h a ha l hp⟩⟩

theorem Trip.bind {α β : Type} {P : List Event → Prop} {x : L α} {f : α → L β} {Q : α → List Event → Prop}
    {R : β → List Event → Prop} (h : Trip w M P x Q) (k : ∀ a, Trip w M (Q a) (f a) R) : Trip w M P (x >>= f) R := by
  refine ⟨fun l hb hp => ?_⟩
  obtain ⟨h1, h2⟩ := h.run l hb hp
  rw [bind_run]
  rcases e : x l with ⟨a, m⟩
  rw [e] at h1 h2
  cases a with
  | error e => exact ⟨h1, fun _ h => by cases h⟩
  | ok a => exact (k a).run m h1 (h2 a rfl)

theorem Trip.emit {α : Type} {P P' : List Event → Prop} {e : Event} {f : Unit → L α} {Q : α → List Event → Prop}
    (h : Trip w M P' (f ()) Q) (he : ∀ l, Below w M l → P l → Now w M (l ++ [e]) ∧ P' (l ++ [e])) :
    Trip w M P (Log.emit e >>= f) Q := by
  refine ⟨fun l hb hp => ?_⟩
  obtain ⟨h1, h2⟩ := he l hb hp
  exact h.run (l ++ [e]) (hb.snoc h1) h2

/-- the innermost evaluation is that of circuit `r` and stores what is in `st`; `rest` belongs to the others. `q x` is how often
`x` has been used for the gate that is being computed. -/
def Mid (q : GateId → Nat) (r : Ref) (c : Circuit) (rest : List Frame) (st : EvSt) (l : List Event) : Prop :=
  ∃ f d, frames l = ⟨r, f, d⟩ :: rest ∧ Bits c f ∧
    (∀ p ∈ f, (st.evaled p.1).isSome ∧ st.numDep p.1 = some ((c.dependedGates p.1).length - p.2)) ∧
    (∀ g, ((st.evaled g).isSome ∨ (st.numDep g).isSome) → g ∈ f.map (·.1)) ∧
    ∀ p ∈ f, p.2 = uses c p.1 d + q p.1

abbrev Mem (r : Ref) (c : Circuit) (rest : List Frame) (st : EvSt) (l : List Event) : Prop := Mid (fun _ => 0) r c rest st l

/-- an event that stores and drops nothing -/
theorem Mid.quiet {r : Ref} {c : Circuit} {st : EvSt} {e : Event} (he : ∀ fs, replay fs e = fs)
    (ht : ∀ l, Mid q r c rest st l → Told w (frames l) e) :
    ∀ l, Below w M l → Mid q r c rest st l → Now w M (l ++ [e]) ∧ Mid q r c rest st (l ++ [e]) := by
  intro l hb hm
  constructor
  · constructor
    · rw [held_eq, frames_snoc, he]; exact hb.now.held
    · rw [frames_snoc, he]; exact hb.now.bits
    · exact told_last (ht l hm)
  · unfold Mid; rw [frames_snoc, he]; exact hm

theorem Mid.head {r : Ref} {c : Circuit} {st : EvSt} {l : List Event} (h : Mid q r c rest st l) :
    ∃ f, (frames l).head? = some f ∧ f.circuit = r := by
  obtain ⟨f, d, h1, -⟩ := h
  exact ⟨⟨r, f, d⟩, by rw [h1]; rfl, rfl⟩

theorem Mid.look {r : Ref} {c : Circuit} {st : EvSt} {l : List Event} (h : Mid q r c rest st l) (g : GateId) :
    Told w (frames l) (.look r g (st.evaled g).isSome) := by
  obtain ⟨f, d, h1, -, h3, h4, -⟩ := h
  refine ⟨⟨r, f, d⟩, by rw [h1]; rfl, rfl, fun hg => ?_, fun ⟨k, hk⟩ => (h3 _ hk).1⟩
  obtain ⟨p, hp, rfl⟩ := List.mem_map.mp (h4 g (Or.inl hg))
  exact ⟨p.2, hp⟩

theorem Mid.counted {r : Ref} {c : Circuit} {st : EvSt} {l : List Event} (h : Mid q r c rest st l)
    (ht : Tracks c) (hc : w.circs[r]? = some c) {g : GateId} {k : Nat} (hd : st.numDep g = some (k + 1)) :
    Told w (frames l) (.count r g (k == 0)) := by
  obtain ⟨f, d, h1, h2, h3, h4, -⟩ := h
  obtain ⟨p, hp, rfl⟩ := List.mem_map.mp (h4 g (Or.inr (by rw [hd]; rfl)))
  refine ⟨⟨r, f, d⟩, c, p.2, by rw [h1]; rfl, rfl, hc, hp, ?_⟩
  have := (h3 p hp).2
  rw [hd] at this
  have := Option.some.inj this
  rw [← ht.list, beq_iff_eq]
  omega

theorem Now.of_mem {r : Ref} {c : Circuit} (hc : w.circs[r]? = some c) (hM : total rest + c.gateIndex ≤ M) {l : List Event}
    (hr : ∀ f ∈ rest, ∃ c, w.circs[f.circuit]? = some c ∧ Bits c f.bits) {st : EvSt} (h : Mid q r c rest st l)
    (ht : ∀ p e, l = p ++ [e] → Told w (frames p) e) : Now w M l := by
  obtain ⟨f, d, h1, h2, -⟩ := h
  refine ⟨?_, ?_, ht⟩
  · have := h2.length_le
    rw [held_eq, h1]
    simp only [total, List.map_cons, List.sum_cons] at hM ⊢
    omega
  · intro f' hf
    rw [h1] at hf
    rcases List.mem_cons.mp hf with rfl | hf
    · exact ⟨c, hc, h2⟩
    · exact hr f' hf

theorem Mid.others {r : Ref} {c : Circuit} {st : EvSt} {l : List Event} (h : Mid q r c rest st l) (hb : Below w M l) :
    ∀ f ∈ rest, ∃ c, w.circs[f.circuit]? = some c ∧ Bits c f.bits := by
  obtain ⟨f, d, h1, -⟩ := h
  exact fun f' hf => hb.now.bits f' (by rw [h1]; exact List.mem_cons_of_mem _ hf)

theorem Trip.bit (r : Ref) (c : Circuit) (st : EvSt) (id : GateId) :
    Trip w M (Mid q r c rest st) (Log.bit r st id) fun _ => Mid q r c rest st :=
  Trip.emit (Trip.lift fun _ _ _ h => h) (Mid.quiet (fun _ => rfl) fun _ h => h.head)

section
variable {r : Ref} {c : Circuit} (hc : w.circs[r]? = some c) (hM : total rest + c.gateIndex ≤ M)
include hc hM

theorem Trip.record (st : EvSt) {g : GateId} (hg : g < c.gateIndex) (b : Bool)
    (hq : ∀ x, q x = reads c g x) : Trip w M (Mid q r c rest st) (Log.record r st c g b) fun st' => Mem r c rest st' := by
  refine Trip.emit (P' := Mem r c rest (st.record c g b)) (Trip.pure fun _ h => h) fun l hb hm => ?_
  have hr := hm.others hb
  obtain ⟨f, d, h1, h2, h3, h4, h5⟩ := hm
  have ht : Told w (frames l) (.store r g) :=
    ⟨⟨r, f, d⟩, c, by rw [h1]; rfl, rfl, hc, fun x k hx => by rw [← hq]; exact h5 _ hx⟩
  have hmem : Mem r c rest (st.record c g b) (l ++ [.store r g]) := by
    refine ⟨(g, 0) :: f.filter (·.1 ≠ g), g :: d, ?_, ⟨?_, ?_, ?_⟩, ?_, ?_, ?_⟩
    · rw [frames_snoc, h1]; rfl
    · rw [List.map_cons, List.nodup_cons]
      constructor
      · simp
      · exact h2.nodup.sublist (List.filter_sublist.map _)
    · intro p hp
      rcases List.mem_cons.mp hp with rfl | hp
      · exact hg
      · exact h2.lt p (List.mem_filter.mp hp).1
    · intro p hp
      rcases List.mem_cons.mp hp with rfl | hp
      · rcases Nat.eq_zero_or_pos (c.dependedGates g).length with h | h
        · exact Or.inr ⟨rfl, h⟩
        · exact Or.inl h
      · exact h2.live p (List.mem_filter.mp hp).1
    · intro p hp
      rcases List.mem_cons.mp hp with rfl | hp
      · simp [EvSt.record, Map.insert]
      · have hne : p.1 ≠ g := by simpa using (List.mem_filter.mp hp).2
        simp only [EvSt.record, Map.insert, if_neg hne]
        exact h3 p (List.mem_filter.mp hp).1
    · intro x hx
      by_cases e : x = g
      · simp [e]
      · simp only [EvSt.record, Map.insert, if_neg e] at hx
        obtain ⟨p, hp, rfl⟩ := List.mem_map.mp (h4 x hx)
        exact List.mem_map.mpr ⟨p, List.mem_cons_of_mem _ (List.mem_filter.mpr ⟨hp, by simpa using e⟩), rfl⟩
    · intro p hp
      rcases List.mem_cons.mp hp with rfl | hp
      · simp [uses]
      · have hne : p.1 ≠ g := by simpa using (List.mem_filter.mp hp).2
        have := h5 p (List.mem_filter.mp hp).1
        rw [uses, if_neg (Ne.symm hne), this, hq]; show _ = _ + 0; omega
  exact ⟨Now.of_mem hc hM hr hmem (told_last ht), hmem⟩

theorem Trip.release (ht : Tracks c) (st : EvSt) (id : GateId) :
    Trip w M (Mid q r c rest st) (Log.release r st id) fun st' => Mid (fun x => q x + [id].count x) r c rest st' := by
  unfold Log.release
  cases hd : st.numDep id with
  | none => exact Trip.throw
  | some k =>
    cases k with
    | zero => exact Trip.throw
    | succ k =>
      simp only
      by_cases hk : k = 0
      · rw [if_pos hk]
        refine Trip.emit (P' := Mid (fun x => q x + [id].count x) r c rest { evaled := st.evaled.remove id, numDep := (st.numDep.insert id k).remove id })
          (Trip.pure fun _ h => h) fun l hb hm => ?_
        have hr := hm.others hb
        have htold := hm.counted ht hc hd
        obtain ⟨f, d, h1, h2, h3, h4, h5⟩ := hm
        have hmem : Mid (fun x => q x + [id].count x) r c rest { evaled := st.evaled.remove id, numDep := (st.numDep.insert id k).remove id }
            (l ++ [.count r id (k == 0)]) := by
          refine ⟨f.filter (·.1 ≠ id), d, ?_, ⟨?_, ?_, ?_⟩, ?_, ?_, ?_⟩
          · rw [frames_snoc, h1]; simp [replay, use, hk]
          · exact h2.nodup.sublist (List.filter_sublist.map _)
          · exact fun p hp => h2.lt p (List.mem_filter.mp hp).1
          · exact fun p hp => h2.live p (List.mem_filter.mp hp).1
          · intro p hp
            have hne : p.1 ≠ id := by simpa using (List.mem_filter.mp hp).2
            simp only [Map.remove, Map.insert, if_neg hne]
            exact h3 p (List.mem_filter.mp hp).1
          · intro x hx
            by_cases e : x = id
            · simp [e, Map.remove] at hx
            · simp only [Map.remove, Map.insert, if_neg e] at hx
              obtain ⟨p, hp, rfl⟩ := List.mem_map.mp (h4 x hx)
              exact List.mem_map.mpr ⟨p, List.mem_filter.mpr ⟨hp, by simpa using e⟩, rfl⟩
          · intro p hp
            have hne : p.1 ≠ id := by simpa using (List.mem_filter.mp hp).2
            rw [h5 p (List.mem_filter.mp hp).1]
            show _ = _ + (q p.1 + [id].count p.1)
            rw [List.count_eq_zero_of_not_mem (by simpa using hne)]; rfl
        exact ⟨Now.of_mem hc hM hr hmem (told_last htold), hmem⟩
      · rw [if_neg hk]
        refine Trip.emit (P' := Mid (fun x => q x + [id].count x) r c rest { st with numDep := st.numDep.insert id k })
          (Trip.pure fun _ h => h) fun l hb hm => ?_
        have hr := hm.others hb
        have htold := hm.counted ht hc hd
        obtain ⟨f, d, h1, h2, h3, h4, h5⟩ := hm
        have hkeys : (f.map fun p => if p.1 = id then (id, p.2 + 1) else p).map (·.1) = f.map (·.1) := by
          rw [List.map_map]
          refine List.map_congr_left fun p _ => ?_
          simp only [Function.comp]
          split
          · next e => exact e.symm
          · rfl
        have hmem : Mid (fun x => q x + [id].count x) r c rest { st with numDep := st.numDep.insert id k } (l ++ [.count r id (k == 0)]) := by
          refine ⟨f.map fun p => if p.1 = id then (id, p.2 + 1) else p, d, ?_, ⟨?_, ?_, ?_⟩, ?_, ?_, ?_⟩
          · rw [frames_snoc, h1]; simp [replay, use, hk]
          · rw [hkeys]; exact h2.nodup
          · intro p hp
            have : p.1 ∈ f.map (·.1) := hkeys ▸ List.mem_map_of_mem hp
            obtain ⟨q, hq, e⟩ := List.mem_map.mp this
            exact e ▸ h2.lt q hq
          · intro p hp
            obtain ⟨q, hq, rfl⟩ := List.mem_map.mp hp
            split
            · next e =>
              have := (h3 q hq).2
              rw [e, hd] at this
              have := Option.some.inj this
              left; simp only; omega
            · exact h2.live q hq
          · intro p hp
            obtain ⟨q, hq, rfl⟩ := List.mem_map.mp hp
            split
            · next e =>
              obtain ⟨h5, h6⟩ := h3 q hq
              rw [e] at h5 h6
              rw [hd] at h6
              have := Option.some.inj h6
              refine ⟨h5, ?_⟩
              simp only [Map.insert, if_pos, Option.some.injEq]
              omega
            · next e =>
              simp only [Map.insert, if_neg e]
              exact h3 q hq
          · intro x hx
            rw [hkeys]
            refine h4 x ?_
            rcases hx with hx | hx
            · exact Or.inl hx
            · right
              by_cases e : x = id
              · rw [e, hd]; rfl
              · simpa only [Map.insert, if_neg e] using hx
          · intro p hp
            obtain ⟨p, hq, rfl⟩ := List.mem_map.mp hp
            have := h5 p hq
            split
            · next e => simp only [List.count_singleton_self]; rw [this, e]; omega
            · next e =>
              rw [this]
              show _ = _ + (q p.1 + [id].count p.1)
              rw [List.count_eq_zero_of_not_mem (by simpa using e)]; rfl
        exact ⟨Now.of_mem hc hM hr hmem (told_last htold), hmem⟩

/-- a step of the innermost evaluation -/
def Stays (w : World) (M : Nat) (r : Ref) (c : Circuit) (rest : List Frame) (eg : GateId → EvSt → L EvSt) : Prop :=
  ∀ g st, Trip w M (Mem r c rest st) (eg g st) fun st' => Mem r c rest st'

omit hc hM in
theorem Stays.ensure {eg : GateId → EvSt → L EvSt} (he : Stays w M r c rest eg) (id : GateId) (st : EvSt) :
    Trip w M (Mem r c rest st) (Log.ensure r eg id st) fun st' => Mem r c rest st' := by
  unfold Log.ensure
  refine Trip.emit (P' := Mem r c rest st) ?_ (Mid.quiet (fun _ => rfl) fun _ h => h.look id)
  cases st.evaled id with
  | none => exact he id st
  | some _ => exact Trip.pure fun _ h => h

omit hc hM in
theorem Mid.congr {q q' : GateId → Nat} (h : ∀ x, q x = q' x) {r : Ref} {c : Circuit} {st : EvSt} {l : List Event}
    (hm : Mid q r c rest st l) : Mid q' r c rest st l := by
  have : q = q' := funext h
  exact this ▸ hm

theorem Trip.releaseAll (ht : Tracks c) : ∀ (ids : List GateId) (q : GateId → Nat) (st : EvSt),
    Trip w M (Mid q r c rest st) (Log.releaseAll r ids st) fun st' => Mid (fun x => q x + ids.count x) r c rest st'
  | [], _, _ => Trip.pure fun _ h => h
  | id :: ids, q, st => by
    unfold Log.releaseAll
    refine (Trip.release hc hM ht st id).bind fun st => ?_
    refine ⟨fun l hb hm => ?_⟩
    obtain ⟨h1, h2⟩ := (Trip.releaseAll ht ids _ st).run l hb hm
    refine ⟨h1, fun a ha => (h2 a ha).congr fun x => ?_⟩
    simp only [List.count_cons, List.count_nil]; omega

omit hc hM in
theorem Stays.collectBits {eg : GateId → EvSt → L EvSt} (he : Stays w M r c rest eg) :
    ∀ (ids : List GateId) (st : EvSt),
      Trip w M (Mem r c rest st) (Log.collectBits r eg ids st) fun p => Mem r c rest p.2
  | [], _ => Trip.pure fun _ h => h
  | id :: ids, st => by
    unfold Log.collectBits
    refine (he.ensure id st).bind fun st => (Trip.bit r c st id).bind fun b => (he.collectBits ids st).bind fun p => ?_
    exact Trip.pure fun _ h => h

theorem Trip.recordOutputs (first : GateId) (outs : List Bool) :
    ∀ (k i : Nat) (q : GateId → Nat) (st : EvSt), (∀ j, i ≤ j → j < i + k → first + j < c.gateIndex) →
      (0 < k → ∀ x, q x = reads c (first + i) x) → (∀ j, i < j → j < i + k → ∀ x, reads c (first + j) x = 0) →
      (k = 0 → ∀ x, q x = 0) →
      Trip w M (Mid q r c rest st) (Log.recordOutputs r c first outs i k st) fun st' => Mem r c rest st'
  | 0, _, _, _, _, _, _, h0 => Trip.pure fun _ h => h.congr (h0 rfl)
  | k + 1, i, q, st, hk, hq, hr, _ => by
    unfold Log.recordOutputs
    cases outs[i]? with
    | none => exact Trip.throw
    | some b =>
      exact (Trip.record hc hM st (hk i (Nat.le_refl i) (by omega)) b (hq (by omega))).bind fun st =>
        Trip.recordOutputs first outs k (i + 1) _ st (fun j h1 h2 => hk j (by omega) (by omega))
          (fun hk x => (hr (i + 1) (by omega) (by omega) x).symm) (fun j h1 h2 => hr j (by omega) (by omega)) fun _ _ => rfl

theorem Stays.evalBinary (ht : Tracks c) {eg : GateId → EvSt → L EvSt} (he : Stays w M r c rest eg)
    (op : Bool → Bool → Bool) {g : GateId} (hg : g < c.gateIndex) {x y : GateId}
    (hr : ∀ z, reads c g z = [x, y].count z) (st : EvSt) : Trip w M (Mem r c rest st) (Log.evalBinary r c eg op g x y st) fun st' => Mem r c rest st' := by
  unfold Log.evalBinary
  exact (he.ensure x st).bind fun st => (he.ensure y st).bind fun st => (Trip.bit r c st x).bind fun _ =>
    (Trip.bit r c st y).bind fun _ => (Trip.release hc hM ht st x).bind fun st => (Trip.release hc hM ht st y).bind fun st =>
      Trip.record hc hM st hg _ fun z => by rw [hr]; simp only [List.count_cons, List.count_nil]; omega

theorem Trip.seedInputs (hi : ∀ i g, c.inputMap i = some g → c.gateMap g = some (.input i) ∧ g < c.gateIndex) :
    ∀ (bs : List Bool) (i : WireId) (st : EvSt),
      Trip w M (Mem r c rest st) (Log.seedInputs r c i bs st) fun st' => Mem r c rest st'
  | [], _, _ => Trip.pure fun _ h => h
  | b :: bs, i, st => by
    unfold Log.seedInputs
    cases hi' : c.inputMap i with
    | none => exact Trip.throw
    | some g =>
      exact (Trip.record hc hM st (hi i g hi').2 b (fun x => by simp [reads, (hi i g hi').1, Gate.operands])).bind fun st => Trip.seedInputs hi bs (i + 1) st

omit hc hM in
theorem Stays.evalSingleOutput {eg : GateId → EvSt → L EvSt} (he : Stays w M r c rest eg)
    (inputs : List Bool) (i : WireId) (st : EvSt) :
    Trip w M (Mem r c rest st) (Log.evalSingleOutput r c eg inputs i st) fun p => Mem r c rest p.2 := by
  unfold Log.evalSingleOutput
  split
  · exact Trip.throw
  split
  · exact Trip.throw
  cases c.outputMap i with
  | none => exact Trip.throw
  | some g =>
    simp only
    refine Trip.emit (P' := Mem r c rest st) ?_ (Mid.quiet (fun _ => rfl) fun _ h => h.look g)
    cases st.evaled g with
    | some b => exact Trip.emit (P' := Mem r c rest st) (Trip.pure fun _ h => h) (Mid.quiet (fun _ => rfl) fun _ h => h.head)
    | none => exact (he g st).bind fun st => (Trip.bit r c st g).bind fun _ => Trip.pure fun _ h => h

omit hc hM in
theorem Stays.evalOutputs {eg : GateId → EvSt → L EvSt} (he : Stays w M r c rest eg)
    (inputs : List Bool) : ∀ (k i : Nat) (st : EvSt),
    Trip w M (Mem r c rest st) (Log.evalOutputs r c eg inputs i k st) fun _ l => ∃ st', Mem r c rest st' l
  | 0, _, st => Trip.pure fun _ h => ⟨st, h⟩
  | k + 1, i, st => by
    unfold Log.evalOutputs
    exact (he.evalSingleOutput inputs i st).bind fun p => (he.evalOutputs inputs k (i + 1) p.2).bind fun _ =>
      Trip.pure fun _ h => h

theorem Stays.evalOutputWith {eg : GateId → EvSt → L EvSt} (he : Stays w M r c rest eg)
    (hi : ∀ i g, c.inputMap i = some g → c.gateMap g = some (.input i) ∧ g < c.gateIndex) (inputs : List Bool) :
    Trip w M (fun l => frames l = rest) (Log.evalOutputWith r c eg inputs) fun _ l => frames l = rest := by
  unfold Log.evalOutputWith
  refine Trip.emit (P' := Mem r c rest EvSt.empty) ?_ fun l hb hl => ?_
  · split
    · exact Trip.throw
    · refine (Trip.seedInputs hc hM hi _ _ _).bind fun st => (he.evalOutputs inputs _ _ st).bind fun outs => ?_
      refine Trip.emit (P' := fun l => frames l = rest) (Trip.pure fun _ h => h) fun l hb hl => ?_
      obtain ⟨st', hm⟩ := hl
      have hr := hm.others hb
      have ht := hm.head
      obtain ⟨f, d, h1, -⟩ := hm
      have h2 : frames (l ++ [.leave r]) = rest := by rw [frames_snoc, h1]; rfl
      exact ⟨⟨by rw [held_eq, h2]; omega, by rw [h2]; exact hr, told_last ht⟩, h2⟩
  · have hm : Mem r c rest EvSt.empty (l ++ [.enter r]) :=
      ⟨[], [], by rw [frames_snoc, hl]; rfl, ⟨List.nodup_nil, by simp, by simp⟩, by simp, by simp [EvSt.empty, Map.empty], by simp⟩
    exact ⟨Now.of_mem hc hM (fun f hf => hb.now.bits f (hl ▸ hf)) hm (told_last trivial), hm⟩

end

theorem circuit_eq {w : World} {r : Ref} {c : Circuit} (h : w.circuit r = .ok c) : w.circs[r]? = some c := by
  unfold World.circuit at h
  split at h
  · cases h
  · next e => cases h; exact e

theorem evalGate_stays {w : World} (hw : WFw w) (htr : ∀ (r : Ref) c, w.circs[r]? = some c → Tracks c) : ∀ (fuel : Nat) {r : Ref} {N : Nat}, Space w r N → ∀ {c : Circuit},
    w.circs[r]? = some c → ∀ {M : Nat} {rest : List Frame}, total rest + N ≤ M →
      Stays w M r c rest (Log.evalGate w fuel r)
  | 0, _, _, _, _, _, _, _, _ => fun _ _ => Trip.throw
  | fuel + 1, r, N, hs, c, hc, M, rest, hM => by
    intro g st
    have ih := evalGate_stays hw htr fuel hs hc hM
    have hwf := hw.circ r c hc
    have ht := htr r c hc
    cases hs with
    | @mk _ c' m _ hc' hcalls hN =>
    rw [hc] at hc'; cases hc'
    have hMn : total rest + c.gateIndex ≤ M := by omega
    unfold Log.evalGate
    refine Trip.bind (Q := fun d l => d = c ∧ Mem r c rest st l) (Trip.lift fun d hd l hl => ?_) fun d => ?_
    · have := circuit_eq hd
      rw [hc] at this; cases this
      exact ⟨rfl, hl⟩
    refine ⟨fun l hb ⟨hd, hl⟩ => ?_⟩
    subst hd
    refine Trip.run (Q := fun st' => Mem r d rest st') ?_ l hb hl
    cases hg : d.gateMap g with
    | none => exact Trip.throw
    | some gate =>
      have hlt := hwf.lt_of_some hg
      cases gate with
      | input _ => exact Trip.pure fun _ h => h
      | const v => exact Trip.emit (P' := Mem r d rest st) (Trip.record hc hMn st hlt v fun x => by simp [reads, hg, Gate.operands]) (Mid.quiet (fun _ => rfl) fun _ h => h.head)
      | not x =>
        exact Trip.emit (P' := Mem r d rest st) ((ih.ensure x st).bind fun st => (Trip.bit r d st x).bind fun _ =>
          (Trip.release hc hMn ht st x).bind fun st => Trip.record hc hMn st hlt _ fun z => by simp [reads, hg, Gate.operands]) (Mid.quiet (fun _ => rfl) fun _ h => h.head)
      | xor x y => exact Trip.emit (P' := Mem r d rest st) (Stays.evalBinary hc hMn ht ih _ hlt (fun z => by simp [reads, hg, Gate.operands]) st) (Mid.quiet (fun _ => rfl) fun _ h => h.head)
      | and x y => exact Trip.emit (P' := Mem r d rest st) (Stays.evalBinary hc hMn ht ih _ hlt (fun z => by simp [reads, hg, Gate.operands]) st) (Mid.quiet (fun _ => rfl) fun _ h => h.head)
      | or x y => exact Trip.emit (P' := Mem r d rest st) (Stays.evalBinary hc hMn ht ih _ hlt (fun z => by simp [reads, hg, Gate.operands]) st) (Mid.quiet (fun _ => rfl) fun _ h => h.head)
      | module nIn nOut ids oi mid =>
        obtain ⟨h1, h2, h3⟩ := hwf.group g nIn nOut ids oi mid hg
        refine Trip.emit (P' := Mem r d rest st) ((ih.collectBits ids st).bind fun p => ?_) (Mid.quiet (fun _ => rfl) fun _ h => h.head)
        simp only
        cases hm : w.module? d mid with
        | none => exact Trip.throw
        | some mr =>
          have hsm := hcalls mr ⟨g, nIn, nOut, ids, oi, mid, hg, hm⟩
          refine Trip.bind (Q := fun mc l => w.circs[mr]? = some mc ∧ Mem r d rest p.2 l)
            (Trip.lift fun mc hmc l hl => ⟨circuit_eq hmc, hl⟩) fun mc => ?_
          refine Trip.bind (Q := fun _ => Mem r d rest p.2) ?_ fun outs =>
            (Trip.releaseAll hc hMn ht ids _ p.2).bind fun st => ?_
          · refine ⟨fun l hb ⟨hmc, f, dn, hf, hbits, hlink⟩ => ?_⟩
            have hle := hbits.length_le
            have htot : total (⟨r, f, dn⟩ :: rest) + m ≤ M := by
              simp only [total, List.map_cons, List.sum_cons] at hM ⊢
              omega
            have hsz : mc.gateIndex ≤ m := by
              cases hsm with
              | @mk _ c' _ _ hc' _ h => rw [hmc] at hc'; cases hc'; omega
            have hwm := hw.circ mr mc hmc
            obtain ⟨k1, k2⟩ := (Stays.evalOutputWith hmc (by omega) (evalGate_stays hw htr fuel hsm hmc htot)
              (fun i g hi => ⟨(hwm.input_iff i g).mp hi, hwm.lt_of_some ((hwm.input_iff i g).mp hi)⟩) p.1).run l hb hf
            exact ⟨k1, fun a ha => ⟨f, dn, k2 a ha, hbits, hlink⟩⟩
          · split
            · exact Trip.throw
            · refine Trip.recordOutputs hc hMn _ outs _ _ _ st (fun j _ hj => hwf.lt_of_some (h3 j (by omega))) (fun h x => ?_)
                (fun j h _ x => ?_) fun h => by omega
              · have := h3 0 h
                rw [Nat.add_zero] at this
                simp [reads, this]
              · simp [reads, h3 j (by omega)]; omega

theorem log_trip {w : World} (hw : WFw w) (htr : ∀ (r : Ref) c, w.circs[r]? = some c → Tracks c) {r : Ref} {N : Nat}
    (hs : Space w r N) (fuel : Nat) (ins : List Bool) :
    Trip w N (fun l => frames l = []) (Log.evalOutput w fuel r ins) fun _ l => frames l = [] := by
  obtain ⟨c, hc, hN⟩ : ∃ c, w.circs[r]? = some c ∧ c.gateIndex ≤ N := by
    cases hs with
    | mk hc _ h => exact ⟨_, hc, by omega⟩
  have hwf := hw.circ r c hc
  have h := Stays.evalOutputWith hc (M := N) (rest := []) (by simpa [total] using hN)
    (evalGate_stays hw htr fuel hs hc (by simp [total])) (fun i g hi => ⟨(hwf.input_iff i g).mp hi, hwf.lt_of_some ((hwf.input_iff i g).mp hi)⟩) ins
  have e : w.circuit r = .ok c := by unfold World.circuit; rw [hc]
  unfold evalOutput
  rw [e]
  exact h

theorem below_nil {w : World} {N : Nat} : Below w N [] := fun p hp => by
  rw [List.prefix_nil.mp hp]; exact ⟨by simp [held, frames], by simp [frames], fun p e h => by simp at h⟩

theorem log_below {w : World} (hw : WFw w) (htr : ∀ (r : Ref) c, w.circs[r]? = some c → Tracks c) {r : Ref} {N : Nat}
    (hs : Space w r N) (fuel : Nat) (ins : List Bool) : Below w N (log w fuel r ins) :=
  ((log_trip hw htr hs fuel ins).run [] below_nil rfl).1

theorem log_freed {w : World} (hw : WFw w) (htr : ∀ (r : Ref) c, w.circs[r]? = some c → Tracks c) {r : Ref} {N : Nat}
    (hs : Space w r N) {fuel : Nat} {ins outs : List Bool} (ho : (Log.evalOutput w fuel r ins []).1 = .ok outs) :
    frames (log w fuel r ins) = [] := ((log_trip hw htr hs fuel ins).run [] below_nil rfl).2 outs ho

end Log
end CC
