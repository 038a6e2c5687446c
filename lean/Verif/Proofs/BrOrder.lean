import Verif.Proofs.BrMirror
import Verif.Spec.Order

/-!
# The order in which the writer numbers the gates
-/

namespace CC.Spec
open CC.Bristol

/-! ### `Visit` -/

theorem Visit.det {c : Circuit} {d t d1 : List GateId} (h : Visit c d t d1) : ∀ {d2}, Visit c d t d2 → d1 = d2 := by
  induction h with
  | nil d => intro d2 k; cases k; rfl
  | seen hg _ ih =>
    intro d2 k
    cases k with
    | seen _ k => exact ih k
    | new hn _ _ _ => exact absurd hg hn
  | new hn hg _ _ ih1 ih2 =>
    intro d2 k
    cases k with
    | seen hs _ => exact absurd hs hn
    | new _ hg' k1 k2 =>
      rw [hg] at hg'; cases hg'
      rw [ih1 k1] at ih2
      exact ih2 k2

theorem Visit.append {c : Circuit} {d t m : List GateId} (h : Visit c d t m) : ∀ {u d'}, Visit c m u d' → Visit c d (t ++ u) d' := by
  induction h with
  | nil d => intro u d' k; exact k
  | seen hg _ ih => intro u d' k; exact .seen hg (ih k)
  | new hn hg k1 _ _ ih2 => intro u d' k; exact .new hn hg k1 (ih2 k)

theorem Visit.prefix {c : Circuit} {d t d' : List GateId} (h : Visit c d t d') : d <+: d' := by
  induction h with
  | nil d => exact List.prefix_refl _
  | seen _ _ ih => exact ih
  | new _ _ _ _ ih1 ih2 => exact ih1.trans ((List.prefix_append _ _).trans ih2)

theorem Visit.listed {c : Circuit} {d t d' : List GateId} (h : Visit c d t d') : ∀ g ∈ t, g ∈ d' := by
  induction h with
  | nil d => simp
  | seen hg k ih =>
    intro g hg'
    rcases List.mem_cons.mp hg' with rfl | hg'
    · exact k.prefix.subset hg
    · exact ih g hg'
  | new _ _ _ k _ ih =>
    intro g hg'
    rcases List.mem_cons.mp hg' with rfl | hg'
    · exact k.prefix.subset (by simp)
    · exact ih g hg'

/-- everything newly listed is asked for or is an operand of a gate -/
theorem Visit.source {c : Circuit} {d t d' : List GateId} (h : Visit c d t d') : ∀ g ∈ d', g ∈ d ∨ g ∈ t ∨
    ∃ a gate, c.gateMap a = some gate ∧ g ∈ gate.operands := by
  induction h with
  | nil d => exact fun g h => .inl h
  | seen hg k ih =>
    intro g h
    rcases ih g h with h | h | h
    · exact .inl h
    · exact .inr (.inl (List.mem_cons_of_mem _ h))
    · exact .inr (.inr h)
  | new _ hgate _ _ ih1 ih2 =>
    intro g h
    rcases ih2 g h with h | h | h
    · rcases List.mem_append.mp h with h | h
      · rcases ih1 g h with h | h | h
        · exact .inl h
        · exact .inr (.inr ⟨_, _, hgate, h⟩)
        · exact .inr (.inr h)
      · rw [List.mem_singleton] at h; subst h; exact .inr (.inl (List.mem_cons_self ..))
    · exact .inr (.inl (List.mem_cons_of_mem _ h))
    · exact .inr (.inr h)

/-- what is newly listed has numbers up to those asked for -/
theorem Visit.bound {c : Circuit} (ht : Topo c) (hp : ∀ g gate, c.gateMap g = some gate → (∃ k, gate = .input k) ∨ ∃ op, OpOf gate op)
    {d t d' : List GateId} (h : Visit c d t d') : ∀ g ∈ d', g ∈ d ∨ ∃ a ∈ t, g ≤ a := by
  induction h with
  | nil d => exact fun g h => .inl h
  | seen hg k ih =>
    intro g h
    rcases ih g h with h | ⟨a, h1, h2⟩
    · exact .inl h
    · exact .inr ⟨a, List.mem_cons_of_mem _ h1, h2⟩
  | @new _ b _ gate _ _ _ hgate _ _ ih1 ih2 =>
    intro g h
    rcases ih2 g h with h | ⟨a, h1, h2⟩
    · rcases List.mem_append.mp h with h | h
      · rcases ih1 g h with h | ⟨a, h1, h2⟩
        · exact .inl h
        · refine .inr ⟨b, List.mem_cons_self .., ?_⟩
          have := ht b gate hgate a h1
          have e : lead b gate = b := by
            rcases hp b gate hgate with ⟨k, rfl⟩ | ⟨op, ho⟩
            · rfl
            · cases ho <;> rfl
          omega
      · rw [List.mem_singleton] at h; subst h; exact .inr ⟨_, List.mem_cons_self .., Nat.le_refl _⟩
    · exact .inr ⟨a, List.mem_cons_of_mem _ h1, h2⟩

theorem Visit.skip {c : Circuit} {d : List GateId} : ∀ {t : List GateId}, (∀ g ∈ t, g ∈ d) → Visit c d t d
  | [], _ => .nil d
  | g :: _, h => .seen (h g (List.mem_cons_self ..)) (Visit.skip fun x hx => h x (List.mem_cons_of_mem _ hx))

/-- gates whose operands are all listed are appended in order -/
theorem Visit.appends {c : Circuit} {d t d' : List GateId} (h : Visit c d t d') : t.Nodup →
    (∀ g ∈ t, ∀ gate, c.gateMap g = some gate → ∀ x ∈ gate.operands, x ∈ d) → d' = d ++ t.filter (fun g => decide (g ∉ d)) := by
  induction h with
  | nil d => intros; simp
  | seen hg _ ih =>
    intro hn hx
    rw [ih hn.of_cons fun g h => hx g (List.mem_cons_of_mem _ h), List.filter_cons_of_neg (by simpa using hg)]
  | @new d g t gate mid d' hg hgate k1 _ ih1 ih2 =>
    intro hn hx
    have e : d = mid := (Visit.skip (hx g (List.mem_cons_self ..) gate hgate)).det k1
    subst e
    rw [ih2 hn.of_cons fun a h gate hg x hx' => List.mem_append_left _ (hx a (List.mem_cons_of_mem _ h) gate hg x hx'),
      List.filter_cons_of_pos (by simpa using hg), List.append_assoc]
    congr 1
    rw [List.singleton_append]
    congr 1
    apply List.filter_congr
    intro a ha
    have : a ≠ g := by rintro rfl; exact (List.nodup_cons.mp hn).1 ha
    simp [this]

end CC.Spec

namespace CC.Bristol
open CC.Spec CC.Spec.Bristol

/-! ### the writer -/

/-- the wires of the gates are their positions in `L` -/
structure Lists (s : WS) (L : List GateId) : Prop where
  wire : ∀ g x, s.2 g = some x ↔ L[x]? = some g
  num : s.1.numWire = L.length

theorem Lists.mem {s : WS} {L : List GateId} (h : Lists s L) {g : GateId} : g ∈ L ↔ s.2 g ≠ none := by
  rw [List.mem_iff_getElem?]
  constructor
  · rintro ⟨x, hx⟩
    rw [(h.wire g x).mpr hx]; simp
  · intro hg
    obtain ⟨x, hx⟩ := Option.ne_none_iff_exists'.mp hg
    exact ⟨x, (h.wire g x).mp hx⟩

/-- from `s` to `s1` the gates `t` were visited -/
def Went (c : Circuit) (t : List GateId) (s s1 : WS) : Prop :=
  ∀ L, Lists s L → (∀ g k, c.gateMap g = some (.input k) → g ∈ L) → ∃ L', Lists s1 L' ∧ Visit c L t L'

section
variable {c : Circuit}

theorem Went.trans {t u : List GateId} {s s1 s2 : WS} (h1 : Went c t s s1) (h2 : Went c u s1 s2) : Went c (t ++ u) s s2 := by
  intro L hL hi
  obtain ⟨L1, k1, k2⟩ := h1 L hL hi
  obtain ⟨L2, k3, k4⟩ := h2 L1 k1 fun g k hg => k2.prefix.subset (hi g k hg)
  exact ⟨L2, k3, k2.append k4⟩

def WentGate (c : Circuit) (wg : WriteGate) : Prop :=
  ∀ g gate s s1, c.gateMap g = some gate → s.2 g = none → wg g gate s = .ok s1 → Went c [g] s s1

theorem ensureWire_went {wg : WriteGate} (hg : WentGate c wg) {id : GateId} {s s1 : WS}
    (h : ensureWire c wg id s = .ok s1) : Went c [id] s s1 := by
  unfold ensureWire at h
  split at h
  · next x hx =>
    cases h
    exact fun L hL _ => ⟨L, hL, .seen (hL.mem.mpr (by rw [hx]; simp)) (.nil L)⟩
  · next hno =>
    split at h
    · cases h
    · next gate hgate => exact hg id gate s s1 hgate hno h

theorem ensureWires_went {wg : WriteGate} (hg : WentGate c wg) : ∀ {ids : List GateId} {s s1 : WS},
    ensureWires c wg ids s = .ok s1 → Went c ids s s1
  | [], s, s1, h => by cases h; exact fun L hL _ => ⟨L, hL, .nil L⟩
  | id :: ids, s, s1, h => by
    unfold ensureWires at h
    obtain ⟨s2, e1, e2⟩ := ok_bind h
    exact (ensureWire_went hg e1).trans (ensureWires_went hg e2)

theorem writeGate_went {w : World} {r : Ref} (hc : w.circs[r]? = some c) (ht : Topo c) (hf : Flat c) : ∀ fuel,
    WentGate c (writeGate w fuel r)
  | 0, g, gate, s, s1, _, _, h => by cases h
  | fuel + 1, g, gate, s, s1, hgate, hno, h => by
    intro L hL hi
    rcases hf g gate hgate with ⟨k, rfl⟩ | ⟨op, ho⟩
    · exact absurd hno (hL.mem.mp (hi g k hgate))
    · have e : writeGate w (fuel + 1) r g gate s = (do
          let s ← ensureWires c (writeGate w fuel r) gate.operands s
          let ws ← wiresOf s.2 gate.operands
          .ok (updateWire g (some ws) (gateStr gate) s)) := by
        unfold writeGate
        rw [bind_of_ok (circuit_of hc)]
        cases ho <;> rfl
      rw [e] at h
      obtain ⟨s2, e1, h⟩ := ok_bind h
      obtain ⟨ws, e2, h⟩ := ok_bind h
      cases h
      obtain ⟨L2, k1, k2⟩ := ensureWires_went (writeGate_went hc ht hf fuel) e1 L hL hi
      have hg : g ∉ L := fun hg => absurd hno (hL.mem.mp hg)
      have hg2 : g ∉ L2 := by
        intro h
        rcases k2.bound ht hf g h with h | ⟨a, h1, h2⟩
        · exact hg h
        · have := ht g gate hgate a h1
          have e : lead g gate = g := by cases ho <;> rfl
          omega
      refine ⟨L2 ++ [g], ⟨fun a x => ?_, ?_⟩, .new hg hgate k2 (.nil _)⟩
      · simp only [updateWire, k1.num]
        rw [Map.insert_apply]
        by_cases ha : a = g
        · subst ha
          rw [if_pos rfl]
          constructor
          · intro e; cases e; simp
          · intro e
            by_cases hx : x < L2.length
            · rw [List.getElem?_append_left hx] at e
              exact absurd (List.mem_of_getElem? e) hg2
            · have : x < (L2 ++ [a]).length := (List.getElem?_eq_some_iff.mp e).1
              simp at this
              congr 1; omega
        · rw [if_neg ha, k1.wire]
          constructor
          · intro e
            rw [List.getElem?_append_left (List.getElem?_eq_some_iff.mp e).1]; exact e
          · intro e
            by_cases hx : x < L2.length
            · rwa [List.getElem?_append_left hx] at e
            · rw [List.getElem?_append_right (by omega)] at e
              rw [List.getElem?_singleton] at e
              split at e
              · cases e; exact absurd rfl ha
              · cases e
      · simp [updateWire, k1.num]

theorem writePass1_went {wg : WriteGate} (hg : WentGate c wg) : ∀ {k i : Nat} {s s1 : WS} {outs},
    writePass1 c wg i k s = .ok (outs, s1) → Went c ((outs.map (·.1)).flatMap (operandsOf c)) s s1 ∧
      (∀ p ∈ outs, c.gateMap p.1 = some p.2) ∧ outs.length = k ∧ ∀ j p, outs[j]? = some p → c.outputMap (i + j) = some p.1
  | 0, i, s, s1, outs, h => by cases h; exact ⟨fun L hL _ => ⟨L, hL, .nil L⟩, by simp⟩
  | k + 1, i, s, s1, outs, h => by
    unfold writePass1 at h
    split at h
    · cases h
    · next g hout =>
      split at h
      · cases h
      · next gate hgate =>
        obtain ⟨s2, e1, h⟩ := ok_bind h
        obtain ⟨⟨rest, s3⟩, e2, h⟩ := ok_bind h
        cases h
        obtain ⟨k1, k2, k3, k4⟩ := writePass1_went hg e2
        refine ⟨?_, ?_, by simp [k3], ?_⟩
        · have e : operandsOf c g = gate.operands := by unfold operandsOf; rw [hgate]
          rw [List.map_cons, List.flatMap_cons, e]
          exact (ensureWires_went hg e1).trans k1
        · intro p hp
          rcases List.mem_cons.mp hp with rfl | hp
          · exact hgate
          · exact k2 p hp
        · intro j p hp
          cases j with
          | zero => cases hp; exact hout
          | succ j =>
            have := k4 j p (by simpa using hp)
            rw [show i + (j + 1) = i + 1 + j by omega]; exact this

theorem writePass2_went {wg : WriteGate} (hg : WentGate c wg) : ∀ {outs : List (GateId × Gate)} {s s1 : WS},
    (∀ p ∈ outs, c.gateMap p.1 = some p.2) → writePass2 wg outs s = .ok s1 → Went c (outs.map (·.1)) s s1
  | [], s, s1, _, h => by cases h; exact fun L hL _ => ⟨L, hL, .nil L⟩
  | (g, gate) :: rest, s, s1, ho, h => by
    unfold writePass2 at h
    have ho' := fun p hp => ho p (List.mem_cons_of_mem _ hp)
    rw [List.map_cons, ← List.singleton_append]
    split at h
    · next x hx =>
      refine Went.trans ?_ (writePass2_went hg ho' h)
      exact fun L hL _ => ⟨L, hL, .seen (hL.mem.mpr (by rw [hx]; simp)) (.nil L)⟩
    · next hno =>
      obtain ⟨s2, e1, h⟩ := ok_bind h
      exact (hg g gate s s2 (ho (g, gate) (List.mem_cons_self ..)) hno e1).trans (writePass2_went hg ho' h)

/-- the writer numbers the inputs, then what the outputs need, then the outputs -/
theorem write_order {w : World} {r : Ref} (hwf : WFc c) (hc : w.circs[r]? = some c) (ht : Topo c) (hf : Flat c)
    (hk : c.numConst = 0) {ins outs : List GateId} (hin : ins.length = c.inputLen) (hin' : ∀ k, c.inputMap k = ins[k]?)
    (hout : outs.length = c.outputLen) (hout' : ∀ k, c.outputMap k = outs[k]?) {fuel k : Nat} {res : Written}
    (h : write w fuel r k WSt.new Map.empty = .ok res) :
    ∃ mid L, Visit c ins (outs.flatMap (operandsOf c)) mid ∧ Visit c mid outs L ∧ Lists (res.st, res.wog) L := by
  obtain ⟨s1, os, s4, a1, a2, a3, e5, e6⟩ := write_split hwf hc hk h
  have hg := writeGate_went hc ht hf fuel
  obtain ⟨k1, k2, k3, k4⟩ := writePass1_went hg e5
  have hos : os.map (·.1) = outs := by
    apply List.ext_getElem?
    intro j
    rw [List.getElem?_map, ← hout']
    cases e : os[j]? with
    | none =>
      rw [hout', List.getElem?_eq_none]
      · rfl
      · have := List.getElem?_eq_none_iff.mp e; omega
    | some p =>
      have := k4 j p e
      rw [Nat.zero_add] at this
      rw [this]; rfl
  rw [hos] at k1
  have hL : Lists s1 ins := by
    refine ⟨fun g x => ?_, by rw [a2, hin]⟩
    rw [a3, ← hwf.input_iff, hin']
  have hI : ∀ g k, c.gateMap g = some (.input k) → g ∈ ins := by
    intro g k hg
    rw [← hwf.input_iff, hin'] at hg
    exact List.mem_of_getElem? hg
  obtain ⟨mid, m1, m2⟩ := k1 ins hL hI
  have k5 := writePass2_went hg k2 e6
  rw [hos] at k5
  obtain ⟨L, l1, l2⟩ := k5 mid m1 fun g k hg => m2.prefix.subset (hI g k hg)
  exact ⟨mid, L, m2, l2, l1⟩

end

end CC.Bristol
