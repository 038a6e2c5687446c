import Verif.Proofs.Unused

/-!
# Circuits for which fewer lines are written than are counted
-/

namespace CC.Waste
open Spec Spec.Functions Thrift Unused

/-- the circuit has a logic gate -/
def Solid (w : World) (r : Ref) : Prop := ∃ m d, w.circs[r]? = some m ∧ IsLogic m d

/-- the circuit, or one it calls, has a constant, or a logic gate or a call that is not needed -/
inductive Lossy (w : World) : Ref → Prop where
  | const {r c} : w.circs[r]? = some c → 1 ≤ c.numConst → Lossy w r
  | gate {r c d} : w.circs[r]? = some c → IsLogic c d → ¬ Needed c d → Lossy w r
  | unused {r c g mr} : w.circs[r]? = some c → IsCall w c g mr → ¬ Needed c g → Solid w mr → Lossy w r
  | call {r c g mr} : w.circs[r]? = some c → IsCall w c g mr → Lossy w mr → Lossy w r

section
variable {P : Ref → Prop} {w w' : World}

theorem isCall_keeps (h : Keeps P w w') {c : Circuit} {g : GateId} {mr : Ref} (hc : IsCall w c g mr) : IsCall w' c g mr := by
  obtain ⟨nIn, nOut, ids, mid, h1, h2⟩ := hc
  exact ⟨nIn, nOut, ids, mid, h1, h.module? h2⟩

theorem isCall_calls {c : Circuit} {g : GateId} {mr : Ref} (hc : IsCall w c g mr) : Calls w c mr := by
  obtain ⟨nIn, nOut, ids, mid, h1, h2⟩ := hc
  exact ⟨g, nIn, nOut, ids, 0, mid, h1, h2⟩

theorem Solid.keeps (h : Keeps P w w') {r : Ref} (hs : Solid w r) (hr : P r) : Solid w' r := by
  obtain ⟨m, d, h1, h2⟩ := hs
  exact ⟨m, d, h.circ _ _ hr h1, h2⟩

theorem Lossy.keeps (h : Keeps P w w') (hcl : ∀ (x : Ref) c mr, P x → w.circs[x]? = some c → Calls w c mr → P mr) {r : Ref} (hl : Lossy w r) :
    P r → Lossy w' r := by
  induction hl with
  | const h1 h2 => exact fun hr => .const (h.circ _ _ hr h1) h2
  | gate h1 h2 h3 => exact fun hr => .gate (h.circ _ _ hr h1) h2 h3
  | unused h1 h2 h3 h4 => exact fun hr => .unused (h.circ _ _ hr h1) (isCall_keeps h h2) h3 (h4.keeps h (hcl _ _ _ hr h1 (isCall_calls h2)))
  | call h1 h2 _ ih => exact fun hr => .call (h.circ _ _ hr h1) (isCall_keeps h h2) (ih (hcl _ _ _ hr h1 (isCall_calls h2)))

theorem Solid.gates (hv : ValidRun w) {r : Ref} (hs : Solid w r) {m : Circuit} (hm : w.circs[r]? = some m) : 1 ≤ m.numGate := by
  obtain ⟨m', d, h1, hd⟩ := hs
  rw [hm] at h1
  cases h1
  have h7 := hv.covers counts_gate hm
  unfold Covers at h7
  have h8 := nodup_sum_le (weight gateCounter w m) m.gateIndex [d] (by simp) (by simpa using CC.IsLogic.lt (hv.wf.circ r m hm) hd)
  simp only [List.map_cons, List.map_nil, List.sum_cons, List.sum_nil, weight_logic hd] at h8
  have h9 : gateCounter.num m = m.numGate := rfl
  omega

/-- a call is counted with all gates of the called circuit; what is written is less if the call is not needed or less is written for it -/
theorem short (hv : ValidRun w) {r : Ref} {c : Circuit} (hc : w.circs[r]? = some c) {g0 : GateId} {mr : Ref} (hcall0 : IsCall w c g0 mr) {m0 : Circuit}
    (hm0 : w.circs[mr]? = some m0) (hpos : 1 ≤ m0.numGate) (hless : ¬ Needed c g0 ∨ ∀ n bs, Inlined w mr n bs → n < m0.numGate)
    {n : Nat} {bs : List Bool} (h : Inlined w r n bs) : n < c.numGate := by
  cases h with
  | @mk _ c' own gs n b hc' hown hn hmem hlog hcall =>
    rw [hc] at hc'; cases hc'
    have hwf := hv.wf.circ r c hc
    have hlt : ∀ g ∈ gs, g < c.gateIndex := by
      intro g hg
      rcases ((hmem g).mp hg).2 with h | ⟨mr, h⟩
      · exact CC.IsLogic.lt hwf h
      · exact CC.IsCall.lt hwf h
    have h1 := hv.covers counts_gate hc
    unfold Covers at h1
    have h4 : gateCounter.num c = c.numGate := rfl
    have hle : ∀ g ∈ gs, n g ≤ weight gateCounter w c g := by
      intro g hg
      rcases ((hmem g).mp hg).2 with h | ⟨mr, h⟩
      · rw [(hlog g hg h).1, weight_logic h]
      · have hi := hcall g mr hg h
        obtain ⟨m, hm⟩ := inlined_circ hi
        rw [weight_call h hm]
        exact (hi.bounds hv m hm).1
    have h5 : weight gateCounter w c g0 = m0.numGate := weight_call hcall0 hm0
    by_cases hin : g0 ∈ gs
    · have h6 := (hless.resolve_left fun k => k ((hmem g0).mp hin).1) _ _ (hcall g0 mr hin hcall0)
      have h2 := nodup_sum_le (weight gateCounter w c) c.gateIndex gs hn hlt
      have hp := List.perm_cons_erase hin
      have e1 : (gs.map n).sum = n g0 + ((gs.erase g0).map n).sum := by rw [(hp.map n).sum_nat]; rfl
      have e2 : (gs.map (weight gateCounter w c)).sum = weight gateCounter w c g0 + ((gs.erase g0).map (weight gateCounter w c)).sum := by
        rw [(hp.map _).sum_nat]; rfl
      have h3 : ((gs.erase g0).map n).sum ≤ ((gs.erase g0).map (weight gateCounter w c)).sum :=
        sum_map_le fun g hg => hle g (List.mem_of_mem_erase hg)
      omega
    · have h2 := nodup_sum_le (weight gateCounter w c) c.gateIndex (g0 :: gs) (List.nodup_cons.mpr ⟨hin, hn⟩) (by
        intro x hx
        rcases List.mem_cons.mp hx with rfl | h
        · exact CC.IsCall.lt hwf hcall0
        · exact hlt x h)
      rw [List.map_cons, List.sum_cons, h5] at h2
      have h3 := sum_map_le hle
      omega

/-- constants are counted, or fewer lines are written than are counted -/
theorem Lossy.less (hv : ValidRun w) {r : Ref} (hl : Lossy w r) : ∀ c, w.circs[r]? = some c →
    1 ≤ c.numConst ∨ (1 ≤ c.numGate ∧ ∀ n bs, Inlined w r n bs → n < c.numGate) := by
  have hcirc : ∀ {r : Ref} {c c' : Circuit}, w.circs[r]? = some c → w.circs[r]? = some c' → c = c' := by
    intro r c c' h h'
    rw [h] at h'
    exact Option.some.inj h'
  have hpart : ∀ {r : Ref} {c : Circuit} {g : GateId} {mr : Ref} {m : Circuit} {K : Counter}, w.circs[r]? = some c → IsCall w c g mr →
      w.circs[mr]? = some m → Covers K w c → K.part m ≤ K.num c := by
    intro r c g mr m K h1 h2 h3 h4
    unfold Covers at h4
    have := nodup_sum_le (weight K w c) c.gateIndex [g] (by simp) (by simpa using CC.IsCall.lt (hv.wf.circ r c h1) h2)
    simp only [List.map_cons, List.map_nil, List.sum_cons, List.sum_nil, weight_call h2 h3] at this
    omega
  induction hl with
  | const h1 h2 =>
    intro c' hc'
    rw [← hcirc h1 hc']
    exact .inl h2
  | gate h1 h2 h3 =>
    intro c' hc'
    cases hcirc h1 hc'
    exact .inr ⟨Solid.gates hv ⟨_, _, h1, h2⟩ h1, fun n bs hi => hi.dead hv h1 h2 h3⟩
  | unused h1 h2 h3 h4 =>
    intro c' hc'
    cases hcirc h1 hc'
    obtain ⟨m, d, hm, hd⟩ := h4
    have hpos := Solid.gates hv ⟨m, d, hm, hd⟩ hm
    have := hpart h1 h2 hm (hv.covers counts_gate h1)
    exact .inr ⟨Nat.le_trans hpos this, fun n bs hi => short hv h1 h2 hm hpos (.inl h3) hi⟩
  | call h1 h2 h3 ih =>
    intro c' hc'
    cases hcirc h1 hc'
    obtain ⟨m, hm⟩ : ∃ m, w.circs[_]? = some m := by
      cases h3 with
      | const h => exact ⟨_, h⟩
      | gate h => exact ⟨_, h⟩
      | unused h => exact ⟨_, h⟩
      | call h => exact ⟨_, h⟩
    rcases ih m hm with h | ⟨hpos, h⟩
    · exact .inl (Nat.le_trans h (hpart h1 h2 hm (hv.covers counts_const h1)))
    · exact .inr ⟨Nat.le_trans hpos (hpart h1 h2 hm (hv.covers counts_gate h1)), fun n bs hi => short hv h1 h2 hm hpos (.inr h) hi⟩

end

/-! ### functions and programs -/

/-- every function has a logic gate, and those in `bad` are lossy -/
def LossyIf (bad : Nat → Prop) (f : Nat) (w : World) (r : Ref) : Prop := Solid w r ∧ (bad f → Lossy w r)

/-- what makes them so -/
structure Faulty (bad : Nat → Prop) (k : Nat) (sigs : List Sig) (F : Func) : Prop where
  solid : ∃ l ∈ F.body, l.logic = true
  width : ∀ l ∈ F.body, 0 < l.width sigs
  fault : bad k → (∃ b, Line.const b ∈ F.body) ∨ (∃ p l q, Idle sigs F p l q) ∨ ∃ f args, Line.call f args ∈ F.body ∧ bad f

theorem kept_lossy (bad : Nat → Prop) (f : Nat) : Kept (LossyIf bad f) :=
  fun _ _ _ h hl => ⟨hl.1.keeps h trivial, fun hb => (hl.2 hb).keeps h (fun _ _ _ _ _ _ => trivial) trivial⟩

theorem makes_lossy {bad : Nat → Prop} : Makes (LossyIf bad) (Faulty bad) := by
  intro w s K st mods sigs fns F k hb hlib hst hF hroom hQ
  have hemp : Empty (Circuit.new st) := ⟨rfl, rfl, rfl⟩
  have hmod : ∀ {c2 : Circuit} {g : GateId} {f : Nat} {args : List Nat}, c2.storage = K.st → Line.call f args ∈ F.body → Head mods (.call f args) c2 g →
      ∃ mr, IsCall (w.setC s c2) c2 g mr ∧ Solid (w.setC s c2) mr ∧ (bad f → Lossy (w.setC s c2) mr) := by
    intro c2 g f args hsto hbody hh
    obtain ⟨m, nIn, nOut, ids, hm, hg⟩ := hh.call f args rfl
    obtain ⟨stor, mr, n1, n2, n3⟩ := hst f m hm
    obtain ⟨l1, l2, l3⟩ := hlib
    have hf := lt_of_getElem? hm
    obtain ⟨σ, hσ⟩ : ∃ σ, sigs[f]? = some σ := ⟨_, List.getElem?_eq_getElem (by omega)⟩
    obtain ⟨fn, hfn⟩ : ∃ fn, fns[f]? = some fn := ⟨_, List.getElem?_eq_getElem (by omega)⟩
    obtain ⟨mr', mc, stor', m1, m2, m3, -⟩ := (l3 f σ m fn hσ hm hfn).2.size
    rw [m1] at n1; cases n1
    rw [m2] at n2; cases n2
    have hks : Keeps (· ≠ s) w (w.setC s c2) := keeps_setC _
    refine ⟨mr, ⟨nIn, nOut, ids, m, hg, ?_⟩, n3.1.keeps hks m3, fun hbad => (n3.2 hbad).keeps hks (not_called_closed hb.base) m3⟩
    unfold World.module?
    rw [hsto, show (w.setC s c2).stores[K.st]? = w.stores[K.st]? from rfl, m1]
    exact m2
  have hheads := func_heads hb hemp hlib hF hroom
  have hsolid : ∀ {c2 : Circuit}, (∀ l ∈ F.body, l.source = false → 0 < l.width sigs → ∃ g, Head mods l c2 g) → Solid (w.setC s c2) s := by
    intro c2 h
    obtain ⟨l, hl, hlog⟩ := hQ.solid
    obtain ⟨g, hh⟩ := h l hl (by cases l <;> first | rfl | cases hlog) (hQ.width l hl)
    exact ⟨c2, g, get_of_lt hb.lt _, hh.logic hlog⟩
  by_cases hbad : bad k
  · rcases hQ.fault hbad with ⟨b, h⟩ | ⟨p, l, q, h⟩ | ⟨f, args, h, hf⟩
    · refine (RunsC.both hb.lt hheads (func_consts hb hemp hlib hF hroom h rfl)).mono ?_
      rintro _ c2 ⟨⟨_, h1⟩, h2⟩
      exact ⟨hsolid h1, fun _ => .const (get_of_lt hb.lt _) h2⟩
    · refine (RunsC.both hb.lt hheads (func_dead hb hemp hlib hF hroom h)).mono ?_
      rintro _ c2 ⟨⟨h0, h1⟩, g, h2, h3⟩
      refine ⟨hsolid h1, fun _ => ?_⟩
      have hl : l ∈ F.body := by rw [h.body]; simp
      cases l with
      | const b => cases h.source
      | call f args =>
        obtain ⟨mr, k1, k2, -⟩ := hmod h0 hl h2
        exact .unused (get_of_lt hb.lt _) k1 h3 k2
      | _ => exact .gate (get_of_lt hb.lt _) (h2.logic rfl) h3
    · refine hheads.mono ?_
      rintro _ c2 ⟨h0, h1⟩
      refine ⟨hsolid h1, fun _ => ?_⟩
      obtain ⟨g, hh⟩ := h1 _ h rfl (hQ.width _ h)
      obtain ⟨mr, k1, _, k3⟩ := hmod h0 h hh
      exact .call (get_of_lt hb.lt _) k1 (k3 hf)
  · refine hheads.mono ?_
    rintro _ c2 ⟨_, h1⟩
    exact ⟨hsolid h1, fun h => absurd h hbad⟩

/-! ### repaired functions -/

/-- a function that is not thrifty has a constant or an idle line -/
theorem not_thrifty {sigs : List Sig} {outs : List Nat} : ∀ {p : List Line} {m : Nat}, ¬ Thrifty sigs m p outs →
    (∃ b, Line.const b ∈ p) ∨ ∃ p1 l p2, p = p1 ++ l :: p2 ∧ l.source = false ∧
      (∀ l' ∈ p2, ∀ j ∈ l'.operands, ¬ (m + values sigs p1 ≤ j ∧ j < m + values sigs p1 + l.width sigs)) ∧
      ∀ j ∈ outs, ¬ (m + values sigs p1 ≤ j ∧ j < m + values sigs p1 + l.width sigs)
  | [], _, h => absurd trivial h
  | l :: p, m, h => by
    by_cases hs : l.source = false
    · by_cases hu : ∃ i, m ≤ i ∧ i < m + l.width sigs ∧ (i ∈ outs ∨ ∃ l' ∈ p, i ∈ l'.operands)
      · rcases not_thrifty (p := p) (m := m + l.width sigs) fun h' => h ⟨hs, hu, h'⟩ with ⟨b, hb⟩ | ⟨p1, l1, p2, h1, h2, h3, h4⟩
        · exact .inl ⟨b, by simp [hb]⟩
        · refine .inr ⟨l :: p1, l1, p2, by rw [h1]; rfl, h2, ?_, ?_⟩
          · simpa only [values, Nat.add_assoc] using h3
          · simpa only [values, Nat.add_assoc] using h4
      · refine .inr ⟨[], l, p, rfl, hs, ?_, ?_⟩
        · intro l' hl' j hj hr
          exact hu ⟨j, by simpa [values] using hr.1, by simpa [values] using hr.2, .inr ⟨l', hl', hj⟩⟩
        · intro j hj hr
          exact hu ⟨j, by simpa [values] using hr.1, by simpa [values] using hr.2, .inl hj⟩
    · cases l with
      | const b => exact .inl ⟨b, by simp⟩
      | _ => exact absurd rfl hs

theorem values_append (sigs : List Sig) : ∀ p q, values sigs (p ++ q) = values sigs p + values sigs q
  | [], q => by simp [values]
  | l :: p, q => by simp only [List.cons_append, values, values_append sigs p q, Nat.add_assoc]

/-- idle lines stay idle -/
theorem idle_guarded {sigs sigs' : List Sig} (hs : Guard.Shape sigs sigs') {F : Func} {p q : List Line} {l : Line} (hb : F.body = p ++ l :: q)
    (hsrc : l.source = false) (hw : 0 < l.width sigs)
    (hq : ∀ l' ∈ q, ∀ j ∈ l'.operands, ¬ (F.arity + values sigs p ≤ j ∧ j < F.arity + values sigs p + l.width sigs))
    (ho : ∀ j ∈ F.outs, ¬ (F.arity + values sigs p ≤ j ∧ j < F.arity + values sigs p + l.width sigs)) :
    Idle sigs' (F.guarded sigs) p l (q ++ F.outs.map .copy) := by
  have hv := Guard.values_shape hs p
  have hwd := Guard.width_shape hs l
  refine ⟨by simp [Func.guarded, hb], hsrc, by omega, ?_, ?_⟩
  · show ∀ l' ∈ q ++ F.outs.map .copy, ∀ j ∈ l'.operands, ¬ (F.arity + _ ≤ j ∧ j < F.arity + _ + _)
    rw [← hv, ← hwd]
    intro l' hl' j hj
    rcases List.mem_append.mp hl' with h | h
    · exact hq l' h j hj
    · obtain ⟨o, h1, rfl⟩ := List.mem_map.mp h
      simp only [Line.operands, List.mem_singleton] at hj
      subst hj
      exact ho _ h1
  · show ∀ j ∈ (F.guarded sigs).outs, ¬ (F.arity + _ ≤ j ∧ j < F.arity + _ + _)
    rw [← hv, ← hwd]
    intro j hj
    simp only [Func.guarded, List.mem_range'_1, hb, values_append, values] at hj
    omega

/-- repaired functions that return something -/
theorem faulty_guarded {lib : List Func} {k : Nat} {F : Func} {sigs' : List Sig} (hs : Guard.Shape (signatures (lib.take k) []) sigs')
    (hout : F.outs ≠ []) (hwd : ∀ l ∈ F.body, 0 < l.width (signatures (lib.take k) []))
    {bad : Nat → Prop} (hbad : bad k → Spendthrift lib k F) (hrec : ∀ f G, lib[f]? = some G → Spendthrift lib f G → bad f) :
    Faulty bad k sigs' (F.guarded (signatures (lib.take k) [])) := by
  refine ⟨?_, ?_, fun h => ?_⟩
  · obtain ⟨o, os, e⟩ := List.exists_cons_of_ne_nil hout
    exact ⟨.copy o, by simp [Func.guarded, e], rfl⟩
  · intro l hl
    rcases List.mem_append.mp hl with h | h
    · rw [← Guard.width_shape hs]; exact hwd l h
    · obtain ⟨o, _, rfl⟩ := List.mem_map.mp h
      exact Nat.zero_lt_one
  · cases hbad h with
    | own h =>
      rcases not_thrifty h with ⟨b, hb⟩ | ⟨p, l, q, h1, h2, h3, h4⟩
      · exact .inl ⟨b, List.mem_append_left _ hb⟩
      · exact .inr (.inl ⟨p, l, _, idle_guarded hs h1 h2 (hwd l (by rw [h1]; simp)) h3 h4⟩)
    | call h1 h2 h3 => exact .inr (.inr ⟨_, _, List.mem_append_left _ h1, hrec _ _ h2 h3⟩)

/-- calls of functions that return something have results -/
theorem width_pos {sigs : List Sig} (h : ∀ σ ∈ sigs, 0 < σ.outs) : ∀ {p : List Line} {m : Nat}, Functions.Scoped sigs m p → ∀ l ∈ p, 0 < l.width sigs
  | l' :: p, m, ⟨h1, _, h3⟩, l, hl => by
    rcases List.mem_cons.mp hl with rfl | hl
    · cases l with
      | call f args =>
        obtain ⟨σ, k1, _⟩ := h1
        simp only [Line.width, k1]
        exact h σ (List.mem_of_getElem? k1)
      | _ => exact Nat.zero_lt_one
    · exact width_pos h h3 l hl

theorem sigs_pos : ∀ {lib : List Func} {sigs : List Sig}, (∀ σ ∈ sigs, 0 < σ.outs) → (∀ F ∈ lib, F.outs ≠ []) → ∀ σ ∈ signatures lib sigs, 0 < σ.outs
  | [], _, h, _ => h
  | F :: lib, sigs, h, hl => by
    refine sigs_pos (lib := lib) ?_ fun G hG => hl G (by simp [hG])
    intro σ hσ
    rcases List.mem_append.mp hσ with k | k
    · exact h σ k
    · simp at k
      subst k
      exact List.length_pos_iff.mpr (hl F (by simp))

theorem fine_at {lib : List Func} : ∀ (l2 l1 : List Func), lib = l1 ++ l2 → LibFine (signatures l1 []) l2 → ∀ k F, l1.length ≤ k → lib[k]? = some F →
    F.Fine (signatures (lib.take k) [])
  | [], l1, e, _, k, F, hk, hF => by
    have := lt_of_getElem? hF
    rw [e] at this
    simp at this
    omega
  | G :: l2, l1, e, h, k, F, hk, hF => by
    by_cases hkl : k = l1.length
    · subst hkl
      rw [e] at hF ⊢
      simp at hF ⊢
      subst hF
      exact h.1
    · refine fine_at l2 (l1 ++ [G]) (by rw [e]; simp) ?_ k F (by simp; omega) hF
      rw [signatures_append]
      exact h.2

section
variable {w : World} {st : StoreRef} {lib : List Func} {main : Func}

/-- the repaired circuit of a program that is wasteful is lossy -/
theorem program_lossy (hw : Reachable w) (hst : st < w.stores.length) (hlib : LibFine [] lib) (hmain : main.Fine (signatures lib []))
    (hret : ∀ F ∈ lib, F.outs ≠ []) (ho : main.outs ≠ []) (hwaste : Spendthrift lib lib.length main) :
    ∃ r w', Functions.compile st (guard [] lib) (main.guarded (signatures lib [])) w = (.ok r, w') ∧ Lossy w' r := by
  obtain ⟨h1, h2, hs⟩ := Guard.guard_ok Guard.same_nil hlib
  have htake : lib.take lib.length = lib := List.take_length
  let bad : Nat → Prop := fun k => ∃ G, (if k = lib.length then some main else lib[k]?) = some G ∧ Spendthrift lib k G
  have hrec : ∀ f G, lib[f]? = some G → Spendthrift lib f G → bad f := by
    intro f G h1 h2
    refine ⟨G, ?_, h2⟩
    rw [if_neg (Nat.ne_of_lt (lt_of_getElem? h1))]
    exact h1
  have hpos : ∀ k, ∀ σ ∈ signatures (lib.take k) [], 0 < σ.outs := fun k => sigs_pos (by simp) fun F hF => hret F (List.mem_of_mem_take hF)
  have hif : LibIf (Faulty bad) 0 [] (guard [] lib) := by
    refine guard_if (lib := lib) lib [] [] rfl rfl fun k F sigs' hF hsh => ?_
    have hlt := lt_of_getElem? hF
    refine faulty_guarded hsh (hret F (List.mem_of_getElem? hF)) (width_pos (hpos k) (fine_at lib [] rfl hlib k F (Nat.zero_le _) hF).lines) ?_ hrec
    rintro ⟨G, hG, hGw⟩
    rw [if_neg (Nat.ne_of_lt hlt), hF] at hG
    cases hG
    exact hGw
  have hm : Faulty bad lib.length (signatures (guard [] lib) []) (main.guarded (signatures lib [])) := by
    have := faulty_guarded (lib := lib) (k := lib.length) (F := main) (sigs' := signatures (guard [] lib) []) (by rw [htake]; exact hs.shape) ho
      (by rw [htake]; exact width_pos (by have := hpos lib.length; rwa [htake] at this) hmain.lines) (bad := bad) (fun _ => hwaste) hrec
    rwa [htake] at this
  obtain ⟨r, w', e, _, hl⟩ := program_makes (kept_lossy bad) makes_lossy hw hst h1 (Guard.guarded_ok hs.shape hmain).toFine
    ⟨h2, Guard.guarded_room hs.room⟩ hif hm
  exact ⟨r, w', e, hl ⟨main, by simp, hwaste⟩⟩

/-- in that of any other program nothing is in vain -/
theorem program_thrifty (hw : Reachable w) (hst : st < w.stores.length) (hlib : LibFine [] lib) (hmain : main.Fine (signatures lib []))
    (hthrift : ¬ Spendthrift lib lib.length main) :
    ∃ r w', Functions.compile st (guard [] lib) (main.guarded (signatures lib [])) w = (.ok r, w') ∧ Full w' r := by
  obtain ⟨h1, h2, hs⟩ := Guard.guard_ok Guard.same_nil hlib
  have htake : lib.take lib.length = lib := List.take_length
  let ok : Nat → Prop := fun k => ∀ G, (if k = lib.length then some main else lib[k]?) = some G → ¬ Spendthrift lib k G
  have honly : ∀ {k F}, ¬ Spendthrift lib k F → (∀ f args, Line.call f args ∈ F.body → f < lib.length) → CallsOnly ok F.body := by
    intro k F hn hlt f args hm G hG hW
    rw [if_neg (Nat.ne_of_lt (hlt f args hm))] at hG
    exact hn (.call hm hG hW)
  have hthr : ∀ {k F}, ¬ Spendthrift lib k F → Thrifty (signatures (lib.take k) []) F.arity F.body F.outs := by
    intro k F hn
    exact Classical.byContradiction fun h => hn (.own h)
  have hcall : ∀ {sigs : List Sig} {p : List Line} {m : Nat}, Functions.Scoped sigs m p → ∀ f args, Line.call f args ∈ p → f < sigs.length := by
    intro sigs p
    induction p with
    | nil => intro m _ f args h; simp at h
    | cons l p ih =>
      intro m hsc f args h
      obtain ⟨s1, _, s3⟩ := hsc
      rcases List.mem_cons.mp h with rfl | h
      · obtain ⟨σ, k1, _⟩ := s1
        exact lt_of_getElem? k1
      · exact ih s3 f args h
  have hlen : ∀ (l : List Func) (sigs : List Sig), (signatures l sigs).length = sigs.length + l.length := by
    intro l
    induction l with
    | nil => intro sigs; rfl
    | cons F l ih => intro sigs; simp only [signatures]; rw [ih]; simp; omega
  have hif : LibIf (fun k sigs F => ok k → CallsOnly ok F.body ∧ Thrifty sigs F.arity F.body F.outs) 0 [] (guard [] lib) := by
    refine guard_if (lib := lib) lib [] [] rfl rfl fun k F sigs' hF hsh hk => ?_
    have hlt := lt_of_getElem? hF
    have hn : ¬ Spendthrift lib k F := hk F (by rw [if_neg (Nat.ne_of_lt hlt)]; exact hF)
    refine ⟨only_guarded (honly hn fun f args hm => ?_), guarded_thrifty hsh (hthr hn)⟩
    have := hcall (fine_at lib [] rfl hlib k F (Nat.zero_le _) hF).lines f args hm
    rw [hlen] at this
    simp at this
    omega
  have hm : ok lib.length → CallsOnly ok (main.guarded (signatures lib [])).body ∧
      Thrifty (signatures (guard [] lib) []) (main.guarded (signatures lib [])).arity (main.guarded (signatures lib [])).body
        (main.guarded (signatures lib [])).outs := by
    intro _
    refine ⟨only_guarded (honly hthrift fun f args hm => ?_), guarded_thrifty hs.shape ?_⟩
    · have := hcall hmain.lines f args hm
      rw [hlen] at this
      simpa using this
    · have := hthr hthrift
      rwa [htake] at this
  obtain ⟨r, w', e, hl⟩ := program_makes (P := FullIf ok) (k := lib.length) (fun f _ _ _ h hf ho => kept_full _ _ _ h (hf ho)) makes_full hw hst h1
    (Guard.guarded_ok hs.shape hmain).toFine ⟨h2, Guard.guarded_room hs.room⟩ hif hm
  refine ⟨r, w', e, hl fun G hG => ?_⟩
  simp at hG
  subst hG
  exact hthrift

end

end CC.Waste
