import Verif.Proofs.Twin
import Verif.Props.Circuit

/-!
# C69: copies of circuits, and registering modules on the storage itself
-/

namespace CC.Props
open CC Spec

theorem clone_ok {w : World} {r : Ref} {c : Circuit} (hr : w.circs[r]? = some c) :
    cloneCircuit r w = (.ok w.circs.length, { w with circs := w.circs ++ [c] }) := by
  unfold cloneCircuit
  rw [hr]

/-- **C69 (independence).** A clone is a new circuit with the contents of its original. Whatever calls follow, as long as none of
them is made on the clone, the clone stays as it is; as long as none of them is made on the original, the original does. -/
theorem C69_independent {w : World} (hw : Reachable w) {r : Ref} {c : Circuit} (hr : w.circs[r]? = some c) :
    ∃ n w', cloneCircuit r w = (.ok n, w') ∧ w.circs[n]? = none ∧ n ≠ r ∧ w'.circs[n]? = some c ∧
      ∀ ops, ((∀ op ∈ ops, op.target ≠ some n) → (play ops (w', [])).1.circs[n]? = some c) ∧
        ((∀ op ∈ ops, op.target ≠ some r) → (play ops (w', [])).1.circs[r]? = some c) := by
  have hwf := WFw.of_reachable hw
  have hlt := lt_of_getElem? hr
  have hwf' : WFw { w with circs := w.circs ++ [c] } := by
    have := (good_clone r w hwf).1
    rw [clone_ok hr] at this
    exact this
  have hn : (w.circs ++ [c])[w.circs.length]? = some c := by simp
  have hr' : (w.circs ++ [c])[r]? = some c := by rw [List.getElem?_append_left hlt]; exact hr
  refine ⟨_, _, clone_ok hr, by simp, by omega, hn, fun ops => ⟨fun h => ?_, fun h => ?_⟩⟩
  · rw [(play_after ops _ _).1, frame_after ops _ hwf' h (lt_of_getElem? hn)]; exact hn
  · rw [(play_after ops _ _).1, frame_after ops _ hwf' h (lt_of_getElem? hr')]; exact hr'

/-- **C69 (the same calls).** If a circuit and its clone receive the same calls, first the original and then the clone, the calls
return the same, success or error, and the circuits are equal again. This holds for all calls that create gates and outputs; a
module call must not call the circuit itself (nor the clone, which is possible only once it has been registered), see
`C69_self`. -/
theorem C69_same_calls {w : World} (hw : Reachable w) {r n : Ref} {w' : World} (hcl : cloneCircuit r w = (.ok n, w'))
    {ops : List Op} (hb : ∀ op ∈ ops, op.Builds w' r n) :
    let first := play ops (w', [])
    let second := play (ops.map (Op.onto n)) (first.1, [])
    second.2.map (·.res) = first.2.map (·.res) ∧ second.1.circs[n]? = first.1.circs[r]? ∧
      second.1.circs[r]? = first.1.circs[r]? := by
  have hwf := WFw.of_reachable hw
  cases hr : w.circs[r]? with
  | none => unfold cloneCircuit at hcl; rw [hr] at hcl; cases hcl
  | some c =>
    have hlt := lt_of_getElem? hr
    have hwf' : WFw w' := by
      have := (good_clone r w hwf).1
      rw [hcl] at this
      exact this
    rw [clone_ok hr] at hcl
    cases hcl
    have hn : (w.circs ++ [c])[w.circs.length]? = some c := by simp
    have hr' : (w.circs ++ [c])[r]? = some c := by rw [List.getElem?_append_left hlt]; exact hr
    obtain ⟨h1, h2⟩ := twins_after hwf' (n := w.circs.length) (by omega) hr' hn hb
    obtain ⟨p1, p2⟩ := play_after ops { w with circs := w.circs ++ [c] } []
    obtain ⟨q1, q2⟩ := play_after (ops.map (Op.onto w.circs.length)) (play ops ({ w with circs := w.circs ++ [c] }, [])).1 []
    refine ⟨?_, ?_, ?_⟩
    · rw [q2, p2, p1, h1]
    · rw [q1, p1, h2]
    · rw [q1, p1]
      have hl := ext_of_later hwf' (later_after ops (.refl _))
      refine frame_after _ _ hl.1 (fun op ho => ?_) ?_
      · obtain ⟨o, ho', rfl⟩ := List.mem_map.mp ho
        have := (hb o ho').frame.1
        intro e
        cases o <;> simp only [Op.target, Op.onto, Option.some.injEq, reduceCtorEq] at e this <;> omega
      · obtain ⟨c', h3, _⟩ := hl.2.circs r c hr'
        exact lt_of_getElem? h3

/-- **C69 (a copy can call its original).** A circuit registered in its own table cannot call itself, but its clone can call it:
here circuit 0 is module 0 and has been cloned as circuit 1; the same call panics on the original and succeeds on the clone. -/
theorem C69_self :
    let w := (play [.newStorage, .newCircuit 0, .input 0, .not 0 0, .output 0 1, .storeModule 0 0, .clone 0] (World.empty, [])).1
    w.circs[1]? = w.circs[0]? ∧ ((Op.module 0 0 [0]).call w).1 = .error (.panic .alreadyBorrowed) ∧
      ((Op.module 1 0 [0]).call w).1 = .ok (.gates [2]) := ⟨rfl, rfl, rfl⟩

/-- **C69 (registering).** Registering a module through a circuit is registering it on the circuit's storage. -/
theorem C69_register {w : World} {r : Ref} {c : Circuit} (hr : w.circs[r]? = some c) (m : Ref) :
    registerModule r m w = storeModule c.storage m w := registerModule_store hr m

/-- **C69 (registering).** Registering an existing circuit on an existing storage returns the number of circuits registered there
so far, by whatever way; afterwards every circuit on that storage, and no other circuit's table, knows the module under that id,
and no circuit has changed. -/
theorem C69_store {w : World} {evs : List Ev} (h : Run w evs) {s : StoreRef} {st : Storage} {m : Ref} {d : Circuit}
    (hs : w.stores[s]? = some st) (hm : w.circs[m]? = some d) :
    ∃ w', storeModule s m w = (.ok (evs.flatMap (Ev.registered s)).length, w') ∧ w'.circs = w.circs ∧
      (∀ r c, w.circs[r]? = some c → c.storage = s →
        w'.getModule r (evs.flatMap (Ev.registered s)).length = .ok m) ∧
      ∀ s', s' ≠ s → w'.stores[s']? = w.stores[s']? := by
  have hreg := (RegAt.of_run h s).2
  rw [hs, Option.getD_some] at hreg
  have hlt := lt_of_getElem? hs
  have e : storeModule s m w = (.ok (st.register m).1, { w with stores := w.stores.set s (st.register m).2 }) := by
    unfold storeModule
    rw [hm]
    simp only
    rw [hs]
  refine ⟨{ w with stores := w.stores.set s (st.register m).2 }, by rw [e, ← hreg]; rfl, rfl, fun r c hr hc => ?_, fun s' hne => ?_⟩
  · subst hc
    rw [← hreg]
    simp [World.getModule, World.circuit, hr, bind, Except.bind, World.module?, hlt, Storage.register]
  · simp [Ne.symm hne]

/-- **C69 (`trace`).** What C01–C06 call the calls a circuit went through: in a history without clones, the calls made on it; -/
theorem C69_trace_plain {evs : List Ev} (h : ∀ e ∈ evs, ∀ r', e.op ≠ .clone r') (r : Ref) :
    trace r evs = evs.filter fun e => e.op.target = some r := by
  have key : ∀ past : List Ev, (∀ e ∈ past, ∀ r', e.op ≠ .clone r') →
      traceRev past r = past.reverse.filter fun e => e.op.target = some r := by
    intro past
    induction past with
    | nil => exact fun _ => rfl
    | cons e past ih =>
      intro hp
      rw [List.reverse_cons, List.filter_append, ← ih fun e he => hp e (by simp [he]), traceRev]
      split
      · next r' n h1 _ => exact absurd h1 (hp e (by simp) r')
      · by_cases ht : e.op.target = some r <;> simp [ht]
  unfold trace
  rw [key _ fun e he => h e (by simpa using he), List.reverse_reverse]

/-- **C69 (`trace`).** and a clone starts with what its original went through. -/
theorem C69_trace_clone (evs : List Ev) (w : World) (r n : Ref) :
    trace n (evs ++ [⟨.clone r, w, .ok (.circuit n)⟩]) = trace r evs := trace_clone rfl evs

/-- a clone that develops differently: the original gets an OR, the clone an AND and an output -/
example : demoClone.1.getGate 0 12 = .ok (.or 0 1) ∧ demoClone.1.getGate 2 12 = .ok (.and 0 1) ∧
    demoClone.1.getGate 2 7 = demoClone.1.getGate 0 7 ∧ (trace 2 demoClone.2).length = 14 := ⟨rfl, rfl, rfl, rfl⟩

/-- a clone of circuit 0 that receives the same calls, one of them failing and one a module call -/
example : ∃ w', cloneCircuit 0 demoRun.1 = (.ok 2, w') ∧
    (∀ op ∈ [Op.and 0 0 1, .output 0 99, .module 0 0 [12, 0], .output 0 13], op.Builds w' 0 2) ∧
    (play [.and 2 0 1, .output 2 99, .module 2 0 [12, 0], .output 2 13] (w', [])).2.map (·.res) =
      [.ok (.gate 12), .error (.unknownGate 99), .ok (.gates [13, 14]), .ok (.wire 2)] := by
  refine ⟨_, clone_ok rfl, ?_, rfl⟩
  intro op hop
  simp only [List.mem_cons, List.not_mem_nil, or_false] at hop
  rcases hop with rfl | rfl | rfl | rfl
  · rfl
  · rfl
  · have h1 : (Except.ok 1 : Except Err Ref) ≠ .ok 0 := fun h => by cases h
    have h2 : (Except.ok 1 : Except Err Ref) ≠ .ok 2 := fun h => by cases h
    exact ⟨rfl, h1, h2⟩
  · rfl

/-- two circuits on one storage see what is registered on it -/
example : (storeModule 0 1 demoRun.1).1 = .ok 2 ∧ (storeModule 0 1 demoRun.1).2.getModule 0 2 = .ok 1 ∧
    (storeModule 0 1 demoRun.1).2.getModule 1 2 = .ok 1 ∧ (storeModule 5 1 demoRun.1).1 = .error .dangling := ⟨rfl, rfl, rfl, rfl⟩

end CC.Props
