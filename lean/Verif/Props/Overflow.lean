import Verif.Proofs.Short
import Verif.Proofs.CheckedFits

/-!
# C53: 64-bit counters

`Op.callC` makes a call in a build that checks additions, `Op.call` counts without bound.
-/

namespace CC.Props
open CC Spec

/-- **C53.** In a heap whose counters fit in 64 bits, a call with checked additions does exactly what the call with
unbounded counters does if that leads to counters that fit, and panics on overflow otherwise. -/
theorem C53_exact (op : Op) (w : World) (h : Fits w) :
    (Fits (op.call w).2 → op.callC w = op.call w) ∧
      (¬Fits (op.call w).2 → (op.callC w).1 = .error (.panic .overflow)) :=
  ⟨(callC_agrees op).same w, (callC_agrees op).over w h⟩

/-- **C53.** A history of calls whose unbounded counters fit in the end has the same results and the same heap with
checked additions. -/
theorem C53_history (ops : List Op) (h : Fits (play ops (World.empty, [])).1) :
    playC ops (World.empty, []) = play ops (World.empty, []) :=
  playC_eq ops _ h

/-- **C53.** With checked additions all counters fit in 64 bits after every history, also if the program catches panics and goes on. So
`C53_exact` applies to every call. -/
theorem C53_caught (ops : List Op) : Fits (playC ops (World.empty, [])).1 :=
  playC_fits ops _ ⟨fun _ h => absurd h List.not_mem_nil, fun _ h => absurd h List.not_mem_nil⟩

/-- **C53.** Without module calls, nothing overflows in fewer than 2^63 calls. -/
theorem C53_plain (ops : List Op) (h : ∀ op ∈ ops, ∀ r mid ids, op ≠ .module r mid ids) (hlen : ops.length < 2 ^ 63) :
    playC ops (World.empty, []) = play ops (World.empty, []) :=
  C53_history ops <| (after_bdd_plain ops h (bddW_empty 0)).fits (by
    have : (2 : Nat) ^ 64 = 2 * 2 ^ 63 := by decide
    omega)

/-- **C53.** With module calls, nothing overflows in at most 62 calls. -/
theorem C53_short (ops : List Op) (hlen : ops.length ≤ 62) :
    playC ops (World.empty, []) = play ops (World.empty, []) :=
  C53_history ops <| (after_bdd ops (Nat.le_refl 2) (bddW_empty 2)).fits (by
    have h1 : 2 ^ ops.length ≤ 2 ^ 62 := Nat.pow_le_pow_right (by omega) hlen
    have h2 : (2 : Nat) ^ 64 = 4 * 2 ^ 62 := by decide
    have h3 : 0 < (2 : Nat) ^ 62 := by decide
    omega)

/-- 63 levels of a circuit that calls the level below it twice; each level is registered as a module -/
def tower63 : List Op := towerOps 62 ++ [.newCircuit 0, .input 63, .module 63 62 [0]]

/-- **C53, overflow is reachable.** After these 382 calls, all of which succeed and leave all counters within 64 bits,
one more module call panics because `num_wire` overflows. -/
theorem C53_overflow :
    tower63.length = 382 ∧
      (∀ e ∈ (playC tower63 (World.empty, [])).2, ∃ a, e.res = .ok a) ∧
      Fits (playC tower63 (World.empty, [])).1 ∧
      ((Op.module 63 62 [1]).callC (playC tower63 (World.empty, [])).1).1 = .error (.panic .overflow) := by
  obtain ⟨hok, hw⟩ := tower 62
  generalize hg : after (towerOps 62) World.empty = w at hw
  obtain ⟨c, sok, ha, q1, q2, q3, q4, q5, q6, q7⟩ := level_start hw
  have p63 : (2 : Nat) ^ 64 = 2 * 2 ^ 63 := by decide
  have p0 : (4 : Nat) < 2 ^ 63 := by decide
  have haft : after tower63 World.empty = w.push c := by
    rw [tower63, after_append, hg]
    exact ha
  have hfit : Fits (after tower63 World.empty) := by
    rw [haft]
    have hf := hw.fits (Nat.le_refl _)
    refine ⟨fun d hd => ?_, hf.stores⟩
    rcases List.mem_append.mp hd with hd | hd
    · exact hf.circs d hd
    · rw [List.mem_singleton] at hd
      subst hd
      exact ⟨by omega, by omega, by omega, by omega, by omega, by omega⟩
  have heq := C53_history tower63 hfit
  refine ⟨?_, ?_, heq ▸ hfit, ?_⟩
  · rw [tower63, List.length_append, towerOps_length]
    rfl
  · rw [heq]
    exact AllOk.play (hok.append (hg ▸ sok)) (fun _ h => absurd h List.not_mem_nil)
  · rw [heq]
    refine (C53_exact _ _ hfit).2 ?_
    show ¬Fits ((Op.module 63 62 [1]).call (after tower63 World.empty)).2
    rw [haft]
    obtain ⟨s, hs, hn, hmap⟩ := hw.store
    obtain ⟨m, hm, lm⟩ := hw.levels 62 (Nat.le_refl _)
    obtain ⟨d, e, _, _, _, p4, _⟩ := module_level lm c [1]
    have hmod : (w.push c).module? c 62 = some 62 := by
      simp [World.module?, World.push, q1, hs, hmap]
    have hcall : (CC.module 63 62 [1] (w.push c)).2 =
        w.push d := by
      have h63 : 63 = w.circs.length := hw.len.symm
      simp only [CC.module, h63, push_get, hmod, push_old _ hm, e, push_set]
      rw [if_neg (by rw [hw.len]; omega)]
    have hret : ((Op.module 63 62 [1]).call (w.push c)).2 =
        (CC.module 63 62 [1] (w.push c)).2 := by
      simp only [Op.call, M.bind_apply]
      cases CC.module 63 62 [1] (w.push c) with
      | mk a w' => cases a <;> rfl
    rw [hret, hcall]
    intro k
    have := (k.circs d (List.mem_append_right _ (List.mem_singleton.mpr rfl))).numWire
    omega

/-- the counters of level 3 of the tower: 16 gates and 17 wires on 3 gates of its own -/
example : ((play (towerOps 3) (World.empty, [])).1.circs[3]?).map (fun c => (c.numWire, c.numGate, c.gateIndex)) =
    some (17, 16, 3) := rfl

/-- going on after the panic of `C53_overflow` -/
example : Fits (playC (tower63 ++ [.module 63 62 [1], .not 63 0]) (World.empty, [])).1 := C53_caught _

/-- and the same with checked additions -/
example : ((playC (towerOps 3) (World.empty, [])).1.circs[3]?).map (fun c => (c.numWire, c.numGate, c.gateIndex)) =
    some (17, 16, 3) := by
  rw [C53_short _ (by decide)]
  rfl

end CC.Props
