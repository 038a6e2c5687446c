import Verif.Proofs.Guard
import Verif.Proofs.Lossy
import Verif.Props.Functions
import Verif.Props.ReadBack

/-!
# C83: returning copies of results makes every program with functions evaluate correctly
-/

namespace CC.Props
open CC Spec Spec.Functions

/-- C83: if every function and the main circuit pass their results through `identity` before they return them, every program
whose lines use values and functions that exist builds without error, and evaluating it returns what the program meant before, on all inputs. Nothing
is asked about the order of results or the numbers of results and wires of functions. Every function has two more wires per result. -/
theorem C83_repaired {w : World} (hw : Reachable w) {st : StoreRef} (hst : st < w.stores.length) {lib : List Func} {main : Func}
    (hlib : LibFine [] lib) (hmain : main.Fine (signatures lib [])) :
    ∃ r w', Functions.compile st (guard [] lib) (main.guarded (signatures lib [])) w = (.ok r, w') ∧
      (∃ c, w'.circs[r]? = some c ∧ c.inputLen = main.arity ∧ c.outputLen = main.outs.length ∧
        c.numWire = main.arity + wires (signatures (guard [] lib) []) main.body + 2 * main.outs.length) ∧
      ∃ F, ∀ fuel ≥ F, ∀ ins : List Bool, ins.length = main.arity →
        ∃ outs, main.run (meaning lib []) ins = some outs ∧ outs.length = main.outs.length ∧ evalOutput w' fuel r ins = .ok outs := by
  obtain ⟨h1, h2, hs⟩ := Guard.guard_ok Guard.same_nil hlib
  obtain ⟨r, w', e, ⟨c, hc, c1, c2, c3⟩, F, h⟩ := C77_program_partial hw hst h1 (Guard.guarded_ok hs.shape hmain)
    ⟨h2, Guard.guarded_room hs.room⟩
  rw [Guard.guarded_wires] at c3
  refine ⟨r, w', e, ⟨c, hc, c1, by simpa [Func.guarded] using c2, by rw [c3, Nat.add_assoc]; rfl⟩, F, fun fuel hf ins hi => ?_⟩
  obtain ⟨outs, k1, k2, k3⟩ := h fuel hf ins hi
  obtain ⟨ys, q1, q2, q3⟩ := Guard.guarded_run hs.agree hmain hi
  rw [k1] at q2
  cases q2
  exact ⟨outs, q1, q3, k3⟩

example : LibFine [] [⟨2, [], [1, 0]⟩] ∧ (⟨2, [.call 0 [0, 1], .and 2 3], [4, 2, 3]⟩ : Func).Fine (signatures [⟨2, [], [1, 0]⟩] []) :=
  ⟨⟨⟨trivial, by decide⟩, trivial⟩, ⟨⟨⟨_, rfl, rfl⟩, by decide, trivial, by decide, trivial⟩, by decide⟩⟩

/-- the program of `C77_order_needed` and one that calls the function of `C77_room_needed`, repaired -/
example : (Functions.compile 0 [] ((⟨2, [.and 0 1], [2, 0]⟩ : Func).guarded []) (run [.newStorage])).1 = .ok 0 ∧
    evalOutput (functionsHeap [] ((⟨2, [.and 0 1], [2, 0]⟩ : Func).guarded [])) 100 0 [true, true] = .ok [true, true] ∧
    (Functions.compile 0 [⟨2, [], [1, 0]⟩] ⟨2, [.call 0 [0, 1], .and 2 3], [4, 2, 3]⟩ (run [.newStorage])).1 = .error (.panic .underflow) ∧
    (Functions.compile 0 (guard [] [⟨2, [], [1, 0]⟩]) ((⟨2, [.call 0 [0, 1], .and 2 3], [4, 2, 3]⟩ : Func).guarded [⟨2, 2, 0⟩])
      (run [.newStorage])).1 = .ok 0 ∧
    evalOutput (functionsHeap (guard [] [⟨2, [], [1, 0]⟩]) ((⟨2, [.call 0 [0, 1], .and 2 3], [4, 2, 3]⟩ : Func).guarded [⟨2, 2, 0⟩]))
      100 0 [true, false] = .ok [false, false, true] := by decide +kernel

/-- C83: the text of such a circuit is never read as something else. Either it is refused by every circuit, or every empty circuit
that reads it computes what the program means. -/
theorem C83_text {w : World} (hv : ValidRun w) {st : StoreRef} (hst : st < w.stores.length) {lib : List Func} {main : Func}
    (hlib : LibFine [] lib) (hmain : main.Fine (signatures lib [])) :
    ∃ r w', Functions.compile st (guard [] lib) (main.guarded (signatures lib [])) w = (.ok r, w') ∧
      (HeaderFits w' r → ReadBackAs w' r main.arity (main.run (meaning lib [])) ∨ NeverReadBack w' r) := by
  obtain ⟨h1, h2, hs⟩ := Guard.guard_ok Guard.same_nil hlib
  have hr : Roomy (guard [] lib) (main.guarded (signatures lib [])) := ⟨h2, Guard.guarded_room hs.room⟩
  obtain ⟨r, w', e, hv', ⟨c, hc, ht, c1, _⟩, hout, _⟩ := Funs.program_with hv.reachable hst h1 (Guard.guarded_ok hs.shape hmain).toFine hr
    fun hb he hl => Guard.guarded_tidy hb he hs.shape hl hmain fun l hl => hr.2 l (List.mem_append_left _ hl)
  refine ⟨r, w', e, ?_⟩
  rintro ⟨c', hc', hsz, hol, ho⟩
  rw [hc] at hc'
  cases hc'
  by_cases hcond : c.outputLen ≤ c.numWire ∧ c.numConst = 0 ∧ Inlined w' r c.numGate []
  · refine .inl ⟨c, hc, fun numFirst hnf => ?_⟩
    obtain ⟨res, ls, q1, q2⟩ := C22_roundtrip_partial (hv' hv) hc (.gates hc ht) hcond.2.1 hcond.2.2 hnf (by omega)
    refine ⟨res, ls, q1, fun w2 hw2 r2 s2 hc2 => ?_⟩
    obtain ⟨gow, w3, c3, t1, t2, t3, t4, _, F, t5⟩ := q2 w2 hw2 r2 s2 hc2
    refine ⟨gow, w3, c3, t1, t2, t3.trans c1, t4, F, fun fuel hf ins hins => ?_⟩
    obtain ⟨o, u1, u2⟩ := t5 fuel hf ins (hins.trans c1.symm)
    obtain ⟨out, v1, _, v2⟩ := hout ins hins
    obtain ⟨ys, y1, y2, _⟩ := Guard.guarded_run hs.agree hmain hins
    rw [v1] at y2
    cases y2
    rw [u2.det v2] at u1
    exact ⟨out, y1, u1⟩
  · refine .inr ⟨c, hc, fun numFirst hnf => ?_⟩
    obtain ⟨res, ls, q1, q2⟩ := C22_reads_iff (hv' hv) hc hnf hsz hol
    refine ⟨res, ls, q1, fun w2 hw2 r2 c2 hc2 => (q2 w2 hw2 r2 c2 hc2).2 ?_⟩
    rintro (k | k)
    · exact ho k
    · exact hcond k

/-- the header of the repaired program fits, so its text is one or the other -/
example : ∃ r w', Functions.compile 0 (guard [] [⟨2, [], [1, 0]⟩])
      ((⟨2, [.call 0 [0, 1], .and 2 3], [4, 2, 3]⟩ : Func).guarded [⟨2, 2, 0⟩]) (run [.newStorage]) = (.ok r, w') ∧ HeaderFits w' r ∧
    (ReadBackAs w' r 2 ((⟨2, [.call 0 [0, 1], .and 2 3], [4, 2, 3]⟩ : Func).run (meaning [⟨2, [], [1, 0]⟩] [])) ∨ NeverReadBack w' r) := by
  obtain ⟨r, w', e, h⟩ := C83_text (w := run [.newStorage]) storage_valid.1 (st := 0) storage_valid.2 (lib := [⟨2, [], [1, 0]⟩])
    (main := ⟨2, [.call 0 [0, 1], .and 2 3], [4, 2, 3]⟩) ⟨⟨trivial, by decide⟩, trivial⟩
    ⟨⟨⟨_, rfl, rfl⟩, by decide, trivial, by decide, trivial⟩, by decide⟩
  have e' : (Functions.compile 0 (guard [] [⟨2, [], [1, 0]⟩]) ((⟨2, [.call 0 [0, 1], .and 2 3], [4, 2, 3]⟩ : Func).guarded [⟨2, 2, 0⟩])
      (run [.newStorage])) = (.ok r, w') := e
  have hr : r = 0 := by
    have h0 : (Functions.compile 0 (guard [] [⟨2, [], [1, 0]⟩]) ((⟨2, [.call 0 [0, 1], .and 2 3], [4, 2, 3]⟩ : Func).guarded [⟨2, 2, 0⟩])
      (run [.newStorage])).1 = .ok 0 := by decide +kernel
    rw [e'] at h0
    exact Except.ok.inj h0
  have hf : HeaderFits w' r := by
    have hw : w' = functionsHeap (guard [] [⟨2, [], [1, 0]⟩]) ((⟨2, [.call 0 [0, 1], .and 2 3], [4, 2, 3]⟩ : Func).guarded [⟨2, 2, 0⟩]) :=
      (congrArg Prod.snd e').symm
    rw [hw, hr]
    exact header_of (a := 13) (b := 3) (by decide +kernel) (by decide) (by decide) (by decide)
  exact ⟨r, w', e, hf, h hf⟩

/-- C83: if moreover, in the main function and in all functions it calls, directly or not, no line is a constant and every line is used or
returned (`Spendthrift` fails), and the main function returns something, then the text is always accepted: the circuit is written without error,
every empty circuit can read the text, and what was read computes what the program means. -/
theorem C83_readable {w : World} (hv : ValidRun w) {st : StoreRef} (hst : st < w.stores.length) {lib : List Func} {main : Func}
    (hlib : LibFine [] lib) (hmain : main.Fine (signatures lib [])) (hthrift : ¬ Spendthrift lib lib.length main) (ho : main.outs ≠ [])
    (hsize : main.arity + wires (signatures (guard [] lib) []) main.body + 2 * main.outs.length < 2 ^ 64) :
    ∃ r w', Functions.compile st (guard [] lib) (main.guarded (signatures lib [])) w = (.ok r, w') ∧ HeaderFits w' r ∧
      ReadBackAs w' r main.arity (main.run (meaning lib [])) := by
  obtain ⟨h1, h2, hs⟩ := Guard.guard_ok Guard.same_nil hlib
  have hok := Guard.guarded_ok hs.shape hmain
  have hr : Roomy (guard [] lib) (main.guarded (signatures lib [])) := ⟨h2, Guard.guarded_room hs.room⟩
  obtain ⟨r, w', e, h⟩ := C83_text hv hst hlib hmain
  obtain ⟨r1, w1, e1, ⟨c, hc, c1, c2, c3⟩, _⟩ := C83_repaired hv.reachable hst hlib hmain
  rw [e] at e1
  cases e1
  obtain ⟨r2, w2, e2, hf⟩ := Waste.program_thrifty hv.reachable hst hlib hmain hthrift
  rw [e] at e2
  cases e2
  have hw' : WFw w' := .of_reachable ((Funs.plays_compile st _ _).reachable hv.reachable e)
  obtain ⟨c', hc', k1, k2⟩ := hf.inlined hw'
  rw [hc] at hc'
  cases hc'
  have hpos : main.outs.length ≠ 0 := fun h => ho (List.length_eq_zero_iff.mp h)
  have hfit : HeaderFits w' r := ⟨c, hc, by omega, by omega, by omega⟩
  refine ⟨r, w', e, hfit, (h hfit).resolve_right ?_⟩
  rintro ⟨c', hc', hnev⟩
  rw [hc] at hc'
  cases hc'
  have hvr : ValidRun w' := by
    obtain ⟨_, _, e3, hv3, _⟩ := Funs.program_ok hv.reachable hst h1 hok.toFine hr
    rw [e] at e3
    cases e3
    exact hv3 hv
  obtain ⟨res, ls, q1, q2⟩ := hnev 0 (Nat.zero_le _)
  obtain ⟨res', ls', q3, q4⟩ := C22_reads_iff hvr hc (numFirst := 0) (Nat.zero_le _) (by omega) (by omega)
  obtain ⟨⟨F, q1⟩, _⟩ := q1
  obtain ⟨⟨F', q3⟩, _⟩ := q3
  have hres := q1 (max F F') (Nat.le_max_left _ _)
  rw [q3 (max F F') (Nat.le_max_right _ _)] at hres
  cases hres
  have hcirc : (run [.newStorage, .newCircuit 0]).circs[0]? = some (Circuit.new 0) := rfl
  have hreach : Reachable (run [.newStorage, .newCircuit 0]) := (validRun_of_check _ .nil (by decide)).reachable
  obtain ⟨p, w3, f1⟩ := q2 _ hreach 0 _ hcirc
  obtain ⟨gow, w4, f2⟩ := (q4 _ hreach 0 _ hcirc).1 (.inr ⟨by omega, k1, k2⟩)
  rw [f1] at f2
  cases f2

/-- a full adder from two half adders, whose function returns the carry before the sum; without the copies it cannot be evaluated -/
def carryFirst : Func := ⟨2, [.xor 0 1, .or 0 1, .xor 2 3], [4, 2]⟩
def twoHalves : Func := ⟨3, [.call 0 [0, 1], .call 0 [4, 2], .or 3 5], [7, 6]⟩

theorem twoHalves_fine : LibFine [] [carryFirst] ∧ twoHalves.Fine (signatures [carryFirst] []) :=
  ⟨⟨⟨⟨trivial, by decide, trivial, by decide, trivial, by decide, trivial⟩, by decide⟩, trivial⟩,
    ⟨⟨⟨_, rfl, rfl⟩, by decide, ⟨_, rfl, rfl⟩, by decide, trivial, by decide, trivial⟩, by decide⟩⟩

theorem carryFirst_thrifty : ¬ Spendthrift [carryFirst] 0 carryFirst := by
  intro h
  cases h with
  | own h => exact h ⟨rfl, ⟨2, by decide⟩, rfl, ⟨3, by decide⟩, rfl, ⟨4, by decide⟩, trivial⟩
  | call h => simp [carryFirst] at h

theorem twoHalves_thrifty : ¬ Spendthrift [carryFirst] 1 twoHalves := by
  intro h
  cases h with
  | own h => exact h ⟨rfl, ⟨4, by decide⟩, rfl, ⟨6, by decide⟩, rfl, ⟨7, by decide⟩, trivial⟩
  | @call _ _ f args G h1 h2 h3 =>
    have hf : f = 0 := by simpa using lt_of_getElem? h2
    subst hf
    cases h2
    exact carryFirst_thrifty h3

example : (∃ r w', Functions.compile 0 (guard [] [carryFirst]) (twoHalves.guarded (signatures [carryFirst] [])) (run [.newStorage]) = (.ok r, w') ∧
      HeaderFits w' r ∧ ReadBackAs w' r 3 (twoHalves.run (meaning [carryFirst] []))) ∧
    twoHalves.run (meaning [carryFirst] []) [true, false, true] = some [true, false] ∧
    ∀ outs, evalOutput (functionsHeap [carryFirst] twoHalves) 100 0 [true, false, true] ≠ .ok outs :=
  ⟨C83_readable storage_valid.1 storage_valid.2 twoHalves_fine.1 twoHalves_fine.2 twoHalves_thrifty (by decide) (by decide),
    rfl, by
      have : (evalOutput (functionsHeap [carryFirst] twoHalves) 100 0 [true, false, true]).isOk = false := by decide +kernel
      intro outs h
      rw [h] at this
      cases this⟩

/-- C83: the repaired circuit of a main function with a constant is refused by every reader, whatever it does with the constant. -/
theorem C83_constant {w : World} (hv : ValidRun w) {st : StoreRef} (hst : st < w.stores.length) {lib : List Func} {main : Func}
    (hlib : LibFine [] lib) (hmain : main.Fine (signatures lib [])) {b : Bool} (hb : Line.const b ∈ main.body) :
    ∃ r w', Functions.compile st (guard [] lib) (main.guarded (signatures lib [])) w = (.ok r, w') ∧
      (HeaderFits w' r → NeverReadBack w' r) := by
  obtain ⟨h1, h2, hs⟩ := Guard.guard_ok Guard.same_nil hlib
  have hok := (Guard.guarded_ok hs.shape hmain).toFine
  have hr : Roomy (guard [] lib) (main.guarded (signatures lib [])) := ⟨h2, Guard.guarded_room hs.room⟩
  obtain ⟨r, w', e, hv', ⟨c, hc, hk, _⟩, _⟩ := Funs.program_with hv.reachable hst h1 hok hr
    fun hb' he hl => Thrift.func_consts hb' he hl hok hr.2 (List.mem_append_left _ hb) rfl
  exact ⟨r, w', e, fun hf => consts_never (hv' hv) hf hc hk⟩

/-- the sum of a bit and a constant -/
example : LibFine [] [carryFirst] ∧ (⟨1, [.const true, .call 0 [0, 1]], [3]⟩ : Func).Fine (signatures [carryFirst] []) ∧
    Line.const true ∈ (⟨1, [.const true, .call 0 [0, 1]], [3]⟩ : Func).body ∧
    HeaderFits (functionsHeap (guard [] [carryFirst]) ((⟨1, [.const true, .call 0 [0, 1]], [3]⟩ : Func).guarded (signatures [carryFirst] []))) 0 :=
  ⟨twoHalves_fine.1, ⟨⟨trivial, by decide, ⟨_, rfl, rfl⟩, by decide, trivial⟩, by decide⟩, by simp,
    header_of (a := 12) (b := 1) (by decide +kernel) (by decide) (by decide) (by decide)⟩

/-- C83: so is that of a main function that returns something and has a line of gates whose result is neither used by a later line nor
returned. -/
theorem C83_unused {w : World} (hv : ValidRun w) {st : StoreRef} (hst : st < w.stores.length) {lib : List Func} {main : Func}
    (hlib : LibFine [] lib) (hmain : main.Fine (signatures lib [])) {p q : List Line} {l : Line} (hbody : main.body = p ++ l :: q)
    (hl : l.logic = true) (hq : ∀ l' ∈ q, main.arity + values (signatures lib []) p ∉ l'.operands)
    (ho : main.arity + values (signatures lib []) p ∉ main.outs) :
    ∃ r w', Functions.compile st (guard [] lib) (main.guarded (signatures lib [])) w = (.ok r, w') ∧
      (HeaderFits w' r → NeverReadBack w' r) := by
  obtain ⟨h1, h2, hs⟩ := Guard.guard_ok Guard.same_nil hlib
  have hok := (Guard.guarded_ok hs.shape hmain).toFine
  have hr : Roomy (guard [] lib) (main.guarded (signatures lib [])) := ⟨h2, Guard.guarded_room hs.room⟩
  have hw1 : l.width (signatures lib []) = 1 := by cases l <;> first | rfl | cases hl
  have hsrc : l.source = false := by cases l <;> first | rfl | cases hl
  have hidle := Waste.idle_guarded hs.shape hbody hsrc (by omega)
    (fun l' hl' j hj hr => hq l' hl' (by rwa [show main.arity + values (signatures lib []) p = j by omega]))
    (fun j hj hr => ho (by rwa [show main.arity + values (signatures lib []) p = j by omega]))
  obtain ⟨r, w', e, hv', ⟨c, hc, ⟨d, hd, hnd⟩, _⟩, _⟩ := Funs.program_with hv.reachable hst h1 hok hr
    fun hb' he hl' => (Unused.func_dead hb' he hl' hok hr.2 hidle).mono (Q := fun _ c2 => ∃ d, IsLogic c2 d ∧ ¬ Needed c2 d) fun _ _ ⟨d, h, hn⟩ => ⟨d, h.logic hl, hn⟩
  refine ⟨r, w', e, ?_⟩
  rintro ⟨c', hc', hsz, hol, hout⟩
  rw [hc] at hc'
  cases hc'
  exact ⟨c, hc, fun numFirst hn => C22_dead_false (hv' hv) hc hn hsz hol hout hd hnd⟩

/-- a main function that computes the sum and the carry and returns the carry only -/
example : (∃ r w', Functions.compile 0 (guard [] [carryFirst]) ((⟨2, [.xor 0 1, .and 0 1], [3]⟩ : Func).guarded (signatures [carryFirst] []))
      (run [.newStorage]) = (.ok r, w') ∧ (HeaderFits w' r → NeverReadBack w' r)) ∧
    HeaderFits (functionsHeap (guard [] [carryFirst]) ((⟨2, [.xor 0 1, .and 0 1], [3]⟩ : Func).guarded (signatures [carryFirst] []))) 0 :=
  ⟨C83_unused storage_valid.1 storage_valid.2 twoHalves_fine.1 ⟨⟨trivial, by decide, trivial, by decide, trivial⟩, by decide⟩ (p := [])
    (l := .xor 0 1) (q := [.and 0 1]) rfl rfl (by decide) (by decide), header_of (a := 6) (b := 1) (by decide +kernel) (by decide) (by decide) (by decide)⟩

/-- C83: and so is that of every program in which a line of the main function, or of a function it calls, directly or not, is a constant or has
results none of which is used or returned, if all functions return something. With `C83_readable` this decides which programs can be read back. -/
theorem C83_wasteful {w : World} (hv : ValidRun w) {st : StoreRef} (hst : st < w.stores.length) {lib : List Func} {main : Func}
    (hlib : LibFine [] lib) (hmain : main.Fine (signatures lib [])) (hret : ∀ F ∈ lib, F.outs ≠ []) (ho : main.outs ≠ [])
    (hwaste : Spendthrift lib lib.length main) :
    ∃ r w', Functions.compile st (guard [] lib) (main.guarded (signatures lib [])) w = (.ok r, w') ∧
      (HeaderFits w' r → NeverReadBack w' r) := by
  obtain ⟨h1, h2, hs⟩ := Guard.guard_ok Guard.same_nil hlib
  obtain ⟨r, w', e, hl⟩ := Waste.program_lossy hv.reachable hst hlib hmain hret ho hwaste
  have hvr : ValidRun w' := by
    obtain ⟨_, _, e3, hv3, _⟩ := Funs.program_ok hv.reachable hst h1 (Guard.guarded_ok hs.shape hmain).toFine ⟨h2, Guard.guarded_room hs.room⟩
    rw [e] at e3
    cases e3
    exact hv3 hv
  refine ⟨r, w', e, ?_⟩
  rintro ⟨c, hc, hsz, hol, hout⟩
  refine ⟨c, hc, fun numFirst hn => ?_⟩
  obtain ⟨res, ls, q1, q2⟩ := C22_reads_iff hvr hc hn hsz hol
  refine ⟨res, ls, q1, fun w2 hw2 r2 c2 hc2 => (q2 w2 hw2 r2 c2 hc2).2 ?_⟩
  rintro (k | ⟨_, k1, k2⟩)
  · exact hout k
  · rcases hl.less hvr c hc with h | ⟨_, h⟩
    · omega
    · exact absurd (h _ _ k2) (Nat.lt_irrefl _)

/-- a function that computes something in vain, called by a function the main function calls -/
def vainly : List Func := [⟨2, [.or 0 1, .and 0 1], [3]⟩, ⟨2, [.call 0 [0, 1]], [2]⟩]
def vainMain : Func := ⟨3, [.call 1 [0, 1], .call 1 [3, 2]], [4]⟩

example : (∃ r w', Functions.compile 0 (guard [] vainly) (vainMain.guarded (signatures vainly [])) (run [.newStorage]) = (.ok r, w') ∧
      (HeaderFits w' r → NeverReadBack w' r)) ∧ HeaderFits (functionsHeap (guard [] vainly) (vainMain.guarded (signatures vainly []))) 0 := by
  refine ⟨C83_wasteful storage_valid.1 storage_valid.2 (lib := vainly) ?_ ?_ (by decide) (by decide) ?_,
    header_of (a := 17) (b := 1) (by decide +kernel) (by decide) (by decide) (by decide)⟩
  · exact ⟨⟨⟨trivial, by decide, trivial, by decide, trivial⟩, by decide⟩, ⟨⟨⟨_, rfl, rfl⟩, by decide, trivial⟩, by decide⟩, trivial⟩
  · exact ⟨⟨⟨_, rfl, rfl⟩, by decide, ⟨_, rfl, rfl⟩, by decide, trivial⟩, by decide⟩
  · refine .call (f := 1) (args := [0, 1]) (G := ⟨2, [.call 0 [0, 1]], [2]⟩) (by simp [vainMain]) rfl
      (.call (f := 0) (args := [0, 1]) (by simp) rfl (.own ?_))
    rintro ⟨_, ⟨i, i1, i2, i3⟩, _⟩
    have : i = 2 := by
      simp only [Line.width] at i1 i2
      omega
    subst this
    simp [Line.operands] at i3

end CC.Props
