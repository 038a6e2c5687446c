import Verif.Proofs.BrSums
import Verif.Proofs.Neat
import Verif.Props.Cost
import Verif.Props.Text

/-!
# C82: which operations of the library can be read back by the library
-/

namespace CC.Props
open CC Spec CC.Bristol Spec.Bristol Arith Logic Fp

/-- the circuit is written without error, and no reader of the library, reading into any circuit, can read the text -/
def NeverReadBack (w : World) (r : Ref) : Prop :=
  ∃ c, w.circs[r]? = some c ∧ ∀ numFirst ≤ c.inputLen + c.numConst, ∃ res ls, Wrote w r c numFirst res ls ∧
    ∀ w2, Reachable w2 → ∀ r2 c2, w2.circs[r2]? = some c2 → ∃ p w3, read r2 Map.empty res.st.out w2 = (.error (.panic p), w3)

/-- the circuit is written without error, the text can be read into any empty circuit, and evaluating what was read
computes `f` on all inputs of `k` bits -/
def ReadBackAs (w : World) (r : Ref) (k : Nat) (f : List Bool → Option (List Bool)) : Prop :=
  ∃ c, w.circs[r]? = some c ∧ ∀ numFirst ≤ c.inputLen, ∃ res ls, Wrote w r c numFirst res ls ∧
    ∀ w2, Reachable w2 → ∀ r2 s2, w2.circs[r2]? = some (Circuit.new s2) →
      ∃ gow w3 c3, read r2 Map.empty res.st.out w2 = (.ok gow, w3) ∧ w3.circs[r2]? = some c3 ∧ c3.inputLen = k ∧
        c3.outputLen = c.outputLen ∧ ∃ F, ∀ fuel ≥ F, ∀ ins : List Bool, ins.length = k →
          ∃ out, f ins = some out ∧ evalOutput w3 fuel r2 ins = .ok out

/-- the numbers of the header fit in 64 bits, and there is an output -/
def HeaderFits (w : World) (r : Ref) : Prop :=
  ∃ c, w.circs[r]? = some c ∧ c.numWire + c.numConst < 2 ^ 64 ∧ c.outputLen < 2 ^ 64 ∧ c.outputLen ≠ 0

/-- C82: a circuit that calls, needed or not, a circuit with a logic gate its outputs do not need cannot be read back. -/
theorem C82_waste_false {w : World} (h : ValidRun w) {r : Ref} (hf : HeaderFits w r) {c : Circuit} (hc : w.circs[r]? = some c)
    {g : GateId} {mr : Ref} (hg : IsCall w c g mr) {m : Circuit} (hm : w.circs[mr]? = some m) {d : GateId} (hd : IsLogic m d)
    (hn : ¬ Needed m d) : NeverReadBack w r := by
  obtain ⟨c', hc', hs, ho, hout⟩ := hf
  rw [hc] at hc'
  obtain rfl := Option.some.inj hc'
  refine ⟨c, hc, fun numFirst hn0 => ?_⟩
  obtain ⟨res, ls, h1, h2⟩ := C22_reads_iff h hc hn0 hs ho
  refine ⟨res, ls, h1, fun w2 k2 r2 c2 kc2 => (h2 w2 k2 r2 c2 kc2).2 ?_⟩
  rintro (e | ⟨_, _, e⟩)
  · exact hout e
  · exact absurd (Inlined.wasteful h e hc ⟨c, g, mr, m, d, hc, hg, hm, hd, hn⟩) (Nat.lt_irrefl _)

theorem consts_never {w : World} (h : ValidRun w) {r : Ref} (hf : HeaderFits w r) {c : Circuit} (hc : w.circs[r]? = some c)
    (hk : 1 ≤ c.numConst) : NeverReadBack w r := by
  obtain ⟨c', hc', hs, ho, hout⟩ := hf
  rw [hc] at hc'
  obtain rfl := Option.some.inj hc'
  exact ⟨c, hc, fun numFirst hn0 => C22_const_false h hc hn0 hs ho hout (by omega)⟩

theorem spoiled_never {w : World} (h : ValidRun w) {r : Ref} (hf : HeaderFits w r) (hs : Spoiled w r) : NeverReadBack w r := by
  rcases hs with ⟨c, hc, hk⟩ | ⟨c, g, mr, m, d, hc, hg, _, hm, hd, hn⟩
  · exact consts_never h hf hc hk
  · exact C82_waste_false h hf hc hg hm hd hn

theorem added_never {w w' w2 : World} {r : Ref} {k : Cost} (ha : Added r w w' k) (hk : 1 ≤ k.consts) (hl : Later w' w2)
    (h : ValidRun w2) (hf : HeaderFits w2 r) : NeverReadBack w2 r := by
  obtain ⟨c, c', h1, rfl, _, h4⟩ := ha
  obtain ⟨c2, hc2, hle⟩ := (leW_later hl).circs r c' (setC_get h1 c')
  have h5 := (Cost.ext_iff.mp h4).2.1
  simp only [counts, cost_add_consts] at h5
  exact consts_never h hf hc2 (Nat.le_trans (by omega) hle.numConst)

section
variable {w0 w1 w w' w2 : World} {r : Ref} {n : Nat} {cfg : IntConfig}

/-- C82: a circuit that has used one of the operations on integers — adding, subtracting, multiplying, negating, comparing,
shifting left, constants — and has an output can be written but never read back, whatever was done with the result. -/
theorem C82_int_false (hm : Made (IntConfig.new r n) cfg w0 w1 w) {x y : AInt} (hx : x.config = cfg) {z : AInt} {g : GateId}
    (hop : x.add y w = (.ok z, w') ∨ x.sub y w = (.ok z, w') ∨ x.mul y w = (.ok z, w') ∨ x.neg n w = (.ok z, w') ∨
      x.eq y n w = (.ok g, w') ∨ x.neq y n w = (.ok g, w') ∨ x.less y n w = (.ok g, w') ∨ x.lessOrEq y n w = (.ok g, w') ∨
      x.larger y n w = (.ok g, w') ∨ x.largerOrEq y n w = (.ok g, w') ∨ (∃ k, 1 ≤ k ∧ x.shiftLeft n k w = (.ok z, w')) ∨
      (∃ v, AInt.fromBiguint cfg n v w = (.ok z, w')) ∨ AInt.zero cfg n w = (.ok z, w') ∨ AInt.one cfg n w = (.ok z, w'))
    (hl : Later w' w2) (hs : Since w0 w1 w2) (h : ValidRun w2) (hf : HeaderFits w2 r) : NeverReadBack w2 r := by
  have hn := intConfig_pos hm.made
  obtain ⟨c1, c2, c3, c4, c5, c6⟩ := C65_compare (w' := w') (y := y) (g := g) hm hx
  obtain ⟨_, v1, _, v2, v3, _⟩ := C65_values (w' := w') (z := z) (ids := []) (u := ()) hm (v := 0)
  rcases hop with e | e | e | e | e | e | e | e | e | e | ⟨k, hk, e⟩ | ⟨v, e⟩ | e | e
  · obtain ⟨c, g, mr, m, d, hc, hg, hmr, hd, hnd⟩ := add_wasteful hm hx e hl hs
    exact C82_waste_false h hf hc hg hmr hd hnd
  · exact added_never (C65_sub hm hx e) hn hl h hf
  · exact added_never (C65_mul hm hx e) (by show 1 ≤ n + _; omega) hl h hf
  · exact added_never (C65_neg hm hx e) (by show 1 ≤ 2 * n; omega) hl h hf
  · exact added_never (c1 e) (Nat.le_refl 1) hl h hf
  · exact added_never (c2 e) (Nat.le_refl 1) hl h hf
  · exact added_never (c3 e) (by show 1 ≤ n + 1; omega) hl h hf
  · exact added_never (c4 e) (by show 1 ≤ n + 2; omega) hl h hf
  · exact added_never (c5 e) (by show 1 ≤ n + 2; omega) hl h hf
  · exact added_never (c6 e) (by show 1 ≤ n + 1; omega) hl h hf
  · exact added_never ((C65_shift hm hx).1 e) hk hl h hf
  · exact added_never ((C65_values (z := z) (ids := []) (u := ()) hm).2.1 e) hn hl h hf
  · exact added_never (v2 e) hn hl h hf
  · exact added_never (v3 e) hn hl h hf

end

/-- C82: comparing bit strings. -/
theorem C82_bits_false {w0 w1 w w' w2 : World} {r : Ref} {n : Nat} {cfg : BitsConfig} (hm : Made (BitsConfig.new r n) cfg w0 w1 w)
    {x y : Bits} (hx : x.config = cfg) {g : GateId} (hop : x.eq y w = (.ok g, w') ∨ x.neq y w = (.ok g, w')) (hl : Later w' w2)
    (h : ValidRun w2) (hf : HeaderFits w2 r) : NeverReadBack w2 r := by
  obtain ⟨_, _, _, _, c1, c2, _⟩ := C65_bits (w' := w') (y := y) (z := x) (g := g) (s := 0) hm hx
  rcases hop with e | e
  · exact added_never (c1 e) (Nat.le_refl 1) hl h hf
  · exact added_never (c2 e) (Nat.le_refl 1) hl h hf

/-- C82: every operation of the field. -/
theorem C82_field_false {w0 w1 w w' w2 : World} {r : Ref} {n p rExp : Nat} {cfg : FpConfig}
    (hm : Made (fieldOver r n p rExp) cfg w0 w1 w) {x y z : AFp} (hx : x.config = cfg)
    (hop : x.add y n w = (.ok z, w') ∨ x.sub y n w = (.ok z, w') ∨ x.mul y n w = (.ok z, w') ∨ x.neg n w = (.ok z, w'))
    (hl : Later w' w2) (h : ValidRun w2) (hf : HeaderFits w2 r) : NeverReadBack w2 r := by
  have hn : 1 ≤ n := by
    have := hm.made
    unfold fieldOver at this
    rw [M.bind_apply] at this
    rcases e : IntConfig.new r n w0 with ⟨a | a, w2⟩
    · rw [e] at this; cases this
    · exact intConfig_pos e
  obtain ⟨c1, c2, c3, c4⟩ := C65_field (w' := w') (y := y) (z := z) hm hx
  rcases hop with e | e | e | e
  · exact added_never (c1 e) (by simp only [Cost.call, fieldAddCost]; omega) hl h hf
  · exact added_never (c2 e) (by simp only [Cost.call, fieldSubCost]; omega) hl h hf
  · exact added_never (c3 e) (by simp only [Cost.call, fieldMulCost]; omega) hl h hf
  · exact added_never (c4 e) (by simp only [cost_add_consts]; omega) hl h hf

/-! ### programs -/

/-- a result has bits -/
theorem runProgram_ne {n : Nat} (hn : 1 ≤ n) {p : List Mixed.Cmd} {outs : List Nat} (hne : outs ≠ []) {ins out : List Bool}
    (h : Mixed.runProgram n p outs ins = some out) : out ≠ [] := by
  unfold Mixed.runProgram at h
  cases outs with
  | nil => exact absurd rfl hne
  | cons i outs =>
    cases he : Mixed.exec (n := n) p ins [] with
    | none => simp [he] at h
    | some env =>
      cases hv : env[i]? with
      | none => simp [he, hv] at h
      | some v =>
        rw [he] at h
        simp only [Option.bind_eq_bind, Option.bind_some, List.mapM_cons, hv] at h
        cases hm : outs.mapM fun i => env[i]? with
        | none => rw [hm] at h; cases h
        | some vs =>
          rw [hm] at h
          obtain rfl := Option.some.inj h
          have : v.out ≠ [] := by
            intro e
            have := congrArg List.length e
            cases v <;> simp [Mixed.Value.out] at this <;> omega
          simp [this]

/-- C82: a program over integers, bit strings and bits (C68) with a result, one of whose statements uses a constant or the
adder (`Spoils`: an operation on integers other than new values and shifts to the right, a comparison, a constant), compiles
to a circuit that computes the program, that can be written, and whose text can never be read back. It does not matter whether
the results depend on the statement. -/
theorem C82_program_false {w : World} (hv : ValidRun w) {st : StoreRef} (hst : st < w.stores.length) {n : Nat} (hn : 1 ≤ n)
    {p : List Mixed.Cmd} {outs : List Nat} (hty : (Mixed.kinds p []).isSome) (hfit : ∀ c ∈ p, c.Fits n)
    (houts : ∀ i ∈ outs, i < p.length) (hne : outs ≠ []) (hp : ∃ c ∈ p, c.Spoils n) :
    ∃ r w' c, Mixed.compile st n p outs w = (.ok r, w') ∧ w'.circs[r]? = some c ∧
      (∀ ins : List Bool, ins.length = Mixed.inputs n p → ∃ out, Mixed.runProgram n p outs ins = some out ∧ Outputs w' r ins out) ∧
      (c.numWire + c.numConst < 2 ^ 64 → c.outputLen < 2 ^ 64 → NeverReadBack w' r) := by
  obtain ⟨r, w', e, h1, ⟨c, hc, hl⟩, h2, _⟩ := mixed_ok hv.reachable hst hn hty hfit houts
  refine ⟨r, w', c, e, hc, h2, fun hs ho => spoiled_never (h1 hv) ⟨c, hc, hs, ho, ?_⟩ (compile_spoiled hv.reachable e hp)⟩
  obtain ⟨out, k1, c', hc', _, k2, _⟩ := h2 (List.replicate (Mixed.inputs n p) false) (by simp)
  rw [hc] at hc'
  obtain rfl := Option.some.inj hc'
  intro h0
  exact runProgram_ne hn hne k1 (List.eq_nil_of_length_eq_zero (k2.trans h0))

/-- the programs with one bitwise operation on new bit strings -/
def Bitwise (p : List Mixed.Cmd) (outs : List Nat) : Prop :=
  (p = [.newBits, .notBits 0] ∧ outs = [1]) ∨
    ((p = [.newBits, .newBits, .andBits 0 1] ∨ p = [.newBits, .newBits, .orBits 0 1] ∨ p = [.newBits, .newBits, .xorBits 0 1]) ∧
      outs = [2])

/-- the circuit of a program can be read back if its outputs are written last -/
theorem program_reads {w : World} (hv : ValidRun w) {st : StoreRef} (hst : st < w.stores.length) {n : Nat} (hn : 1 ≤ n)
    {p : List Mixed.Cmd} {outs : List Nat} (hty : (Mixed.kinds p []).isSome) (hfit : ∀ c ∈ p, c.Fits n)
    (houts : ∀ i ∈ outs, i < p.length) (hlast : ∀ r w', Mixed.compile st n p outs w = (.ok r, w') → LastOutputs w' r ∧
      ∃ c, w'.circs[r]? = some c ∧ c.numConst = 0 ∧ Inlined w' r c.numGate [] ∧ c.numWire < 2 ^ 64) :
    ∃ r w', Mixed.compile st n p outs w = (.ok r, w') ∧ ReadBackAs w' r (Mixed.inputs n p) (Mixed.runProgram n p outs) := by
  obtain ⟨r, w', e, h1, ⟨c, hc, hl⟩, h2, _⟩ := mixed_ok hv.reachable hst hn hty hfit houts
  obtain ⟨ht, c', hc', k1, k2, k3⟩ := hlast r w' e
  rw [hc] at hc'
  obtain rfl := Option.some.inj hc'
  refine ⟨r, w', e, c, hc, fun numFirst hnf => ?_⟩
  obtain ⟨res, ls, q1, q2⟩ := C22_roundtrip_partial (h1 hv) hc ht k1 k2 hnf k3
  refine ⟨res, ls, q1, fun w2 hw2 r2 s2 hc2 => ?_⟩
  obtain ⟨gow, w3, c3, t1, t2, t3, t4, _, F, t5⟩ := q2 w2 hw2 r2 s2 hc2
  refine ⟨gow, w3, c3, t1, t2, t3.trans hl, t4, F, fun fuel hf ins hins => ?_⟩
  obtain ⟨o, u1, u2⟩ := t5 fuel hf ins (hins.trans hl.symm)
  obtain ⟨out, v1, v2⟩ := h2 ins hins
  rw [u2.det v2] at u1
  exact ⟨out, v1, u1⟩

/-- C82: the circuits of the four bitwise operations, of any width, are written, read back into any empty circuit, and what was
read computes the operation. -/
theorem C82_bitwise_partial {w : World} (hv : ValidRun w) {st : StoreRef} (hst : st < w.stores.length) {n : Nat} (hn : 1 ≤ n)
    (hs : 3 * n < 2 ^ 64) {p : List Mixed.Cmd} {outs : List Nat} (hp : Bitwise p outs) :
    ∃ r w', Mixed.compile st n p outs w = (.ok r, w') ∧
      ReadBackAs w' r (Mixed.inputs n p) (Mixed.runProgram n p outs) := by
  have key : (∃ a, a ≤ 2 * n ∧ ∀ r w', Mixed.compile st n p outs w = (.ok r, w') → OneCallAt w' r a n) →
      ∀ r w', Mixed.compile st n p outs w = (.ok r, w') → LastOutputs w' r ∧
        ∃ c, w'.circs[r]? = some c ∧ c.numConst = 0 ∧ Inlined w' r c.numGate [] ∧ c.numWire < 2 ^ 64 := by
    rintro ⟨a, ha, hone⟩ r w' e
    obtain ⟨h1, h2, c, hc, k1, k2, k3, k4, k5⟩ := hone r w' e
    exact ⟨h1, c, hc, k1, by rw [k2]; exact h2, by omega⟩
  rcases hp with ⟨rfl, rfl⟩ | ⟨rfl | rfl | rfl, rfl⟩
  · exact program_reads hv hst hn rfl (by simp [Mixed.Cmd.Fits]) (by simp) (key ⟨n, by omega, fun r w' e => not_rows hv.reachable e⟩)
  · exact program_reads hv hst hn rfl (by simp [Mixed.Cmd.Fits]) (by simp) (key ⟨n + n, by omega, fun r w' e => and_rows hv.reachable e⟩)
  · exact program_reads hv hst hn rfl (by simp [Mixed.Cmd.Fits]) (by simp) (key ⟨n + n, by omega, fun r w' e => or_rows hv.reachable e⟩)
  · exact program_reads hv hst hn rfl (by simp [Mixed.Cmd.Fits]) (by simp) (key ⟨n + n, by omega, fun r w' e => xor_rows hv.reachable e⟩)

/-- C82: the same for a selection between two bit strings. -/
theorem C82_select_partial {w : World} (hv : ValidRun w) {st : StoreRef} (hst : st < w.stores.length) {n : Nat} (hn : 1 ≤ n)
    (hs : 5 * n + 2 < 2 ^ 64) :
    ∃ r w', Mixed.compile st n [.input, .newBits, .newBits, .mux 0 1 2] [3] w = (.ok r, w') ∧
      ReadBackAs w' r (Mixed.inputs n [.input, .newBits, .newBits, .mux 0 1 2])
        (Mixed.runProgram n [.input, .newBits, .newBits, .mux 0 1 2] [3]) := by
  refine program_reads hv hst hn rfl (by simp [Mixed.Cmd.Fits]) (by simp) fun r w' e => ?_
  obtain ⟨_, hR, c, hc, h⟩ := mux_sel hv.reachable e
  have hwf := (WFw.of_reachable hR).circ r c hc
  have hwire : c.numWire = c.inputLen + c.numConst + c.numGate := wireSum_inv.reachable hR _ (List.mem_of_getElem? hc)
  refine ⟨.gates hc (h.tidy hwf), c, hc, h.numConst, by rw [h.numGate]; exact h.inlined hwf hn hc, ?_⟩
  rw [hwire, h.inputLen, h.numConst, h.numGate]
  unfold selIn
  omega

theorem computes_fits {n : Nat} {p : List Mixed.Cmd} (hp : ∀ c ∈ p, c.Computes ∨ c.Passes) : ∀ c ∈ p, c.Fits n := by
  intro c hc
  have := hp c hc
  cases c <;> first | trivial | (simp [Mixed.Cmd.Computes, Mixed.Cmd.Passes] at this)

/-- C82: a program of bitwise operations, selections, gates, new values and conversions between words whose only result `o` is a
computed value, converted or not (its gates were made by statement `i`, which computes), and every computing statement of which is
of use for the result (`NoneIdle`), is written, read back into any empty circuit, and what was read computes the program, however
long the program is and however its statements share values. -/
theorem C82_neat_partial {w : World} (hv : ValidRun w) {st : StoreRef} (hst : st < w.stores.length) {n : Nat} (hn : 1 ≤ n)
    {p : List Mixed.Cmd} (hty : (Mixed.kinds p []).isSome) (hp : ∀ c ∈ p, c.Computes ∨ c.Passes) {o i : Nat} {d : Mixed.Cmd}
    (hout : o < p.length) (hori : (Mixed.origins p [])[o]? = some i) (hi : p[i]? = some d) (hd : d.Computes)
    (hidle : Mixed.NoneIdle p [o]) :
    ∃ r w' c, Mixed.compile st n p [o] w = (.ok r, w') ∧ w'.circs[r]? = some c ∧
      (c.numWire < 2 ^ 64 → ReadBackAs w' r (Mixed.inputs n p) (Mixed.runProgram n p [o])) := by
  have hfit := computes_fits (n := n) hp
  obtain ⟨r, w', e, hfull, -, hl⟩ := Neat.compile_used hv.reachable hst hn hty hp (outs := [o]) (by simpa using hout) hidle
  obtain ⟨r', w'', e', h1, -⟩ := mixed_ok hv.reachable hst hn hty hfit (outs := [o]) (by simpa using hout)
  rw [e] at e'; cases e'
  obtain ⟨c, hc, k1, k2⟩ := hfull.inlined (WFw.of_reachable (h1 hv).reachable)
  refine ⟨r, w', c, e, hc, fun hs => ?_⟩
  obtain ⟨r', w'', e', h⟩ := program_reads hv hst hn hty hfit (outs := [o]) (by simpa using hout) fun r1 w1 e1 => by
    rw [e] at e1; cases e1
    exact ⟨hl o i d rfl hori hi hd, c, hc, k1, k2, hs⟩
  rw [e] at e'; cases e'
  exact h

/-- the circuit is written without error, and the reader accepts the text, whatever the circuit it reads into -/
def AlwaysAccepted (w : World) (r : Ref) : Prop :=
  ∃ c, w.circs[r]? = some c ∧ ∀ numFirst ≤ c.inputLen + c.numConst, ∃ res ls, Wrote w r c numFirst res ls ∧
    ∀ w2, Reachable w2 → ∀ r2 c2, w2.circs[r2]? = some c2 → ∃ gow w3, read r2 Map.empty res.st.out w2 = (.ok gow, w3)

/-- C82: with any list of results, the text of a program of these statements is accepted by the reader if every computing statement
is of use for a result and there are no more outputs than wires, and is never accepted otherwise. -/
theorem C82_accepted {w : World} (hv : ValidRun w) {st : StoreRef} (hst : st < w.stores.length) {n : Nat} (hn : 1 ≤ n)
    {p : List Mixed.Cmd} (hty : (Mixed.kinds p []).isSome) (hp : ∀ c ∈ p, c.Computes ∨ c.Passes) {outs : List Nat}
    (houts : ∀ i ∈ outs, i < p.length) :
    ∃ r w' c, Mixed.compile st n p outs w = (.ok r, w') ∧ w'.circs[r]? = some c ∧ (HeaderFits w' r →
      (Mixed.NoneIdle p outs ∧ c.outputLen ≤ c.numWire → AlwaysAccepted w' r) ∧
      (¬ (Mixed.NoneIdle p outs ∧ c.outputLen ≤ c.numWire) → NeverReadBack w' r)) := by
  have hfit := computes_fits (n := n) hp
  obtain ⟨r, w', e, h1, ⟨c, hc, -⟩, -⟩ := mixed_ok hv.reachable hst hn hty hfit houts
  have hvr := h1 hv
  refine ⟨r, w', c, e, hc, ?_⟩
  rintro ⟨c', hc', hsz, hol, hout⟩
  rw [hc] at hc'; cases hc'
  refine ⟨fun ⟨hidle, hle⟩ => ⟨c, hc, fun numFirst hnf => ?_⟩, fun hno => ⟨c, hc, fun numFirst hnf => ?_⟩⟩
  · obtain ⟨r', w'', e', hfull, -⟩ := Neat.compile_used hv.reachable hst hn hty hp houts hidle
    rw [e] at e'; cases e'
    obtain ⟨c', hc', k1, k2⟩ := hfull.inlined (WFw.of_reachable hvr.reachable)
    rw [hc] at hc'; cases hc'
    obtain ⟨res, ls, q1, q2⟩ := C22_reads_iff hvr hc hnf hsz hol
    exact ⟨res, ls, q1, fun w2 hw2 r2 c2 hc2 => (q2 w2 hw2 r2 c2 hc2).1 (.inr ⟨hle, k1, k2⟩)⟩
  · obtain ⟨res, ls, q1, q2⟩ := C22_reads_iff hvr hc hnf hsz hol
    refine ⟨res, ls, q1, fun w2 hw2 r2 c2 hc2 => (q2 w2 hw2 r2 c2 hc2).2 ?_⟩
    rintro (k | ⟨k0, k1, k2⟩)
    · exact hout k
    · obtain ⟨r', w'', e', hl⟩ := Neat.compile_idle hv.reachable hst hn hty hp houts (fun h => hno ⟨h, k0⟩)
      rw [e] at e'; cases e'
      rcases hl.less hvr c hc with h | ⟨_, h⟩
      · omega
      · exact absurd (h _ _ k2) (Nat.lt_irrefl _)

/-- C82: a program of these statements with results, one of whose computing statements is of no use for any of them, compiles to a
circuit whose text can never be read back. With `C82_neat_partial`: a program of these statements whose only result is a computed
value can be read back exactly if all of it is of use. -/
theorem C82_idle_false {w : World} (hv : ValidRun w) {st : StoreRef} (hst : st < w.stores.length) {n : Nat} (hn : 1 ≤ n)
    {p : List Mixed.Cmd} (hty : (Mixed.kinds p []).isSome) (hp : ∀ c ∈ p, c.Computes ∨ c.Passes) {outs : List Nat}
    (houts : ∀ i ∈ outs, i < p.length) (hidle : ¬ Mixed.NoneIdle p outs) :
    ∃ r w', Mixed.compile st n p outs w = (.ok r, w') ∧ (HeaderFits w' r → NeverReadBack w' r) := by
  have hfit := computes_fits (n := n) hp
  obtain ⟨r, w', e, hl⟩ := Neat.compile_idle hv.reachable hst hn hty hp houts hidle
  obtain ⟨r', w'', e', h1, -⟩ := mixed_ok hv.reachable hst hn hty hfit houts
  rw [e] at e'; cases e'
  have hvr := h1 hv
  refine ⟨r, w', e, ?_⟩
  rintro ⟨c, hc, hsz, hol, hout⟩
  refine ⟨c, hc, fun numFirst hn => ?_⟩
  obtain ⟨res, ls, q1, q2⟩ := C22_reads_iff hvr hc hn hsz hol
  refine ⟨res, ls, q1, fun w2 hw2 r2 c2 hc2 => (q2 w2 hw2 r2 c2 hc2).2 ?_⟩
  rintro (k | ⟨_, k1, k2⟩)
  · exact hout k
  · rcases hl.less hvr c hc with h | ⟨_, h⟩
    · omega
    · exact absurd (h _ _ k2) (Nat.lt_irrefl _)

/-- C82: a circuit without gates and constants (the called circuits included) can be read back if it has no more outputs than
inputs, but what is read is a circuit whose outputs are the last inputs in their order, whatever the outputs were. -/
theorem C82_wires {w : World} (h : ValidRun w) {r : Ref} {c : Circuit} (hc : w.circs[r]? = some c) (hg : c.numGate = 0)
    (hk : c.numConst = 0) (ho : c.outputLen ≤ c.inputLen) (hs : c.inputLen < 2 ^ 64) :
    ReadBackAs w r c.inputLen (fun ins => some (ins.drop (c.inputLen - c.outputLen))) := by
  refine ⟨c, hc, fun numFirst hn => ?_⟩
  have hbal := h.balance hc
  obtain ⟨res, ls, hb⟩ := readback h hc (numFirst := numFirst) (by omega) (by omega) (by omega)
  obtain rfl : ls = [] := List.eq_nil_of_length_eq_zero (by have := hb.gates; omega)
  have e1 := hb.numIn
  have e2 := hb.numOut
  have e3 := hb.numWire
  have hv : (fileOf c numFirst []).Valid :=
    ⟨trivial, by omega, fun x hx1 hx2 => by rw [e1]; exact (hb.defined x).mpr (by simp only [List.length_nil]; omega)⟩
  refine ⟨res, [], hb.wrote, fun w2 h2 r2 s2 hc2 => ?_⟩
  obtain ⟨gow, w3, c3, q1, q2, q3, q4, _⟩ := C16_read h2 hc2 hb.text hv
  simp only [Circuit.new, Nat.zero_add] at q3 q4
  obtain ⟨gow', w3', k1, F, hF⟩ := C16_eval h2 hc2 hb.text hv (fun l hl => by cases hl)
  rw [q1] at k1
  cases k1
  refine ⟨gow, w3, c3, q1, q2, by omega, by omega, F, fun fuel hf ins hi => ⟨_, rfl, ?_⟩⟩
  obtain ⟨outs, m1, m2, m3⟩ := hF fuel hf ins (by omega)
  rw [m1]
  congr 1
  apply List.ext_getElem?
  intro i
  rw [List.getElem?_drop]
  by_cases hi' : i < c.outputLen
  · rw [m3 i (by omega)]
    have : (fileOf c numFirst []).output ins i = inputWires ins (c.inputLen - c.outputLen + i) := by
      unfold File.output
      rw [e2, e3, hg, hk]
      rfl
    rw [this]
    rfl
  · rw [List.getElem?_eq_none (by omega), List.getElem?_eq_none (by omega)]

/-- C82: a program of new values and shifts to the right compiles to a circuit that computes the program, can be written, and,
if it has no more output bits than input bits, is read back as the last inputs. -/
theorem C82_moves_false {w : World} (hv : ValidRun w) {st : StoreRef} (hst : st < w.stores.length) {n : Nat} (hn : 1 ≤ n)
    {p : List Mixed.Cmd} {outs : List Nat} (hty : (Mixed.kinds p []).isSome) (hfit : ∀ c ∈ p, c.Fits n)
    (houts : ∀ i ∈ outs, i < p.length) (hp : ∀ c ∈ p, c.Moves) (hs : Mixed.inputs n p < 2 ^ 64) :
    ∃ r w' c, Mixed.compile st n p outs w = (.ok r, w') ∧ w'.circs[r]? = some c ∧
      (∀ ins : List Bool, ins.length = Mixed.inputs n p → ∃ out, Mixed.runProgram n p outs ins = some out ∧ Outputs w' r ins out) ∧
      (c.outputLen ≤ Mixed.inputs n p →
        ReadBackAs w' r (Mixed.inputs n p) (fun ins => some (ins.drop (Mixed.inputs n p - c.outputLen)))) := by
  obtain ⟨r, w', e, h1, ⟨c, hc, hl⟩, h2, _⟩ := mixed_ok hv.reachable hst hn hty hfit houts
  refine ⟨r, w', c, e, hc, h2, fun ho => ?_⟩
  obtain ⟨c', hc', hb⟩ := compile_bare hv.reachable e hp
  rw [hc] at hc'
  obtain rfl := Option.some.inj hc'
  rw [← hl] at ho hs ⊢
  exact C82_wires (h1 hv) hc hb.1 hb.2 ho hs

/-- what was read back is one function only -/
theorem ReadBackAs.det {w : World} {r : Ref} {k : Nat} {f g : List Bool → Option (List Bool)} (h1 : ReadBackAs w r k f)
    (h2 : ReadBackAs w r k g) {ins : List Bool} (hi : ins.length = k) : f ins = g ins := by
  obtain ⟨c, hc, h1⟩ := h1
  obtain ⟨c', hc', h2⟩ := h2
  rw [hc] at hc'
  obtain rfl := Option.some.inj hc'
  obtain ⟨res, ls, a1, b1⟩ := h1 0 (Nat.zero_le _)
  obtain ⟨res', ls', a2, b2⟩ := h2 0 (Nat.zero_le _)
  obtain ⟨rfl, rfl⟩ := a1.det a2
  have hw : Reachable (run [.newStorage, .newCircuit 0]) := (validRun_of_check [.newStorage, .newCircuit 0] .nil (by decide)).reachable
  obtain ⟨gow, w3, c3, d1, d2, d3, _, F, d4⟩ := b1 _ hw 0 0 rfl
  obtain ⟨gow', w3', c3', e1, e2, e3, _, F', e4⟩ := b2 _ hw 0 0 rfl
  rw [d1] at e1
  cases e1
  obtain ⟨o, u1, u2⟩ := d4 (max F F') (Nat.le_max_left _ _) ins hi
  obtain ⟨o', v1, v2⟩ := e4 (max F F') (Nat.le_max_right _ _) ins hi
  rw [u2] at v2
  cases v2
  rw [u1, v1]

theorem ReadBackAs.congr {w : World} {r : Ref} {k : Nat} {f g : List Bool → Option (List Bool)} (h : ReadBackAs w r k f)
    (hfg : ∀ ins : List Bool, ins.length = k → f ins = g ins) : ReadBackAs w r k g := by
  obtain ⟨c, hc, h⟩ := h
  refine ⟨c, hc, fun numFirst hn => ?_⟩
  obtain ⟨res, ls, a1, b1⟩ := h numFirst hn
  refine ⟨res, ls, a1, fun w2 h2 r2 s2 hc2 => ?_⟩
  obtain ⟨gow, w3, c3, d1, d2, d3, d4, F, d5⟩ := b1 w2 h2 r2 s2 hc2
  refine ⟨gow, w3, c3, d1, d2, d3, d4, F, fun fuel hf ins hi => ?_⟩
  rw [← hfg ins hi]
  exact d5 fuel hf ins hi

/-- C82: the remaining programs of bitwise operations, selections, gates, new values and conversions with one result: if the result
is a new value, converted or not, and nothing is idle, the text is accepted, and what is read computes the program exactly if no
value was made new after the result. -/
theorem C82_source {w : World} (hv : ValidRun w) {st : StoreRef} (hst : st < w.stores.length) {n : Nat} (hn : 1 ≤ n)
    {p : List Mixed.Cmd} (hty : (Mixed.kinds p []).isSome) (hp : ∀ c ∈ p, c.Computes ∨ c.Passes) {o i : Nat} {d : Mixed.Cmd}
    (hori : (Mixed.origins p [])[o]? = some i) (hi : p[i]? = some d) (hd : d.source = true) (hidle : Mixed.NoneIdle p [o])
    (hs : Mixed.inputs n p < 2 ^ 64) :
    ∃ r w', Mixed.compile st n p [o] w = (.ok r, w') ∧
      ReadBackAs w' r (Mixed.inputs n p) (fun ins => some (ins.drop (Mixed.inputs n p - d.takes n))) ∧
      ((∀ (j : Nat) c, i < j → p[j]? = some c → c.source = false) ↔
        ReadBackAs w' r (Mixed.inputs n p) (Mixed.runProgram n p [o])) := by
  have hpass := Neat.source_passes hty hp hori hi hd hidle
  have hout : o < p.length := by
    have := (List.getElem?_eq_some_iff.mp hori).1
    rwa [Neat.origins_length, List.length_nil, Nat.zero_add] at this
  have hrun := fun ins hl => Neat.run_source (n := n) hty hpass hori hi hd (ins := ins) hl
  have hil : i < p.length := (List.getElem?_eq_some_iff.mp hi).1
  have hsplit : Mixed.inputs n p = Mixed.inputs n (p.take i) + (d.takes n + Mixed.inputs n (p.drop (i + 1))) := by
    conv_lhs => rw [← List.take_append_drop i p, List.drop_eq_getElem_cons hil]
    rw [Neat.inputs_append, Mixed.inputs, (List.getElem?_eq_some_iff.mp hi).2]
  have hpos : 1 ≤ d.takes n := by
    rcases hp d (List.mem_of_getElem? hi) with h | h
    · revert h hd; cases d <;> simp [Mixed.Cmd.Computes, Mixed.Cmd.source]
    · revert h hd; cases d <;> simp [Mixed.Cmd.Passes, Mixed.Cmd.source, Mixed.Cmd.takes, hn]
  obtain ⟨r, w', e, h1, ⟨c, hc, hl⟩, h2, _⟩ := mixed_ok hv.reachable hst hn hty (computes_fits hp) (outs := [o]) (by simpa using hout)
  obtain ⟨r', w'', e', -, hz, -⟩ := Neat.compile_used hv.reachable hst hn hty hp (outs := [o]) (by simpa using hout) hidle
  rw [e] at e'; cases e'
  obtain ⟨c', hc', hg, hk⟩ := hz fun st hst hc => by
    have := hpass st hst
    revert hc this; cases st <;> simp [Mixed.Cmd.Computes, Mixed.Cmd.Passes]
  rw [hc] at hc'; cases hc'
  have hol : c.outputLen = d.takes n := by
    obtain ⟨out, k1, c', hc', _, k2, _⟩ := h2 (List.replicate (Mixed.inputs n p) false) (by simp)
    rw [hc] at hc'; cases hc'
    rw [hrun _ (by simp)] at k1
    rw [← k2, ← Option.some.inj k1]
    simp; omega
  have hread := C82_wires (h1 hv) hc hg hk (by omega) (by omega)
  rw [hl, hol] at hread
  refine ⟨r, w', e, hread, fun hlast => ?_, fun hr j c' hj hjc => ?_⟩
  · have hzero : Mixed.inputs n (p.drop (i + 1)) = 0 := by
      have : ∀ q : List Mixed.Cmd, (∀ c ∈ q, c.source = false) → Mixed.inputs n q = 0 := by
        intro q hq
        induction q with
        | nil => rfl
        | cons c q ih =>
          rw [Mixed.inputs, ih fun c hc => hq c (by simp [hc])]
          have := hq c (by simp)
          revert this; cases c <;> simp [Mixed.Cmd.source, Mixed.Cmd.takes]
      refine this _ fun c hc => ?_
      obtain ⟨j, hj⟩ := List.getElem?_of_mem hc
      rw [List.getElem?_drop] at hj
      exact hlast _ c (by omega) hj
    refine hread.congr fun ins hins => ?_
    rw [hrun ins hins, List.take_of_length_le (by rw [List.length_drop]; omega)]
    congr 2
    omega
  · rcases Bool.eq_false_or_eq_true c'.source with ht | hf
    · exfalso
      have hlater : 1 ≤ Mixed.inputs n (p.drop (i + 1)) := by
        have : ∀ (q : List Mixed.Cmd) (c : Mixed.Cmd), c ∈ q → 1 ≤ c.takes n → 1 ≤ Mixed.inputs n q := by
          intro q c hq h
          induction q with
          | nil => simp at hq
          | cons a q ih =>
            rw [Mixed.inputs]
            rcases List.mem_cons.mp hq with rfl | hq
            · omega
            · have := ih hq; omega
        refine this _ c' ?_ ?_
        · refine List.mem_of_getElem? (i := j - (i + 1)) ?_
          rw [List.getElem?_drop, Nat.add_sub_cancel' (by omega)]
          exact hjc
        · have := hpass c' (List.mem_of_getElem? hjc)
          revert this ht; cases c' <;> simp [Mixed.Cmd.Passes, Mixed.Cmd.source, Mixed.Cmd.takes, hn]
      let ins := List.replicate (Mixed.inputs n p - 1) false ++ [true]
      have hins : ins.length = Mixed.inputs n p := by simp [ins]; omega
      have := hread.det hr hins
      rw [hrun ins hins] at this
      have h0 := congrArg (·[d.takes n - 1]?) (Option.some.inj this)
      simp only [List.getElem?_drop, List.getElem?_take, if_pos (show d.takes n - 1 < d.takes n by omega)] at h0
      rw [show Mixed.inputs n p - d.takes n + (d.takes n - 1) = Mixed.inputs n p - 1 by omega,
        List.getElem?_append_right (by simp), List.getElem?_append_left (by simp; omega)] at h0
      simp only [List.length_replicate, Nat.sub_self, List.getElem?_cons_zero] at h0
      rw [List.getElem?_replicate] at h0
      split at h0 <;> cases h0
    · exact hf

/-- C82: a shift to the right of a word of two or more bits, by any amount but zero, is read back as the word that was not
shifted: the text is accepted, and computes something else. -/
theorem C82_shift_false {w : World} (hv : ValidRun w) {st : StoreRef} (hst : st < w.stores.length) {n k : Nat} (hn : 2 ≤ n)
    (hk : 1 ≤ k) (hkn : k ≤ n) (hs : n < 2 ^ 64) :
    ∃ r w', Mixed.compile st n [.newInt, .shr 0 k] [1] w = (.ok r, w') ∧ ReadBackAs w' r n some ∧
      ¬ ReadBackAs w' r n (Mixed.runProgram n [.newInt, .shr 0 k] [1]) := by
  obtain ⟨r, w', c, e, hc, h1, h2⟩ := C82_moves_false hv hst (by omega : 1 ≤ n) (p := [.newInt, .shr 0 k]) (outs := [1]) rfl
    (by simp [Mixed.Cmd.Fits, hkn]) (by simp) (by simp [Mixed.Cmd.Moves]) (by simpa [Mixed.inputs, Mixed.Cmd.takes] using hs)
  have hin : Mixed.inputs n [.newInt, .shr 0 k] = n := by simp [Mixed.inputs, Mixed.Cmd.takes]
  rw [hin] at h1 h2
  have hrun : ∀ ins : List Bool, Mixed.runProgram n [.newInt, .shr 0 k] [1] ins =
      some (Mixed.Value.out (.int ((Mixed.word n (ins.take n)).sshiftRight k))) := by
    intro ins
    simp [Mixed.runProgram, Mixed.exec, Mixed.Cmd.value, Mixed.getInt]
  have hol : c.outputLen = n := by
    obtain ⟨out, k1, c', hc', _, k2, _⟩ := h1 (List.replicate n false) (by simp)
    rw [hc] at hc'
    obtain rfl := Option.some.inj hc'
    rw [hrun] at k1
    rw [← k2, ← Option.some.inj k1]
    simp [Mixed.Value.out]
  have h3 : ReadBackAs w' r n some := by
    have := h2 (by omega)
    rw [hol] at this
    simpa using this
  refine ⟨r, w', e, h3, fun h4 => ?_⟩
  have := h3.det h4 (ins := true :: List.replicate (n - 1) false) (by simp; omega)
  rw [hrun] at this
  have hw : Mixed.word n (List.take n (true :: List.replicate (n - 1) false)) = 1#n := by
    rw [List.take_of_length_le (by simp; omega)]
    unfold Mixed.word
    simp [bitsVal, bitsVal_replicate_false]
  rw [hw] at this
  have h0 := congrArg (·[0]?) (Option.some.inj this)
  simp only [List.getElem?_cons_zero, Mixed.Value.out] at h0
  rw [bitsOf_get (by omega), BitVec.testBit_toNat, BitVec.getLsbD_sshiftRight] at h0
  have hmsb : (1#n).msb = false := by simp [BitVec.msb_eq_getLsbD_last, BitVec.getLsbD_one]; omega
  rw [hmsb] at h0
  simp [BitVec.getLsbD_one] at h0
  omega

/-- exclusive or of two bit strings of 100 bits, and what it computes for three bits -/
example : (∃ r w', Mixed.compile 0 100 [.newBits, .newBits, .xorBits 0 1] [2] (run [.newStorage]) = (.ok r, w') ∧
      ReadBackAs w' r 200 (Mixed.runProgram 100 [.newBits, .newBits, .xorBits 0 1] [2])) ∧
    Mixed.runProgram 3 [.newBits, .newBits, .xorBits 0 1] [2] [true, true, false, true, false, false] = some [false, true, false] :=
  ⟨C82_bitwise_partial storage_valid.1 storage_valid.2 (by decide) (by decide) (.inr ⟨.inr (.inr rfl), rfl⟩), by decide⟩

/-- C82_select_partial: selection between words of 64 bits, and what it computes for two bits -/
example : (∃ r w', Mixed.compile 0 64 [.input, .newBits, .newBits, .mux 0 1 2] [3] (run [.newStorage]) = (.ok r, w') ∧
      ReadBackAs w' r 129 (Mixed.runProgram 64 [.input, .newBits, .newBits, .mux 0 1 2] [3])) ∧
    Mixed.runProgram 2 [.input, .newBits, .newBits, .mux 0 1 2] [3] [true, false, false, true, false] = some [true, false] :=
  ⟨C82_select_partial storage_valid.1 storage_valid.2 (by decide) (by decide), by decide⟩

/-- every computing statement of this program is of use for its last value: a selection between a conjunction and one of its
operands, as a number and back, inverted and as a number again -/
theorem usefulProgram_busy :
    Mixed.NoneIdle [.newBits, .newBits, .andBits 0 1, .input, .mux 3 2 0, .toInt 4, .toBits 5, .notBits 6, .toInt 7] [8] := by
  have h8 : Mixed.Leads [.newBits, .newBits, .andBits 0 1, .input, .mux 3 2 0, .toInt 4, .toBits 5, .notBits 6, .toInt 7] [8] 8 :=
    .result (by simp)
  have h7 := Mixed.Leads.read (i := 7) (j := 8) rfl (by simp [Mixed.Cmd.reads]) h8
  have h6 := Mixed.Leads.read (i := 6) (j := 7) rfl (by simp [Mixed.Cmd.reads]) h7
  have h5 := Mixed.Leads.read (i := 5) (j := 6) rfl (by simp [Mixed.Cmd.reads]) h6
  have h4 := Mixed.Leads.read (i := 4) (j := 5) rfl (by simp [Mixed.Cmd.reads]) h5
  have h2 := Mixed.Leads.read (i := 2) (j := 4) rfl (by simp [Mixed.Cmd.reads]) h4
  intro i c hi hc
  rcases (by have := (List.getElem?_eq_some_iff.mp hi).1; simp at this; omega :
    i = 0 ∨ i = 1 ∨ i = 2 ∨ i = 3 ∨ i = 4 ∨ i = 5 ∨ i = 6 ∨ i = 7 ∨ i = 8) with rfl | rfl | rfl | rfl | rfl | rfl | rfl | rfl | rfl <;>
    first | assumption | (cases hi; exact hc.elim)

/-- C82_neat_partial: this program at width 64 -/
example : ∃ r w' c, Mixed.compile 0 64 [.newBits, .newBits, .andBits 0 1, .input, .mux 3 2 0, .toInt 4, .toBits 5, .notBits 6, .toInt 7] [8]
      (run [.newStorage]) = (.ok r, w') ∧ w'.circs[r]? = some c ∧ (c.numWire < 2 ^ 64 → ReadBackAs w' r 129
        (Mixed.runProgram 64 [.newBits, .newBits, .andBits 0 1, .input, .mux 3 2 0, .toInt 4, .toBits 5, .notBits 6, .toInt 7] [8])) :=
  C82_neat_partial storage_valid.1 storage_valid.2 (by decide) rfl (by simp [Mixed.Cmd.Computes, Mixed.Cmd.Passes])
    (i := 7) (d := .notBits 6) (by decide) rfl rfl trivial usefulProgram_busy

/-- the numbers fit, here at width 4 -/
example : ((Mixed.compile 0 4 [.newBits, .newBits, .andBits 0 1, .input, .mux 3 2 0, .toInt 4, .toBits 5, .notBits 6, .toInt 7] [8]
      (run [.newStorage])).2.circs[0]?).map (fun c => (c.numWire, c.numConst, c.outputLen)) = some (30, 0, 4) := by decide +kernel

/-- C82_accepted: a conjunction and its negation are both results: accepted; a result declared three times at width 1: three outputs,
but two wires, never accepted -/
example : (∃ r w' c, Mixed.compile 0 4 [.newBits, .newBits, .andBits 0 1, .notBits 2] [2, 3] (run [.newStorage]) = (.ok r, w') ∧
      w'.circs[r]? = some c ∧ (HeaderFits w' r → c.outputLen ≤ c.numWire → AlwaysAccepted w' r)) ∧
    ((Mixed.compile 0 4 [.newBits, .newBits, .andBits 0 1, .notBits 2] [2, 3] (run [.newStorage])).2.circs[0]?).map
      (fun c => (c.numWire, c.numConst, c.outputLen)) = some (16, 0, 8) ∧
    (∃ r w' c, Mixed.compile 0 1 [.newBits, .notBits 0] [1, 1, 1] (run [.newStorage]) = (.ok r, w') ∧
      w'.circs[r]? = some c ∧ (HeaderFits w' r → ¬ c.outputLen ≤ c.numWire → NeverReadBack w' r)) ∧
    ((Mixed.compile 0 1 [.newBits, .notBits 0] [1, 1, 1] (run [.newStorage])).2.circs[0]?).map
      (fun c => (c.numWire, c.numConst, c.outputLen)) = some (2, 0, 3) := by
  refine ⟨?_, by decide +kernel, ?_, by decide +kernel⟩
  · obtain ⟨r, w', c, e, hc, h⟩ := C82_accepted storage_valid.1 storage_valid.2 (n := 4) (by decide)
      (p := [.newBits, .newBits, .andBits 0 1, .notBits 2]) (outs := [2, 3]) rfl (by simp [Mixed.Cmd.Computes, Mixed.Cmd.Passes]) (by decide)
    refine ⟨r, w', c, e, hc, fun hf ho => (h hf).1 ⟨?_, ho⟩⟩
    intro i d hi hd
    rcases (by have := (List.getElem?_eq_some_iff.mp hi).1; simp at this; omega : i = 0 ∨ i = 1 ∨ i = 2 ∨ i = 3) with rfl | rfl | rfl | rfl
    · cases hi; exact hd.elim
    · cases hi; exact hd.elim
    · exact .result (by simp)
    · exact .result (by simp)
  · obtain ⟨r, w', c, e, hc, h⟩ := C82_accepted storage_valid.1 storage_valid.2 (n := 1) (by decide)
      (p := [.newBits, .notBits 0]) (outs := [1, 1, 1]) rfl (by simp [Mixed.Cmd.Computes, Mixed.Cmd.Passes]) (by decide)
    exact ⟨r, w', c, e, hc, fun hf ho => (h hf).2 fun h => ho h.2⟩

/-- C82_idle_false: a conjunction that is only converted to a number, next to an exclusive disjunction -/
example : (∃ r w', Mixed.compile 0 4 [.newBits, .newBits, .andBits 0 1, .toInt 2, .xorBits 0 1] [4] (run [.newStorage]) = (.ok r, w') ∧
      (HeaderFits w' r → NeverReadBack w' r)) ∧
    ((Mixed.compile 0 4 [.newBits, .newBits, .andBits 0 1, .toInt 2, .xorBits 0 1] [4] (run [.newStorage])).2.circs[0]?).map
      (fun c => (c.numWire + c.numConst, c.outputLen)) = some (16, 4) := by
  refine ⟨C82_idle_false storage_valid.1 storage_valid.2 (by decide) rfl (by simp [Mixed.Cmd.Computes, Mixed.Cmd.Passes]) (by decide) ?_,
    by decide +kernel⟩
  intro h
  have key : ∀ i, Mixed.Leads [.newBits, .newBits, .andBits 0 1, .toInt 2, .xorBits 0 1] [4] i → i = 0 ∨ i = 1 ∨ i = 4 := by
    intro i hi
    induction hi with
    | result h => simp at h; omega
    | read hj hr _ ih =>
      rcases ih with rfl | rfl | rfl <;> cases hj <;> (simp [Mixed.Cmd.reads] at hr; try omega)
  have := key 2 (h 2 _ rfl trivial)
  omega

/-- C82_wires: three inputs, of which the first is the only output; what is read has the last one as output -/
example : ReadBackAs (run [.newStorage, .newCircuit 0, .input 0, .input 0, .input 0, .output 0 0]) 0 3 (fun ins => some (ins.drop 2)) ∧
    evalOutput (run [.newStorage, .newCircuit 0, .input 0, .input 0, .input 0, .output 0 0]) 9 0 [true, false, false] = .ok [true] :=
  ⟨C82_wires (c := (run [.newStorage, .newCircuit 0, .input 0, .input 0, .input 0, .output 0 0]).circs[0])
    (validRun_of_check _ .nil (by decide)) rfl rfl rfl (by decide) (by decide), rfl⟩

/-- C82_moves_false: two words, the outputs are both, the second first and the first shifted; the text is read back as both words
unchanged -/
example : ∃ r w' c, Mixed.compile 0 8 [.newInt, .newBits, .shr 0 3] [1, 2] (run [.newStorage]) = (.ok r, w') ∧ w'.circs[r]? = some c ∧
    (c.outputLen ≤ 16 → ReadBackAs w' r 16 (fun ins => some (ins.drop (16 - c.outputLen)))) := by
  obtain ⟨r, w', c, e, hc, _, h⟩ := C82_moves_false storage_valid.1 storage_valid.2 (n := 8) (by decide)
    (p := [.newInt, .newBits, .shr 0 3]) (outs := [1, 2]) rfl (by simp [Mixed.Cmd.Fits]) (by decide) (by simp [Mixed.Cmd.Moves])
    (by decide)
  exact ⟨r, w', c, e, hc, h⟩

/-- C82_source: the second of two words is read back, the first is not: what is read computes the second -/
example : (∃ r w', Mixed.compile 0 8 [.newInt, .newBits, .toInt 1] [2] (run [.newStorage]) = (.ok r, w') ∧
      ReadBackAs w' r 16 (Mixed.runProgram 8 [.newInt, .newBits, .toInt 1] [2])) ∧
    (∃ r w', Mixed.compile 0 8 [.newInt, .newBits, .toBits 0] [2] (run [.newStorage]) = (.ok r, w') ∧
      ReadBackAs w' r 16 (fun ins => some (ins.drop 8)) ∧ ¬ ReadBackAs w' r 16 (Mixed.runProgram 8 [.newInt, .newBits, .toBits 0] [2])) := by
  have hnone : ∀ {c : Mixed.Cmd} {j i : Nat}, [Mixed.Cmd.newInt, .newBits, .toInt i][j]? = some c ∨
      [Mixed.Cmd.newInt, .newBits, .toBits i][j]? = some c → ¬ c.Computes := by
    rintro c j i (h | h) <;> (have := List.mem_of_getElem? h; simp at this; rcases this with rfl | rfl | rfl <;> exact id)
  constructor
  · obtain ⟨r, w', e, -, h⟩ := C82_source storage_valid.1 storage_valid.2 (n := 8) (by decide) (p := [.newInt, .newBits, .toInt 1]) (o := 2) (i := 1)
      (d := .newBits) rfl (by simp [Mixed.Cmd.Computes, Mixed.Cmd.Passes]) rfl rfl rfl (fun j c hj hc => (hnone (.inl hj) hc).elim) (by decide)
    refine ⟨r, w', e, h.mp fun j c hj hc => ?_⟩
    rcases (by have := (List.getElem?_eq_some_iff.mp hc).1; simp at this; omega : j = 2) with rfl
    cases hc; rfl
  · obtain ⟨r, w', e, h0, h⟩ := C82_source storage_valid.1 storage_valid.2 (n := 8) (by decide) (p := [.newInt, .newBits, .toBits 0]) (o := 2) (i := 0)
      (d := .newInt) rfl (by simp [Mixed.Cmd.Computes, Mixed.Cmd.Passes]) rfl rfl rfl (fun j c hj hc => (hnone (.inr hj) hc).elim) (by decide)
    exact ⟨r, w', e, h0, fun hr => by have := h.mpr hr 1 .newBits (by decide) rfl; cases this⟩

/-- C82_shift_false: halving a byte -/
example : (∃ r w', Mixed.compile 0 8 [.newInt, .shr 0 1] [1] (run [.newStorage]) = (.ok r, w') ∧ ReadBackAs w' r 8 some ∧
      ¬ ReadBackAs w' r 8 (Mixed.runProgram 8 [.newInt, .shr 0 1] [1])) ∧
    Mixed.runProgram 3 [.newInt, .shr 0 1] [1] [false, true, false] = some [true, false, false] :=
  ⟨C82_shift_false storage_valid.1 storage_valid.2 (by decide) (by decide) (by decide) (by decide), by decide⟩


/-! ### the hypotheses can be met -/

/-- a called circuit with a gate it does not need -/
def wasteOps : List Op := [.newStorage, .newCircuit 0, .subCircuit 0, .input 1, .not 1 0, .xor 1 0 1, .output 1 1,
  .input 0, .module 0 0 [0], .output 0 1]

theorem wasteOps_valid : ValidRun (run wasteOps) := validRun_of_check _ .nil (by decide)

theorem header_of {w : World} {r : Ref} {a b : Nat} (h : (w.circs[r]?).map (fun c => (c.numWire + c.numConst, c.outputLen)) = some (a, b))
    (ha : a < 2 ^ 64) (hb : b < 2 ^ 64) (h0 : b ≠ 0) : HeaderFits w r := by
  unfold HeaderFits
  cases hc : w.circs[r]? with
  | none => rw [hc] at h; cases h
  | some c =>
    rw [hc] at h
    obtain ⟨rfl, rfl⟩ := Prod.mk.inj (Option.some.inj h)
    exact ⟨c, rfl, ha, hb, h0⟩

/-- C82_waste_false: only the first gate of the called circuit is needed -/
example : NeverReadBack (run wasteOps) 0 ∧ evalOutput (run wasteOps) 9 0 [true] = .ok [false] := by
  refine ⟨C82_waste_false wasteOps_valid (c := (run wasteOps).circs[0]) (header_of (a := 3) (b := 1) rfl (by decide) (by decide) (by decide))
    rfl (g := 1) (mr := 1) ⟨_, _, _, _, rfl, rfl⟩ (m := (run wasteOps).circs[1]) rfl (d := 2) ⟨0, 1, .inr (.inl rfl)⟩ ?_, rfl⟩
  rintro ⟨i, o, h1, h2⟩
  have ho : o = 1 := by
    match i with
    | 0 => exact (Option.some.inj h1).symm
    | i + 1 => cases h1
  subst ho
  have : ∀ x, Reach (run wasteOps).circs[1] 1 x → x ≤ 1 := by
    intro x hx
    induction hx with
    | refl => decide
    | @operand y gate x _ hg hm ih =>
      match y, ih with
      | 0, _ => obtain rfl : gate = .input 0 := (Option.some.inj hg).symm; cases hm
      | 1, _ => obtain rfl : gate = .not 0 := (Option.some.inj hg).symm; simp [Gate.operands] at hm; omega
    | @sibling y nIn nOut ids oi mid k _ hg _ ih =>
      match y, ih with
      | 0, _ => cases hg
      | 1, _ => cases hg
  exact absurd (this 2 h2) (by decide)

theorem add_compiled : ∃ w2, compile 0 2 [.input, .input, .add 0 1] [2] (run [.newStorage]) = (.ok 0, w2) ∧ ValidRun w2 ∧ HeaderFits w2 0 := by
  obtain ⟨r, w2, _, e, _, _, hv, _⟩ := compile_ok storage_valid.1.reachable storage_valid.2 (n := 2) (by decide)
    (p := [.input, .input, .add 0 1]) (outs := [2]) C32_width_needed.1 (by simp [Stmt.Fits]) (by decide)
  have hf : HeaderFits (compile 0 2 [.input, .input, .add 0 1] [2] (run [.newStorage])).2 0 :=
    header_of (a := 13) (b := 2) (by decide +kernel) (by decide) (by decide) (by decide)
  have h0 : (compile 0 2 [.input, .input, .add 0 1] [2] (run [.newStorage])).1.toOption = some 0 := by decide +kernel
  rw [e] at hf h0
  obtain rfl := Option.some.inj h0
  exact ⟨w2, e, hv storage_valid.1, hf⟩

theorem compile_start (n : Nat) (p : List Stmt) (outs : List Nat) : compile 0 n p outs (run [.newStorage]) = (do
    let cfg ← IntConfig.new 0 n
    let env ← build cfg n p []
    let _ ← M.mapList (fun i => do let z ← M.idx env i; z.output n) outs
    pure 0 : M Ref) start := rfl

theorem start_lt : 0 < start.circs.length := by decide

/-- an addition, and its result as output -/
theorem add_session : ∃ cfg w1 w w' w2, ∃ x y z : AInt, Made (IntConfig.new 0 2) cfg start w1 w ∧ x.config = cfg ∧
    x.add y w = (.ok z, w') ∧ Later w' w2 ∧ Since start w1 w2 ∧ ValidRun w2 ∧ HeaderFits w2 0 := by
  obtain ⟨w2, e, hv, hf⟩ := add_compiled
  rw [compile_start] at e
  obtain ⟨cfg, w1, e1, hcr, hl, hk⟩ := C24_config (r := 0) start_reachable rfl (n := 2) (by decide)
  have hr1 := later_reachable start_reachable hl
  obtain ⟨x, wx, c2, e2, o2, x1, x2, hc2, i2, _, _⟩ := C47_new_int (cfg := cfg) hr1 (by rw [hcr]; exact hk 0 _ rfl) 2
  have hr2 := later_reachable hr1 o2.later
  obtain ⟨y, wy, c3, e3, o3, y1, y2, hc3, i3, _, _⟩ := C47_new_int (cfg := cfg) hr2 hc2 2
  rw [hcr] at o2 o3
  have hm : Made (IntConfig.new 0 2) cfg start w1 wy := ⟨start_reachable, e1, (Since.refl.on start_lt o2).on start_lt o3⟩
  obtain ⟨z, wz, e4, ⟨o4, _, _⟩, z1, z2, _⟩ := C24_add hm x1 x2 y2
  rw [bind_ok e1] at e
  obtain ⟨env, w5, e5, e⟩ := m_bind_inv e
  unfold build at e5
  rw [bind_ok (show Stmt.build cfg 2 [] .input w1 = _ from e2)] at e5
  unfold build at e5
  rw [bind_ok (show Stmt.build cfg 2 ([] ++ [x]) .input wx = _ from e3)] at e5
  unfold build at e5
  rw [bind_ok (show Stmt.build cfg 2 ([] ++ [x] ++ [y]) (.add 0 1) wy = _ from e4)] at e5
  cases e5
  obtain ⟨_, w6, e6, e⟩ := m_bind_inv e
  cases e
  obtain ⟨_, w7, e7, e8⟩ := m_bind_inv e6
  cases e8
  have o5 : On 0 wz w2 := by
    have hp : PlaysOn 0 (z.output 2) := by
      unfold AInt.output
      rw [z1, hcr]
      stays
    have := hp wz
    rw [show z.output 2 wz = _ from e7] at this
    exact this
  exact ⟨cfg, w1, wy, wz, w2, x, y, z, hm, x1, e4, o5.later, (hm.since.on start_lt o4).on start_lt o5, hv, hf⟩

/-- C82_int_false: the addition -/
example : ∃ w2, ValidRun w2 ∧ NeverReadBack w2 0 := by
  obtain ⟨cfg, w1, w, w', w2, x, y, z, hm, hx, e, hl, hs, hv, hf⟩ := add_session
  exact ⟨w2, hv, C82_int_false (g := 0) hm hx (.inl e) hl hs hv hf⟩

theorem bits_compiled : ∃ w2, Mixed.compile 0 2 [.newBits, .newBits, .eqBits 0 1] [2] (run [.newStorage]) = (.ok 0, w2) ∧ ValidRun w2 ∧
    HeaderFits w2 0 := by
  obtain ⟨r, w2, e, hv, _⟩ := mixed_ok storage_valid.1.reachable storage_valid.2 (n := 2) (by decide)
    (p := [.newBits, .newBits, .eqBits 0 1]) (outs := [2]) rfl (by simp [Mixed.Cmd.Fits]) (by decide)
  have hf : HeaderFits (Mixed.compile 0 2 [.newBits, .newBits, .eqBits 0 1] [2] (run [.newStorage])).2 0 :=
    header_of (a := 12) (b := 1) (by decide +kernel) (by decide) (by decide) (by decide)
  have h0 : (Mixed.compile 0 2 [.newBits, .newBits, .eqBits 0 1] [2] (run [.newStorage])).1.toOption = some 0 := by decide +kernel
  rw [e] at hf h0
  obtain rfl := Option.some.inj h0
  exact ⟨w2, e, hv storage_valid.1, hf⟩

theorem mixed_start (n : Nat) (p : List Mixed.Cmd) (outs : List Nat) : Mixed.compile 0 n p outs (run [.newStorage]) = ((do
    let ic ← IntConfig.new 0 n
    let bc ← BitsConfig.new 0 n
    pure (ic, bc) : M (IntConfig × BitsConfig)) >>= fun x => do
    let env ← Mixed.build 0 x.1 x.2 n p []
    let _ ← M.mapList (fun i => do let z ← M.idx env i; z.output 0 n) outs
    pure 0 : M Ref) start := rfl

theorem eq_session : ∃ cfg w0 w1 w w' w2, ∃ x y : Bits, ∃ g, Made (BitsConfig.new 0 2) cfg w0 w1 w ∧ x.config = cfg ∧
    x.eq y w = (.ok g, w') ∧ Later w' w2 ∧ ValidRun w2 ∧ HeaderFits w2 0 := by
  obtain ⟨w2, e, hv, hf⟩ := bits_compiled
  rw [mixed_start] at e
  obtain ⟨⟨ic, cfg⟩, w1, e1, e⟩ := m_bind_inv e
  obtain ⟨ic', w0, e0, e1⟩ := m_bind_inv e1
  obtain ⟨bc', w1', e1, e2⟩ := m_bind_inv e1
  cases e2
  have hl0 := plays_intConfig 0 2 start
  rw [e0] at hl0
  have hr0 := later_reachable start_reachable hl0
  obtain ⟨c0, hc0⟩ := bitsConfig_circ e1
  obtain ⟨cfg', w1', e1', hcr, hl1, hk⟩ := C33_config (r := 0) hr0 hc0 2
  rw [e1] at e1'
  cases e1'
  have hr1 := later_reachable hr0 hl1
  obtain ⟨x, wx, c2, e2, o2, x1, x2, hc2, i2, _, _⟩ := C47_new_bits (cfg := cfg) hr1 (by rw [hcr]; exact hk 0 _ hc0) 2
  have hr2 := later_reachable hr1 o2.later
  obtain ⟨y, wy, c3, e3, o3, y1, y2, hc3, i3, _, _⟩ := C47_new_bits (cfg := cfg) hr2 hc2 2
  rw [hcr] at o2 o3
  have hlt : 0 < w0.circs.length := lt_of_getElem? hc0
  have hm : Made (BitsConfig.new 0 2) cfg w0 w1 wy := ⟨hr0, e1, (Since.refl.on hlt o2).on hlt o3⟩
  obtain ⟨env, w5, e5, e⟩ := m_bind_inv e
  unfold Mixed.build at e5
  obtain ⟨h1, v1, q1, e5⟩ := m_bind_inv e5
  obtain ⟨x', v1', q1, q1'⟩ := m_bind_inv q1
  cases q1'
  rw [e2] at q1
  cases q1
  unfold Mixed.build at e5
  obtain ⟨h1, v1, q1, e5⟩ := m_bind_inv e5
  obtain ⟨y', v1', q1, q1'⟩ := m_bind_inv q1
  cases q1'
  rw [e3] at q1
  cases q1
  unfold Mixed.build at e5
  obtain ⟨h1, v1, q1, e5⟩ := m_bind_inv e5
  obtain ⟨_, _, q0, q1⟩ := m_bind_inv q1
  cases q0
  obtain ⟨_, _, q0, q1⟩ := m_bind_inv q1
  cases q0
  obtain ⟨g, v1', q1, q1'⟩ := m_bind_inv q1
  cases q1'
  cases e5
  refine ⟨cfg, w0, w1, wy, _, w2, x, y, g, hm, x1, q1, ?_, hv, hf⟩
  have hp : Plays (do
      let _ ← M.mapList (fun i => do let z ← M.idx ([] ++ [Mixed.Handle.bits x] ++ [.bits y] ++ [.bit g]) i; z.output 0 2) [2]
      pure 0 : M Ref) := by
    refine .bind (.mapList (fun i => .bind (.idx _ _) fun z => ?_) _) fun _ => .pure _
    cases z <;> unfold Mixed.Handle.output
    · unfold AInt.output; plays
    · unfold Bits.output; plays
    · plays
  have := hp w5
  rw [e] at this
  exact this

/-- C82_bits_false: comparing two bit strings -/
example : ∃ w2, ValidRun w2 ∧ NeverReadBack w2 0 := by
  obtain ⟨cfg, w0, w1, w, w', w2, x, y, g, hm, hx, e, hl, hv, hf⟩ := eq_session
  exact ⟨w2, hv, C82_bits_false hm hx (.inl e) hl hv hf⟩

/-- C82_field_false: adding in the field with 11 elements; the circuit has 1996 wires, 188 of them for constants -/
theorem field_compiled : ∃ w2, FieldProgram.compile 0 8 11 4 [.new, .new, .add 0 1] [2] (run [.newStorage]) = (.ok 0, w2) ∧ ValidRun w2 ∧
    HeaderFits w2 0 := by
  obtain ⟨r, w2, e, hv, _⟩ := FProg.field_ok storage_valid.1.reachable storage_valid.2 fits11 (by decide) (by decide)
    (prog := [.new, .new, .add 0 1]) (outs := [2]) rfl (by simp [FieldProgram.Cmd.Fits]) (by decide)
  have hf : HeaderFits (FieldProgram.compile 0 8 11 4 [.new, .new, .add 0 1] [2] (run [.newStorage])).2 0 :=
    header_of (a := 2184) (b := 8) (by decide +kernel) (by decide) (by decide) (by decide)
  have h0 : (FieldProgram.compile 0 8 11 4 [.new, .new, .add 0 1] [2] (run [.newStorage])).1.toOption = some 0 := by decide +kernel
  rw [e] at hf h0
  obtain rfl := Option.some.inj h0
  exact ⟨w2, e, hv storage_valid.1, hf⟩

theorem field_start (n p k : Nat) (prog : List FieldProgram.Cmd) (outs : List Nat) :
    FieldProgram.compile 0 n p k prog outs (run [.newStorage]) = (do
      let cfg ← fieldOver 0 n p k
      let env ← FieldProgram.build 0 cfg n prog []
      let _ ← M.mapList (fun i => do let z ← M.idx env i; z.output 0 n) outs
      pure 0 : M Ref) start := rfl

theorem field_session : ∃ cfg w1 w w' w2, ∃ x y z : AFp, Made (fieldOver 0 8 11 4) cfg start w1 w ∧ x.config = cfg ∧
    x.add y 8 w = (.ok z, w') ∧ Later w' w2 ∧ ValidRun w2 ∧ HeaderFits w2 0 := by
  obtain ⟨w2, e, hv, hf⟩ := field_compiled
  rw [field_start] at e
  obtain ⟨cfg, w1, e1, _, hcr, hl, hk⟩ := C35_config (r := 0) start_reachable rfl fits11
  rw [bind_ok e1] at e
  have hr1 := later_reachable start_reachable hl
  obtain ⟨x, wx, c2, e2, o2, x1, x2, hc2, i2, _, _⟩ := C47_new_int (cfg := cfg.intConfig) hr1 (by rw [hcr]; exact hk 0 _ rfl) 8
  have hr2 := later_reachable hr1 o2.later
  obtain ⟨y, wy, c3, e3, o3, y1, y2, hc3, i3, _, _⟩ := C47_new_int (cfg := cfg.intConfig) hr2 hc2 8
  rw [hcr] at o2 o3
  have hm : Made (fieldOver 0 8 11 4) cfg start w1 wy := ⟨start_reachable, e1, (Since.refl.on start_lt o2).on start_lt o3⟩
  obtain ⟨env, w5, e5, e⟩ := m_bind_inv e
  unfold FieldProgram.build at e5
  obtain ⟨h1, v1, q1, e5⟩ := m_bind_inv e5
  obtain ⟨x', v1', q1, q1'⟩ := m_bind_inv q1
  cases q1'
  obtain ⟨x', v2', q1, q1'⟩ := m_bind_inv q1
  cases q1'
  rw [e2] at q1
  cases q1
  unfold FieldProgram.build at e5
  obtain ⟨h1, v1, q1, e5⟩ := m_bind_inv e5
  obtain ⟨y', v1', q1, q1'⟩ := m_bind_inv q1
  cases q1'
  obtain ⟨y', v2', q1, q1'⟩ := m_bind_inv q1
  cases q1'
  rw [e3] at q1
  cases q1
  unfold FieldProgram.build at e5
  obtain ⟨h1, v1, q1, e5⟩ := m_bind_inv e5
  obtain ⟨_, _, q0, q1⟩ := m_bind_inv q1
  cases q0
  obtain ⟨_, _, q0, q1⟩ := m_bind_inv q1
  cases q0
  obtain ⟨z, v1', q1, q1'⟩ := m_bind_inv q1
  cases q1'
  cases e5
  refine ⟨cfg, w1, wy, _, w2, ⟨x, cfg⟩, ⟨y, cfg⟩, z, hm, rfl, q1, ?_, hv, hf⟩
  have hp : Plays (do
      let _ ← M.mapList (fun i => do
        let z ← M.idx ([] ++ [FieldProgram.Handle.elem ⟨x, cfg⟩] ++ [.elem ⟨y, cfg⟩] ++ [.elem z]) i
        z.output 0 8) [2]
      pure 0 : M Ref) := by
    refine .bind (.mapList (fun i => .bind (.idx _ _) fun z => ?_) _) fun _ => .pure _
    cases z <;> unfold FieldProgram.Handle.output
    · unfold AFp.output AInt.output; plays
    · plays
  have := hp w5
  rw [e] at this
  exact this

example : ∃ w2, ValidRun w2 ∧ NeverReadBack w2 0 := by
  obtain ⟨cfg, w1, w, w', w2, x, y, z, hm, hx, e, hl, hv, hf⟩ := field_session
  exact ⟨w2, hv, C82_field_false hm hx (.inl e) hl hv hf⟩

/-- C82_program_false: the constant of the program is not used -/
example : ∃ r w' c, Mixed.compile 0 4 [.newBits, .notBits 0, .zero] [1] (run [.newStorage]) = (.ok r, w') ∧ w'.circs[r]? = some c ∧
    (c.numWire + c.numConst < 2 ^ 64 → c.outputLen < 2 ^ 64 → NeverReadBack w' r) := by
  obtain ⟨r, w', c, h1, h2, _, h3⟩ := C82_program_false storage_valid.1 storage_valid.2 (n := 4) (by decide)
    (p := [.newBits, .notBits 0, .zero]) (outs := [1]) rfl (by simp [Mixed.Cmd.Fits]) (by decide) (by simp)
    ⟨.zero, by simp, trivial⟩
  exact ⟨r, w', c, h1, h2, h3⟩

/-- and its numbers fit -/
example : ((Mixed.compile 0 4 [.newBits, .notBits 0, .zero] [1] (run [.newStorage])).2.circs[0]?).map
    (fun c => (c.numWire, c.numConst, c.outputLen)) = some (12, 4, 4) := by decide +kernel

end CC.Props
