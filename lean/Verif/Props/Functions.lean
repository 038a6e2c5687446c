import Verif.Proofs.Functions
import Verif.Proofs.Num

/-!
# C77: programs with functions of their own
-/

namespace CC.Props
open CC Spec Spec.Functions

/-- C77, for programs whose results are declared in the order of the lines that compute them (arguments and constants may come
earlier) and whose calls have room, i.e. are of functions with no more results than wires (arguments not counted): the program
builds without error, and evaluating the main circuit returns what the program means, on all inputs. The circuit has as many
wires as the program has arguments, constants and gates, those of called functions counted for every call. -/
theorem C77_program_partial {w : World} (hw : Reachable w) {st : StoreRef} (hst : st < w.stores.length) {lib : List Func} {main : Func}
    (hlib : LibOk [] lib) (hmain : main.Ok (signatures lib [])) (hroom : Roomy lib main) :
    ∃ r w', Functions.compile st lib main w = (.ok r, w') ∧ (∃ c, w'.circs[r]? = some c ∧ c.inputLen = main.arity ∧
      c.outputLen = main.outs.length ∧ c.numWire = main.arity + wires (signatures lib []) main.body) ∧
      ∃ F, ∀ fuel ≥ F, ∀ ins : List Bool, ins.length = main.arity →
        ∃ outs, main.run (meaning lib []) ins = some outs ∧ outs.length = main.outs.length ∧ evalOutput w' fuel r ins = .ok outs := by
  obtain ⟨r, w', e, _, hc, _, h⟩ := Funs.program_ok hw hst hlib hmain.toFine hroom
  exact ⟨r, w', e, hc, h hmain.order⟩

/-- C77: with a call that has no room the program panics, so the condition is exact. -/
theorem C77_no_room {w : World} (hw : Reachable w) {st : StoreRef} (hst : st < w.stores.length) {lib : List Func} {main : Func}
    (hlib : LibOk [] lib) (hmain : main.Fine (signatures lib [])) :
    (∃ r, (Functions.compile st lib main w).1 = .ok r) ↔ Roomy lib main := by
  constructor
  · rintro ⟨r, h⟩
    apply Classical.byContradiction
    intro hr
    rw [Funs.program_panics hw hst hlib hmain hr] at h
    cases h
  · intro hr
    obtain ⟨r, w', h, _⟩ := Funs.program_ok hw hst hlib hmain hr
    exact ⟨r, by rw [h]⟩

example : Reachable (run [.newStorage]) ∧ 0 < (run [.newStorage]).stores.length := ⟨run_reachable _, by decide⟩

/-- the heap after compiling in an empty heap -/
def functionsHeap (lib : List Func) (main : Func) : World := (Functions.compile 0 lib main (run [.newStorage])).2

theorem ordered_of {sigs : List Sig} {F : Func} (h : F.outs.Pairwise fun a b => (match (F.marks sigs)[a]?, (F.marks sigs)[b]? with
    | some x, some y => x.2 || decide (x.1 ≤ y.1)
    | _, _ => true) = true) : F.Ordered sigs := by
  refine h.imp fun {a b} h k s k' s' e e' => ?_
  rw [e, e'] at h
  simpa using h

/-- a library of three functions: the second calls the first twice and returns one of its arguments, the third is never called
and could not be, as it has more results than wires -/
def mixedLib : List Func :=
  [⟨3, [.xor 0 1, .xor 3 2, .and 0 1, .and 3 2, .or 5 6], [4, 7]⟩, ⟨3, [.call 0 [0, 2, 1], .call 0 [3, 3, 4], .copy 3], [1, 5, 7]⟩, ⟨2, [], [1, 0]⟩]

/-- a program that calls both functions, returns some values twice and some in another order -/
def mixedMain : Func :=
  ⟨4, [.call 0 [0, 1, 2], .not 4, .call 1 [5, 6, 3], .call 0 [7, 8, 9], .const true, .same 11 7], [12, 3, 5, 4, 6, 9, 7, 11, 10, 11, 13]⟩

theorem mixedLib_ok : LibOk [] mixedLib := by
  refine ⟨⟨⟨?_, by decide⟩, ordered_of (by decide)⟩, ⟨⟨?_, by decide⟩, ordered_of (by decide)⟩, ⟨⟨trivial, by decide⟩, ordered_of (by decide)⟩, trivial⟩
  · exact ⟨trivial, by decide, trivial, by decide, trivial, by decide, trivial, by decide, trivial, by decide, trivial⟩
  · exact ⟨⟨_, rfl, rfl⟩, by decide, ⟨_, rfl, rfl⟩, by decide, trivial, by decide, trivial⟩

theorem mixedMain_ok : mixedMain.Ok (signatures mixedLib []) := by
  refine ⟨⟨?_, by decide⟩, ordered_of (by decide)⟩
  exact ⟨⟨_, rfl, rfl⟩, by decide, trivial, by decide, ⟨_, rfl, rfl⟩, by decide, ⟨_, rfl, rfl⟩, by decide,
    trivial, by decide, trivial, by decide, trivial⟩

theorem mixed_roomy : Roomy mixedLib mixedMain := by
  simp [Roomy, mixedLib, mixedMain, LibRoom, Line.Room, signatures, Func.sig, Functions.wires, Line.wires]

example : LibOk [] mixedLib ∧ mixedMain.Ok (signatures mixedLib []) ∧ Roomy mixedLib mixedMain ∧
    wires (signatures mixedLib []) mixedMain.body = 26 ∧ (Functions.compile 0 mixedLib mixedMain (run [.newStorage])).1 = .ok 0 ∧
    mixedMain.run (meaning mixedLib []) [true, false, true, true] =
      some [true, true, true, false, true, true, true, true, true, true, true] ∧
    evalOutput (functionsHeap mixedLib mixedMain) 100 0 [true, false, true, true] =
      .ok [true, true, true, false, true, true, true, true, true, true, true] :=
  ⟨mixedLib_ok, mixedMain_ok, mixed_roomy, by decide, by decide +kernel, by decide +kernel, by decide +kernel⟩

/-! ### an adder -/

/-- sum and carry of three bits -/
def threeBits : Func := ⟨3, [.xor 0 1, .xor 3 2, .and 0 1, .and 3 2, .or 5 6], [4, 7]⟩

/-- calls of the full adder for the bits `k, k + 1, …`; the carry into bit `i` has position `2 * n + 2 * i` -/
def adderCalls (n k m : Nat) : List Line := (List.range' k m).map fun i => .call 0 [i, n + i, 2 * n + 2 * i]

/-- the sum of two numbers of `n` bits -/
def ripple (n : Nat) : Func :=
  ⟨2 * n, .const false :: adderCalls n 0 n, (List.range (n + 1)).map fun i => if i < n then 2 * n + 1 + 2 * i else 4 * n⟩

theorem threeBits_ok : LibOk [] [threeBits] := by
  refine ⟨⟨⟨by simp [threeBits, Functions.Scoped, Line.Ok, Line.operands, Line.width], by simp [threeBits, values, Line.width]⟩, ?_⟩, trivial⟩
  simp [Func.Ordered, threeBits, Func.marks, Functions.marks, Line.width, List.replicate]
  intro k k'
  constructor <;> (intro h1 _ h2 _; omega)

theorem threeBits_run (a b c : Bool) : threeBits.run [] [a, b, c] = some [(a != b) != c, (a && b) || ((a != b) && c)] := rfl

theorem threeBits_sig : signatures [threeBits] [] = [⟨3, 2, 5⟩] := by decide

theorem ripple_scoped (n : Nat) : ∀ m k, k + m = n → Functions.Scoped [⟨3, 2, 5⟩] (2 * n + 1 + 2 * k) (adderCalls n k m)
  | 0, k, _ => trivial
  | m + 1, k, h => by
    have := ripple_scoped n m (k + 1) (by omega)
    refine ⟨⟨⟨3, 2, 5⟩, rfl, rfl⟩, ?_, this⟩
    intro i hi
    simp [Line.operands] at hi
    omega

theorem ripple_values (n : Nat) : ∀ m k, values [⟨3, 2, 5⟩] (adderCalls n k m) = 2 * m
  | 0, _ => rfl
  | m + 1, k => by
    have := ripple_values n m (k + 1)
    show 2 + values _ (adderCalls n (k + 1) m) = _
    omega

theorem ripple_marks (n : Nat) : ∀ m k q j, j < 2 * m → (marks [⟨3, 2, 5⟩] q (adderCalls n k m))[j]? = some (q + j / 2, false)
  | m + 1, k, q, j, h => by
    have e : marks [⟨3, 2, 5⟩] q (adderCalls n k (m + 1)) = (q, false) :: (q, false) :: marks [⟨3, 2, 5⟩] (q + 1) (adderCalls n (k + 1) m) := rfl
    rw [e]
    match j, h with
    | 0, _ => rfl
    | 1, _ => rfl
    | j + 2, h =>
      have := ripple_marks n m (k + 1) (q + 1) j (by omega)
      simp only [List.getElem?_cons_succ]
      rw [this]
      congr 2
      omega

theorem ripple_mark (n i : Nat) (h : i ≤ n) (hn : 1 ≤ n) : ((ripple n).marks [⟨3, 2, 5⟩])[if i < n then 2 * n + 1 + 2 * i else 4 * n]? =
    some (if i < n then 2 + i else n + 1, false) := by
  have e : (ripple n).marks [⟨3, 2, 5⟩] = List.replicate (2 * n) (0, true) ++ ([(1, true)] ++ marks [⟨3, 2, 5⟩] 2 (adderCalls n 0 n)) := rfl
  rw [e]
  by_cases hi : i < n
  · rw [if_pos hi, if_pos hi, List.getElem?_append_right (by simp; omega), List.getElem?_append_right (by simp; omega),
      ripple_marks n n 0 2 _ (by simp; omega)]
    simp; omega
  · rw [if_neg hi, if_neg hi, List.getElem?_append_right (by simp; omega), List.getElem?_append_right (by simp; omega),
      ripple_marks n n 0 2 _ (by simp; omega)]
    simp; omega

theorem ripple_ok (n : Nat) : (ripple n).Ok (signatures [threeBits] []) := by
  rw [threeBits_sig]
  refine ⟨⟨⟨trivial, by simp [Line.operands], ripple_scoped n n 0 (by omega)⟩, ?_⟩, ?_⟩
  · intro i hi
    obtain ⟨j, hj, rfl⟩ := List.mem_map.mp hi
    have h1 := ripple_values n n 0
    have h2 : values [⟨3, 2, 5⟩] (ripple n).body = 1 + values [⟨3, 2, 5⟩] (adderCalls n 0 n) := rfl
    have h3 : (ripple n).arity = 2 * n := rfl
    rw [h2, h1, h3]
    split <;> omega
  · show ((List.range (n + 1)).map _).Pairwise _
    rw [List.pairwise_map]
    refine List.pairwise_lt_range.imp_of_mem ?_
    intro a b ha hb hab k s k' s' h1 h2
    simp at ha hb
    have hn : 1 ≤ n := by omega
    rw [ripple_mark n a (by omega) hn] at h1
    rw [ripple_mark n b (by omega) hn] at h2
    cases h1; cases h2
    right
    split <;> split <;> omega

theorem fn_mapM_map {α β γ} {f : β → Option γ} {h : α → β} {q : α → γ} : ∀ {l : List α}, (∀ i ∈ l, f (h i) = some (q i)) →
    (l.map h).mapM f = some (l.map q)
  | [], _ => rfl
  | a :: l, H => by
    rw [List.map_cons, List.mapM_cons, H a (by simp), fn_mapM_map (fun i hi => H i (by simp [hi]))]; rfl

/-- the values of the adder after the arguments: carries and sums -/
def adderBit (x y j : Nat) : Bool := if j % 2 = 0 then carry x y (j / 2) else (x + y).testBit (j / 2)

theorem ripple_get (n x y k i : Nat) (h : i < 2 * n + 2 * k + 1) : (bitsOf n x ++ bitsOf n y ++ (List.range (2 * k + 1)).map (adderBit x y))[i]? =
    some (if i < n then x.testBit i else if i < 2 * n then y.testBit (i - n) else adderBit x y (i - 2 * n)) := by
  by_cases h1 : i < n
  · rw [if_pos h1, List.append_assoc, List.getElem?_append_left (by simpa using h1), bitsOf_get h1]
  · rw [if_neg h1]
    by_cases h2 : i < 2 * n
    · rw [if_pos h2, List.getElem?_append_left (by simp; omega), List.getElem?_append_right (by simp; omega)]
      simp only [length_bitsOf]
      rw [bitsOf_get (by omega)]
    · rw [if_neg h2, List.getElem?_append_right (by simp; omega)]
      have : i - (bitsOf n x ++ bitsOf n y).length = i - 2 * n := by simp; omega
      rw [this, List.getElem?_map, List.getElem?_range (by omega)]; rfl

theorem ripple_run (n x y : Nat) : ∀ m k, k + m = n →
    Functions.run [threeBits.run []] (adderCalls n k m) (bitsOf n x ++ bitsOf n y ++ (List.range (2 * k + 1)).map (adderBit x y)) =
      some (bitsOf n x ++ bitsOf n y ++ (List.range (2 * n + 1)).map (adderBit x y))
  | 0, k, h => by simp at h; subst h; rfl
  | m + 1, k, h => by
    have ih := ripple_run n x y m (k + 1) (by omega)
    have e : adderCalls n k (m + 1) = .call 0 [k, n + k, 2 * n + 2 * k] :: adderCalls n (k + 1) m := rfl
    rw [e]
    have g1 := ripple_get n x y k k (by omega)
    have g2 := ripple_get n x y k (n + k) (by omega)
    have g3 := ripple_get n x y k (2 * n + 2 * k) (by omega)
    rw [if_pos (by omega)] at g1
    rw [if_neg (by omega), if_pos (by omega)] at g2
    rw [if_neg (by omega), if_neg (by omega)] at g3
    rw [show n + k - n = k by omega] at g2
    rw [show 2 * n + 2 * k - 2 * n = 2 * k by omega] at g3
    have g4 : adderBit x y (2 * k) = carry x y k := by unfold adderBit; rw [if_pos (by omega)]; congr 1; omega
    rw [g4] at g3
    simp only [Functions.run, Line.run, List.mapM_cons, List.mapM_nil, g1, g2, g3, List.getElem?_cons_zero, Option.bind_eq_bind, Option.bind_some,
      Option.pure_def, threeBits_run]
    have e2 : (List.range (2 * (k + 1) + 1)).map (adderBit x y) = (List.range (2 * k + 1)).map (adderBit x y) ++
        [(x.testBit k != y.testBit k) != carry x y k, (x.testBit k && y.testBit k) || ((x.testBit k != y.testBit k) && carry x y k)] := by
      rw [show 2 * (k + 1) + 1 = 2 * k + 1 + 1 + 1 by omega, List.range_succ, List.range_succ (n := 2 * k + 1)]
      simp only [List.map_append, List.map_cons, List.map_nil, List.append_assoc]
      congr 1
      have a1 : adderBit x y (2 * k + 1) = (x + y).testBit k := by
        unfold adderBit; rw [if_neg (by omega)]; congr 1; omega
      have a2 : adderBit x y (2 * k + 1 + 1) = carry x y (k + 1) := by
        unfold adderBit; rw [if_pos (by omega)]; congr 1; omega
      rw [a1, a2, testBit_sum, carry_succ]
      cases x.testBit k <;> cases y.testBit k <;> rfl
    rw [e2, ← List.append_assoc] at ih
    exact ih

theorem ripple_roomy (n : Nat) : Roomy [threeBits] (ripple n) := by
  refine ⟨⟨by simp [threeBits, Line.Room], trivial⟩, ?_⟩
  rw [threeBits_sig]
  intro l hl
  rcases List.mem_cons.mp hl with rfl | hl
  · trivial
  · obtain ⟨i, _, rfl⟩ := List.mem_map.mp hl
    intro σ h
    cases h; decide

theorem ripple_means {n x y : Nat} (hx : x < 2 ^ n) (hy : y < 2 ^ n) :
    (ripple n).run (meaning [threeBits] []) (bitsOf n x ++ bitsOf n y) = some (bitsOf (n + 1) (x + y)) := by
  have hr := ripple_run n x y n 0 (by omega)
  have h0 : (List.range (2 * 0 + 1)).map (adderBit x y) = [false] := by
    show [adderBit x y 0] = _
    simp [adderBit, carry_zero]
  rw [h0] at hr
  have e1 : Functions.run [threeBits.run []] (ripple n).body (bitsOf n x ++ bitsOf n y) =
      some (bitsOf n x ++ bitsOf n y ++ (List.range (2 * n + 1)).map (adderBit x y)) := hr
  show ((Functions.run [threeBits.run []] (ripple n).body (bitsOf n x ++ bitsOf n y)).bind fun env => (ripple n).outs.mapM fun i => env[i]?) = _
  rw [e1, Option.bind_some]
  refine fn_mapM_map fun i hi => ?_
  simp at hi
  rw [ripple_get n x y n _ (by split <;> omega)]
  by_cases hin : i < n
  · rw [if_pos hin, if_neg (by omega), if_neg (by omega), show 2 * n + 1 + 2 * i - 2 * n = 2 * i + 1 by omega]
    unfold adderBit
    rw [if_neg (by omega)]; congr 2; omega
  · have : i = n := by omega
    subst this
    rw [if_neg hin]
    by_cases hi0 : i = 0
    · subst hi0
      simp at hx hy; subst hx; subst hy
      simp [adderBit, carry_zero]
    · rw [if_neg (by omega), if_neg (by omega), show 4 * i - 2 * i = 2 * i by omega]
      unfold adderBit
      rw [if_pos (by omega), show 2 * i / 2 = i by omega, testBit_sum, Nat.testBit_lt_two_pow hx, Nat.testBit_lt_two_pow hy]
      simp

/-- A program for all widths: `n` calls of a full adder add numbers of `n` bits. -/
theorem C77_adder {w : World} (hw : Reachable w) {st : StoreRef} (hst : st < w.stores.length) (n : Nat) :
    ∃ r w', Functions.compile st [threeBits] (ripple n) w = (.ok r, w') ∧ ∃ F, ∀ fuel ≥ F, ∀ x y, x < 2 ^ n → y < 2 ^ n →
      evalOutput w' fuel r (bitsOf n x ++ bitsOf n y) = .ok (bitsOf (n + 1) (x + y)) := by
  obtain ⟨r, w', e, _, F, h⟩ := C77_program_partial hw hst threeBits_ok (ripple_ok n) (ripple_roomy n)
  refine ⟨r, w', e, F, fun fuel hf x y hx hy => ?_⟩
  obtain ⟨outs, h1, _, h2⟩ := h fuel hf (bitsOf n x ++ bitsOf n y) (by simp [ripple]; omega)
  rw [h2]
  have e2 := ripple_means hx hy
  rw [h1] at e2
  cases e2; rfl

set_option maxRecDepth 100000 in
example : (Functions.compile 0 [threeBits] (ripple 4) (run [.newStorage])).1 = .ok 0 ∧
    evalOutput (functionsHeap [threeBits] (ripple 4)) 100 0 (bitsOf 4 13 ++ bitsOf 4 6) = .ok (bitsOf 5 19) := by decide +kernel

/-! ### functions calling functions calling functions -/

/-- the parity of some bits -/
def parity (bs : List Bool) : Bool := bs.foldr (· != ·) false

/-- the parity of `2 ^ k` bits, from two calls of the function for half as many -/
def parityLevel : Nat → Func
  | 0 => ⟨1, [.copy 0], [1]⟩
  | k + 1 => ⟨2 ^ (k + 1), [.call k (List.range (2 ^ k)), .call k (List.range' (2 ^ k) (2 ^ k)), .xor (2 ^ (k + 1)) (2 ^ (k + 1) + 1)],
      [2 ^ (k + 1) + 2]⟩

/-- `k` functions, nested `k` deep -/
def parityLib (k : Nat) : List Func := (List.range k).map parityLevel

theorem meaning_append (F : Func) : ∀ lib fns, meaning (lib ++ [F]) fns = meaning lib fns ++ [F.run (meaning lib fns)]
  | [], _ => rfl
  | G :: lib, fns => meaning_append F lib (fns ++ [G.run fns])

theorem signatures_append (F : Func) : ∀ lib sigs, signatures (lib ++ [F]) sigs = signatures lib sigs ++ [F.sig (signatures lib sigs)]
  | [], _ => rfl
  | G :: lib, sigs => signatures_append F lib (sigs ++ [G.sig sigs])

theorem libOk_append (F : Func) : ∀ lib sigs, LibOk sigs lib → F.Ok (signatures lib sigs) → LibOk sigs (lib ++ [F])
  | [], _, _, h => ⟨h, trivial⟩
  | G :: lib, sigs, h, hF => ⟨h.1, libOk_append F lib (sigs ++ [G.sig sigs]) h.2 hF⟩

theorem parityLib_succ (k : Nat) : parityLib (k + 1) = parityLib k ++ [parityLevel k] := by
  simp [parityLib, List.range_succ]

def paritySig (i : Nat) : Sig := ⟨2 ^ i, 1, 3 * 2 ^ i - 1⟩

theorem parity_sigs : ∀ k, signatures (parityLib k) [] = (List.range k).map paritySig
  | 0 => rfl
  | k + 1 => by
    rw [parityLib_succ, signatures_append, parity_sigs k, List.range_succ, List.map_append]
    congr 1
    cases k with
    | zero => rfl
    | succ k =>
      have e : ((List.range (k + 1)).map paritySig)[k]? = some (paritySig k) := by simp
      simp only [List.map_cons, List.map_nil, Func.sig, parityLevel, wires, Line.wires, e]
      simp only [paritySig, List.cons.injEq, Sig.mk.injEq, List.length_cons, List.length_nil, and_true, true_and]
      have := Nat.one_le_two_pow (n := k)
      rw [Nat.pow_succ]; omega

theorem parityLevel_ok (k : Nat) : (parityLevel k).Ok (signatures (parityLib k) []) := by
  rw [parity_sigs]
  cases k with
  | zero =>
    refine ⟨⟨⟨trivial, by simp [Line.operands, parityLevel], trivial⟩, by simp [parityLevel, values, Line.width]⟩, ?_⟩
    exact List.pairwise_singleton _ _
  | succ k =>
    have e : ((List.range (k + 1)).map paritySig)[k]? = some (paritySig k) := by simp
    have w1 : ∀ args, (Line.call k args).width ((List.range (k + 1)).map paritySig) = 1 := fun args => by simp only [Line.width, e]; rfl
    have h2 : 2 ^ (k + 1) = 2 ^ k + 2 ^ k := by rw [Nat.pow_succ]; omega
    refine ⟨⟨⟨⟨_, e, by simp [paritySig]⟩, ?_, ⟨_, e, by simp [paritySig]⟩, ?_, trivial, ?_, trivial⟩, ?_⟩, List.pairwise_singleton _ _⟩
    · intro i hi
      simp [Line.operands] at hi
      show i < 2 ^ (k + 1); omega
    · intro i hi
      simp [Line.operands] at hi
      rw [w1]
      show i < 2 ^ (k + 1) + 1; omega
    · intro i hi
      simp [Line.operands] at hi
      rw [w1, w1]
      show i < 2 ^ (k + 1) + 1 + 1; omega
    · intro i hi
      simp [parityLevel] at hi
      show i < 2 ^ (k + 1) + (_ + (_ + (1 + 0)))
      rw [w1, w1]; omega

theorem parity_room (k : Nat) : ∀ l ∈ (parityLevel k).body, l.Room ((List.range k).map paritySig) := by
  have hs : ∀ (i : Nat) (σ : Sig), ((List.range k).map paritySig)[i]? = some σ → σ.outs ≤ σ.wires := by
    intro i σ h
    simp only [List.getElem?_map, Option.map_eq_some_iff] at h
    obtain ⟨j, _, rfl⟩ := h
    have := Nat.one_le_two_pow (n := j)
    simp only [paritySig]; omega
  intro l hl
  cases l with
  | call f args => exact hs f
  | _ => trivial

theorem libRoom_append (F : Func) : ∀ lib sigs, LibRoom sigs lib → (∀ l ∈ F.body, l.Room (signatures lib sigs)) → LibRoom sigs (lib ++ [F])
  | [], _, _, h => ⟨h, trivial⟩
  | _ :: lib, _, h1, h2 => ⟨h1.1, libRoom_append F lib _ h1.2 h2⟩

theorem parityLib_room : ∀ k, LibRoom [] (parityLib k)
  | 0 => trivial
  | k + 1 => by
    rw [parityLib_succ]
    exact libRoom_append _ _ _ (parityLib_room k) (by rw [parity_sigs]; exact parity_room k)

theorem parityLib_ok : ∀ k, LibOk [] (parityLib k)
  | 0 => trivial
  | k + 1 => by rw [parityLib_succ]; exact libOk_append _ _ _ (parityLib_ok k) (parityLevel_ok k)

theorem parity_append (a b : List Bool) : parity (a ++ b) = (parity a != parity b) := by
  induction a with
  | nil => simp [parity]
  | cons x a ih =>
    simp only [parity, List.cons_append, List.foldr_cons] at ih ⊢
    rw [ih]
    cases x <;> simp

theorem fn_mapM_range' {bs : List Bool} : ∀ n a, a + n ≤ bs.length → (List.range' a n).mapM (fun i => bs[i]?) = some ((bs.drop a).take n)
  | 0, a, _ => by simp
  | n + 1, a, h => by
    rw [List.range'_succ, List.mapM_cons, List.getElem?_eq_getElem (by omega), fn_mapM_range' n (a + 1) (by omega)]
    have hd : bs.drop a = bs[a]'(by omega) :: bs.drop (a + 1) := List.drop_eq_getElem_cons _
    rw [hd, List.take_succ_cons]; rfl

theorem parity_run : ∀ k, (meaning (parityLib k) []).length = k ∧
    (∀ (i : Nat) fn, (meaning (parityLib k) [])[i]? = some fn → ∀ bs, bs.length = 2 ^ i → fn bs = some [parity bs]) ∧
    ∀ bs, bs.length = 2 ^ k → (parityLevel k).run (meaning (parityLib k) []) bs = some [parity bs]
  | 0 => by
    refine ⟨rfl, by simp [parityLib, meaning], ?_⟩
    intro bs hbs
    match bs, hbs with
    | [b], _ => simp [Func.run, parityLevel, Functions.run, Line.run, parity]
  | k + 1 => by
    obtain ⟨h1, h2, h3⟩ := parity_run k
    have e := meaning_append (parityLevel k) (parityLib k) []
    rw [← parityLib_succ] at e
    have hall : ∀ (i : Nat) fn, (meaning (parityLib (k + 1)) [])[i]? = some fn → ∀ bs, bs.length = 2 ^ i → fn bs = some [parity bs] := by
      intro i fn hi
      rw [e] at hi
      by_cases hik : i < k
      · rw [List.getElem?_append_left (by omega)] at hi
        exact h2 i fn hi
      · have : i = k := by
          have := lt_of_getElem? hi
          simp [h1] at this; omega
        subst this
        rw [List.getElem?_append_right (by omega), h1, Nat.sub_self] at hi
        cases hi
        exact h3
    have hlen : (meaning (parityLib (k + 1)) []).length = k + 1 := by rw [e]; simp [h1]
    refine ⟨hlen, hall, ?_⟩
    intro bs hbs
    obtain ⟨fn, hfn⟩ : ∃ fn, (meaning (parityLib (k + 1)) [])[k]? = some fn := ⟨_, List.getElem?_eq_getElem (by omega)⟩
    have hp : 2 ^ (k + 1) = 2 ^ k + 2 ^ k := by rw [Nat.pow_succ]; omega
    have f1 := hall k fn hfn (bs.take (2 ^ k)) (by simp; omega)
    have f2 := hall k fn hfn (bs.drop (2 ^ k)) (by simp; omega)
    have a1 : (List.range (2 ^ k)).mapM (fun i => bs[i]?) = some (bs.take (2 ^ k)) := by
      rw [List.range_eq_range', fn_mapM_range' _ _ (by omega)]; simp
    have a2 : ∀ x : List Bool, (List.range' (2 ^ k) (2 ^ k)).mapM (fun i => (bs ++ x)[i]?) = some (bs.drop (2 ^ k)) := by
      intro x
      rw [fn_mapM_range' _ _ (by simp; omega), List.drop_append_of_le_length (by omega), List.take_append_of_le_length (by simp; omega),
        List.take_of_length_le (by simp; omega)]
    simp only [Func.run, parityLevel, Functions.run, Line.run, hfn, a1, a2, f1, f2, Option.bind_eq_bind, Option.bind_some]
    have g1 : (bs ++ [parity (bs.take (2 ^ k))] ++ [parity (bs.drop (2 ^ k))])[2 ^ (k + 1)]? = some (parity (bs.take (2 ^ k))) := by
      rw [← hbs, List.append_assoc, List.getElem?_append_right (Nat.le_refl _)]; simp
    have g2 : (bs ++ [parity (bs.take (2 ^ k))] ++ [parity (bs.drop (2 ^ k))])[2 ^ (k + 1) + 1]? = some (parity (bs.drop (2 ^ k))) := by
      rw [← hbs, List.append_assoc, List.getElem?_append_right (by omega)]; simp
    have g3 : ∀ b, (bs ++ [parity (bs.take (2 ^ k))] ++ [parity (bs.drop (2 ^ k))] ++ [b])[2 ^ (k + 1) + 2]? = some b := by
      intro b
      rw [← hbs, List.append_assoc, List.append_assoc, List.getElem?_append_right (by omega)]; simp
    simp only [g1, g2, Option.bind_some, Option.pure_def, List.mapM_cons, List.mapM_nil, g3]
    rw [← parity_append, List.take_append_drop]; rfl

/-- Functions may be nested to any depth: `k` functions, each calling the previous one twice, and a main circuit compute the
parity of `2 ^ k` bits. -/
theorem C77_nested {w : World} (hw : Reachable w) {st : StoreRef} (hst : st < w.stores.length) (k : Nat) :
    ∃ r w', Functions.compile st (parityLib k) (parityLevel k) w = (.ok r, w') ∧ ∃ F, ∀ fuel ≥ F, ∀ bs : List Bool, bs.length = 2 ^ k →
      evalOutput w' fuel r bs = .ok [parity bs] := by
  obtain ⟨r, w', e, _, F, h⟩ := C77_program_partial hw hst (parityLib_ok k) (parityLevel_ok k)
    ⟨parityLib_room k, by rw [parity_sigs]; exact parity_room k⟩
  refine ⟨r, w', e, F, fun fuel hf bs hbs => ?_⟩
  obtain ⟨outs, h1, _, h2⟩ := h fuel hf bs (by cases k <;> exact hbs)
  rw [(parity_run k).2.2 bs hbs] at h1
  cases h1; exact h2

set_option maxRecDepth 100000 in
example : parity [true, true, false, true, false, true, true, false] = true ∧
    evalOutput (functionsHeap (parityLib 3) (parityLevel 3)) 100 0 [true, true, false, true, false, true, true, false] = .ok [true] ∧
    (Functions.compile 0 (parityLib 3) (parityLevel 3) (run [.newStorage])).1 = .ok 0 := by decide +kernel

/-! ### the conditions are needed -/

/-- C77 without the condition on the order is false: after `x AND y` has been returned, `x` cannot be read. -/
theorem C77_order_needed : let main : Func := ⟨2, [.and 0 1], [2, 0]⟩
    Functions.Scoped [] main.arity main.body ∧ ¬ main.Ordered [] ∧ main.run [] [true, true] = some [true, true] ∧
    (Functions.compile 0 [] main (run [.newStorage])).1 = .ok 0 ∧
    ∀ fuel ≥ 100, evalOutput (functionsHeap [] main) fuel 0 [true, true] = .error (.unknownEvaledBit 0) := by
  refine ⟨⟨trivial, by decide, trivial⟩, ?_, rfl, by decide +kernel, fun fuel hf => ?_⟩
  · intro h
    have := (List.pairwise_cons.mp h).1 0 (by simp) 1 false 0 true rfl rfl
    simp at this
  · have h : evalOutput (functionsHeap [] ⟨2, [.and 0 1], [2, 0]⟩) 100 0 [true, true] = .error (.unknownEvaledBit 0) := by decide +kernel
    rw [C13_stable _ (by rw [h]; simp) hf, h]

/-- C77 without the condition on calls is false: a function that returns its two arguments in the other order can be defined,
but every program that calls it panics. -/
theorem C77_room_needed {w : World} (hw : Reachable w) {st : StoreRef} (hst : st < w.stores.length) :
    let lib : List Func := [⟨2, [], [1, 0]⟩]
    let main : Func := ⟨2, [.call 0 [0, 1]], [2, 3]⟩
    LibOk [] lib ∧ main.Ok (signatures lib []) ∧ (∀ a b, main.run (meaning lib []) [a, b] = some [b, a]) ∧
    (Functions.compile st lib main w).1 = .error (.panic .underflow) := by
  have h1 : LibOk [] [⟨2, [], [1, 0]⟩] := ⟨⟨⟨trivial, by decide⟩, ordered_of (by decide)⟩, trivial⟩
  have h2 : (⟨2, [.call 0 [0, 1]], [2, 3]⟩ : Func).Ok (signatures [⟨2, [], [1, 0]⟩] []) :=
    ⟨⟨⟨⟨_, rfl, rfl⟩, by decide, trivial⟩, by decide⟩, ordered_of (by decide)⟩
  refine ⟨h1, h2, fun _ _ => rfl, Funs.program_panics hw hst h1 h2.toFine fun h => ?_⟩
  have : (Line.call 0 [0, 1]).Room (signatures [⟨2, [], [1, 0]⟩] []) := h.2 _ (List.mem_singleton.mpr rfl)
  have := this ⟨2, 2, 0⟩ rfl
  exact absurd this (by decide)

end CC.Props
