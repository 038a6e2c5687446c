import Verif.Model.TestsBundled
import Verif.Props.Bundled
import Verif.Props.BundledLarge
import Verif.Props.BundledAes
import Verif.Props.Utils
import Verif.Proofs.Program

/-!
# C71: the tests of the bundled circuits and of the conversions pass for every choice

The tests of the bundled circuits draw one bit per operand and repeat it.
-/

namespace CC.Props
open CC Spec CC.Bundled

theorem assertSame_self (a : List Bool) {i k : Nat} (h : i + k ≤ a.length) (w : World) : Tests.assertSame a a i k w = (.ok (), w) := by
  induction k generalizing i with
  | zero => rfl
  | succ k ih =>
    have hi : i < a.length := by omega
    rw [Tests.assertSame, List.getElem?_eq_getElem hi]
    have := ih (i := i + 1) (by omega)
    simpa using this

theorem opened_ok {w : World} (h : Reachable w) (build : Ref → M Unit) :
    ∃ r w0, Reachable w0 ∧ New w0 r ∧ ∀ w', build r w0 = (.ok (), w') → Tests.opened build w = (.ok r, w') := by
  have h1 : Reachable (newStorage w).2 := by
    have : Plays newStorage := .op .newStorage (map_world _ _)
    exact later_reachable h (this w)
  have hst : w.stores.length < (newStorage w).2.stores.length := by simp [newStorage]
  have e := newCircuit_ok hst
  refine ⟨(newStorage w).2.circs.length, _, (plays_newCircuit _).reachable h1 e, ⟨w.stores.length, ?_⟩, fun w' hb => ?_⟩
  · simp [newStorage]
  · unfold Tests.opened
    rw [bind_ok (show newStorage w = (.ok w.stores.length, (newStorage w).2) from rfl), bind_ok e, bind_ok hb]
    rfl

theorem exchange_ok {build : Ref → M Unit} {f : Nat → Nat → List Bool} (hl : ∀ a b, 64 ≤ (f a b).length) (hf : ∀ a b, f a b = f b a)
    (hb : ∀ {w : World}, Reachable w → ∀ {r : Ref}, New w r → ∃ w', build r w = (.ok (), w') ∧ ∃ F, ∀ fuel ≥ F, ∀ a b : Nat,
      a < 2 ^ 64 → b < 2 ^ 64 → evalOutput w' fuel r (bitsOf 64 a ++ bitsOf 64 b) = .ok (f a b)) {w : World} (h : Reachable w) :
    ∃ F, ∀ fuel ≥ F, ∀ l r : List Bool, l.length = 64 → r.length = 64 → (Tests.exchange build fuel l r w).1 = .ok () := by
  obtain ⟨ref, w0, h0, hn, ho⟩ := opened_ok h build
  obtain ⟨w', h1, F, hF⟩ := hb h0 hn
  refine ⟨F, fun fuel hfu l r ll lr => ?_⟩
  have e1 := hF fuel hfu (bitsVal l) (bitsVal r) (ll ▸ bitsVal_lt l) (lr ▸ bitsVal_lt r)
  have e2 := hF fuel hfu (bitsVal r) (bitsVal l) (lr ▸ bitsVal_lt r) (ll ▸ bitsVal_lt l)
  rw [bitsOf_bitsVal ll, bitsOf_bitsVal lr] at e1 e2
  unfold Tests.exchange
  rw [bind_ok (ho w' h1), bind_ok (show Tests.eval fuel ref (l ++ r) w' = (.ok _, w') by unfold Tests.eval; rw [e1]),
    bind_ok (show Tests.eval fuel ref (r ++ l) w' = (.ok _, w') by unfold Tests.eval; rw [e2]), hf (bitsVal r),
    assertSame_self _ (by have := hl (bitsVal l) (bitsVal r); omega)]

/-- C71 for `bristol_adder64`, for all operands -/
theorem C71_adder {w : World} (h : Reachable w) : ∃ F, ∀ fuel ≥ F, ∀ l r : List Bool, l.length = 64 → r.length = 64 →
    (Tests.adder64 fuel l r w).1 = .ok () :=
  exchange_ok (fun _ _ => by simp) (fun a b => by rw [Nat.add_comm]) C44_adder64 h

/-- C71 for `bristol_mult2_64` -/
theorem C71_mult {w : World} (h : Reachable w) : ∃ F, ∀ fuel ≥ F, ∀ l r : List Bool, l.length = 64 → r.length = 64 →
    (Tests.mult64 fuel l r w).1 = .ok () :=
  exchange_ok (fun _ _ => by simp) (fun a b => by rw [Nat.mul_comm]) C48_mult64 h

/-- C71 for `bristol_neg64` -/
theorem C71_neg {w : World} (h : Reachable w) : ∃ F, ∀ fuel ≥ F, ∀ input : List Bool, input.length = 64 →
    (Tests.neg64 fuel input w).1 = .ok () := by
  obtain ⟨ref, w0, h0, hn, ho⟩ := opened_ok h buildNeg64
  obtain ⟨w', h1, F, hF⟩ := C46_neg64 h0 hn
  refine ⟨F, fun fuel hfu x lx => ?_⟩
  have e1 := hF fuel hfu (bitsVal x) (lx ▸ bitsVal_lt x)
  have e2 := hF fuel hfu ((-(bitsVal x : Int)) % 2 ^ 64).toNat (by omega)
  have hx : bitsVal x < 2 ^ 64 := lx ▸ bitsVal_lt x
  have e3 : ((-(((-(bitsVal x : Int)) % 2 ^ 64).toNat : Int)) % 2 ^ 64).toNat = bitsVal x := by omega
  rw [bitsOf_bitsVal lx] at e1
  rw [e3, bitsOf_bitsVal lx] at e2
  unfold Tests.neg64
  rw [bind_ok (ho w' h1), bind_ok (show Tests.eval fuel ref x w' = (.ok _, w') by unfold Tests.eval; rw [e1]),
    bind_ok (show Tests.eval fuel ref _ w' = (.ok _, w') by unfold Tests.eval; rw [e2]), assertSame_self _ (by omega)]

/-- C71: the test `aes128` passes the key where the circuit expects the block. It computes the encryption of the key under the message. -/
theorem C71_aes_exchanged {w : World} (h : Reachable w) : ∃ F, ∀ fuel ≥ F, ∀ key msg : List Nat, Block key → Block msg →
    (Tests.aes128 fuel (Aes.bits key) (Aes.bits msg) w).1 = .ok (Aes.bits (Aes.encrypt msg key)) := by
  obtain ⟨ref, w0, h0, hn, ho⟩ := opened_ok h buildAes128
  obtain ⟨w', h1, F, hF⟩ := C51_aes128 h0 hn
  refine ⟨F, fun fuel hfu key msg hk hm => ?_⟩
  unfold Tests.aes128
  rw [bind_ok (ho w' h1)]
  exact hF fuel hfu msg key hm hk

theorem bytes2bitsBe_eq (x : List Nat) : Utils.bytes2bitsBe x = Aes.bits x := by
  unfold Utils.bytes2bitsBe Aes.bits
  simp only [bit_eq]

/-- C71 for `aes128`, which checks nothing but success -/
theorem C71_aes {w : World} (h : Reachable w) : ∃ F, ∀ fuel ≥ F, ∀ key msg : List Bool, key.length = 128 → msg.length = 128 →
    ∃ out, (Tests.aes128 fuel key msg w).1 = .ok out ∧ out.length = 128 := by
  obtain ⟨F, hF⟩ := C71_aes_exchanged h
  refine ⟨F, fun fuel hfu key msg hk hm => ?_⟩
  obtain ⟨k, _, k1, k2, rfl⟩ := C41_bits_bytes_bits_be 16 key hk
  obtain ⟨m, _, m1, m2, rfl⟩ := C41_bits_bytes_bits_be 16 msg hm
  rw [bytes2bitsBe_eq, bytes2bitsBe_eq]
  exact ⟨_, hF fuel hfu k m ⟨k1, k2⟩ ⟨m1, m2⟩, length_bits (CC.Aes.Block.encrypt ⟨m1, m2⟩ ⟨k1, k2⟩)⟩

theorem fourBytes {x : List Nat} (h : x.length = 4) : ∃ a b c d, x = [a, b, c, d] := by
  match x, h with
  | [a, b, c, d], _ => exact ⟨a, b, c, d, rfl⟩

/-- C71: the tests of `utils.rs` pass for any four bytes, and the hexadecimal one for any number of them -/
theorem C71_utils (x : List Nat) (hx : ∀ b ∈ x, b < 256) : Tests.hex x = .ok true ∧
    (x.length = 4 → Tests.leConvert x = .ok true ∧ Tests.beConvert x = .ok true) := by
  refine ⟨?_, fun hl => ⟨?_, ?_⟩⟩
  · unfold Tests.hex
    rw [C43_round_trip x hx]
    simp [bind, Except.bind, pure, Except.pure]
  · unfold Tests.leConvert
    dsimp only
    rw [C41_bytes_bits_bytes_le x hx]
    obtain ⟨a, b, c, d, rfl⟩ : ∃ a b c d, x = [a, b, c, d] := fourBytes hl
    simp [bind, Except.bind, pure, Except.pure, Utils.bytes2bitsLe]
  · unfold Tests.beConvert
    dsimp only
    rw [C41_bytes_bits_bytes_be x hx]
    obtain ⟨a, b, c, d, rfl⟩ : ∃ a b c d, x = [a, b, c, d] := fourBytes hl
    simp [bind, Except.bind, pure, Except.pure, Utils.bytes2bitsBe]

/-! ### the hypotheses are satisfiable -/

/-- what the tests draw: operands whose bits are all equal -/
example (b c : Bool) : ∃ F, ∀ fuel ≥ F,
    (Tests.adder64 fuel (List.replicate 64 b) (List.replicate 64 c) (run [])).1 = .ok () ∧
    (Tests.mult64 fuel (List.replicate 64 b) (List.replicate 64 c) (run [])).1 = .ok () ∧
    (Tests.neg64 fuel (List.replicate 64 b) (run [])).1 = .ok () := by
  obtain ⟨F, hF⟩ := C71_adder (run_reachable [])
  obtain ⟨G, hG⟩ := C71_mult (run_reachable [])
  obtain ⟨H, hH⟩ := C71_neg (run_reachable [])
  exact ⟨F + G + H, fun fuel hf => ⟨hF fuel (by omega) _ _ (by simp) (by simp), hG fuel (by omega) _ _ (by simp) (by simp),
    hH fuel (by omega) _ (by simp)⟩⟩

/-- with a failing comparison the tests would fail -/
example : (Tests.assertSame [true, false] [true, true] 0 2 (run [])).1 = .error (.panic .assertFailed) ∧
    (Tests.assertSame [true] [true] 0 2 (run [])).1 = .error (.panic .indexOutOfBounds) := ⟨rfl, rfl⟩

/-- key and message do not commute -/
example : Block (List.range 16) ∧ Block (List.replicate 16 0) ∧
    Aes.encrypt (List.replicate 16 0) (List.range 16) ≠ Aes.encrypt (List.range 16) (List.replicate 16 0) := by
  refine ⟨⟨rfl, by decide⟩, ⟨rfl, by decide⟩, by decide +kernel⟩

example : Tests.leConvert [1, 2, 3, 250] = .ok true ∧ Tests.leConvert [1, 2, 3] = .ok false := by
  exact ⟨(C71_utils _ (by decide)).2 rfl |>.1, by rfl⟩

end CC.Props
