import Verif.Model.Aes128
import Verif.Proofs.Aes128Cert

/-!
# `AES-non-expanded.txt` encrypts
-/

namespace CC.Bundled
open CC Spec Spec.Bristol CC.Bristol

def aes128File : File :=
  { numGate := 33616, numWire := 33872, ins := [128, 128], outs := [128], gates := (packed 33616 aes128Data).map gline }

set_option maxRecDepth 1000000 in
theorem aes128_packed : IsPacked aes128File 33616 aes128Data := ⟨rfl, by decide, by decide, by decide +kernel⟩

set_option maxRecDepth 1000000

open Aes

/-! ### the rounds, one by one -/

theorem aes128_first :
    (start aes128Data 33616 aesStart fun s key t => subst aes128Data 33616 aesPatterns s key t (aesRounds 0)) = true := by decide +kernel

theorem aes128_round0 : (after aes128Data 33616 aesPatterns false (B.of (Aes.rcon 0)) (aesRounds 0) fun s key t =>
    subst aes128Data 33616 aesPatterns s key t (aesRounds 1)) = true := by decide +kernel

theorem aes128_round1 : (after aes128Data 33616 aesPatterns false (B.of (Aes.rcon 1)) (aesRounds 1) fun s key t =>
    subst aes128Data 33616 aesPatterns s key t (aesRounds 2)) = true := by decide +kernel

theorem aes128_round2 : (after aes128Data 33616 aesPatterns false (B.of (Aes.rcon 2)) (aesRounds 2) fun s key t =>
    subst aes128Data 33616 aesPatterns s key t (aesRounds 3)) = true := by decide +kernel

theorem aes128_round3 : (after aes128Data 33616 aesPatterns false (B.of (Aes.rcon 3)) (aesRounds 3) fun s key t =>
    subst aes128Data 33616 aesPatterns s key t (aesRounds 4)) = true := by decide +kernel

theorem aes128_round4 : (after aes128Data 33616 aesPatterns false (B.of (Aes.rcon 4)) (aesRounds 4) fun s key t =>
    subst aes128Data 33616 aesPatterns s key t (aesRounds 5)) = true := by decide +kernel

theorem aes128_round5 : (after aes128Data 33616 aesPatterns false (B.of (Aes.rcon 5)) (aesRounds 5) fun s key t =>
    subst aes128Data 33616 aesPatterns s key t (aesRounds 6)) = true := by decide +kernel

theorem aes128_round6 : (after aes128Data 33616 aesPatterns false (B.of (Aes.rcon 6)) (aesRounds 6) fun s key t =>
    subst aes128Data 33616 aesPatterns s key t (aesRounds 7)) = true := by decide +kernel

theorem aes128_round7 : (after aes128Data 33616 aesPatterns false (B.of (Aes.rcon 7)) (aesRounds 7) fun s key t =>
    subst aes128Data 33616 aesPatterns s key t (aesRounds 8)) = true := by decide +kernel

theorem aes128_round8 : (after aes128Data 33616 aesPatterns false (B.of (Aes.rcon 8)) (aesRounds 8) fun s key t =>
    subst aes128Data 33616 aesPatterns s key t (aesRounds 9)) = true := by decide +kernel

theorem aes128_last : (after aes128Data 33616 aesPatterns true (B.of (Aes.rcon 9)) (aesRounds 9) fun s _ t =>
    checkOuts t s.list 33744) = true := by decide +kernel

theorem aes128_check : Checked aes128Data 33616 aesPatterns 33744 aesStart aesRounds where
  first := aes128_first
  next
    | 0, _ => aes128_round0
    | 1, _ => aes128_round1
    | 2, _ => aes128_round2
    | 3, _ => aes128_round3
    | 4, _ => aes128_round4
    | 5, _ => aes128_round5
    | 6, _ => aes128_round6
    | 7, _ => aes128_round7
    | 8, _ => aes128_round8
    | _ + 9, h => absurd h (by omega)
  last := aes128_last

theorem aes128_text : Text aes128File aes128Text := by
  unfold aes128Text
  exact packed_text (k := 1) (f := aes128File) (by decide +kernel) aes128_packed.gates

end CC.Bundled
