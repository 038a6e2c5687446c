import Verif.Proofs.Aes128
import Verif.Props.Bundled

/-!
# C51: the bundled AES-128 circuit

The cipher is that of FIPS 197 (`Spec.Aes`). The kernel checks, with a certificate that says which lines form which substitution box
and which lines are between the rounds, that the lines of the file compute the cipher; this covers all keys and all blocks.
-/

namespace CC.Props
open CC Spec Spec.Bristol CC.Bristol CC.Bundled

/-- 16 bytes -/
def Block (s : List Nat) : Prop := s.length = 16 ∧ ∀ b ∈ s, b < 256

theorem length_bits {s : List Nat} (h : Block s) : (Aes.bits s).length = 128 := by
  rw [CC.Aes.bits_of h.1, CC.Aes.St.length_list]

theorem aes128_output {key pt : List Nat} (hk : Block key) (hp : Block pt) {i : Nat} (hi : i < 128) :
    aes128File.output (Aes.bits pt ++ Aes.bits key) i = (Aes.bits (Aes.encrypt key pt))[i]? := by
  have hl : (Aes.bits pt ++ Aes.bits key).length = 256 := by rw [List.length_append, length_bits hk, length_bits hp]
  obtain ⟨W, h1, h2, h3⟩ := aes128_packed.wires (ins := Aes.bits pt ++ Aes.bits key) hl
  have hW : (List.range' 0 256).map W = Aes.bits pt ++ Aes.bits key := by
    apply List.ext_getElem?
    intro j
    by_cases hj : j < 256
    · rw [List.getElem?_map, List.getElem?_range' hj, h1 j hj, Option.map_some, Nat.zero_add, Nat.one_mul]
    · rw [List.getElem?_eq_none (by rw [List.length_map, List.length_range']; omega), List.getElem?_eq_none (by omega)]
  have := CC.Aes.check_sound h2 aes128_check hk hp hW
  rw [h3 i hi, ← this, List.getElem?_map, List.getElem?_range' hi, Option.map_some, Nat.one_mul]
  rfl

/-- C51: `build_aes128` on a new circuit succeeds, and evaluating the circuit on a block and a key gives the AES-128 encryption of the
block under the key, for all blocks and keys. The most significant bit of each byte comes first. -/
theorem C51_aes128 {w : World} (h : Reachable w) {r : Ref} (hr : New w r) : ∃ w', buildAes128 r w = (.ok (), w') ∧
    ∃ F, ∀ fuel ≥ F, ∀ key pt : List Nat, Block key → Block pt →
      evalOutput w' fuel r (Aes.bits pt ++ Aes.bits key) = .ok (Aes.bits (Aes.encrypt key pt)) := by
  obtain ⟨s, hc⟩ := hr
  obtain ⟨w', h1, F, h2⟩ := eval_of_output aes128_text aes128_packed.valid aes128_packed.unread h hc
  refine ⟨w', h1, F, fun fuel hf key pt hk hp => h2 fuel hf _ _ ?_ ?_ fun i hi => aes128_output hk hp hi⟩
  · rw [List.length_append, length_bits hk, length_bits hp]; rfl
  · rw [length_bits (CC.Aes.Block.encrypt hk hp)]; rfl

/-- C51, in the middle of a larger circuit: building into any circuit `r` adds 256 inputs and 128 outputs, and the new outputs have
the bits of the ciphertext. -/
theorem C51_into {w : World} (h : Reachable w) {r : Ref} {c : Circuit} (hc : w.circs[r]? = some c) :
    ∃ w' c', buildAes128 r w = (.ok (), w') ∧ w'.circs[r]? = some c' ∧ c'.inputLen = c.inputLen + 256 ∧
      c'.outputLen = c.outputLen + 128 ∧ ∀ (pre : List Bool) (key pt : List Nat), pre.length = c.inputLen → Block key → Block pt →
      ∀ i, i < 128 → ∃ o b, c'.outputMap (c.outputLen + i) = some o ∧ (Aes.bits (Aes.encrypt key pt))[i]? = some b ∧
        Val w' r (pre ++ (Aes.bits pt ++ Aes.bits key)) o b := by
  obtain ⟨w', c', h1, h2, h3, h4, h5⟩ := val_of_output aes128_text aes128_packed.valid h hc
  refine ⟨w', c', h1, h2, h3, h4, fun pre key pt hpre hk hp i hi => ?_⟩
  exact h5 pre _ _ hpre (by rw [List.length_append, length_bits hk, length_bits hp]; rfl) (fun i hi => aes128_output hk hp hi) i hi

/-! ### the hypotheses are satisfiable -/

/-- FIPS 197, appendix C.1, in a heap with another circuit -/
example : ∃ w', buildAes128 2 (run (nested ++ [.newCircuit 0])) = (.ok (), w') ∧ ∃ fuel,
    evalOutput w' fuel 2 (Aes.bits [0x00, 0x11, 0x22, 0x33, 0x44, 0x55, 0x66, 0x77, 0x88, 0x99, 0xaa, 0xbb, 0xcc, 0xdd, 0xee, 0xff] ++
      Aes.bits [0x00, 0x01, 0x02, 0x03, 0x04, 0x05, 0x06, 0x07, 0x08, 0x09, 0x0a, 0x0b, 0x0c, 0x0d, 0x0e, 0x0f]) =
    .ok (Aes.bits [0x69, 0xc4, 0xe0, 0xd8, 0x6a, 0x7b, 0x04, 0x30, 0xd8, 0xcd, 0xb7, 0x80, 0x70, 0xb4, 0xc5, 0x5a]) := by
  obtain ⟨w', h1, F, h2⟩ := C51_aes128 (run_reachable (nested ++ [.newCircuit 0])) (r := 2) ⟨0, rfl⟩
  refine ⟨w', h1, F, ?_⟩
  rw [h2 F (Nat.le_refl F) _ _ ⟨by decide, by decide⟩ ⟨by decide, by decide⟩, Aes.appendixC1]

end CC.Props
