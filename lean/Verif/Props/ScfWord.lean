import Verif.Model.Scf
import Verif.Props.Huff

/-! # Codewords of scale factors at the top of a word (C174) -/

namespace Verif.Scf

open Huff (Code sclTable)

/-- `search` on a codeword of `size` bits, without the bits that follow it: undefined if it would look at more. -/
def searchP (size code : Nat) : (fuel lead lenEnd : Nat) → Res (Nat × Nat)
  | 0, _, _ => .ub
  | fuel + 1, lead, lenEnd => do
    let e ← entry index lead
    let off := (e >>> 20) % 256
    let b ← entry book (off + 1)
    let length := b % 32
    let cw := e % 2 ^ 20
    if length = 0 ∨ size < length then .ub
    else
      let loc1 := code >>> (size - length)
      if cw < loc1 then searchP size code fuel (lenEnd + (e >>> 28) % 16) (lenEnd + (e >>> 28) % 16)
      else if off < cw - loc1 then .ub
      else do
        let b ← entry book (off - (cw - loc1) + 1)
        .ok (b >>> 5, length)

theorem shift_prefix {loc size code length : Nat} (hs : size ≤ 32) (h : loc >>> (32 - size) = code) (hl : length ≤ size) :
    loc >>> (32 - length) = code >>> (size - length) := by
  rw [← h, ← Nat.shiftRight_add]
  congr 1
  omega

theorem search_prefix {loc size code : Nat} (hs : size ≤ 32) (h : loc >>> (32 - size) = code) :
    ∀ (fuel lead lenEnd : Nat) (r : Nat × Nat), searchP size code fuel lead lenEnd = .ok r →
      search loc fuel lead lenEnd = .ok r
  | 0, _, _, _ => by simp [searchP]
  | fuel + 1, lead, lenEnd, r => by
    unfold searchP search
    cases he : entry index lead with
    | ok e =>
      simp only [Res.ok_bind]
      cases hb : entry book ((e >>> 20) % 256 + 1) with
      | ok b =>
        simp only [Res.ok_bind]
        by_cases hl : b % 32 = 0 ∨ size < b % 32
        · rw [if_pos hl]; intro hx; simp at hx
        · rw [if_neg hl, if_neg (show ¬ b % 32 = 0 by omega), shift_prefix hs h (show b % 32 ≤ size by omega)]
          by_cases hx : e % 2 ^ 20 < code >>> (size - b % 32)
          · rw [if_pos hx, if_pos hx]
            exact search_prefix hs h fuel _ _ r
          · rw [if_neg hx, if_neg hx]; exact id
      | _ => intro hx; simp_all [bind, Res.bind]
    | _ => intro hx; simp_all [bind, Res.bind]

theorem leadingOnes_prefix {loc : Nat} : ∀ (d size code : Nat), loc >>> d = code → leadingOnes size code < size →
    leadingOnes (size + d) loc = leadingOnes size code
  | d, 0, _, _, h => by simp at h
  | d, size + 1, code, hc, h => by
    have ht : loc.testBit (size + d) = code.testBit size := by
      rw [← hc, Nat.testBit_shiftRight, Nat.add_comm]
    rw [show size + 1 + d = (size + d) + 1 by omega, leadingOnes, leadingOnes, ht]
    rw [leadingOnes] at h
    split
    · rw [if_pos ‹_›] at h
      rw [leadingOnes_prefix d size code hc (by omega)]
    · rfl

/-- What is tested for each codeword of the table. -/
def good (c : Code) : Bool :=
  decide (c.size ≤ 19) && decide (0 ≤ c.val) &&
  (decide (leadingOnes c.size c.code < c.size) && decide (searchP c.size c.code 33 (leadingOnes c.size c.code) 19 = .ok (c.val.toNat, c.size)) ||
    decide (c.size = 19 ∧ c.code = 2 ^ 19 - 1) && decide (decodeWord (2 ^ 32 - 2 ^ 13) = .ok (c.val.toNat, c.size)))

theorem table_good : ∀ c ∈ sclTable, good c = true := by decide +kernel

theorem mask_shift {w size code : Nat} (hs : size ≤ 19) (h : w >>> (32 - size) = code) :
    (w / 2 ^ 13 * 2 ^ 13) >>> (32 - size) = code := by
  rw [← h, Nat.shiftRight_eq_div_pow, Nat.shiftRight_eq_div_pow, show 32 - size = 13 + (19 - size) by omega, Nat.pow_add,
    ← Nat.div_div_eq_div_mul, ← Nat.div_div_eq_div_mul, Nat.mul_div_cancel _ (by decide)]

/-- **C174** `ia_core_coder_huffman_decode` on any word of 32 bits that begins with a codeword of the scale factors delivers the value and
the length of that codeword. -/
theorem C174_decode (c : Code) (hc : c ∈ sclTable) (w : Nat) (h : w >>> (32 - c.size) = c.code) :
    decodeWord w = .ok (c.val.toNat, c.size) := by
  have hg := table_good c hc
  simp only [good, Bool.and_eq_true, Bool.or_eq_true, decide_eq_true_eq] at hg
  obtain ⟨⟨h19, _⟩, ⟨h1, h2⟩ | ⟨⟨h1, h1'⟩, h2⟩⟩ := hg
  · have hm := mask_shift h19 h
    have hl := leadingOnes_prefix (32 - c.size) c.size c.code hm h1
    rw [show c.size + (32 - c.size) = 32 by omega] at hl
    unfold decodeWord
    simp only [hl]
    exact search_prefix (by omega) hm _ _ _ _ h2
  · rw [h1, h1', Nat.shiftRight_eq_div_pow] at h
    have : w / 2 ^ 13 * 2 ^ 13 = (2 ^ 32 - 2 ^ 13) / 2 ^ 13 * 2 ^ 13 := by omega
    unfold decodeWord at h2 ⊢
    simp only [this]
    exact h2

example : decodeWord 0xB5555555 = .ok (58, 4) := by decide +kernel

end Verif.Scf
