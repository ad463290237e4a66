import Verif.Model.BitWriter
import Verif.Proofs.Bits

/-! Helper lemmas for the bit writer. -/

namespace Verif.WBuf

theorem mask_testBit (b sh m : Nat) :
    ((((1 <<< b) - 1) <<< sh)).testBit m = (decide (sh ≤ m) && decide (m < sh + b)) := by
  rw [Nat.testBit_shiftLeft, Nat.shiftLeft_eq, Nat.one_mul, Nat.testBit_two_pow_sub_one]
  by_cases h : sh ≤ m
  · simp [h]; omega
  · simp [h]

theorem mergeByte_testBit (old val n b sh m : Nat) (hm : m < 8) (hb : b ≤ n) (hn : n ≤ 32) :
    (mergeByte old val n b sh).testBit m =
      if sh ≤ m ∧ m < sh + b then val.testBit (n - b + (m - sh)) else old.testBit m := by
  unfold mergeByte
  have h255 : (255 : Nat).testBit m = true := by
    have : (255 : Nat) = 2 ^ 8 - 1 := by decide
    rw [this, Nat.testBit_two_pow_sub_one]; simp [hm]
  have h256 : (256 : Nat) = 2 ^ 8 := by decide
  simp only [Nat.testBit_or, Nat.testBit_and, Nat.testBit_xor, h255, h256,
    Nat.testBit_mod_two_pow, mask_testBit, hm]
  rw [Nat.testBit_shiftLeft, Nat.testBit_shiftRight, Nat.testBit_mod_two_pow,
    Nat.testBit_shiftLeft]
  by_cases h1 : sh ≤ m
  · by_cases h2 : m < sh + b
    · have e1 : 32 - b + (m - sh) < 32 := by omega
      have e2 : 32 - n ≤ 32 - b + (m - sh) := by omega
      have e3 : 32 - b + (m - sh) - (32 - n) = n - b + (m - sh) := by omega
      simp [h1, h2, e1, e2, e3]
    · have e1 : ¬ 32 - b + (m - sh) < 32 := by omega
      simp [h1, h2, e1]
  · simp [h1]

theorem mergeByte_lt (old val n b sh : Nat) (h : old < 256) : mergeByte old val n b sh < 256 := by
  unfold mergeByte
  have h256 : (256 : Nat) = 2 ^ 8 := by decide
  rw [h256] at *
  apply Nat.or_lt_two_pow
  · exact Nat.lt_of_le_of_lt Nat.and_le_left h
  · exact Nat.mod_lt _ (by decide)

/-- Effect of storing one merged byte on the bits of the buffer. -/
theorem set_bits (buf : List UInt8) (ptr : Nat) (old : UInt8) (hp : buf[ptr]? = some old)
    (val n b sh : Nat) (hb : b ≤ n) (hn : n ≤ 32) (hs : sh + b ≤ 8) (i : Nat) :
    (bitsOf (buf.set ptr (UInt8.ofNat (mergeByte old.toNat val n b sh))))[i]? =
      if 8 * ptr + 8 - sh - b ≤ i ∧ i < 8 * ptr + 8 - sh then
        some (val.testBit (n - 1 - (i - (8 * ptr + 8 - sh - b)))) else (bitsOf buf)[i]? := by
  rw [bitsOf_getElem?, bitsOf_getElem?, List.getElem?_set]
  have hlt : ptr < buf.length := by
    rw [List.getElem?_eq_some_iff] at hp; exact hp.1
  by_cases hi : ptr = i / 8
  · subst hi
    rw [if_pos rfl, if_pos hlt, hp]
    have hold : old.toNat < 256 := old.toNat_lt
    have hbyte : (UInt8.ofNat (mergeByte old.toNat val n b sh)).toNat =
        mergeByte old.toNat val n b sh := by
      rw [UInt8.toNat_ofNat']
      exact Nat.mod_eq_of_lt (mergeByte_lt _ _ _ _ _ hold)
    simp only [Option.map_some, hbyte]
    rw [mergeByte_testBit _ _ _ _ _ _ (by omega) hb hn]
    by_cases hc : sh ≤ 7 - i % 8 ∧ 7 - i % 8 < sh + b
    · rw [if_pos hc, if_pos (by omega)]
      congr 2; omega
    · rw [if_neg hc, if_neg (by omega)]
  · rw [if_neg hi, if_neg (by omega)]

/-- The write loop inserts the field at its position and changes nothing else. -/
theorem writeLoop_spec (buf : List UInt8) (ptr pos val n : Nat) (hpos : pos ≤ 7) (hn : n ≤ 32)
    (hfit : 8 * ptr + 7 - pos + n ≤ 8 * buf.length) :
    ∃ (buf' : List UInt8) (ptr' pos' : Nat), writeLoop buf ptr pos val n = .ok (buf', (ptr' : Int), (pos' : Int)) ∧
      buf'.length = buf.length ∧ pos' ≤ 7 ∧
      (8 * ptr' + 7 - pos' = 8 * ptr + 7 - pos + n ∨
        (8 * ptr + 7 - pos + n = 8 * buf.length ∧ 8 * ptr' + 7 - pos' = 0)) ∧
      ∀ i, (bitsOf buf')[i]? =
        if 8 * ptr + 7 - pos ≤ i ∧ i < 8 * ptr + 7 - pos + n then
          some (val.testBit (n - 1 - (i - (8 * ptr + 7 - pos)))) else (bitsOf buf)[i]? := by
  induction n using Nat.strongRecOn generalizing buf ptr pos with
  | _ n ih =>
    rw [writeLoop]
    by_cases h0 : n = 0
    · subst h0
      refine ⟨buf, ptr, pos, by simp, rfl, hpos, by omega, ?_⟩
      intro i
      rw [if_neg (by omega)]
    · rw [if_neg h0]
      have hlt : ptr < buf.length := by omega
      have hold : buf[ptr]? = some buf[ptr] := List.getElem?_eq_getElem hlt
      obtain ⟨b, hbdef⟩ : ∃ b : Nat, b = min (pos + 1) n := ⟨_, rfl⟩
      have hbI : min ((pos : Int) + 1) (n : Int) = (b : Int) := by omega
      have hsh : ((pos : Int) + 1 - (b : Int)).toNat = pos + 1 - b := by omega
      have hset := set_bits buf ptr buf[ptr] hold val n b (pos + 1 - b) (by omega) hn (by omega)
      simp only [hbI, hsh, Int.toNat_natCast, hold]
      rw [dif_neg (by omega), if_neg (by omega)]
      generalize hbuf1 : buf.set ptr (UInt8.ofNat (mergeByte buf[ptr].toNat val n b (pos + 1 - b)))
        = buf1 at hset
      have hlen1 : buf1.length = buf.length := by rw [← hbuf1]; simp
      by_cases hneg : (pos : Int) - (b : Int) < 0
      · rw [if_pos hneg]
        have hb' : b = pos + 1 := by omega
        have hpos8 : (pos : Int) - (b : Int) + 8 = ((7 : Nat) : Int) := by omega
        rw [hpos8]
        by_cases hwrap : (ptr : Int) + 1 > (buf.length : Int) - 1
        · rw [if_pos hwrap]
          have hn0 : n - b = 0 := by omega
          rw [hn0, writeLoop, if_pos rfl]
          refine ⟨buf1, 0, 7, rfl, hlen1, by omega, Or.inr (by omega), ?_⟩
          intro i
          rw [hset]
          have : n = b := by omega
          congr 1
          · simp only [eq_iff_iff]; omega
          · congr 3; omega
        · rw [if_neg hwrap]
          have hcast : (ptr : Int) + 1 = ((ptr + 1 : Nat) : Int) := by omega
          rw [hcast]
          obtain ⟨buf2, ptr2, pos2, e1, e2, e3, e4, e5⟩ :=
            ih (n - b) (by omega) buf1 (ptr + 1) 7 (by omega) (by omega) (by omega)
          refine ⟨buf2, ptr2, pos2, e1, by omega, e3, by omega, ?_⟩
          intro i
          rw [e5, hset]
          split
          · rw [if_pos (by omega)]; congr 2; omega
          · split
            · rw [if_pos (by omega)]; congr 2; omega
            · rw [if_neg (by omega)]
      · rw [if_neg hneg]
        have hb' : b = n := by omega
        rw [hb', Nat.sub_self, writeLoop, if_pos rfl]
        refine ⟨buf1, ptr, pos - n, ?_, hlen1, by omega, by omega, ?_⟩
        · congr 3; omega
        · intro i
          rw [hset]
          congr 1
          · simp only [eq_iff_iff]; omega
          · congr 3; omega

end Verif.WBuf
