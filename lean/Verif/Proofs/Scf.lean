import Verif.Props.ScfWord
import Verif.Proofs.Prog

/-! Helper lemmas for the reader of scale factors: the word moved along the input and the bits it stands for. -/

namespace Verif.Scf

open Prog
open Huff (Code sclTable huffCodeword word)

/-- A section of a list of bits as a number. -/
theorem slice_val (l : List Bool) (i n : Nat) (h : i + n ≤ l.length) :
    bitsVal ((l.drop i).take n) = bitsVal l / 2 ^ (l.length - i - n) % 2 ^ n := by
  have h1 : l = l.take i ++ ((l.drop i).take n ++ (l.drop i).drop n) := by
    rw [List.take_append_drop, List.take_append_drop]
  have hl : ((l.drop i).drop n).length = l.length - i - n := by
    rw [List.length_drop, List.length_drop]
  have hn : ((l.drop i).take n).length = n := by simp; omega
  have hv : bitsVal l = bitsVal (l.take i) * 2 ^ (n + (l.length - i - n)) +
      (bitsVal ((l.drop i).take n) * 2 ^ (l.length - i - n) + bitsVal ((l.drop i).drop n)) := by
    conv => lhs; rw [h1]
    rw [bitsVal_append, bitsVal_append, List.length_append, hl, hn]
  have hb := bitsVal_lt ((l.drop i).drop n)
  have ha := bitsVal_lt ((l.drop i).take n)
  rw [hl] at hb
  rw [hn] at ha
  rw [hv, Nat.pow_add, ← Nat.add_assoc, ← Nat.mul_assoc, ← Nat.add_mul, Nat.add_comm, Nat.add_mul_div_right _ _ (Nat.two_pow_pos _),
    Nat.div_eq_of_lt hb, Nat.zero_add, Nat.add_comm, Nat.add_mul_mod_self_right, Nat.mod_eq_of_lt ha]

/-- The bytes of the buffer, four zeros after them, as a number. -/
def num (buf : List UInt8) : Nat := bitsVal (bitsOf (buf ++ [0, 0, 0, 0]))

theorem num_eq (buf : List UInt8) : num buf = bitsVal (bitsOf buf) * 2 ^ 32 := by
  rw [num, bitsOf_append, bitsVal_append]
  have : bitsVal (bitsOf [0, 0, 0, 0]) = 0 := by decide +kernel
  rw [this]
  simp

/-- The word at a byte. -/
def window (buf : List UInt8) (p : Nat) : Nat := num buf / 2 ^ (8 * (buf.length - p)) % 2 ^ 32

theorem load_num (buf : List UInt8) (p : Nat) (h : p < buf.length) :
    BitBuf.load buf p = .ok (num buf / 2 ^ (8 * (buf.length - 1 - p) + 32) % 256) := by
  rw [BitBuf.load_nat _ _ h]
  have hs := slice_val (bitsOf buf) (8 * p) 8 (by simp; omega)
  rw [bitsOf_length] at hs
  have hb : bitsVal (((bitsOf buf).drop (8 * p)).take 8) = BitBuf.byteAt buf p := by
    apply Nat.eq_of_testBit_eq
    intro j
    by_cases hj : j < 8
    · rw [BitBuf.slice_testBit _ _ _ _ hj (by omega)]
      congr 1
      · congr 1; omega
      · omega
    · rw [BitBuf.slice_testBit_ge _ _ _ _ hj, Nat.testBit_lt_two_pow]
      exact Nat.lt_of_lt_of_le (BitBuf.byteAt_lt _ _) (by rw [show 256 = 2 ^ 8 by rfl]; exact Nat.pow_le_pow_right (by decide) (by omega))
  rw [← hb, hs, num_eq, Nat.pow_add, Nat.mul_div_mul_right _ _ (by decide)]
  congr 4
  omega

theorem window_succ (buf : List UInt8) (p : Nat) (h : p + 4 < buf.length) :
    window buf (p + 1) = window buf p * 256 % 2 ^ 32 + num buf / 2 ^ (8 * (buf.length - 1 - (p + 4)) + 32) % 256 := by
  unfold window
  rw [show 8 * (buf.length - p) = 8 * (buf.length - (p + 1)) + 8 by omega, Nat.pow_add, ← Nat.div_div_eq_div_mul,
    show 8 * (buf.length - 1 - (p + 4)) + 32 = 8 * (buf.length - (p + 1)) by omega]
  omega

/-- The window at the position of a word: `inc` is the number of bytes at first read, `p` the byte the word begins at, `q` the position
in bits. -/
structure At (buf : List UInt8) (inc p q : Nat) (w : Win) : Prop where
  word : w.word = window buf p
  ptr : w.ptr = ((p + inc : Nat) : Int)
  pos : 8 * p + w.pos = q
  inside : p + inc ≤ buf.length
  full : w.pos < 8 ∨ p + inc = buf.length
  four : inc = 4 ∨ (inc < 4 ∧ p + inc = buf.length)

theorem corr_end (buf : List UInt8) (word ptr : Nat) (h : buf.length ≤ ptr) :
    ∀ (n extra : Nat), corr buf n word ptr extra = .ok (word, (ptr : Int), extra + 8 * n)
  | 0, extra => rfl
  | n + 1, extra => by
    rw [corr, if_pos (by omega), corr_end buf word ptr h n]
    congr 3
    omega

theorem corr_at (buf : List UInt8) : ∀ (n p : Nat), p + 4 ≤ buf.length →
    corr buf n (window buf p) ((p + 4 : Nat) : Int) 0 =
      .ok (window buf (min (p + n) (buf.length - 4)), ((min (p + n) (buf.length - 4) + 4 : Nat) : Int),
        8 * (n - (buf.length - 4 - p)))
  | 0, p, h => by
    rw [corr, show min (p + 0) (buf.length - 4) = p by omega]
    simp
  | n + 1, p, h => by
    rw [corr]
    by_cases hp : p + 4 = buf.length
    · rw [if_pos (by omega), hp, corr_end buf _ _ (by omega)]
      rw [show min (p + (n + 1)) (buf.length - 4) = p by omega, hp]
      congr 3
      omega
    · rw [if_neg (by omega), load_num _ _ (by omega), Res.ok_bind, ← window_succ buf p (by omega)]
      have := corr_at buf n (p + 1) (by omega)
      rw [show (((p + 1 + 4 : Nat)) : Int) = ((p + 4 : Nat) : Int) + 1 by omega] at this
      rw [this]
      congr 2
      · congr 1; omega
      · congr 1
        · congr 1; omega
        · omega

/-- Moving on by a codeword. -/
theorem corr_step {buf : List UInt8} {inc p q : Nat} {w : Win} (h : At buf inc p q w) (len : Nat) :
    ∃ w' p', Win.corr buf { w with pos := w.pos + len } = .ok w' ∧ At buf inc p' (q + len) w' := by
  obtain ⟨hw, hp, hq, hi, hf, h4⟩ := h
  unfold Win.corr
  by_cases he : p + inc = buf.length
  · rw [hp, corr_end buf _ _ (by omega), Res.ok_bind]
    refine ⟨_, p, rfl, hw, rfl, ?_, hi, .inr he, h4⟩
    show 8 * p + ((w.pos + len) % 8 + (0 + 8 * ((w.pos + len) / 8))) = q + len
    omega
  · obtain rfl : inc = 4 := by omega
    rw [hp, hw, corr_at buf _ p hi, Res.ok_bind]
    refine ⟨_, min (p + (w.pos + len) / 8) (buf.length - 4), rfl, rfl, rfl, ?_, by omega, ?_, .inl rfl⟩
    · show 8 * _ + ((w.pos + len) % 8 + 8 * ((w.pos + len) / 8 - (buf.length - 4 - p))) = q + len
      omega
    · show (w.pos + len) % 8 + 8 * ((w.pos + len) / 8 - (buf.length - 4 - p)) < 8 ∨ _
      omega

/-- The bits of the input from a position on. -/
def bitsAt (buf : List UInt8) (q : Nat) : List Bool := (bitsOf buf).drop q

theorem shift_extract (x a b : Nat) (h : a + b ≤ 32) :
    (x % 2 ^ 32 * 2 ^ a % 2 ^ 32) >>> (32 - b) = x / 2 ^ (32 - a - b) % 2 ^ b := by
  apply Nat.eq_of_testBit_eq
  intro j
  rw [Nat.testBit_shiftRight, Nat.testBit_mod_two_pow, Nat.testBit_mod_two_pow, Nat.testBit_mul_two_pow, Nat.testBit_mod_two_pow,
    Nat.testBit_div_two_pow]
  by_cases hj : j < b
  · simp only [hj, decide_true, Bool.true_and, show 32 - b + j < 32 by omega, show a ≤ 32 - b + j by omega,
      show 32 - b + j - a = j + (32 - a - b) by omega, show j + (32 - a - b) < 32 by omega]
  · simp [hj, show ¬ 32 - b + j < 32 by omega]

theorem at_word {buf : List UInt8} {inc p q : Nat} {w : Win} (h : At buf inc p q w) (c : Code) (hc : c ∈ sclTable)
    (r : List Bool) (hb : bitsAt buf q = word c ++ r) :
    w.pos < 32 ∧ (w.word * 2 ^ w.pos % 2 ^ 32) >>> (32 - c.size) = c.code ∧ q + c.size ≤ 8 * buf.length ∧
      bitsAt buf (q + c.size) = r := by
  obtain ⟨hw, hp, hq, hi, hf, h4⟩ := h
  have hg := table_good c hc
  simp only [good, Bool.and_eq_true, decide_eq_true_eq] at hg
  have h19 := hg.1.1
  have hsz := Huff.scl_good.size c hc
  have hlen : (bitsAt buf q).length = 8 * buf.length - q := by simp [bitsAt]
  have hlen' := congrArg List.length hb
  rw [hlen, List.length_append, Huff.word_length] at hlen'
  have hfit : q + c.size ≤ 8 * buf.length := by omega
  refine ⟨by omega, ?_, hfit, ?_⟩
  · rw [hw, window, shift_extract _ _ _ (by omega), Nat.div_div_eq_div_mul, ← Nat.pow_add, num_eq,
      show 8 * (buf.length - p) + (32 - w.pos - c.size) = (8 * buf.length - q - c.size) + 32 by omega, Nat.pow_add,
      Nat.mul_div_mul_right _ _ (by decide)]
    have hs := slice_val (bitsOf buf) q c.size (by simp; omega)
    rw [bitsOf_length] at hs
    rw [← hs]
    have : (bitsAt buf q).take c.size = word c := Huff.take_word ⟨r, hb.symm⟩
    rw [show ((bitsOf buf).drop q).take c.size = word c from this, Huff.bitsVal_word c hsz.2.2]
  · have : bitsAt buf (q + c.size) = (bitsAt buf q).drop c.size := by simp [bitsAt]
    rw [this, hb, Huff.drop_word]

/-- One codeword. -/
theorem next_at {buf : List UInt8} {inc p q : Nat} {w : Win} (h : At buf inc p q w) (c : Code) (hc : c ∈ sclTable)
    (r : List Bool) (hb : bitsAt buf q = word c ++ r) :
    ∃ w' p', Win.next buf w = .ok (c.val.toNat, w') ∧ At buf inc p' (q + c.size) w' ∧ q + c.size ≤ 8 * buf.length ∧
      bitsAt buf (q + c.size) = r := by
  obtain ⟨h1, h2, h3, h4⟩ := at_word h c hc r hb
  obtain ⟨w', p', hw', ha⟩ := corr_step h c.size
  refine ⟨w', p', ?_, ha, h3, h4⟩
  rw [Win.next, if_pos h1, C174_decode c hc _ h2, Res.ok_bind]
  simp only [hw', Res.ok_bind]

/-- The word read first. -/
theorem show32_at (s : BitBuf) (hs : s.WF) (ht : s.pos + s.cnt = 8 * s.buf.length) :
    ∃ inc : Nat, show32 s.buf 4 s.ptr s.cnt 0 0 = .ok (window s.buf s.ptr.toNat, inc) ∧
      At s.buf inc s.ptr.toNat s.pos.toNat ⟨window s.buf s.ptr.toNat, (7 - s.bitPos).toNat, s.ptr + inc⟩ := by
  obtain ⟨hp0, hb0, hb7, hc0, hin⟩ := hs
  obtain ⟨p, hp⟩ := Int.eq_ofNat_of_zero_le hp0
  have hpos : s.pos = 8 * (p : Int) + 7 - s.bitPos := by unfold BitBuf.pos; rw [hp]
  have hle : p ≤ s.buf.length := by omega
  have hcnt : s.cnt = 8 * ((s.buf.length : Int) - p) - (7 - s.bitPos) := by omega
  have key : show32 s.buf 4 s.ptr s.cnt 0 0 = .ok (window s.buf p, min 4 (s.buf.length - p)) := by
    rw [hp]
    by_cases h4 : p + 4 ≤ s.buf.length
    · have l0 := load_num s.buf p (by omega)
      have l1 := load_num s.buf (p + 1) (by omega)
      have l2 := load_num s.buf (p + 2) (by omega)
      have l3 := load_num s.buf (p + 3) (by omega)
      rw [show ((p + 1 : Nat) : Int) = p + 1 by omega] at l1
      rw [show ((p + 2 : Nat) : Int) = p + 2 by omega] at l2
      rw [show ((p + 3 : Nat) : Int) = p + 3 by omega] at l3
      simp only [show32]
      rw [if_pos (by omega), l0]; simp only [Res.ok_bind]
      rw [if_pos (by omega), l1]; simp only [Res.ok_bind]
      rw [if_pos (by omega), show (p : Int) + 1 + 1 = p + 2 by omega, l2]; simp only [Res.ok_bind]
      rw [if_pos (by omega), show (p : Int) + 2 + 1 = p + 3 by omega, l3]; simp only [Res.ok_bind]
      unfold window
      rw [show 8 * (s.buf.length - 1 - p) + 32 = 8 * (s.buf.length - p) + 24 by omega,
        show 8 * (s.buf.length - 1 - (p + 1)) + 32 = 8 * (s.buf.length - p) + 16 by omega,
        show 8 * (s.buf.length - 1 - (p + 2)) + 32 = 8 * (s.buf.length - p) + 8 by omega,
        show 8 * (s.buf.length - 1 - (p + 3)) + 32 = 8 * (s.buf.length - p) by omega]
      rw [Nat.pow_add, Nat.pow_add, Nat.pow_add, ← Nat.div_div_eq_div_mul, ← Nat.div_div_eq_div_mul, ← Nat.div_div_eq_div_mul]
      congr 2
      · omega
      · omega
    · obtain ⟨k, hk⟩ : ∃ k, k = s.buf.length - p := ⟨_, rfl⟩
      have hk3 : k = 0 ∨ k = 1 ∨ k = 2 ∨ k = 3 := by omega
      unfold window
      rw [← hk, num_eq]
      have hl : ∀ j < k, BitBuf.load s.buf ((p : Int) + (j : Nat)) = .ok (bitsVal (bitsOf s.buf) / 2 ^ (8 * (k - 1 - j)) % 256) := by
        intro j hj
        have := load_num s.buf (p + j) (by omega)
        rw [num_eq, Nat.pow_add, Nat.mul_div_mul_right _ _ (by decide), show s.buf.length - 1 - (p + j) = k - 1 - j by omega] at this
        rw [← this]
        congr 1
      obtain ⟨B, hB⟩ : ∃ B, B = bitsVal (bitsOf s.buf) := ⟨_, rfl⟩
      rw [← hB] at hl ⊢
      rcases hk3 with rfl | rfl | rfl | rfl
      · simp only [show32]
        rw [if_neg (by omega), if_neg (by omega), if_neg (by omega), if_neg (by omega)]
        simp
      · have l0 : BitBuf.load s.buf (p : Int) = _ := hl 0 (by omega)
        simp only [show32]
        rw [if_pos (by omega), l0]; simp only [Res.ok_bind]
        rw [if_neg (by omega), if_neg (by omega), if_neg (by omega)]
        congr 2
        · omega
      · have l0 : BitBuf.load s.buf (p : Int) = _ := hl 0 (by omega)
        have l1 : BitBuf.load s.buf ((p : Int) + 1) = _ := hl 1 (by omega)
        simp only [show32]
        rw [if_pos (by omega), l0]; simp only [Res.ok_bind]
        rw [if_pos (by omega), l1]; simp only [Res.ok_bind]
        rw [if_neg (by omega), if_neg (by omega)]
        congr 2
        · omega
      · have l0 : BitBuf.load s.buf (p : Int) = _ := hl 0 (by omega)
        have l1 : BitBuf.load s.buf ((p : Int) + 1) = _ := hl 1 (by omega)
        have l2 : BitBuf.load s.buf ((p : Int) + 2) = _ := hl 2 (by omega)
        simp only [show32]
        rw [if_pos (by omega), l0]; simp only [Res.ok_bind]
        rw [if_pos (by omega), l1]; simp only [Res.ok_bind]
        rw [if_pos (by omega), show (p : Int) + 1 + 1 = p + 2 by omega, l2]; simp only [Res.ok_bind]
        rw [if_neg (by omega)]
        congr 2
        · omega
  rw [hp] at key ⊢
  refine ⟨min 4 (s.buf.length - p), key, rfl, ?_, ?_, ?_, ?_, ?_⟩
  all_goals simp only [Int.toNat_natCast]
  all_goals omega

end Verif.Scf
