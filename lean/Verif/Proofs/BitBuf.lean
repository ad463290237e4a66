import Verif.Spec.BitStream
import Verif.Proofs.Bits

/-! Helper lemmas for the bit reader. -/

namespace Verif.BitBuf

/-- Byte `i` of the buffer, zero outside. Only used inside proofs. -/
def byteAt (l : List UInt8) (i : Nat) : Nat := ((l[i]?).map UInt8.toNat).getD 0

theorem load_nat (l : List UInt8) (i : Nat) (h : i < l.length) :
    load l (i : Int) = .ok (byteAt l i) := by
  simp [load, byteAt, h]

theorem byteAt_lt (l : List UInt8) (i : Nat) : byteAt l i < 256 := by
  unfold byteAt
  cases h : l[i]? with
  | none => simp
  | some b => simpa using b.toNat_lt

theorem shl8_testBit (v m : Nat) :
    (shl8 v).testBit m = (decide (m < 32) && (decide (8 ≤ m) && v.testBit (m - 8))) := by
  unfold shl8
  rw [Nat.testBit_mod_two_pow, Nat.testBit_shiftLeft]

theorem shl8_lt (v : Nat) : shl8 v < 2 ^ 32 := Nat.mod_lt _ (by decide)

/-- `rv` holds the bytes `lo..ptr` (as far as they fit in 32 bits), last byte lowest. -/
def Rep (buf : List UInt8) (lo ptr rv : Nat) : Prop :=
  ∀ m, m < 32 → m / 8 + lo ≤ ptr → rv.testBit m = (byteAt buf (ptr - m / 8)).testBit (m % 8)

theorem rep_init (buf : List UInt8) (p : Nat) : Rep buf p p (byteAt buf p) := by
  intro m _ h
  have h0 : m / 8 = 0 := by omega
  have h1 : m % 8 = m := by omega
  rw [h0, h1]; rfl

theorem rep_step {buf : List UInt8} {lo ptr rv : Nat} (h : Rep buf lo ptr rv) :
    Rep buf lo (ptr + 1) (shl8 rv ||| byteAt buf (ptr + 1)) := by
  intro m hm hle
  rw [Nat.testBit_or, shl8_testBit]
  by_cases h8 : m < 8
  · have h0 : m / 8 = 0 := by omega
    have h1 : m % 8 = m := by omega
    have : ¬ 8 ≤ m := by omega
    simp [h0, h1, this]
  · have hb : (byteAt buf (ptr + 1)).testBit m = false :=
      Nat.testBit_lt_two_pow (Nat.lt_of_lt_of_le (byteAt_lt _ _)
        (by
          have : (256 : Nat) = 2 ^ 8 := by decide
          rw [this]
          exact Nat.pow_le_pow_right (by decide) (by omega)))
    have hh := h (m - 8) (by omega) (by omega)
    have e1 : (m - 8) / 8 = m / 8 - 1 := by omega
    have e2 : (m - 8) % 8 = m % 8 := by omega
    rw [e1, e2] at hh
    have e3 : ptr + 1 - m / 8 = ptr - (m / 8 - 1) := by omega
    rw [hb, e3, hh]
    simp [hm]
    omega

theorem readLoop_spec (buf : List UInt8) (lo : Nat) (e : Int) (he : e ≤ 8 * buf.length) :
    ∀ (ptr : Nat) (bp : Int) (rv : Nat), 8 * (ptr : Int) + 7 - bp = e → ptr < buf.length →
      Rep buf lo ptr rv →
      ∃ ptr' rv' : Nat, readLoop buf ptr bp rv = .ok ((ptr' : Int), 8 * (ptr' : Int) + 7 - e, rv') ∧
        ptr ≤ ptr' ∧ ptr' < buf.length ∧ -1 ≤ 8 * (ptr' : Int) + 7 - e ∧
        (8 * (ptr' : Int) + 7 - e = bp ∨ 8 * (ptr' : Int) + 7 - e ≤ 6) ∧
        Rep buf lo ptr' rv' ∧ (rv < 2 ^ 32 → rv' < 2 ^ 32) := by
  intro ptr bp rv
  induction h : (-1 - bp).toNat using Nat.strongRecOn generalizing ptr bp rv with
  | _ k ih =>
    intro hp hl hr
    rw [readLoop]
    by_cases hb : bp < -1
    · have hl' : ptr + 1 < buf.length := by omega
      have hload := load_nat buf (ptr + 1) hl'
      have hcast : ((ptr + 1 : Nat) : Int) = (ptr : Int) + 1 := by omega
      rw [hcast] at hload
      obtain ⟨ptr', rv', h1, h2, h3, h4, h5, h6, h7⟩ :=
        ih (-1 - (bp + 8)).toNat (by omega) (ptr + 1) (bp + 8)
          (shl8 rv ||| byteAt buf (ptr + 1)) rfl (by omega) hl' (rep_step hr)
      refine ⟨ptr', rv', ?_, by omega, h3, h4, ?_, h6, fun _ => h7 ?_⟩
      · rw [if_pos hb, hload]
        rw [hcast] at h1
        exact h1
      · right; omega
      · exact Nat.or_lt_two_pow (shl8_lt _) (Nat.lt_trans (byteAt_lt _ _) (by decide))
    · rw [if_neg hb]
      have : bp = 8 * (ptr : Int) + 7 - e := by omega
      refine ⟨ptr, rv, by rw [this], Nat.le_refl _, hl, by omega, Or.inl this.symm, hr, id⟩

theorem extract_spec (rv n bp : Nat) (h1 : 1 ≤ n) (h2 : n + bp ≤ 31) :
    ∃ v, extract rv n (bp : Int) = .ok v ∧
      ∀ j, v.testBit j = (decide (j < n) && rv.testBit (bp + 1 + j)) := by
  refine ⟨((rv <<< (31 - n - bp)) % 2 ^ 32) >>> (32 - n), ?_, ?_⟩
  · unfold extract
    have e1 : ((31 - (n : Int)) - (bp : Int)).toNat = 31 - n - bp := by omega
    have e2 : (32 - (n : Int)).toNat = 32 - n := by omega
    simp only [e1, e2]
    rw [if_pos (by omega)]
  · intro j
    rw [Nat.testBit_shiftRight, Nat.testBit_mod_two_pow, Nat.testBit_shiftLeft]
    by_cases hj : j < n
    · have e3 : 32 - n + j - (31 - n - bp) = bp + 1 + j := by omega
      have e4 : 32 - n + j < 32 := by omega
      have e5 : 31 - n - bp ≤ 32 - n + j := by omega
      simp [hj, e3, e4, e5]
    · have e4 : ¬ 32 - n + j < 32 := by omega
      simp [hj, e4]

theorem slice_testBit (buf : List UInt8) (p n j : Nat) (hj : j < n)
    (hp : p + n ≤ 8 * buf.length) :
    (bitsVal (((bitsOf buf).drop p).take n)).testBit j =
      (byteAt buf ((p + n - 1 - j) / 8)).testBit (7 - (p + n - 1 - j) % 8) := by
  rw [bitsVal_testBit]
  have hlen : (((bitsOf buf).drop p).take n).length = n := by simp; omega
  rw [hlen, if_pos hj, List.getD_eq_getElem?_getD, List.getElem?_take_of_lt (by omega),
    List.getElem?_drop, bitsOf_getElem?]
  have e : p + (n - 1 - j) = p + n - 1 - j := by omega
  rw [e]
  have hlt : (p + n - 1 - j) / 8 < buf.length := by omega
  simp [byteAt, hlt]

theorem slice_testBit_ge (buf : List UInt8) (p n j : Nat) (hj : ¬ j < n) :
    (bitsVal (((bitsOf buf).drop p).take n)).testBit j = false := by
  rw [bitsVal_testBit]
  have hlen : (((bitsOf buf).drop p).take n).length ≤ n := by
    rw [List.length_take]; omega
  rw [if_neg (by omega)]

/-- The value and end position delivered by `fetch`. -/
theorem fetch_spec (s : BitBuf) (hs : s.WF) (n : Nat) (h1 : 1 ≤ n) (h24 : n ≤ 24)
    (hn : (n : Int) ≤ s.cnt) :
    ∃ ptr' bp' : Nat, fetch s n =
        .ok (bitsVal (((bitsOf s.buf).drop s.pos.toNat).take n), (ptr' : Int), (bp' : Int)) ∧
      bp' ≤ 7 ∧ 8 * (ptr' : Int) + 7 - bp' = s.pos + n := by
  obtain ⟨hp0, hb0, hb7, hc0, hin⟩ := hs
  obtain ⟨p, hp⟩ := Int.eq_ofNat_of_zero_le hp0
  obtain ⟨b, hb⟩ := Int.eq_ofNat_of_zero_le hb0
  have hposdef : s.pos = 8 * (p : Int) + 7 - b := by unfold pos; rw [hp, hb]
  have hplt : p < s.buf.length := by omega
  obtain ⟨ptr', rv', hl1, hl2, hl3, hl4, hl5, hl6, _⟩ :=
    readLoop_spec s.buf p (s.pos + n) (by omega) p (s.bitPos - n) (byteAt s.buf p)
      (by omega) hplt (rep_init _ _)
  unfold fetch
  rw [hp, load_nat _ _ hplt, Res.ok_bind, hl1, Res.ok_bind]
  have hposn : s.pos.toNat = 8 * p + 7 - b := by omega
  by_cases hm1 : 8 * (ptr' : Int) + 7 - (s.pos + n) = -1
  · simp only [hm1, if_true]
    obtain ⟨v, hv1, hv2⟩ := extract_spec (shl8 rv') n 7 h1 (by omega)
    have h7 : ((-1 : Int) + 8) = ((7 : Nat) : Int) := by decide
    rw [h7, hv1, Res.ok_bind]
    refine ⟨ptr' + 1, 7, ?_, by omega, by omega⟩
    have hvv : v = bitsVal (((bitsOf s.buf).drop s.pos.toNat).take n) := by
      apply Nat.eq_of_testBit_eq
      intro j
      rw [hv2]
      by_cases hj : j < n
      · rw [slice_testBit _ _ _ _ hj (by omega), shl8_testBit]
        have hr := hl6 j (by omega) (by omega)
        have e1 : 7 + 1 + j - 8 = j := by omega
        have e2 : 7 + 1 + j < 32 := by omega
        have e3 : 8 ≤ 7 + 1 + j := by omega
        rw [e1, hr]
        have e4 : (s.pos.toNat + n - 1 - j) / 8 = ptr' - j / 8 := by omega
        have e5 : 7 - (s.pos.toNat + n - 1 - j) % 8 = j % 8 := by omega
        rw [e4, e5]
        simp [hj, e2]
      · rw [slice_testBit_ge _ _ _ _ hj]; simp [hj]
    rw [hvv]; simp
  · simp only [hm1, if_false]
    obtain ⟨bp, hbp⟩ : ∃ bp : Nat, 8 * (ptr' : Int) + 7 - (s.pos + n) = bp :=
      ⟨(8 * (ptr' : Int) + 7 - (s.pos + n)).toNat, by omega⟩
    rw [hbp]
    obtain ⟨v, hv1, hv2⟩ := extract_spec rv' n bp h1 (by omega)
    rw [hv1, Res.ok_bind]
    refine ⟨ptr', bp, ?_, by omega, by omega⟩
    have hvv : v = bitsVal (((bitsOf s.buf).drop s.pos.toNat).take n) := by
      apply Nat.eq_of_testBit_eq
      intro j
      rw [hv2]
      by_cases hj : j < n
      · rw [slice_testBit _ _ _ _ hj (by omega)]
        have hr := hl6 (bp + 1 + j) (by omega) (by omega)
        rw [hr]
        have e4 : (s.pos.toNat + n - 1 - j) / 8 = ptr' - (bp + 1 + j) / 8 := by omega
        have e5 : 7 - (s.pos.toNat + n - 1 - j) % 8 = (bp + 1 + j) % 8 := by omega
        rw [e4, e5]
        simp [hj]
      · rw [slice_testBit_ge _ _ _ _ hj]; simp [hj]
    rw [hvv]

theorem rest_length (s : BitBuf) (hs : s.WF) : (s.rest.length : Int) = s.cnt := by
  obtain ⟨hp0, hb0, hb7, hc0, hin⟩ := hs
  unfold pos at hin
  simp only [rest, List.length_take, List.length_drop, bitsOf_length, pos]
  omega

theorem rest_take (s : BitBuf) (n : Nat) (hn : (n : Int) ≤ s.cnt) :
    s.rest.take n = ((bitsOf s.buf).drop s.pos.toNat).take n := by
  unfold rest
  rw [List.take_take]
  congr 1
  omega

theorem rest_drop (s s' : BitBuf) (hs : s.WF) (n : Nat) (hn : (n : Int) ≤ s.cnt)
    (hbuf : s'.buf = s.buf) (hpos : s'.pos = s.pos + n) (hcnt : s'.cnt = s.cnt - n) :
    s'.rest = s.rest.drop n := by
  obtain ⟨hp0, hb0, hb7, hc0, hin⟩ := hs
  have : 0 ≤ s.pos := by unfold pos; omega
  unfold rest
  rw [hbuf, hpos, hcnt, List.drop_take, List.drop_drop]
  congr 1
  · omega
  · congr 1; omega

theorem wf_advance (s s' : BitBuf) (hs : s.WF) (n : Nat) (hn : (n : Int) ≤ s.cnt)
    (hbuf : s'.buf = s.buf) (hpos : s'.pos = s.pos + n) (hcnt : s'.cnt = s.cnt - n)
    (hb : 0 ≤ s'.bitPos) (hb' : s'.bitPos ≤ 7) : s'.WF := by
  obtain ⟨hp0, hb0, hb7, hc0, hin⟩ := hs
  refine ⟨?_, hb, hb', by omega, by rw [hbuf]; omega⟩
  unfold pos at hpos
  omega

/-- Reading at most 24 bits, in one statement. -/
theorem read_spec (s : BitBuf) (hs : s.WF) (n : Nat) (h24 : n ≤ 24) :
    if s.rest.length < n then read s n = .jump
    else ∃ s', read s n = .ok (bitsVal (s.rest.take n), s') ∧ s'.WF ∧ s'.buf = s.buf ∧
      s'.pos = s.pos + n ∧ s'.rest = s.rest.drop n := by
  have hlen := rest_length s hs
  by_cases hn0 : n = 0
  · subst hn0
    simp only [Nat.not_lt_zero, if_false]
    exact ⟨s, by simp [read], hs, rfl, by simp, by simp⟩
  · split
    · rename_i hlt
      unfold read
      rw [if_neg hn0, if_pos (by omega)]
    · rename_i hge
      have hc : (n : Int) ≤ s.cnt := by omega
      obtain ⟨ptr', bp', hf, hb, hp⟩ := fetch_spec s hs n (by omega) h24 hc
      have hcn := hs.cnt_nonneg
      refine ⟨{ s with ptr := ptr', bitPos := bp', cnt := s.cnt - n }, ?_, ?_, rfl, ?_, ?_⟩
      · unfold read
        rw [if_neg hn0, if_neg (by omega), hf, rest_take s n hc]
        rfl
      · exact wf_advance s _ hs n hc rfl hp rfl (by simp) (by simp; omega)
      · exact hp
      · exact rest_drop s _ hs n hc rfl hp rfl

theorem peek_spec (s : BitBuf) (hs : s.WF) (n : Nat) (h24 : n ≤ 24) :
    peek s n = if s.rest.length < n then .jump else .ok (bitsVal (s.rest.take n)) := by
  have hlen := rest_length s hs
  by_cases hn0 : n = 0
  · subst hn0; simp [peek]
  · unfold peek
    rw [if_neg hn0]
    split
    · rw [if_pos (by have := hs.cnt_nonneg; omega)]
    · have hc : (n : Int) ≤ s.cnt := by omega
      obtain ⟨ptr', bp', hf, hb, hp⟩ := fetch_spec s hs n (by omega) h24 hc
      rw [if_neg (by omega), hf, rest_take s n hc]
      rfl

theorem skip_spec (s : BitBuf) (hs : s.WF) (n : Nat) :
    if s.rest.length < n then skip s n = .jump
    else ∃ s', skip s n = .ok s' ∧ s'.WF ∧ s'.buf = s.buf ∧
      s'.pos = s.pos + n ∧ s'.rest = s.rest.drop n := by
  have hlen := rest_length s hs
  have hcn := hs.cnt_nonneg
  have hb0 := hs.bit_lo
  have hb7 := hs.bit_hi
  have htm : (n : Int).tmod 8 = ((n % 8 : Nat) : Int) := by
    rw [Int.tmod_eq_emod_of_nonneg (by omega)]; omega
  have hdv : (n : Int) / 8 = ((n / 8 : Nat) : Int) := by omega
  split
  · unfold skip; rw [if_pos (by omega)]
  · have hc : (n : Int) ≤ s.cnt := by omega
    unfold skip
    rw [if_neg (by omega), htm, hdv]
    by_cases hneg : s.bitPos - ((n % 8 : Nat) : Int) < 0
    · simp only [hneg, if_true]
      rw [if_neg (by omega)]
      have hp : BitBuf.pos { s with ptr := s.ptr + ((n / 8 : Nat) : Int) + 1, bitPos := s.bitPos - ((n % 8 : Nat) : Int) + 8, cnt := s.cnt - n } = s.pos + n := by
        simp only [pos]; omega
      refine ⟨_, rfl, ?_, rfl, hp, ?_⟩
      · exact wf_advance s _ hs n hc rfl hp rfl (by simp; omega) (by simp; omega)
      · exact rest_drop s _ hs n hc rfl hp rfl
    · simp only [hneg, if_false]
      rw [if_neg (by omega)]
      have hp : BitBuf.pos { s with ptr := s.ptr + ((n / 8 : Nat) : Int), bitPos := s.bitPos - ((n % 8 : Nat) : Int), cnt := s.cnt - n } = s.pos + n := by
        simp only [pos]; omega
      refine ⟨_, rfl, ?_, rfl, hp, ?_⟩
      · exact wf_advance s _ hs n hc rfl hp rfl (by simp; omega) (by simp; omega)
      · exact rest_drop s _ hs n hc rfl hp rfl

theorem create_wf (buf : List UInt8) : (create buf).WF := by
  refine ⟨by simp [create], by simp [create], by simp [create], by simp [create]; omega, ?_⟩
  simp [create, pos]

theorem create_rest (buf : List UInt8) : (create buf).rest = bitsOf buf := by
  simp [create, rest, pos]
  rw [List.take_of_length_le]
  simp; omega

end Verif.BitBuf
