import Verif.Spec.Requests
import Verif.Proofs.BitBuf

/-!
# C01, C02, C03, C06: the bit reader
-/

namespace Verif

open BitBuf

/-- A buffer in the middle of some bytes, used as a non-trivial instance below. -/
def sampleBuf : BitBuf := { buf := [0x5A, 0xC3, 0x7E, 0x01], ptr := 1, bitPos := 4, cnt := 21 }

theorem sampleBuf_wf : sampleBuf.WF := by
  constructor <;> decide

/-- C01, single read: the value is the next `n` bits, most significant first, and the
position moves by exactly `n`; the buffer stays in good order. -/
theorem C01_read_exact (s : BitBuf) (hs : s.WF) (n : Nat) (hn : n ≤ 24)
    (hlen : (n : Int) ≤ s.cnt) :
    ∃ s', s.read n = .ok (bitsVal (((bitsOf s.buf).drop s.pos.toNat).take n), s') ∧
      s'.pos = s.pos + n ∧ s'.cnt = s.cnt - n ∧ s'.buf = s.buf ∧ s'.WF := by
  have h := read_spec s hs n hn
  have hl := rest_length s hs
  rw [if_neg (by omega)] at h
  obtain ⟨s', h1, h2, h3, h4, h5⟩ := h
  refine ⟨s', ?_, h4, ?_, h3, h2⟩
  · rw [h1, rest_take s n hlen]
  · have h6 := rest_length s' h2
    have h7 : s'.rest.length = s.rest.length - n := by rw [h5]; simp
    omega

example : sampleBuf.WF ∧ (13 : Nat) ≤ 24 ∧ ((13 : Nat) : Int) ≤ sampleBuf.cnt ∧
    (sampleBuf.read 13).map Prod.fst = .ok 0x37E := by
  refine ⟨sampleBuf_wf, by decide, by decide, ?_⟩
  obtain ⟨s', h, -⟩ := C01_read_exact sampleBuf sampleBuf_wf 13 (by decide) (by decide)
  rw [h, Res.map]
  simp only [Res.ok.injEq]
  decide

/-- Read a sequence of fields. -/
def BitBuf.readSeq (s : BitBuf) : List Nat → Res (List Nat)
  | [] => .ok []
  | n :: ns => do
    let (v, s') ← s.read n
    let vs ← readSeq s' ns
    .ok (v :: vs)

/-- Specification: consecutive slices of the bits. -/
def slices (bits : List Bool) : List Nat → List Nat
  | [] => []
  | n :: ns => bitsVal (bits.take n) :: slices (bits.drop n) ns

/-- C01, sequences: any sequence of reads that fits returns consecutive slices of the input
bytes, from whatever alignment the reader starts at. -/
theorem C01_consecutive_slices (s : BitBuf) (hs : s.WF) (ns : List Nat)
    (h24 : ∀ n ∈ ns, n ≤ 24) (hlen : (ns.sum : Int) ≤ s.cnt) :
    s.readSeq ns = .ok (slices ((bitsOf s.buf).drop s.pos.toNat) ns) := by
  induction ns generalizing s with
  | nil => rfl
  | cons n ns ih =>
    simp only [List.sum_cons] at hlen
    obtain ⟨s', h1, h2, h3, h4, h5⟩ :=
      C01_read_exact s hs n (h24 n (by simp)) (by omega)
    have := ih s' h5 (fun m hm => h24 m (by simp [hm])) (by omega)
    have hp : 0 ≤ s.pos := by
      have := hs.ptr_nonneg; have := hs.bit_hi; unfold pos; omega
    have e : s'.pos.toNat = s.pos.toNat + n := by omega
    simp only [BitBuf.readSeq, h1, Res.ok_bind, this, slices, List.drop_drop, e, h4]

example : sampleBuf.readSeq [3, 0, 11, 5] = .ok [0, 0, 0x6FC, 0] := by
  rw [C01_consecutive_slices sampleBuf sampleBuf_wf _ (by decide) (by decide)]; decide

/-- C02: every history of requests against a freshly opened buffer is answered exactly as
the list of bits prescribes: values are slices, `short` is answered exactly when fewer bits
remain than requested and then nothing is consumed, and `broken` (an access outside the
buffer) never happens. -/
theorem C02_histories (buf : List UInt8) (rs : List Req) (h : ∀ r ∈ rs, r.small) :
    (BitBuf.create buf).serve rs = answer (bitsOf buf) rs := by
  suffices H : ∀ s : BitBuf, s.WF → s.serve rs = answer s.rest rs by
    rw [H _ (create_wf buf), create_rest]
  induction rs with
  | nil => intros; rfl
  | cons r rs ih =>
    intro s hs
    have ih' := ih (fun r hr => h r (by simp [hr]))
    have hr : r.small := h r (by simp)
    cases r with
    | read n =>
      have hsp := read_spec s hs n hr
      simp only [serve, serve1, answer]
      split at hsp
      · rename_i hlt
        rw [if_pos hlt, hsp, ih' s hs]
      · rename_i hge
        obtain ⟨s', h1, h2, h3, h4, h5⟩ := hsp
        rw [if_neg hge, h1]
        simp only
        rw [ih' s' h2, h5]
    | peek n =>
      have hsp := peek_spec s hs n hr
      simp only [serve, serve1, answer]
      split at hsp
      · rename_i hlt
        rw [if_pos hlt, hsp, ih' s hs]
      · rename_i hge
        rw [if_neg hge, hsp]
        simp only
        rw [ih' s hs]
    | skip n =>
      have hsp := skip_spec s hs n
      simp only [serve, serve1, answer]
      split at hsp
      · rename_i hlt
        rw [if_pos hlt, hsp, ih' s hs]
      · rename_i hge
        obtain ⟨s', h1, h2, h3, h4, h5⟩ := hsp
        rw [if_neg hge, h1]
        simp only
        rw [ih' s' h2, h5]

/-- C02, memory safety read off the specification: no answer is `broken`. -/
theorem C02_never_outside (buf : List UInt8) (rs : List Req) (h : ∀ r ∈ rs, r.small) :
    Ans.broken ∉ (BitBuf.create buf).serve rs := by
  rw [C02_histories buf rs h]
  generalize bitsOf buf = bits
  induction rs generalizing bits with
  | nil => simp [answer]
  | cons r rs ih =>
    have ih' := ih (fun r hr => h r (by simp [hr]))
    cases r <;> simp only [answer] <;> split <;> simp [ih']

example : (∀ r ∈ [Req.read 5, .peek 24, .peek 7, .skip 9, .read 3, .read 2], r.small) ∧
    (BitBuf.create [0xFF, 0x12]).serve [.read 5, .peek 24, .peek 7, .skip 9, .read 3, .read 2]
      = [.value 31, .short, .value 0x71, .done, .short, .value 2] := by
  have h : ∀ r ∈ [Req.read 5, .peek 24, .peek 7, .skip 9, .read 3, .read 2], r.small := by
    simp [Req.small]
  refine ⟨h, ?_⟩
  rw [C02_histories _ _ h]; decide

/-- C03: peeking returns what reading would return, and fails exactly when it would. -/
theorem C03_peek_read (s : BitBuf) (hs : s.WF) (n : Nat) (hn : n ≤ 24) :
    s.peek n = (s.read n).map Prod.fst := by
  have h1 := peek_spec s hs n hn
  have h2 := read_spec s hs n hn
  rw [h1]
  split
  · rename_i h; rw [if_pos h] at h2; rw [h2]; rfl
  · rename_i h; rw [if_neg h] at h2
    obtain ⟨s', h3, -⟩ := h2
    rw [h3]; rfl

/-- Two buffers in good order over the same bytes at the same position are the same state. -/
theorem state_eq_of_pos (s t : BitBuf) (hs : s.WF) (ht : t.WF) (hb : s.buf = t.buf)
    (hp : s.pos = t.pos) (hc : s.cnt = t.cnt) : s = t := by
  have := hs.bit_lo; have := hs.bit_hi; have := ht.bit_lo; have := ht.bit_hi
  cases s; cases t
  simp only [pos] at *
  simp only [BitBuf.mk.injEq]
  refine ⟨hb, by omega, by omega, hc⟩

/-- C03: skipping `n` bits leaves the very same state as reading and discarding them. -/
theorem C03_skip_read (s : BitBuf) (hs : s.WF) (n : Nat) (hn : n ≤ 24) :
    s.skip n = (s.read n).map Prod.snd := by
  have h1 := skip_spec s hs n
  have h2 := read_spec s hs n hn
  split at h1
  · rename_i h; rw [if_pos h] at h2; rw [h1, h2]; rfl
  · rename_i h; rw [if_neg h] at h2
    obtain ⟨s1, a1, a2, a3, a4, a5⟩ := h1
    obtain ⟨s2, b1, b2, b3, b4, b5⟩ := h2
    rw [a1, b1]
    have hc : s1.cnt = s2.cnt := by
      rw [← rest_length s1 a2, ← rest_length s2 b2, a5, b5]
    have : s1 = s2 := state_eq_of_pos s1 s2 a2 b2 (by rw [a3, b3]) (by rw [a4, b4]) hc
    rw [this]; rfl

/-- C03: a skip of any size is the composition of two smaller ones. -/
theorem C03_skip_add (s : BitBuf) (hs : s.WF) (m n : Nat) (hle : ((m + n : Nat) : Int) ≤ s.cnt) :
    (do let s' ← s.skip m; s'.skip n) = s.skip ((m + n : Nat) : Int) := by
  have hl := rest_length s hs
  have h1 := skip_spec s hs m
  have h3 := skip_spec s hs (m + n)
  rw [if_neg (by omega)] at h1 h3
  obtain ⟨s1, a1, a2, a3, a4, a5⟩ := h1
  obtain ⟨s3, c1, c2, c3, c4, c5⟩ := h3
  have h2 := skip_spec s1 a2 n
  rw [if_neg (by rw [a5, List.length_drop]; omega)] at h2
  obtain ⟨s2, b1, b2, b3, b4, b5⟩ := h2
  rw [a1, c1, Res.ok_bind, b1]
  congr 1
  apply state_eq_of_pos s2 s3 b2 c2 (by rw [b3, a3, c3]) (by rw [b4, a4, c4]; omega)
  rw [← rest_length s2 b2, ← rest_length s3 c2, b5, a5, c5, List.drop_drop]

example : sampleBuf.WF ∧ (24 : Nat) ≤ 24 ∧ ((7 + 14 : Nat) : Int) ≤ sampleBuf.cnt :=
  ⟨sampleBuf_wf, by decide, by decide⟩

/-! ### C06: 32-bit fields -/

/-- C06 refuted, general reader: a request for 32 bits through the general read routine is
undefined behaviour at *every* position of *every* buffer that still holds 32 bits. -/
theorem C06_read32_via_read_refuted (s : BitBuf) (hs : s.WF) (hc : 32 ≤ s.cnt) :
    s.read 32 = .ub := by
  obtain ⟨hp0, hb0, hb7, hc0, hin⟩ := hs
  obtain ⟨p, hp⟩ := Int.eq_ofNat_of_zero_le hp0
  have hpd : s.pos = 8 * (p : Int) + 7 - s.bitPos := by unfold pos; rw [hp]
  have hplt : p < s.buf.length := by omega
  obtain ⟨ptr', rv', hl1, hl2, hl3, hl4, hl5, hl6, hl7⟩ :=
    readLoop_spec s.buf p (s.pos + (32 : Nat)) (by omega) p (s.bitPos - (32 : Nat))
      (byteAt s.buf p) (by omega) hplt (rep_init _ _)
  have hx : ∀ rv (bp : Int), 0 ≤ bp → extract rv 32 bp = .ub := by
    intro rv bp hbp
    unfold extract
    simp only
    rw [if_neg (by omega)]
  have hf : fetch s 32 = .ub := by
    unfold fetch
    rw [hp, load_nat _ _ hplt, Res.ok_bind, hl1, Res.ok_bind]
    simp only
    split
    · rw [hx _ _ (by omega)]; rfl
    · rw [hx _ _ (by omega)]; rfl
  unfold BitBuf.read
  rw [if_neg (by decide), if_neg (by omega), hf]; rfl

/-- C06 refuted, dedicated 32-bit reader: off byte boundaries it returns other bits. -/
theorem C06_read32_unaligned_refuted :
    ∃ s : BitBuf, s.WF ∧ 32 ≤ s.cnt ∧
      (s.read32).map Prod.fst ≠ .ok (bitsVal (s.rest.take 32)) := by
  refine ⟨{ buf := [0x80, 0, 0, 0, 1], ptr := 0, bitPos := 6, cnt := 39 }, ?_, by decide, ?_⟩
  · constructor <;> decide
  · have : (BitBuf.read32 { buf := [0x80, 0, 0, 0, 1], ptr := 0, bitPos := 6, cnt := 39 }) =
      .ok (1, { buf := [0x80, 0, 0, 0, 1], ptr := 4, bitPos := 6, cnt := 7 }) := by
      simp [read32, readLoop, load, shl8]
    rw [this]
    simp only [Res.map, ne_eq, Res.ok.injEq]
    decide

/-- C06, what holds: on byte boundaries the dedicated 32-bit reader is exact.
Missing for the full claim: the seven other alignments (false, see above). -/
theorem C06_read32_aligned_partial (s : BitBuf) (hs : s.WF) (hb : s.bitPos = 7)
    (hc : 32 ≤ s.cnt) :
    ∃ s', s.read32 = .ok (bitsVal (s.rest.take 32), s') ∧ s'.WF ∧ s'.pos = s.pos + 32 ∧
      s'.rest = s.rest.drop 32 := by
  have hs' := hs
  obtain ⟨hp0, hb0, hb7, hc0, hin⟩ := hs
  obtain ⟨p, hp⟩ := Int.eq_ofNat_of_zero_le hp0
  have hpd : s.pos = 8 * (p : Int) := by unfold pos; rw [hp, hb]; omega
  have hplt : p < s.buf.length := by omega
  obtain ⟨ptr', rv', hl1, hl2, hl3, hl4, hl5, hl6, hl7⟩ :=
    readLoop_spec s.buf p (s.pos + 32) (by omega) p (s.bitPos - 32)
      (byteAt s.buf p) (by omega) hplt (rep_init _ _)
  have hptr : ptr' = p + 3 := by omega
  have hbp : 8 * (ptr' : Int) + 7 - (s.pos + 32) = -1 := by omega
  have hc32 : ((32 : Nat) : Int) ≤ s.cnt := by omega
  have hlt : rv' < 2 ^ 32 := hl7 (Nat.lt_trans (byteAt_lt _ _) (by decide))
  have hval : rv' = bitsVal (s.rest.take 32) := by
    rw [rest_take s 32 hc32]
    apply Nat.eq_of_testBit_eq
    intro j
    by_cases hj : j < 32
    · rw [slice_testBit _ _ _ _ hj (by omega), hl6 j hj (by omega)]
      have e4 : (s.pos.toNat + 32 - 1 - j) / 8 = ptr' - j / 8 := by omega
      have e5 : 7 - (s.pos.toNat + 32 - 1 - j) % 8 = j % 8 := by omega
      rw [e4, e5]
    · rw [slice_testBit_ge _ _ _ _ hj]
      exact Nat.testBit_lt_two_pow (Nat.lt_of_lt_of_le hlt
        (Nat.pow_le_pow_right (by decide) (by omega)))
  have hp' : BitBuf.pos { s with ptr := (ptr' : Int) + 1, bitPos := 7, cnt := s.cnt - 32 }
      = s.pos + (32 : Nat) := by simp only [pos]; omega
  refine ⟨{ s with ptr := (ptr' : Int) + 1, bitPos := 7, cnt := s.cnt - 32 }, ?_, ?_, hp', ?_⟩
  · unfold read32
    rw [if_neg (by omega), hp, load_nat _ _ hplt, Res.ok_bind, hl1, Res.ok_bind]
    simp only [hbp, if_true, hval]
    rfl
  · exact wf_advance s _ hs' 32 hc32 rfl hp' rfl (by simp) (by simp)
  · exact rest_drop s _ hs' 32 hc32 rfl hp' rfl

example : ∃ s : BitBuf, s.WF ∧ s.bitPos = 7 ∧ 32 ≤ s.cnt ∧ s.pos ≠ 0 :=
  ⟨{ buf := [1, 2, 3, 4, 5, 6], ptr := 1, bitPos := 7, cnt := 40 },
    by constructor <;> decide, by decide, by decide, by decide⟩

end Verif
