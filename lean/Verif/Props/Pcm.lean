import Verif.Model.Pcm
import Verif.Spec.Pcm
import Mathlib.Tactic.Linarith
import Mathlib.Data.List.Forall2
import Mathlib.Data.Fintype.EquivFin
import Mathlib.Tactic.NormNum
import Mathlib.Tactic.Ring
import Mathlib.Tactic.Positivity

/-! # Properties of the PCM output (C27 - C29) -/

namespace Verif.Pcm
open Verif.Spec

theorem isTrunc_truncZ (x : ℚ) : IsTrunc x (truncZ x) := by
  unfold truncZ
  constructor
  · intro h
    rw [if_pos h]
    exact ⟨Int.floor_le x, Int.lt_floor_add_one x⟩
  · intro h
    split
    · have hx : x = 0 := le_antisymm h (by assumption)
      subst hx; simp
    · exact ⟨Int.le_ceil x, by have := Int.ceil_lt_add_one x; linarith⟩

/-- A truncated value lies between the integers its argument lies between. -/
theorem truncZ_le {x : ℚ} {k : Int} (h : x ≤ k) (hk : 0 ≤ k) : truncZ x ≤ k := by
  unfold truncZ
  split
  · have := Int.floor_le x
    have h2 : ((⌊x⌋ : Int) : ℚ) ≤ k := le_trans this h
    exact_mod_cast h2
  · exact Int.ceil_le.2 h

theorem le_truncZ {x : ℚ} {k : Int} (h : (k : ℚ) ≤ x) (hk : k ≤ 0) : k ≤ truncZ x := by
  unfold truncZ
  split
  · exact Int.le_floor.2 h
  · have := Int.le_ceil x
    have h2 : (k : ℚ) ≤ ((⌈x⌉ : Int) : ℚ) := le_trans h this
    exact_mod_cast h2

theorem clip_eq {lo hi : ℚ} (h : lo ≤ hi) (x : ℚ) : clip lo hi x = max lo (min hi x) := by
  unfold clip
  split
  · rw [max_eq_left]; exact le_trans (min_le_right _ _) (by linarith)
  · split
    · rw [min_eq_left (by linarith), max_eq_right h]
    · rw [min_eq_right (by linarith), max_eq_right (by linarith)]

theorem castInt_ok (n : Nat) {x : ℚ} (h : -(2 : Int) ^ (n - 1) ≤ truncZ x)
    (h' : truncZ x < (2 : Int) ^ (n - 1)) : castInt n x = .ok (truncZ x) := by
  unfold castInt; rw [if_pos ⟨h, h'⟩]

theorem byteAt_lt (v : Int) (s : Nat) : byteAt v s < 256 := by
  unfold byteAt
  have := Int.emod_lt_of_pos (v / 2 ^ s) (show (0 : Int) < 256 by decide)
  have := Int.emod_nonneg (v / 2 ^ s) (show (256 : Int) ≠ 0 by decide)
  omega

theorem bytes16 (v : Int) (h : -32768 ≤ v ∧ v < 32768) :
    signedLE [byteAt v 0, byteAt v 8] = v := by
  simp only [signedLE, unsignedLE, byteAt, List.length_cons, List.length_nil]
  norm_num
  split <;> omega

theorem bytes24 (v : Int) (h : -8388608 ≤ v ∧ v < 8388608) :
    signedLE [byteAt v 0, byteAt v 8, byteAt v 16] = v := by
  simp only [signedLE, unsignedLE, byteAt, List.length_cons, List.length_nil]
  norm_num
  split <;> omega

theorem bytes32 (v : Int) (h : -2147483648 ≤ v ∧ v < 2147483648) :
    signedLE [byteAt v 0, byteAt v 8, byteAt v 16, byteAt v 24] = v := by
  simp only [signedLE, unsignedLE, byteAt, List.length_cons, List.length_nil]
  norm_num
  split <;> omega

/-- **C27** (one 16-bit sample) -/
theorem C27_sample16 (x : ℚ) : ∃ bs, write16 x = .ok bs ∧ IsSample 2 x bs := by
  have h1 : clip (-32768) 32767 x = clipTo 16 x := by
    rw [clip_eq (by norm_num)]; norm_num [clipTo]
  have hr : -32768 ≤ truncZ (clip (-32768) 32767 x) ∧ truncZ (clip (-32768) 32767 x) ≤ 32767 := by
    rw [clip_eq (by norm_num)]
    constructor
    · refine le_truncZ ?_ (by norm_num); push_cast; exact le_max_left _ _
    · refine truncZ_le ?_ (by norm_num); push_cast
      exact max_le (by norm_num) (min_le_left _ _)
  refine ⟨_, by rw [write16, castInt_ok 16 (by norm_num; exact hr.1) (by norm_num; omega)]; rfl, rfl, ?_, ?_⟩
  · intro b hb
    simp only [List.mem_cons, List.not_mem_nil, or_false] at hb
    rcases hb with rfl | rfl <;> exact byteAt_lt _ _
  · rw [bytes16 _ (by omega)]
    have := isTrunc_truncZ (clip (-32768) 32767 x)
    rw [h1] at this ⊢
    simpa using this

/-- **C27** (one 24-bit sample) -/
theorem C27_sample24 (x : ℚ) : ∃ bs, write24 x = .ok bs ∧ IsSample 3 x bs := by
  have h1 : clip (-8388608) 8388607 (x * 256) = clipTo 24 (x * 2 ^ 8) := by
    rw [clip_eq (by norm_num)]; norm_num [clipTo]
  have hr : -8388608 ≤ truncZ (clip (-8388608) 8388607 (x * 256)) ∧
      truncZ (clip (-8388608) 8388607 (x * 256)) ≤ 8388607 := by
    rw [clip_eq (by norm_num)]
    constructor
    · refine le_truncZ ?_ (by norm_num); push_cast; exact le_max_left _ _
    · refine truncZ_le ?_ (by norm_num); push_cast
      exact max_le (by norm_num) (min_le_left _ _)
  refine ⟨_, by rw [write24, castInt_ok 32 (by norm_num; omega) (by norm_num; omega)]; rfl, rfl, ?_, ?_⟩
  · intro b hb
    simp only [List.mem_cons, List.not_mem_nil, or_false] at hb
    rcases hb with rfl | rfl | rfl <;> exact byteAt_lt _ _
  · rw [bytes24 _ (by omega)]
    have := isTrunc_truncZ (clip (-8388608) 8388607 (x * 256))
    rw [h1] at this ⊢
    simpa using this

/-- **C28** (partial) Below full scale a 32-bit sample is written as specified. Missing: samples at or
above full scale, for which the cast is undefined, see `C28_refuted`. -/
theorem C28_sample32_partial (x : ℚ) (hx : x < 32768) :
    ∃ bs, write32 x = .ok bs ∧ bs.length = 4 ∧ (∀ b ∈ bs, b < 256) ∧
      IsTrunc (max (-2147483648) (x * 65536)) (signedLE bs) := by
  have h1 : clip (-2147483648) 2147483648 (x * 65536) = max (-2147483648) (x * 65536) := by
    rw [clip_eq (by norm_num), min_eq_right]; linarith
  have hr : -2147483648 ≤ truncZ (max (-2147483648) (x * 65536)) ∧
      truncZ (max (-2147483648) (x * 65536)) < 2147483648 := by
    constructor
    · refine le_truncZ ?_ (by norm_num); push_cast; exact le_max_left _ _
    · have hlt : max (-2147483648) (x * 65536) < 2147483648 := by
        apply max_lt <;> linarith
      have := isTrunc_truncZ (max (-2147483648) (x * 65536))
      by_cases h0 : 0 ≤ max (-2147483648) (x * 65536)
      · have h2 := lt_of_le_of_lt (this.1 h0).1 hlt
        exact_mod_cast h2
      · have h2 := (this.2 (by linarith)).2
        have h3 : (truncZ (max (-2147483648) (x * 65536)) : ℚ) < 2147483648 := by linarith
        exact_mod_cast h3
  refine ⟨_, by rw [write32, h1, castInt_ok 32 (by norm_num; omega) (by norm_num; omega)]; rfl, rfl,
    ?_, ?_⟩
  · intro b hb
    simp only [List.mem_cons, List.not_mem_nil, or_false] at hb
    rcases hb with rfl | rfl | rfl | rfl <;> exact byteAt_lt _ _
  · rw [bytes32 _ hr]
    exact isTrunc_truncZ _

/-- **C28** is false: for every sample at or above full scale the value clipped to is `2^31`, and its
conversion to `WORD32` is undefined. -/
theorem C28_refuted (x : ℚ) (hx : 32768 ≤ x) : write32 x = .ub := by
  have h1 : clip (-2147483648) 2147483648 (x * 65536) = 2147483648 := by
    rw [clip_eq (by norm_num), min_eq_left (by linarith)]; norm_num
  have h2 : truncZ 2147483648 = 2147483648 := by
    unfold truncZ; rw [if_pos (by norm_num)]
    exact Int.floor_eq_iff.2 ⟨by norm_num, by norm_num⟩
  rw [write32, h1, castInt, h2]; norm_num

example : write32 32767 = .ok [0, 0, 255, 127] := by
  rw [write32]
  have : truncZ (clip (-2147483648) 2147483648 (32767 * 65536)) = 2147418112 := by
    unfold clip truncZ; norm_num
  rw [castInt, this]; norm_num [byteAt]; decide

/-! ## A whole frame -/

/-- The map with the entries `-1` completed. -/
def complete (map : List Int) : List Int := map.mapIdx fun i m => if m = -1 then (i : Int) else m

/-- The channel map sends the `nch` decoded channels to the `nch` output positions one to one. -/
structure IsPerm (nch : Nat) (map : List Int) : Prop where
  few : nch ≤ 24
  len : map.length = nch
  range : ∀ (j : Nat) (m : Int), (complete map)[j]? = some m → 0 ≤ m ∧ m < nch
  inj : ∀ (i j : Nat) (m : Int), (complete map)[i]? = some m → (complete map)[j]? = some m → i = j

theorem complete_get (map : List Int) (j : Nat) :
    (complete map)[j]? = (map[j]?).map fun m => if m = -1 then (j : Int) else m := by
  simp [complete]

theorem posLoop_spec (nch : Nat) (map0 : List Int) (hp : IsPerm nch map0) :
    ∀ (k ch : Nat) (map : List Int) (pos : List Nat), ch + k = nch → map.length = nch →
      (∀ j, j < ch → map[j]? = (complete map0)[j]?) → (∀ j, ch ≤ j → map[j]? = map0[j]?) →
      pos.length = 24 →
      (∀ j, j < ch → ∀ m, (complete map0)[j]? = some m → pos[m.toNat]? = some j) →
      ∃ map' pos', posLoop k ch map pos = .ok (map', pos') ∧ map' = complete map0 ∧
        pos'.length = 24 ∧
        ∀ j, j < nch → ∀ m, (complete map0)[j]? = some m → pos'[m.toNat]? = some j := by
  intro k
  induction k with
  | zero =>
    intro ch map pos h1 h2 h3 h4 h5 h6
    simp only [Nat.add_zero] at h1
    subst h1
    refine ⟨map, pos, rfl, ?_, h5, h6⟩
    apply List.ext_getElem?
    intro j
    by_cases hj : j < ch
    · exact h3 j hj
    · rw [List.getElem?_eq_none (by omega), List.getElem?_eq_none (by simp [complete, hp.len]; omega)]
  | succ k ih =>
    intro ch map pos h1 h2 h3 h4 h5 h6
    have hch : ch < map.length := by omega
    have hm0 : map[ch]? = map0[ch]? := h4 ch (le_refl _)
    have hget : map[ch]? = some map[ch] := List.getElem?_eq_getElem hch
    simp only [posLoop, hget]
    have hc : (complete map0)[ch]? = some (if map[ch] = -1 then (ch : Int) else map[ch]) := by
      rw [complete_get, ← hm0, hget]; rfl
    generalize hv : (if map[ch] = -1 then (ch : Int) else map[ch]) = v at hc ⊢
    have hr := hp.range ch v hc
    have := hp.few
    rw [if_pos (by rw [h5]; omega)]
    refine ih (ch + 1) _ _ (by omega) (by simpa using h2) ?_ ?_ (by simpa using h5) ?_
    · intro j hj
      by_cases he : j = ch
      · subst he
        rw [List.getElem?_set_self hch, hc]
      · rw [List.getElem?_set_ne (by omega)]; exact h3 j (by omega)
    · intro j hj
      rw [List.getElem?_set_ne (by omega)]; exact h4 j (by omega)
    · intro j hj m hm
      by_cases he : j = ch
      · subst he
        rw [hc] at hm
        injection hm with hm
        subst hm
        rw [List.getElem?_set_self (by rw [h5]; omega)]
      · have hne : m.toNat ≠ v.toNat := by
          intro h
          have hr2 := hp.range j m hm
          have : m = v := by omega
          subst this
          exact he (hp.inj j ch m hm hc)
        rw [List.getElem?_set_ne (by omega)]
        exact h6 j (by omega) m hm

/-- The bytes of one instant: the blocks for output positions `ch, ch+1, ...`. -/
theorem chLoop_spec (f : ℚ → Res (List Nat)) (w : Nat) (smp : List (List ℚ)) (pos : List Nat) (s : Nat)
    (nch : Nat) (x : Nat → ℚ) (hx : ∀ c, c < nch → fetch smp pos c s = .ok (x c))
    (hf : ∀ c, c < nch → ∃ bs, f (x c) = .ok bs ∧ bs.length = w) :
    ∀ k ch, ch + k = nch → ∃ bs, chLoop f smp pos s k ch = .ok bs ∧ bs.length = k * w ∧
      ∀ c, ch ≤ c → c < nch → f (x c) = .ok ((bs.drop ((c - ch) * w)).take w) := by
  intro k
  induction k with
  | zero => intro ch h; exact ⟨[], rfl, by simp, fun c h1 h2 => absurd h2 (by omega)⟩
  | succ k ih =>
    intro ch h
    obtain ⟨b, hb, hbl⟩ := hf ch (by omega)
    obtain ⟨bs, h1, h2, h3⟩ := ih (ch + 1) (by omega)
    refine ⟨b ++ bs, ?_, ?_, ?_⟩
    · simp only [chLoop, hx ch (by omega), Res.ok_bind, hb, h1]
    · simp [hbl, h2]; ring
    · intro c hc1 hc2
      by_cases he : c = ch
      · subst he
        simp only [Nat.sub_self, Nat.zero_mul, List.drop_zero]
        rw [List.take_append_of_le_length (by omega), List.take_of_length_le (by omega)]
        exact hb
      · have e : (c - ch) * w = b.length + (c - (ch + 1)) * w := by
          rw [hbl, show c - ch = (c - (ch + 1)) + 1 by omega]; ring
        rw [e, List.drop_append]
        simp only [Nat.add_sub_cancel_left]
        rw [List.drop_eq_nil_of_le (by omega), List.nil_append]
        exact h3 c (by omega) hc2

theorem smpLoop_spec (f : ℚ → Res (List Nat)) (smp : List (List ℚ)) (pos : List Nat) (nch n : Nat)
    (blocks : List (List Nat)) (hl : blocks.length = n)
    (hg : ∀ s (h : s < n), chLoop f smp pos s nch 0 = .ok (blocks[s]'(by omega))) :
    ∀ k s, s + k = n → smpLoop f smp pos nch k s = .ok (blocks.drop s).flatten := by
  intro k
  induction k with
  | zero => intro s h; rw [List.drop_eq_nil_of_le (by omega)]; rfl
  | succ k ih =>
    intro s h
    simp only [smpLoop, hg s (by omega), Res.ok_bind, ih (s + 1) (by omega)]
    rw [List.drop_eq_getElem_cons (show s < blocks.length by omega)]
    rfl

/-- Position `m` of the interleaved block `b` holds the sample for `x`. -/
def HasSample (w m : Nat) (x : ℚ) (b : List Nat) : Prop := IsSample w x ((b.drop (m * w)).take w)

/-- A byte sequence is the interleaved PCM signal of the channels: one block of `nch` samples of `w`
bytes for each instant, channel `j` at the position its map entry says. -/
def IsInterleaved (w nch : Nat) (map : List Int) (chans : Nat → List ℚ) (bytes : List Nat) : Prop :=
  ∃ blocks : List (List Nat), bytes = blocks.flatten ∧ (∀ b ∈ blocks, b.length = nch * w) ∧
    ∀ (j : Nat) (m : Int), (complete map)[j]? = some m →
      List.Forall₂ (HasSample w m.toNat) (chans j) blocks

/-- The frame has `nch` channels of `n` samples each (the buffers may be longer). -/
def FrameOk (nch n : Nat) (smp : List (List ℚ)) : Prop :=
  nch ≤ smp.length ∧ ∀ j row, j < nch → smp[j]? = some row → n ≤ row.length

/-- Channel `j` of the frame. -/
def chan (n : Nat) (smp : List (List ℚ)) (j : Nat) : List ℚ := ((smp[j]?).getD []).take n

theorem perm_surj {nch : Nat} {map : List Int} (hp : IsPerm nch map) (c : Nat) (hc : c < nch) :
    ∃ j, j < nch ∧ (complete map)[j]? = some (c : Int) := by
  have hlen : (complete map).length = nch := by simp [complete, hp.len]
  let g : Fin nch → Fin nch := fun j =>
    ⟨((complete map)[j.1]'(by omega)).toNat, by
      have := hp.range j.1 _ (List.getElem?_eq_getElem (show j.1 < (complete map).length by omega))
      omega⟩
  have hg : Function.Injective g := by
    intro a b hab
    have h1 := hp.range a.1 _ (List.getElem?_eq_getElem (show a.1 < (complete map).length by omega))
    have h2 := hp.range b.1 _ (List.getElem?_eq_getElem (show b.1 < (complete map).length by omega))
    have h3 : ((complete map)[a.1]'(by omega)).toNat = ((complete map)[b.1]'(by omega)).toNat :=
      congrArg Fin.val hab
    have h4 : (complete map)[a.1]'(by omega) = (complete map)[b.1]'(by omega) := by omega
    have := hp.inj a.1 b.1 _ (List.getElem?_eq_getElem (show a.1 < (complete map).length by omega))
      (by rw [List.getElem?_eq_getElem (show b.1 < (complete map).length by omega), h4])
    exact Fin.ext this
  obtain ⟨j, hj⟩ := Finite.surjective_of_injective hg ⟨c, hc⟩
  refine ⟨j.1, j.2, ?_⟩
  rw [List.getElem?_eq_getElem (show j.1 < (complete map).length by omega)]
  have h1 := hp.range j.1 _ (List.getElem?_eq_getElem (show j.1 < (complete map).length by omega))
  have h2 : ((complete map)[j.1]'(by omega)).toNat = c := congrArg Fin.val hj
  congr 1; omega

/-- The sample writer selected by the word size. -/
def writer (pcm : Nat) : ℚ → Res (List Nat) :=
  if pcm = 24 then write24 else if pcm = 16 then write16 else write32

theorem writer_spec (pcm : Nat) (h : pcm = 16 ∨ pcm = 24) (x : ℚ) :
    ∃ bs, writer pcm x = .ok bs ∧ IsSample (pcm / 8) x bs := by
  rcases h with rfl | rfl
  · exact C27_sample16 x
  · exact C27_sample24 x

/-- All blocks of a frame, before trimming. -/
theorem frame_blocks (n pcm nch : Nat) (smp : List (List ℚ)) (map : List Int) (delay : Nat)
    (hpcm : pcm = 16 ∨ pcm = 24) (hp : IsPerm nch map) (hf : FrameOk nch n smp) :
    ∃ (r : SatOut) (blocks : List (List Nat)), samplesSat n pcm smp map delay nch = .ok r ∧
      r.map = complete map ∧ r.delay = delay - n ∧ r.bytes = (blocks.drop delay).flatten ∧
      r.outBytes = (n - delay) * (nch * (pcm / 8)) ∧
      blocks.length = n ∧ (∀ b ∈ blocks, b.length = nch * (pcm / 8)) ∧
      ∀ (j : Nat) (m : Int), (complete map)[j]? = some m →
        List.Forall₂ (HasSample (pcm / 8) m.toNat) (chan n smp j) blocks := by
  obtain ⟨map', pos, h1, h2, h3, h4⟩ := posLoop_spec nch map hp nch 0 map (List.replicate 24 0) (by omega)
    hp.len (by intro j h; omega) (by intro j _; rfl) (by simp) (by intro j h; omega)
  have hlen : (complete map).length = nch := by simp [complete, hp.len]
  -- the samples by output position
  have hx : ∀ s, s < n → ∃ x : Nat → ℚ, ∀ c, c < nch → fetch smp pos c s = .ok (x c) ∧
      ∀ j, (complete map)[j]? = some (c : Int) → (chan n smp j)[s]? = some (x c) := by
    intro s hs
    have : ∀ c, ∃ v : ℚ, c < nch → fetch smp pos c s = .ok v ∧
        ∀ j, (complete map)[j]? = some (c : Int) → (chan n smp j)[s]? = some v := by
      intro c
      by_cases hc : c < nch
      · obtain ⟨j, hj, hjc⟩ := perm_surj hp c hc
        have hpos := h4 j hj _ hjc
        simp only [Int.toNat_natCast] at hpos
        have hsmp : smp[j]? = some (smp[j]'(by have := hf.1; omega)) := List.getElem?_eq_getElem _
        have hrow := hf.2 j _ hj hsmp
        have hel : (smp[j]'(by have := hf.1; omega))[s]? =
            some ((smp[j]'(by have := hf.1; omega))[s]'(by omega)) := List.getElem?_eq_getElem _
        refine ⟨(smp[j]'(by have := hf.1; omega))[s]'(by omega), fun _ => ⟨?_, ?_⟩⟩
        · simp only [fetch, hpos, hsmp, hel]
        · intro j' hj'
          have : j' = j := hp.inj j' j _ hj' hjc
          subst this
          simp only [chan, hsmp, Option.getD_some]
          rw [List.getElem?_take, if_pos hs, hel]
      · exact ⟨0, fun h => absurd h hc⟩
    choose x hx using this
    exact ⟨x, hx⟩
  -- the block of each instant
  have hb : ∀ s, ∃ b : List Nat, s < n → chLoop (writer pcm) smp pos s nch 0 = .ok b ∧
      b.length = nch * (pcm / 8) ∧ ∀ (j : Nat) (m : Int), (complete map)[j]? = some m →
        ∃ v, (chan n smp j)[s]? = some v ∧ HasSample (pcm / 8) m.toNat v b := by
    intro s
    by_cases hs : s < n
    · obtain ⟨x, hx⟩ := hx s hs
      obtain ⟨b, hb1, hb2, hb3⟩ := chLoop_spec (writer pcm) (pcm / 8) smp pos s nch x
        (fun c hc => (hx c hc).1) (fun c hc => by
          obtain ⟨bs, h, h'⟩ := writer_spec pcm hpcm (x c)
          exact ⟨bs, h, h'.len⟩) nch 0 (by omega)
      refine ⟨b, fun _ => ⟨hb1, hb2, ?_⟩⟩
      intro j m hm
      have hr := hp.range j m hm
      have hc : m.toNat < nch := by omega
      have hm' : (complete map)[j]? = some ((m.toNat : Nat) : Int) := by
        rw [hm]; congr 1; omega
      refine ⟨x m.toNat, (hx _ hc).2 j hm', ?_⟩
      have h5 := hb3 m.toNat (by omega) hc
      obtain ⟨bs, h6, h7⟩ := writer_spec pcm hpcm (x m.toNat)
      rw [h6] at h5
      injection h5 with h5
      simp only [Nat.sub_zero] at h5
      rw [HasSample, ← h5]; exact h7
    · exact ⟨[], fun h => absurd h hs⟩
  choose B hB using hb
  refine ⟨⟨(((List.range n).map B).drop delay).flatten, complete map, delay - n,
    (n - delay) * (nch * (pcm / 8))⟩, (List.range n).map B, ?_, rfl, rfl, rfl, rfl, by simp, ?_, ?_⟩
  · have hl := smpLoop_spec (writer pcm) smp pos nch n ((List.range n).map B) (by simp)
      (by intro s hs; simp only [List.getElem_map, List.getElem_range]; exact (hB s hs).1)
    simp only [samplesSat, maxChannels]
    rw [h1, h2]
    simp only [Res.ok_bind]
    by_cases hd : delay ≤ n
    · have := hl (n - delay) delay (by omega)
      simp only [writer] at this
      simp only [hd, if_true, this, Res.ok_bind]
      congr 2
      · omega
      · ring
    · have e : n - delay = 0 := by omega
      have hnil : ((List.range n).map B).drop delay = [] := List.drop_eq_nil_of_le (by simp; omega)
      simp only [hd, if_false, e, smpLoop, Res.ok_bind, hnil, List.flatten_nil, Nat.zero_mul]
  · intro b hb
    simp only [List.mem_map, List.mem_range] at hb
    obtain ⟨s, hs, rfl⟩ := hb
    exact (hB s hs).2.1
  · intro j m hm
    have hj : j < nch := by
      by_contra h
      rw [List.getElem?_eq_none (by omega)] at hm
      cases hm
    have hsmp : smp[j]? = some (smp[j]'(by have := hf.1; omega)) := List.getElem?_eq_getElem _
    have hrow := hf.2 j _ hj hsmp
    have hcl : (chan n smp j).length = n := by
      simp only [chan, hsmp, Option.getD_some, List.length_take]; omega
    rw [List.forall₂_iff_get]
    refine ⟨by simp [hcl], ?_⟩
    intro s hs1 hs2
    obtain ⟨v, hv1, hv2⟩ := (hB s (by omega)).2.2 j m hm
    have : (chan n smp j)[s]? = some ((chan n smp j)[s]) := List.getElem?_eq_getElem _
    rw [this] at hv1
    injection hv1 with hv1
    simp only [List.get_eq_getElem, List.getElem_map, List.getElem_range]
    rw [hv1]; exact hv2

theorem flatten_length (W : Nat) (bs : List (List Nat)) (h : ∀ b ∈ bs, b.length = W) :
    bs.flatten.length = bs.length * W := by
  induction bs with
  | nil => simp
  | cons b bs ih =>
    rw [List.flatten_cons, List.length_append, ih (fun c hc => h c (by simp [hc])),
      h b (by simp), List.length_cons]; ring

/-- **C27** One frame of 16- or 24-bit output: for every map that is a permutation of the channels, every
frame size and every delay, the bytes written are the interleaved, clipped and truncated samples of
the instants from `delay` on, and their number is the number reported. -/
theorem C27_frame (n pcm nch : Nat) (smp : List (List ℚ)) (map : List Int) (delay : Nat)
    (hpcm : pcm = 16 ∨ pcm = 24) (hp : IsPerm nch map) (hf : FrameOk nch n smp) :
    ∃ r, samplesSat n pcm smp map delay nch = .ok r ∧
      IsInterleaved (pcm / 8) nch map (fun j => (chan n smp j).drop delay) r.bytes ∧
      r.outBytes = r.bytes.length ∧ r.outBytes = (n - delay) * nch * (pcm / 8) := by
  obtain ⟨r, blocks, h1, h2, h3, h4, h5, h6, h7, h8⟩ :=
    frame_blocks n pcm nch smp map delay hpcm hp hf
  refine ⟨r, h1, ⟨blocks.drop delay, h4, fun b hb => h7 b (List.mem_of_mem_drop hb), ?_⟩, ?_, ?_⟩
  · intro j m hm
    exact List.forall₂_drop delay (h8 j m hm)
  · rw [h4, flatten_length _ _ (fun b hb => h7 b (List.mem_of_mem_drop hb)), h5, List.length_drop, h6]
  · rw [h5]; ring

/-! ## A sequence of frames -/

/-- Successive calls; the channel map and the delay are kept in the decoder. A frame is its length and
its sample buffers. Returns all bytes, the delay left and the sum of the reported byte counts. -/
def runFrames (pcm nch : Nat) : List (Nat × List (List ℚ)) → List Int → Nat →
    Res (List Nat × Nat × Nat)
  | [], _, d => .ok ([], d, 0)
  | (n, smp) :: fs, map, d => do
    let r ← samplesSat n pcm smp map d nch
    let (bs, d', k) ← runFrames pcm nch fs r.map r.delay
    .ok (r.bytes ++ bs, d', r.outBytes + k)

theorem complete_complete (map : List Int) : complete (complete map) = complete map := by
  apply List.ext_getElem?
  intro j
  rw [complete_get, complete_get]
  cases map[j]? with
  | none => rfl
  | some m => simp only [Option.map_some]; split <;> simp_all

theorem IsPerm.complete {nch : Nat} {map : List Int} (h : IsPerm nch map) :
    IsPerm nch (complete map) where
  few := h.few
  len := by simp [Pcm.complete, h.len]
  range := by rw [complete_complete]; exact h.range
  inj := by rw [complete_complete]; exact h.inj

/-- Channel `j` of the whole decoded signal. -/
def signal (frames : List (Nat × List (List ℚ))) (j : Nat) : List ℚ :=
  frames.flatMap fun f => chan f.1 f.2 j

/-- **C29** Over every sequence of frames of any sizes, the output is the interleaved PCM of the decoded
signal with exactly the first `D` instants removed. -/
theorem C29_trim (pcm nch : Nat) (hpcm : pcm = 16 ∨ pcm = 24) (frames : List (Nat × List (List ℚ))) :
    ∀ (map : List Int) (D : Nat), IsPerm nch map → (∀ f ∈ frames, FrameOk nch f.1 f.2) →
      ∃ bytes d' k, runFrames pcm nch frames map D = .ok (bytes, d', k) ∧
        IsInterleaved (pcm / 8) nch map (fun j => (signal frames j).drop D) bytes ∧
        d' = D - (frames.map Prod.fst).sum ∧ k = bytes.length := by
  induction frames with
  | nil =>
    intro map D hp _
    refine ⟨[], D, 0, rfl, ⟨[], rfl, by simp, ?_⟩, by simp, rfl⟩
    intro j m _; simp [signal]
  | cons f fs ih =>
    intro map D hp hf
    obtain ⟨n, smp⟩ := f
    obtain ⟨r, blocks, h1, h2, h3, h4, h5, h6, h7, h8⟩ :=
      frame_blocks n pcm nch smp map D hpcm hp (hf (n, smp) (by simp))
    obtain ⟨bs, d', k, i1, ⟨bl, i2, i3, i4⟩, i5, i6⟩ := ih (complete map) (D - n) hp.complete
      (fun f hf' => hf f (by simp [hf']))
    refine ⟨r.bytes ++ bs, d', r.outBytes + k, ?_, ⟨blocks.drop D ++ bl, ?_, ?_, ?_⟩, ?_, ?_⟩
    · simp only [runFrames, h1, Res.ok_bind, h2, h3, i1]
    · rw [h4, i2, List.flatten_append]
    · intro b hb
      rw [List.mem_append] at hb
      rcases hb with hb | hb
      · exact h7 b (List.mem_of_mem_drop hb)
      · exact i3 b hb
    · intro j m hm
      have e : (signal ((n, smp) :: fs) j).drop D =
          (chan n smp j).drop D ++ (signal fs j).drop (D - n) := by
        have hl := (h8 j m hm).length_eq
        simp only [signal, List.flatMap_cons]
        rw [List.drop_append, hl, h6]
      show List.Forall₂ _ ((signal ((n, smp) :: fs) j).drop D) _
      rw [e]
      refine List.rel_append (R := HasSample (pcm / 8) m.toNat) (List.forall₂_drop D (h8 j m hm)) ?_
      exact i4 j m (by rw [complete_complete]; exact hm)
    · simp only [List.map_cons, List.sum_cons]; omega
    · rw [h4, List.length_append, flatten_length _ _ (fun b hb => h7 b (List.mem_of_mem_drop hb)), h5,
        i6, List.length_drop, h6]

/-- A stereo map that swaps the channels, two frames of two samples, delay 3. -/
example : IsPerm 2 [1, 0] ∧ (∀ f ∈ ([(2, [[1, 2], [3, 4]]), (2, [[5, 6], [7, 8]])] :
    List (Nat × List (List ℚ))), FrameOk 2 f.1 f.2) := by
  constructor
  · refine ⟨by decide, rfl, ?_, ?_⟩
    · intro j m h
      rcases j with _ | _ | j <;> simp [complete] at h <;> omega
    · intro i j m h h'
      rcases i with _ | _ | i <;> rcases j with _ | _ | j <;> simp [complete] at h h' <;> omega
  · intro f hf
    simp only [List.mem_cons, List.not_mem_nil, or_false] at hf
    rcases hf with rfl | rfl <;> refine ⟨by decide, ?_⟩ <;> intro j row h1 h2 <;>
      rcases j with _ | _ | j <;> simp at h2 <;> (subst h2; decide)

end Verif.Pcm
