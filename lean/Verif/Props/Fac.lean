import Verif.Model.Fac
import Verif.Props.Tdac

/-!
# Aliasing cancellation after a frame of the time domain

The first half of the block is what the frame of the time domain left, and from the middle on the FAC
signal makes up for the aliasing that no other half cancels. This holds for eight short blocks. For long
blocks it fails twice: part of the first half is not copied, and the two halves of the FAC signal are
exchanged.
-/

namespace Verif.Props.Fac

open Verif Verif.Imdct Verif.Fac Verif.Props.Tdac

/-! ## Specification -/

/-- What is left in the block `a` by the window `w` of `2 l` values around the middle `c`, with the
aliasing of even symmetry. -/
noncomputable def aliased (l c : ℕ) (w a : Buf) (j : ℕ) : ℝ :=
  (w (l + j) * a (c + j) - w (l - 1 - j) * a (c - 1 - j)) * w (l + j)

/-- The FAC signal of `2 l` samples from the middle of the block on: it adds what is missing. -/
def Cancels (l c : ℕ) (w a fac : Buf) : Prop :=
  (∀ j < l, fac j = a (c + j) - aliased l c w a j) ∧ ∀ j < l, fac (l + j) = 0

/-! ## Eight short blocks -/

theorem eight_fac (t : Tables) (h sh sp : ℕ) (hh : 0 < h) (wp w a b ov v fac : Buf) (el er : Edge)
    (h1 : calcWindow t (2 * h) sh = .ok w) (h2 : calcWindow t (2 * h) sp = .ok wp)
    (hw : Complementary (2 * h) w) (hov : ∀ j < 8 * h, ov j = a j) (hf : Cancels h (8 * h) wp a fac)
    (hv : ∀ j < 16 * h, v j = folded (16 * h) (7 * h) (2 * h) .eight false false el er wp w a b j) :
    ∃ out ov', facShort t (16 * h) (kernel false false) sh sp v ov fac = .ok (out, ov') ∧
      (∀ j < 16 * h, out j = a j) ∧ Kept (16 * h) (7 * h) (2 * h) (.short w) false b ov' := by
  have e1 : nShort (16 * h) = 2 * h := by unfold nShort; omega
  have el' : lfac (16 * h) true = h := by unfold lfac; simp
  have e2 : flat (16 * h) h = 7 * h := by unfold flat; omega
  have et : trans h = 2 * h := rfl
  have hb : ∀ i < 8, ∀ j < 2 * h, v (i * (2 * h) + j) = fold false false (2 * h)
      (fun j => (if i = 0 then wp j else w j) * both (16 * h) a b (7 * h + i * (2 * h) + j))
      (fun j => w (2 * h - 1 - j) * both (16 * h) a b (7 * h + (i + 1) * (2 * h) + j)) j := by
    intro i hi j hj
    have hlt : i * (2 * h) + j < 16 * h := by
      have : i * (2 * h) ≤ 7 * (2 * h) := Nat.mul_le_mul_right _ (by omega)
      omega
    rw [hv _ hlt]
    have d1 : (i * (2 * h) + j) / (2 * h) = i := by
      rw [Nat.mul_comm, Nat.mul_add_div (by omega), Nat.div_eq_of_lt hj, Nat.add_zero]
    have d2 : (i * (2 * h) + j) % (2 * h) = j := by
      rw [Nat.mul_comm, Nat.mul_add_mod, Nat.mod_eq_of_lt hj]
    simp only [folded, if_true, d1, d2]
  generalize hx : both (16 * h) a b = x at hb
  have xa : ∀ j < 16 * h, x j = a j := by
    intro j hj; rw [← hx]; unfold both; rw [if_pos hj]
  have xb : ∀ j, x (16 * h + j) = b j := by
    intro j; rw [← hx]; unfold both; rw [if_neg (by omega)]; congr 1; omega
  unfold facShort
  rw [e1, h1]
  simp only [el', et]
  show ∃ out ov', (calcWindow t (2 * h) sp).bind _ = _ ∧ _
  rw [h2]
  refine ⟨_, _, rfl, ?_⟩
  simp only [e2]
  generalize hp0 : (fun j => if j < 16 * h then ov j else (0 : ℝ)) = p0
  have s0 : ∀ j < 2 * h, v j = fold false false (2 * h) (fun j => wp j * x (7 * h + j))
      (fun j => w (2 * h - 1 - j) * x (7 * h + 2 * h + j)) j := by
    intro j hj
    have := hb 0 (by omega) j hj
    simpa using this
  generalize hp1 : short1 (7 * h) (2 * h) h (fun j => v (2 * h / 2 + j)) wp (7 * h) p0 = p1
  have f1 : ∀ j < 8 * h, p1 j = a j := by
    intro j hj
    rw [← hp1]
    unfold short1
    rw [if_neg (by omega), if_pos (by omega), ← hp0]
    simp only
    rw [if_pos (by omega), hov j hj]
  have f3 : ∀ j < h, p1 (8 * h + j) = aliased h (8 * h) wp a j := by
    intro j hj
    rw [← hp1]
    unfold short1
    rw [if_neg (by omega), if_neg (by omega), if_pos (by omega)]
    simp only
    have i1 : 2 * h / 2 + (2 * h - (8 * h + j - 7 * h) - 1) = h + (h - 1 - j) := by omega
    have i2 : 8 * h + j - 7 * h = h + j := by omega
    have i3 : 2 * h - 1 - (h - 1 - j) = h + j := by omega
    have i4 : 7 * h + (h - 1 - j) = 8 * h - 1 - j := by omega
    have i5 : 7 * h + (h + j) = 8 * h + j := by omega
    rw [i1, i2, s0 _ (by omega), fold_left, i3, i4, i5, xa _ (by omega), xa _ (by omega)]
    unfold aliased
    simp only [sg, Bool.false_eq_true, if_false]
    ring
  have f2 : ∀ j, 7 * h + 2 * h ≤ j → p1 j = 0 := by
    intro j hj
    rw [← hp1]
    unfold short1
    rw [if_neg (by omega), if_neg (by omega), if_neg (by omega)]
    split
    · rfl
    · rw [← hp0]
      simp only
      rw [if_neg (by omega)]
  generalize hx' : (fun j => if j < 9 * h then p1 j else x j) = x'
  have xl : ∀ j < 9 * h, x' j = p1 j := by intro j hj; rw [← hx']; simp only [if_pos hj]
  have xr : ∀ j, 9 * h ≤ j → x' j = x j := by
    intro j hj; rw [← hx']; simp only [if_neg (Nat.not_lt.mpr hj)]
  generalize hp2 : short3 (2 * h) (kernel false false) v w (7 * h + 2 * h) p1 = p2
  have g := short3_eq false h v _ _ w p1 (7 * h + 2 * h) (hs := s0) (hp := fun j hj _ => f2 j hj)
  rw [hp2] at g
  have d0 : Done h (7 * h) 0 false w x' p2 false := by
    constructor
    · intro j hj
      rw [g j, if_pos (by omega), xl j (by omega)]
    · intro j hj
      have e3 : 7 * h + (0 + 1) * (2 * h) + j = 7 * h + 2 * h + j := by ring
      have e4 : 7 * h + (0 + 1) * (2 * h) + (2 * h - 1 - j) = 7 * h + 2 * h + (2 * h - 1 - j) := by
        ring
      have e5 : 7 * h + 2 * h + j - (7 * h + 2 * h) = j := by omega
      have e6 : 2 * h - 1 - (2 * h - 1 - j) = j := by omega
      rw [e3, e4, g, if_neg (by omega), e5, if_pos hj, e6, xr _ (by omega), xr _ (by omega)]
      simp only [Bool.false_eq_true, if_false]
    · intro j hj
      rw [g j, if_neg (by omega), if_neg (by omega)]
      exact f2 j (by omega)
  have d7 := done_shorts h false w x' p2 v hh hw d0 (by
    intro i hi j hj
    have := hb (i + 1) (by omega) j hj
    rw [this]
    have hge : 2 * h ≤ (i + 1) * (2 * h) := Nat.le_mul_of_pos_left _ (by omega)
    have hge2 : 2 * h ≤ (i + 1 + 1) * (2 * h) := Nat.le_mul_of_pos_left _ (by omega)
    unfold Tdac.fold
    simp only [if_neg (show ¬ i + 1 = 0 by omega)]
    split <;> rw [xr _ (by omega), xr _ (by omega)])
  generalize hp3 : shorts (16 * h) (kernel false false) v w 7 p2 = p3 at d7
  constructor
  · intro j hj
    have hd := d7.front j (by omega)
    rw [if_neg (by omega)]
    by_cases hc : 7 * h + h ≤ j ∧ j < 7 * h + h + 2 * h
    · rw [if_pos hc, hd]
      obtain ⟨d, rfl⟩ := Nat.exists_eq_add_of_le (show 8 * h ≤ j by omega)
      have i1 : 8 * h + d - (7 * h + h) = d := by omega
      rw [i1]
      by_cases hlt : d < h
      · rw [xl _ (by omega), f3 d hlt, hf.1 d hlt]
        ring
      · obtain ⟨d', rfl⟩ := Nat.exists_eq_add_of_le (show h ≤ d by omega)
        rw [xr _ (by omega), hf.2 d' (by omega), xa _ hj, add_zero]
    · rw [if_neg hc, hd]
      by_cases hlt : j < 9 * h
      · rw [xl _ hlt, f1 j (by omega)]
      · rw [xr _ (by omega), xa j hj]
  · intro j hj
    have hj' : j < 7 * h + 2 * h := hj
    show (if 2 * (16 * h) - 7 * h ≤ 16 * h + j ∧ 16 * h + j < 2 * (16 * h) then 0
      else if 7 * h + h ≤ 16 * h + j ∧ 16 * h + j < 7 * h + h + 2 * h then
        p3 (16 * h + j) + fac (16 * h + j - (7 * h + h)) else p3 (16 * h + j)) = _
    rw [if_neg (by omega), if_neg (by omega)]
    simp only [rise]
    by_cases h0 : j < 7 * h
    · rw [d7.front _ (by omega), xr _ (by omega), xb j, if_neg (by omega), if_neg (by omega), if_pos h0]
      ring
    · have e3 : 16 * h + j = 7 * h + (7 + 1) * (2 * h) + (j - 7 * h) := by omega
      have e4 : 7 * h + (7 + 1) * (2 * h) + (2 * h - 1 - (j - 7 * h)) = 16 * h + (16 * h - 1 - j) := by
        omega
      have e5 : 16 * h - 1 - j - 7 * h = 2 * h - 1 - (j - 7 * h) := by omega
      have e6 := d7.half (j - 7 * h) (by omega)
      rw [← e3, e4, xr _ (by omega), xr _ (by omega), xb, xb, if_pos rfl] at e6
      rw [e6, if_neg (by omega), if_pos (by omega), if_neg h0, if_pos hj', e5]
      ring

/-- C334: eight short blocks after a frame of the time domain write the block, when the FAC signal is what
the aliasing leaves open, and keep what the next frame needs. -/
theorem C334_eight (t : Tables) (ht : Windows t) (sh sp : ℕ) (hsh : sh ≤ 1) (hsp : sp ≤ 1)
    (a b ov v w fac : Buf) (hov : ∀ j < 512, ov j = a j) (hf : Cancels 64 512 (small t sp) a fac)
    (hv : ∀ j < 1024, v j = encoded t sp ⟨.eight, sh, false, false, w⟩ a b j) :
    ∃ out ov', facShort t 1024 (kernel false false) sh sp v ov fac = .ok (out, ov') ∧
      (∀ j < 1024, out j = a j) ∧ Kept 1024 448 128 (edge t sh false) false b ov' :=
  eight_fac t 64 sh sp (by omega) (small t sp) (small t sh) a b ov v fac _ _ (win_small t sh hsh)
    (win_small t sp hsp) (ht sh).2 hov hf hv

/-! ## Long blocks -/

/-- What an encoder folds for a long block after a frame of the time domain: the window of 256 values
around the middle on the left, `r` on the right. -/
noncomputable def folded256 (w a r : Buf) : Buf :=
  fold false false 1024 (fun i => rise 384 256 (.short w) i * a i) r

/-- C335, what is written: 224 samples that were kept, 288 samples that were there before, and the FAC
signal with its halves exchanged. -/
theorem C335_written (t : Tables) (k : ℕ) (a r ov v fac old : Buf)
    (hv : ∀ j < 1024, v j = folded256 t.sine256 a r j) :
    ∃ out ov', facLong t 1024 k 0 v ov fac old = .ok (out, ov') ∧
      (∀ j < 224, out j = ov j) ∧ (∀ j, 224 ≤ j → j < 512 → out j = old j) ∧
      (∀ j < 128, out (512 + j) = aliased 128 512 t.sine256 a j + fac (128 + j)) ∧
      (∀ j < 128, out (640 + j) = a (640 + j) + fac j) ∧
      ∀ j, 768 ≤ j → j < 1024 → out j = a j := by
  have hvl : ∀ d, d < 512 → v (1024 / 2 + d) =
      rise 384 256 (.short t.sine256) d * a d -
        rise 384 256 (.short t.sine256) (1023 - d) * a (1023 - d) := by
    intro d hd
    have e := hv (512 + d) (by omega)
    unfold folded256 at e
    have e2 := fold_left false false 512 (fun i => rise 384 256 (.short t.sine256) i * a i) r d
    rw [show 1024 / 2 + d = 512 + d by omega, e]
    refine Eq.trans e2 ?_
    simp only [sg, Bool.false_eq_true, if_false]
    rw [show 2 * 512 - 1 - d = 1023 - d by omega]
    ring
  refine ⟨_, _, rfl, ?_, ?_, ?_, ?_, ?_⟩
  · intro j hj
    show long2 1024 384 256 128 _ _ _ _ _ _ = _
    unfold long2
    rw [if_pos (by omega)]
  · intro j h1 h2
    show long2 1024 384 256 128 _ _ _ _ _ _ = _
    unfold long2
    rw [if_neg (by omega), if_pos (by omega)]
  · intro j hj
    show long2 1024 384 256 128 _ _ _ _ _ _ = _
    unfold long2
    rw [if_neg (by omega), if_neg (by omega), if_pos (by omega)]
    simp only
    rw [show 1024 / 2 + 384 + 128 - (512 + j) - 1 = 511 - j by omega, hvl _ (by omega),
      show 1023 - (511 - j) = 512 + j by omega,
      show 384 + 128 * 3 - (384 + 256) + (512 + j - (384 + 128)) = 128 + j by omega]
    simp only [rise]
    rw [if_neg (by omega), if_pos (by omega), if_neg (by omega), if_pos (by omega),
      show 511 - j - 384 = 128 - 1 - j by omega, show 512 + j - 384 = 128 + j by omega]
    unfold aliased
    rw [show 512 - 1 - j = 511 - j by omega]
    ring
  · intro j hj
    show long2 1024 384 256 128 _ _ _ _ _ _ = _
    unfold long2
    rw [if_neg (by omega), if_neg (by omega), if_neg (by omega), if_pos (by omega)]
    simp only
    rw [show 1024 / 2 + 384 + 128 - (640 + j) - 1 = 383 - j by omega, hvl _ (by omega),
      show 1023 - (383 - j) = 640 + j by omega, show 640 + j - (384 + 256) = j by omega]
    simp only [rise]
    rw [if_pos (by omega), if_neg (by omega), if_neg (by omega)]
    ring
  · intro j h1 h2
    show long2 1024 384 256 128 _ _ _ _ _ _ = _
    unfold long2
    rw [if_neg (by omega), if_neg (by omega), if_neg (by omega), if_neg (by omega), if_pos (by omega)]
    simp only
    rw [show 1024 / 2 + 384 + 128 - j - 1 = 1023 - j by omega, hvl _ (by omega),
      show 1023 - (1023 - j) = j by omega]
    simp only [rise]
    rw [if_pos (by omega), if_neg (by omega), if_neg (by omega)]
    ring

/-- Tables with a window of 256 values that overlaps. -/
noncomputable def slope : Tables := { steps with sine256 := fun i => if i < 128 then 3 / 5 else 4 / 5 }

theorem slope_complementary : Complementary 256 slope.sine256 := by
  intro i hi
  by_cases h1 : i < 128
  · simp only [slope, if_pos h1, if_neg (show ¬ 256 - 1 - i < 128 by omega)]
    norm_num
  · simp only [slope, if_neg h1, if_pos (show 256 - 1 - i < 128 by omega)]
    norm_num

/-- The FAC signal of a block for these tables. -/
noncomputable def facOf (a : Buf) : Buf := fun j =>
  if j < 128 then a (512 + j) - aliased 128 512 slope.sine256 a j else 0

theorem facOf_cancels (a : Buf) : Cancels 128 512 slope.sine256 a (facOf a) :=
  ⟨fun j hj => by simp only [facOf, if_pos hj], fun j hj => by
    simp only [facOf, if_neg (show ¬ 128 + j < 128 by omega)]⟩

/-- C335, refuted: that a long block after a frame of the time domain begins with what was kept. The rest
of the first half is not copied, and an empty buffer stays empty. -/
theorem C335_refuted : ¬ ∀ (t : Tables) (a r ov v fac old : Buf), Complementary 256 t.sine256 →
    (∀ j < 512, ov j = a j) → Cancels 128 512 t.sine256 a fac →
    (∀ j < 1024, v j = folded256 t.sine256 a r j) →
    ∃ out ov', facLong t 1024 0 0 v ov fac old = .ok (out, ov') ∧ ∀ j < 512, out j = a j := by
  intro h
  obtain ⟨out, ov', h1, h2⟩ := h slope (fun _ => 1) (fun _ => 0) (fun _ => 1)
    (folded256 slope.sine256 (fun _ => 1) (fun _ => 0)) (facOf fun _ => 1) (fun _ => 0)
    slope_complementary (fun _ _ => rfl) (facOf_cancels _) (fun _ _ => rfl)
  obtain ⟨out', ov'', h3, -, h4, -⟩ := C335_written slope 0 (fun _ => 1) (fun _ => 0) (fun _ => 1)
    (folded256 slope.sine256 (fun _ => 1) (fun _ => 0)) (facOf fun _ => 1) (fun _ => 0)
    (fun _ _ => rfl)
  rw [h1] at h3
  injection h3 with h3
  injection h3 with h3 _
  have := h2 300 (by omega)
  rw [h3, h4 300 (by omega) (by omega)] at this
  norm_num at this

/-- C336, refuted: that the FAC signal cancels the aliasing of a long block from the middle on. -/
theorem C336_refuted : ¬ ∀ (t : Tables) (a r ov v fac old : Buf), Complementary 256 t.sine256 →
    (∀ j < 512, ov j = a j) → Cancels 128 512 t.sine256 a fac →
    (∀ j < 1024, v j = folded256 t.sine256 a r j) →
    ∃ out ov', facLong t 1024 0 0 v ov fac old = .ok (out, ov') ∧
      ∀ j, 512 ≤ j → j < 1024 → out j = a j := by
  intro h
  obtain ⟨out, ov', h1, h2⟩ := h slope (fun j => if j = 512 then 1 else 0) (fun _ => 0) (fun _ => 0)
    (folded256 slope.sine256 (fun j => if j = 512 then 1 else 0) (fun _ => 0))
    (facOf fun j => if j = 512 then 1 else 0) (fun _ => 0) slope_complementary
    (fun j hj => by simp only [if_neg (show ¬ j = 512 by omega)]) (facOf_cancels _) (fun _ _ => rfl)
  obtain ⟨out', ov'', h3, -, -, h4, -⟩ := C335_written slope 0 (fun j => if j = 512 then 1 else 0)
    (fun _ => 0) (fun _ => 0)
    (folded256 slope.sine256 (fun j => if j = 512 then 1 else 0) (fun _ => 0))
    (facOf fun j => if j = 512 then 1 else 0) (fun _ => 0) (fun _ _ => rfl)
  rw [h1] at h3
  injection h3 with h3
  injection h3 with h3 _
  have := h2 512 (by omega) (by omega)
  rw [h3, show 512 = 512 + 0 by rfl, h4 0 (by omega)] at this
  simp [aliased, slope, facOf] at this
  norm_num at this

/-- C336, what happens: when the halves of the FAC signal are given in the other order, the aliasing is
cancelled. -/
theorem C336_exchanged (t : Tables) (k : ℕ) (a r ov v fac old : Buf)
    (hf : Cancels 128 512 t.sine256 a fac) (hv : ∀ j < 1024, v j = folded256 t.sine256 a r j) :
    ∃ out ov', facLong t 1024 k 0 v ov (fun j => fac ((j + 128) % 256)) old = .ok (out, ov') ∧
      ∀ j, 512 ≤ j → j < 1024 → out j = a j := by
  obtain ⟨out, ov', h1, -, -, h2, h3, h4⟩ :=
    C335_written t k a r ov v (fun j => fac ((j + 128) % 256)) old hv
  refine ⟨out, ov', h1, fun j hj hj' => ?_⟩
  by_cases c1 : j < 640
  · obtain ⟨d, rfl⟩ := Nat.exists_eq_add_of_le hj
    rw [h2 d (by omega), show (128 + d + 128) % 256 = d by omega, hf.1 d (by omega)]
    ring
  · by_cases c2 : j < 768
    · obtain ⟨d, rfl⟩ := Nat.exists_eq_add_of_le (show 640 ≤ j by omega)
      rw [h3 d (by omega), show (d + 128) % 256 = 128 + d by omega, hf.2 d (by omega), add_zero]
    · exact h4 j (by omega) hj'

/-- C335, C336: what holds: the first 224 and the last 256 samples are right. -/
theorem C335_ends_partial (t : Tables) (a r ov v fac old : Buf) (hov : ∀ j < 512, ov j = a j)
    (hv : ∀ j < 1024, v j = folded256 t.sine256 a r j) :
    ∃ out ov', facLong t 1024 0 0 v ov fac old = .ok (out, ov') ∧
      (∀ j < 224, out j = a j) ∧ ∀ j, 768 ≤ j → j < 1024 → out j = a j := by
  obtain ⟨out, ov', h1, h2, -, -, -, h3⟩ := C335_written t 0 a r ov v fac old hv
  exact ⟨out, ov', h1, fun j hj => by rw [h2 j hj, hov j (by omega)], h3⟩

/-- What is kept after a long block is as after any long block. -/
theorem C335_kept (t : Tables) (a b ov v fac old : Buf) (e : Edge)
    (hv : ∀ j < 1024, v j =
      folded256 t.sine256 a (fun i => rise 448 128 e (1024 - 1 - i) * b i) j) :
    ∃ out ov', facLong t 1024 0 0 v ov fac old = .ok (out, ov') ∧ Kept 1024 448 128 e false b ov' :=
  ⟨_, _, rfl, kept_long 512 448 128 rfl false false e v _ b hv⟩

/-! ## Examples -/

/-- A FAC signal for the windows of the examples. -/
example : Cancels 64 512 (small steps 0) (fun _ => 1)
    (fun j => if j < 64 then 1 - aliased 64 512 (small steps 0) (fun _ => 1) j else 0) :=
  ⟨fun j hj => by simp only [if_pos hj], fun j hj => by
    simp only [if_neg (show ¬ 64 + j < 64 by omega)]⟩

example : ∃ out ov', facShort steps 1024 (kernel false false) 1 0
    (encoded steps 0 ⟨.eight, 1, false, false, fun _ => 0⟩ (fun _ => 1) (fun _ => 2)) (fun _ => 1)
    (fun j => if j < 64 then 1 - aliased 64 512 (small steps 0) (fun _ => 1) j else 0) = .ok (out, ov') ∧
    ∀ j < 1024, out j = 1 := by
  obtain ⟨out, ov', h1, h2, -⟩ := C334_eight steps steps_windows 1 0 (by omega) (by omega) (fun _ => 1)
    (fun _ => 2) (fun _ => 1)
    (encoded steps 0 ⟨.eight, 1, false, false, fun _ => 0⟩ (fun _ => 1) (fun _ => 2)) (fun _ => 0)
    (fun j => if j < 64 then 1 - aliased 64 512 (small steps 0) (fun _ => 1) j else 0) (fun _ _ => rfl)
    ⟨fun j hj => by simp only [if_pos hj], fun j hj => by
      simp only [if_neg (show ¬ 64 + j < 64 by omega)]⟩ (fun _ _ => rfl)
  exact ⟨out, ov', h1, h2⟩

end Verif.Props.Fac
