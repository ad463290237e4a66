import Mathlib.Tactic.LinearCombination
import Mathlib.Tactic.NormNum
import Mathlib.Tactic.Ring
import Verif.Model.Imdct

/-!
# Overlapping frames give back the signal

Frames of the frequency domain overlap by half. What is said: when the windows of two halves that overlap
belong together and the aliasing of the two has opposite signs, the samples written by the decoder are the
samples that were windowed and folded, for every window sequence.
-/

namespace Verif.Props.Tdac

open Verif Verif.Imdct

/-! ## Specification -/

/-- How one frame passes into the next one: over the whole block, or over a short window in its middle. -/
inductive Edge where
  | long (w : Buf)
  | short (w : Buf)

/-- The rising half of the window. -/
noncomputable def rise (f ns : ℕ) : Edge → Buf
  | .long w => w
  | .short w => fun i => if i < f then 0 else if i < f + ns then w (i - f) else 1

/-- `w` and its mirror image have squares that add up to 1. -/
def Complementary (n : ℕ) (w : Buf) : Prop := ∀ i < n, w i ^ 2 + w (n - 1 - i) ^ 2 = 1

/-- A sign. -/
def sg (b : Bool) : ℝ := if b then -1 else 1

/-- The folding of a block of `2 n` windowed samples into `n` values: `l` and `r` are the two halves. The
aliasing of the left half has sign `-` for symmetry `false`, that of the right half `+`. -/
noncomputable def fold (prev cur : Bool) (n : ℕ) (l r : Buf) : Buf := fun i =>
  if i < n / 2 then
    sg (prev == cur) * (r (n / 2 + i) + sg cur * r (n / 2 - 1 - i))
  else l (i - n / 2) - sg prev * l (n - 1 - (i - n / 2))

/-- The two blocks a frame covers, one after the other. -/
noncomputable def both (n : ℕ) (a b : Buf) : Buf := fun j => if j < n then a j else b (j - n)

/-- The edges of a window sequence: `long` on the left, `long` on the right. -/
def leftLong : Seq → Bool
  | .only => true
  | .start => true
  | _ => false

def rightLong : Seq → Bool
  | .only => true
  | .stop => true
  | _ => false

/-- What an encoder folds for a frame with the blocks `a` and `b`: one long block, or eight short blocks
in the middle. -/
noncomputable def folded (n f ns : ℕ) (q : Seq) (prev cur : Bool) (el er : Edge) (wp w : Buf)
    (a b : Buf) : Buf :=
  if q = .eight then fun j =>
    fold prev cur ns
      (fun i => (if j / ns = 0 then wp i else w i) * both n a b (f + j / ns * ns + i))
      (fun i => w (ns - 1 - i) * both n a b (f + (j / ns + 1) * ns + i)) (j % ns)
  else fold prev cur n (fun i => rise f ns el i * a i) (fun i => rise f ns er (n - 1 - i) * b i)

/-- The samples kept belong to the right half of a frame that covers block `b`. -/
def Kept (n f ns : ℕ) (e : Edge) (cur : Bool) (b ov : Buf) : Prop :=
  ∀ i < (match e with | .long _ => n | .short _ => f + ns),
    ov i = rise f ns e (n - 1 - i) * b i + sg cur * (rise f ns e i * b (n - 1 - i))

/-- The windows of 1024 and of 128 values for a shape. -/
def big (t : Tables) (shape : ℕ) : Buf := if shape = 1 then t.kbd1024 else t.sine1024

def small (t : Tables) (shape : ℕ) : Buf := if shape = 1 then t.kbd128 else t.sine128

def edge (t : Tables) (shape : ℕ) (long : Bool) : Edge :=
  if long then .long (big t shape) else .short (small t shape)

/-- The tables hold windows of which the squares add up to 1. -/
def Windows (t : Tables) : Prop :=
  ∀ shape, Complementary 1024 (big t shape) ∧ Complementary 128 (small t shape)

/-- What an encoder sends for a frame, after the transform: `sp` is the shape of the frame before. -/
noncomputable def encoded (t : Tables) (sp : ℕ) (fr : Frame) (a b : Buf) : Buf :=
  folded 1024 448 128 fr.seq fr.prevSym fr.curSym (edge t sp (leftLong fr.seq))
    (edge t fr.shape (rightLong fr.seq)) (small t sp) (small t fr.shape) a b

/-- The symmetries for which aliasing is cancelled: any for a long left edge; not a change back to
`false` for a short left edge; no change within eight short blocks. -/
def Fits (fr : Frame) : Prop :=
  match fr.seq with
  | .only => True
  | .start => True
  | .eight => fr.prevSym = fr.curSym
  | .stop => ¬(fr.prevSym = true ∧ fr.curSym = false)
  | .stopStart => ¬(fr.prevSym = true ∧ fr.curSym = false)

/-- Frames `fs` that follow each other: symmetries and edges go on from one frame to the next. -/
def Linked (fs : ℕ → Frame) : Prop :=
  ∀ i, (fs (i + 1)).prevSym = (fs i).curSym ∧ leftLong (fs (i + 1)).seq = rightLong (fs i).seq

/-! ## Proofs -/

theorem sg_cases (b : Bool) : (b = false ∧ sg b = 1) ∨ (b = true ∧ sg b = -1) := by
  cases b <;> simp [sg]

theorem keep_fold (prev cur : Bool) (m : ℕ) (v l r : Buf)
    (hv : ∀ i < 2 * m, v i = fold prev cur (2 * m) l r i) (j : ℕ) (hj : j < 2 * m) :
    keep (2 * m) (kernel prev cur) v j = r j + sg cur * r (2 * m - 1 - j) := by
  have e : 2 * m / 2 = m := by omega
  unfold keep
  simp only [e]
  by_cases h : m ≤ j
  · have h1 : j - m < m := by omega
    have e1 : m + (j - m) = j := by omega
    have e2 : m - 1 - (j - m) = 2 * m - 1 - j := by omega
    rw [if_pos h, hv _ (by omega)]
    unfold fold
    rw [e, if_pos h1, e1, e2]
    cases prev <;> cases cur <;> simp [kernel, sg]
  · have h1 : m - 1 - j < m := by omega
    have e1 : m + (m - 1 - j) = 2 * m - 1 - j := by omega
    have e2 : m - 1 - (m - 1 - j) = j := by omega
    rw [if_neg h, hv _ (by omega)]
    unfold fold
    rw [e, if_pos h1, e1, e2]
    cases prev <;> cases cur <;> simp [kernel, sg] <;> ring

/-- The left half, unfolded. -/
theorem fold_left (prev cur : Bool) (m : ℕ) (l r : Buf) (i : ℕ) :
    fold prev cur (2 * m) l r (m + i) = l i - sg prev * l (2 * m - 1 - i) := by
  unfold fold
  have e : 2 * m / 2 = m := by omega
  have e1 : m + i - m = i := by omega
  rw [e, if_neg (by omega), e1]

/-- The right half. -/
theorem fold_right (prev cur : Bool) (m : ℕ) (l r : Buf) (i : ℕ) (hi : i < m) :
    fold prev cur (2 * m) l r i = sg (prev == cur) * (r (m + i) + sg cur * r (m - 1 - i)) := by
  unfold fold
  have e : 2 * m / 2 = m := by omega
  rw [e, if_pos hi]

theorem long1_eq (prev cur : Bool) (m : ℕ) (v l r ov w : Buf)
    (hv : ∀ i < 2 * m, v i = fold prev cur (2 * m) l r i) (j : ℕ) (hj : j < 2 * m) :
    long1 (2 * m) (kernel prev cur) (fun i => v (2 * m / 2 + i)) ov w j =
      (l j - sg prev * l (2 * m - 1 - j)) * w j + ov j * w (2 * m - 1 - j) := by
  have e : 2 * m / 2 = m := by omega
  unfold long1
  simp only [e]
  by_cases h : j < m
  · rw [if_pos h, hv _ (by omega), fold_left]
  · have e2 : 2 * m - 1 - (2 * m - 1 - j) = j := by omega
    rw [if_neg h, hv _ (by omega), fold_left, e2]
    cases prev <;> cases cur <;> simp [kernel, sg, -mul_eq_mul_right_iff] <;> ring

theorem long3_eq (prev cur : Bool) (hk : ¬(prev = true ∧ cur = false)) (m f nt : ℕ)
    (hf : 2 * f + nt = 2 * m) (v l r ov w : Buf)
    (hv : ∀ i < 2 * m, v i = fold prev cur (2 * m) l r i) (j : ℕ) (hj : j < 2 * m) :
    long3 (2 * m) f nt (kernel prev cur) (fun i => v (2 * m / 2 + i)) ov w j =
      if j < f then ov j
      else if j < f + nt then
        (l j - sg prev * l (2 * m - 1 - j)) * w (j - f) + ov j * w (nt - 1 - (j - f))
      else l j - sg prev * l (2 * m - 1 - j) := by
  have e : 2 * m / 2 = m := by omega
  unfold long3
  simp only [e]
  by_cases h0 : j < f
  · rw [if_pos h0, if_pos h0]
  rw [if_neg h0, if_neg h0]
  by_cases h : j < m
  · rw [if_pos h, hv _ (by omega), fold_left, if_pos (by omega)]
  rw [if_neg h]
  have e1 : 2 * m - j - 1 = 2 * m - 1 - j := by omega
  have e2 : 2 * m - 1 - (2 * m - 1 - j) = j := by omega
  by_cases h2 : j < f + nt
  · rw [if_pos h2, if_pos h2, e1, hv _ (by omega), fold_left, e2]
    cases prev <;> cases cur <;> simp_all [kernel, sg, -mul_eq_mul_right_iff]; ring
  · rw [if_neg h2, if_neg h2, e1, hv _ (by omega), fold_left, e2]
    cases prev <;> cases cur <;> simp_all [kernel, sg, -mul_eq_mul_right_iff]; ring

/-- Long left edge: the samples are those of the block. -/
theorem out_long (m f ns : ℕ) (prev cur : Bool) (v w a ov r : Buf)
    (hv : ∀ i < 2 * m, v i = fold prev cur (2 * m) (fun i => rise f ns (.long w) i * a i) r i)
    (hw : Complementary (2 * m) w) (hov : Kept (2 * m) f ns (.long w) prev a ov) (j : ℕ)
    (hj : j < 2 * m) :
    long1 (2 * m) (kernel prev cur) (fun i => v (2 * m / 2 + i)) ov w j = a j := by
  rw [long1_eq prev cur m v _ _ _ _ hv j hj, hov j hj]
  have h := hw j hj
  simp only [rise]
  linear_combination a j * h

/-- Short left edge of a long block. -/
theorem out_short (m f ns : ℕ) (hf : 2 * f + ns = 2 * m) (prev cur : Bool)
    (hk : ¬(prev = true ∧ cur = false)) (v w a ov r : Buf)
    (hv : ∀ i < 2 * m, v i = fold prev cur (2 * m) (fun i => rise f ns (.short w) i * a i) r i)
    (hw : Complementary ns w) (hov : Kept (2 * m) f ns (.short w) prev a ov) (j : ℕ)
    (hj : j < 2 * m) :
    long3 (2 * m) f ns (kernel prev cur) (fun i => v (2 * m / 2 + i)) ov w j = a j := by
  rw [long3_eq prev cur hk m f ns hf v _ _ _ _ hv j hj]
  by_cases h0 : j < f
  · rw [if_pos h0, hov j (by show j < f + ns; omega)]
    simp only [rise]
    rw [if_pos h0, if_neg (by omega), if_neg (by omega)]
    ring
  rw [if_neg h0]
  by_cases h1 : j < f + ns
  · rw [if_pos h1, hov j h1]
    simp only [rise]
    rw [if_neg h0, if_pos h1, if_neg (by omega), if_pos (by omega)]
    have e : 2 * m - 1 - j - f = ns - 1 - (j - f) := by omega
    rw [e]
    have h := hw (j - f) (by omega)
    linear_combination a j * h
  · rw [if_neg h1]
    simp only [rise]
    rw [if_neg h0, if_neg h1, if_pos (show 2 * m - 1 - j < f by omega)]
    ring

theorem kept_long (m f ns : ℕ) (hf : 2 * f + ns = 2 * m) (prev cur : Bool) (e : Edge) (v l b : Buf)
    (hv : ∀ i < 2 * m, v i =
      fold prev cur (2 * m) l (fun i => rise f ns e (2 * m - 1 - i) * b i) i) :
    Kept (2 * m) f ns e cur b (keep (2 * m) (kernel prev cur) v) := by
  intro i hi
  have hi' : i < 2 * m := by
    cases e <;> simp only at hi <;> omega
  rw [keep_fold _ _ _ v _ _ hv _ hi']
  have e2 : 2 * m - 1 - (2 * m - 1 - i) = i := by omega
  rw [e2]

/-! ### Eight short blocks -/

/-- One short block with folded values. -/
theorem short4_eq (c : Bool) (h : ℕ) (last : Bool) (s l r w p : Buf) (b j : ℕ)
    (hs : ∀ i < 2 * h, s i = fold c c (2 * h) l r i) :
    short4 (2 * h) (kernel c c) last s w b p j =
      if j < b then p j
      else if j - b < 2 * h then
        p j + (l (j - b) - sg c * l (2 * h - 1 - (j - b))) * w (j - b)
      else if j - b < 2 * (2 * h) then
        p j + (r (j - b - 2 * h) + sg c * r (2 * h - 1 - (j - b - 2 * h))) *
          (if last then 1 else w (2 * h - 1 - (j - b - 2 * h)))
      else p j := by
  unfold short4
  have e : 2 * h / 2 = h := by omega
  simp only [e]
  by_cases h0 : j < b
  · rw [if_pos h0, if_pos h0]
  rw [if_neg h0, if_neg h0]
  generalize hi : j - b = i
  by_cases h1 : i < h
  · rw [if_pos h1, if_pos (by omega), hs _ (by omega), fold_left]
  rw [if_neg h1]
  by_cases h2 : i < 2 * h
  · rw [if_pos h2, if_pos h2, hs _ (by omega), fold_left]
    have e2 : 2 * h - 1 - (2 * h - 1 - i) = i := by omega
    rw [e2]
    cases c <;> simp [kernel, sg, -mul_eq_mul_right_iff, -mul_eq_mul_left_iff] <;> ring
  rw [if_neg h2, if_neg h2]
  by_cases h3 : i < 2 * h + h
  · rw [if_pos h3, if_pos (show i < 2 * (2 * h) by omega), hs _ (by omega), fold_right _ _ _ _ _ _ (by omega)]
    have e2 : h + (h - 1 - (i - 2 * h)) = 2 * h - 1 - (i - 2 * h) := by omega
    have e3 : h - 1 - (h - 1 - (i - 2 * h)) = i - 2 * h := by omega
    have e4 : 2 * (2 * h) - 1 - i = 2 * h - 1 - (i - 2 * h) := by omega
    rw [e2, e3, e4]
    cases c <;> simp [kernel, sg, -mul_eq_mul_right_iff, -mul_eq_mul_left_iff] <;> ring
  rw [if_neg h3]
  by_cases h4 : i < 2 * (2 * h)
  · rw [if_pos h4, if_pos h4, hs _ (by omega), fold_right _ _ _ _ _ _ (by omega)]
    have e2 : h + (h - 1 - (2 * (2 * h) - 1 - i)) = i - 2 * h := by omega
    have e3 : h - 1 - (h - 1 - (2 * (2 * h) - 1 - i)) = 2 * h - 1 - (i - 2 * h) := by omega
    have e4 : 2 * (2 * h) - 1 - i = 2 * h - 1 - (i - 2 * h) := by omega
    rw [e2, e3, e4]
    cases c <;> simp [kernel, sg, -mul_eq_mul_right_iff, -mul_eq_mul_left_iff] <;> ring
  · rw [if_neg h4, if_neg h4]

theorem short2_eq (c : Bool) (h f : ℕ) (s l r w p : Buf) (b j : ℕ)
    (hs : ∀ i < 2 * h, s i = fold c c (2 * h) l r i) :
    short2 f (2 * h) (kernel c c) (fun i => s (2 * h / 2 + i)) w b p j =
      if j < b then p j
      else if j - b < 2 * h then
        (l (j - b) - sg c * l (2 * h - 1 - (j - b))) * w (j - b) + p j * w (2 * h - 1 - (j - b))
      else if j - b < 2 * h + (f + 2 * h) then 0
      else p j := by
  unfold short2
  have e : 2 * h / 2 = h := by omega
  simp only [e]
  by_cases h0 : j < b
  · rw [if_pos h0, if_pos h0]
  rw [if_neg h0, if_neg h0]
  generalize hi : j - b = i
  by_cases h1 : i < h
  · rw [if_pos h1, if_pos (by omega), hs _ (by omega), fold_left]
  rw [if_neg h1]
  by_cases h2 : i < 2 * h
  · rw [if_pos h2, if_pos h2, hs _ (by omega), fold_left]
    have e2 : 2 * h - 1 - (2 * h - 1 - i) = i := by omega
    rw [e2]
    cases c <;> simp [kernel, sg, -mul_eq_mul_right_iff, -mul_eq_mul_left_iff] <;> ring
  rw [if_neg h2, if_neg h2]

theorem short3_eq (c : Bool) (h : ℕ) (s l r w p : Buf) (b j : ℕ)
    (hs : ∀ i < 2 * h, s i = fold c c (2 * h) l r i)
    (hp : ∀ j, b ≤ j → j < b + 2 * h → p j = 0) :
    short3 (2 * h) (kernel c c) s w b p j =
      if j < b then p j
      else if j - b < 2 * h then
        (r (j - b) + sg c * r (2 * h - 1 - (j - b))) * w (2 * h - 1 - (j - b))
      else p j := by
  unfold short3
  have e : 2 * h / 2 = h := by omega
  simp only [e]
  by_cases h0 : j < b
  · rw [if_pos h0, if_pos h0]
  rw [if_neg h0, if_neg h0]
  by_cases h2 : j - b < 2 * h
  · rw [hp j (by omega) (by omega)]
    generalize hi : j - b = i at *
    by_cases h1 : i < h
    · rw [if_pos h1, if_pos h2, hs _ (by omega), fold_right _ _ _ _ _ _ (by omega)]
      have e2 : h + (h - i - 1) = 2 * h - 1 - i := by omega
      have e3 : h - 1 - (h - i - 1) = i := by omega
      rw [e2, e3]
      cases c <;> simp [kernel, sg, -mul_eq_mul_right_iff, -mul_eq_mul_left_iff] <;> ring
    · rw [if_neg h1, if_pos h2, if_pos h2, hs _ (by omega), fold_right _ _ _ _ _ _ (by omega)]
      have e2 : h + (h - (2 * h - 1 - i) - 1) = i := by omega
      have e3 : h - 1 - (h - (2 * h - 1 - i) - 1) = 2 * h - 1 - i := by omega
      rw [e2, e3]
      cases c <;> simp [kernel, sg, -mul_eq_mul_right_iff, -mul_eq_mul_left_iff] <;> ring
  · rw [if_neg h2, if_neg h2]
    split <;> first | omega | rfl


/-- The blocks before block `i + 1` are done: the signal in front, the aliased half behind. -/
structure Done (h f i : ℕ) (c : Bool) (w x p : Buf) (last : Bool) : Prop where
  front : ∀ j < f + (i + 1) * (2 * h), p j = x j
  half : ∀ j < 2 * h, p (f + (i + 1) * (2 * h) + j) =
    (w (2 * h - 1 - j) * x (f + (i + 1) * (2 * h) + j) +
      sg c * (w j * x (f + (i + 1) * (2 * h) + (2 * h - 1 - j)))) *
      (if last then 1 else w (2 * h - 1 - j))
  rest : ∀ j, f + (i + 2) * (2 * h) ≤ j → p j = 0

theorem done_step (h f i : ℕ) (c : Bool) (w x p s : Buf) (last : Bool)
    (hw : Complementary (2 * h) w) (hd : Done h f i c w x p false)
    (hs : ∀ j < 2 * h, s j = fold c c (2 * h) (fun j => w j * x (f + (i + 1) * (2 * h) + j))
      (fun j => w (2 * h - 1 - j) * x (f + (i + 1 + 1) * (2 * h) + j)) j) :
    Done h f (i + 1) c w x
      (short4 (2 * h) (kernel c c) last s w (f + (i + 1) * (2 * h)) p) last := by
  have e1 : (i + 1 + 1) * (2 * h) = (i + 1) * (2 * h) + 2 * h := by ring
  have e2 : (i + 2) * (2 * h) = (i + 1) * (2 * h) + 2 * h := by ring
  have e3 : (i + 1 + 2) * (2 * h) = (i + 1) * (2 * h) + 2 * (2 * h) := by ring
  have hr := hd.rest
  rw [e2] at hr
  rw [e1] at hs
  constructor
  · intro j hj
    rw [e1] at hj
    rw [short4_eq c h last s _ _ w p _ j hs]
    by_cases h0 : j < f + (i + 1) * (2 * h)
    · rw [if_pos h0]; exact hd.front j h0
    · obtain ⟨d, rfl⟩ := Nat.exists_eq_add_of_le (Nat.le_of_not_lt h0)
      have hdd : d < 2 * h := by omega
      have e4 : f + (i + 1) * (2 * h) + d - (f + (i + 1) * (2 * h)) = d := by omega
      rw [if_neg h0, e4, if_pos hdd, hd.half d hdd]
      have := hw d hdd
      simp only [Bool.false_eq_true, if_false]
      linear_combination x (f + (i + 1) * (2 * h) + d) * this
  · intro d hdd
    rw [short4_eq c h last s _ _ w p _ _ hs, e1]
    have e4 : f + ((i + 1) * (2 * h) + 2 * h) + d - (f + (i + 1) * (2 * h)) = 2 * h + d := by omega
    have e5 : 2 * h + d - 2 * h = d := by omega
    rw [if_neg (by omega), e4, if_neg (by omega), if_pos (by omega), e5, hr _ (by omega)]
    have e6 : 2 * h - 1 - (2 * h - 1 - d) = d := by omega
    rw [e6]
    ring
  · intro j hj
    rw [e3] at hj
    rw [short4_eq c h last s _ _ w p _ j hs, if_neg (by omega), if_neg (by omega), if_neg (by omega)]
    exact hr j (by omega)

/-- The blocks two to seven and the last one. -/
theorem done_shorts (h : ℕ) (c : Bool) (w x p v : Buf) (hh : 0 < h)
    (hw : Complementary (2 * h) w) (hd : Done h (7 * h) 0 c w x p false)
    (hs : ∀ i < 7, ∀ j < 2 * h, v ((i + 1) * (2 * h) + j) =
      fold c c (2 * h) (fun j => w j * x (7 * h + (i + 1) * (2 * h) + j))
      (fun j => w (2 * h - 1 - j) * x (7 * h + (i + 1 + 1) * (2 * h) + j)) j) :
    Done h (7 * h) 7 c w x (shorts (16 * h) (kernel c c) v w 7 p) true := by
  have e1 : nShort (16 * h) = 2 * h := by unfold nShort; omega
  have e2 : nFlat (16 * h) = 7 * h := by unfold nFlat; rw [e1]; omega
  have key : ∀ i ≤ 6, Done h (7 * h) i c w x (shorts (16 * h) (kernel c c) v w i p) false := by
    intro i
    induction i with
    | zero => intro _; exact hd
    | succ i ih =>
      intro hi
      have h6 : decide (i = 6) = false := by simp; omega
      simp only [shorts, e1, e2, h6]
      exact done_step h (7 * h) i c w x _ _ false hw (ih (by omega)) (hs i (by omega))
  have e3 : shorts (16 * h) (kernel c c) v w 7 p = short4 (nShort (16 * h)) (kernel c c) true
      (fun j => v ((6 + 1) * nShort (16 * h) + j)) w (nFlat (16 * h) + (6 + 1) * nShort (16 * h))
      (shorts (16 * h) (kernel c c) v w 6 p) := rfl
  rw [e3, e1, e2]
  exact done_step h (7 * h) 6 c w x _ _ true hw (key 6 (Nat.le_refl _)) (hs 6 (by omega))

/-- A frame of eight short blocks. -/
theorem eight (t : Tables) (h sh sp : ℕ) (hh : 0 < h) (c : Bool) (wp w a b ov v : Buf) (el er : Edge)
    (h1 : calcWindow t (2 * h) sh = .ok w) (h2 : calcWindow t (2 * h) sp = .ok wp)
    (hw : Complementary (2 * h) w) (hwp : Complementary (2 * h) wp)
    (hov : Kept (16 * h) (7 * h) (2 * h) (.short wp) c a ov)
    (hv : ∀ j < 16 * h, v j = folded (16 * h) (7 * h) (2 * h) .eight c c el er wp w a b j) :
    ∃ out ov', fdShort t (16 * h) (kernel c c) sh sp v ov = .ok (out, ov') ∧
      (∀ j < 16 * h, out j = a j) ∧ Kept (16 * h) (7 * h) (2 * h) (.short w) c b ov' := by
  have e1 : nShort (16 * h) = 2 * h := by unfold nShort; omega
  have e2 : nFlat (16 * h) = 7 * h := by unfold nFlat; rw [e1]; omega
  have hb : ∀ i < 8, ∀ j < 2 * h, v (i * (2 * h) + j) = fold c c (2 * h)
      (fun j => (if i = 0 then wp j else w j) * both (16 * h) a b (7 * h + i * (2 * h) + j))
      (fun j => w (2 * h - 1 - j) * both (16 * h) a b (7 * h + (i + 1) * (2 * h) + j)) j := by
    intro i hi j hj
    have hlt : i * (2 * h) + j < 16 * h := by
      have : i * (2 * h) ≤ 7 * (2 * h) := Nat.mul_le_mul_right _ (by omega)
      omega
    rw [hv _ hlt]
    have d1 : (i * (2 * h) + j) / (2 * h) = i := by
      rw [Nat.mul_comm, Nat.mul_add_div (by omega), Nat.div_eq_of_lt hj, Nat.add_zero]
    have d2 : (i * (2 * h) + j) % (2 * h) = j := by
      rw [Nat.mul_comm, Nat.mul_add_mod, Nat.mod_eq_of_lt hj]
    simp only [folded, if_true, d1, d2]
  generalize hx : both (16 * h) a b = x at hb
  have xa : ∀ j < 16 * h, x j = a j := by
    intro j hj; rw [← hx]; unfold both; rw [if_pos hj]
  have xb : ∀ j, x (16 * h + j) = b j := by
    intro j; rw [← hx]; unfold both; rw [if_neg (by omega)]; congr 1; omega
  unfold fdShort
  rw [e1, h1]
  show ∃ out ov', (calcWindow t (2 * h) sp).bind _ = _ ∧ _
  rw [h2]
  refine ⟨_, _, rfl, ?_⟩
  simp only [e2]
  generalize hp0 : (fun j => if j < 16 * h then ov j else (0 : ℝ)) = p0
  have s0 : ∀ j < 2 * h, v j = fold c c (2 * h) (fun j => wp j * x (7 * h + j))
      (fun j => w (2 * h - 1 - j) * x (7 * h + 2 * h + j)) j := by
    intro j hj
    have := hb 0 (by omega) j hj
    simpa using this
  generalize hp1 : short2 (7 * h) (2 * h) (kernel c c) (fun j => v (2 * h / 2 + j)) wp (7 * h) p0 = p1
  have f1 : ∀ j < 7 * h + 2 * h, p1 j = x j := by
    intro j hj
    rw [← hp1, short2_eq c h _ v _ _ wp p0 _ j s0, ← hp0, xa j (by omega)]
    simp only
    rw [if_pos (show j < 16 * h by omega), hov j hj]
    simp only [rise]
    by_cases h0 : j < 7 * h
    · rw [if_pos h0, if_pos h0, if_neg (by omega), if_neg (by omega)]
      ring
    · have e3 : 16 * h - 1 - j - 7 * h = 2 * h - 1 - (j - 7 * h) := by omega
      have e4 : 7 * h + (j - 7 * h) = j := by omega
      have e5 : 7 * h + (2 * h - 1 - (j - 7 * h)) = 16 * h - 1 - j := by omega
      rw [if_neg h0, if_pos (by omega), if_neg h0, if_pos hj, if_neg (by omega), if_pos (by omega),
        e3, e4, e5, xa j (by omega), xa _ (by omega)]
      have := hwp (j - 7 * h) (by omega)
      linear_combination a j * this
  have f2 : ∀ j, 7 * h + 2 * h ≤ j → p1 j = 0 := by
    intro j hj
    rw [← hp1, short2_eq c h _ v _ _ wp p0 _ j s0, if_neg (by omega), if_neg (by omega)]
    split
    · rfl
    · rw [← hp0]
      simp only
      rw [if_neg (by omega)]
  generalize hp2 : short3 (2 * h) (kernel c c) v w (7 * h + 2 * h) p1 = p2
  have g := short3_eq c h v _ _ w p1 (7 * h + 2 * h) (hs := s0) (hp := fun j hj _ => f2 j hj)
  rw [hp2] at g
  have d0 : Done h (7 * h) 0 c w x p2 false := by
    constructor
    · intro j hj
      rw [g j, if_pos (by omega)]
      exact f1 j (by omega)
    · intro j hj
      have e3 : 7 * h + (0 + 1) * (2 * h) + j = 7 * h + 2 * h + j := by ring
      have e4 : 7 * h + (0 + 1) * (2 * h) + (2 * h - 1 - j) = 7 * h + 2 * h + (2 * h - 1 - j) := by
        ring
      have e5 : 7 * h + 2 * h + j - (7 * h + 2 * h) = j := by omega
      have e6 : 2 * h - 1 - (2 * h - 1 - j) = j := by omega
      rw [e3, e4, g, if_neg (by omega), e5, if_pos hj, e6]
      simp only [Bool.false_eq_true, if_false]
    · intro j hj
      rw [g j, if_neg (by omega), if_neg (by omega)]
      exact f2 j (by omega)
  have d7 := done_shorts h c w x p2 v hh hw d0 (by
    intro i hi j hj
    have := hb (i + 1) (by omega) j hj
    simpa using this)
  generalize hp3 : shorts (16 * h) (kernel c c) v w 7 p2 = p3 at d7
  constructor
  · intro j hj
    rw [if_neg (by omega), d7.front j (by omega), xa j hj]
  · intro j hj
    have hj' : j < 7 * h + 2 * h := hj
    show (if 2 * (16 * h) - 7 * h ≤ 16 * h + j ∧ 16 * h + j < 2 * (16 * h) then 0
      else p3 (16 * h + j)) = _
    rw [if_neg (by omega)]
    simp only [rise]
    by_cases h0 : j < 7 * h
    · rw [d7.front _ (by omega), xb j, if_neg (by omega), if_neg (by omega), if_pos h0]
      ring
    · have e3 : 16 * h + j = 7 * h + (7 + 1) * (2 * h) + (j - 7 * h) := by omega
      have e4 : 7 * h + (7 + 1) * (2 * h) + (2 * h - 1 - (j - 7 * h)) = 16 * h + (16 * h - 1 - j) := by
        omega
      have e5 : 16 * h - 1 - j - 7 * h = 2 * h - 1 - (j - 7 * h) := by omega
      have e6 := d7.half (j - 7 * h) (by omega)
      rw [← e3, e4, xb, xb, if_pos rfl] at e6
      rw [e6, if_neg (by omega), if_pos (by omega), if_neg h0, if_pos hj', e5]
      ring

/-! ## Frames of 1024 samples -/

theorem win_big (t : Tables) (sh : ℕ) (h : sh ≤ 1) : calcWindow t 1024 sh = .ok (big t sh) := by
  rcases Nat.le_one_iff_eq_zero_or_eq_one.mp h with rfl | rfl <;> rfl

theorem win_small (t : Tables) (sh : ℕ) (h : sh ≤ 1) : calcWindow t 128 sh = .ok (small t sh) := by
  rcases Nat.le_one_iff_eq_zero_or_eq_one.mp h with rfl | rfl <;> rfl

/-- A frame that fits to the samples kept writes the block the two frames share, and keeps what the next
frame needs. -/
theorem C323_frame (t : Tables) (ht : Windows t) (fr : Frame) (sp : ℕ) (hsp : sp ≤ 1)
    (hsh : fr.shape ≤ 1) (hf : Fits fr) (a b ov : Buf)
    (hov : Kept 1024 448 128 (edge t sp (leftLong fr.seq)) fr.prevSym a ov)
    (hv : ∀ j < 1024, fr.v j = encoded t sp fr a b j) :
    ∃ out ov', fdFrame t 1024 fr.seq (kernel fr.prevSym fr.curSym) fr.shape sp fr.v ov =
        .ok (out, ov') ∧ (∀ j < 1024, out j = a j) ∧
      Kept 1024 448 128 (edge t fr.shape (rightLong fr.seq)) fr.curSym b ov' := by
  obtain ⟨q, sh, pr, cu, v⟩ := fr
  have nl : q ≠ .eight → fdFrame t 1024 q (kernel pr cu) sh sp v ov =
      fdLong t 1024 q (kernel pr cu) sp v ov := by
    intro h; unfold fdFrame; rw [if_neg h]
  have kl : q ≠ .eight → Kept 1024 448 128 (edge t sh (rightLong q)) cu b
      (keep 1024 (kernel pr cu) v) := by
    intro hq
    refine kept_long 512 448 128 rfl pr cu _ v
      (fun i => rise 448 128 (edge t sp (leftLong q)) i * a i) b (fun i hi => ?_)
    have := hv i hi
    simp only [encoded, folded, if_neg hq] at this
    exact this
  have lo : q = .only ∨ q = .start → ∃ out ov', fdFrame t 1024 q (kernel pr cu) sh sp v ov =
        .ok (out, ov') ∧ (∀ j < 1024, out j = a j) ∧
      Kept 1024 448 128 (edge t sh (rightLong q)) cu b ov' := by
    intro hq
    have hq8 : q ≠ .eight := by rcases hq with rfl | rfl <;> simp
    have hle : leftLong q = true := by rcases hq with rfl | rfl <;> rfl
    rw [nl hq8]
    unfold fdLong
    simp only [if_pos hq]
    rw [win_big t sp hsp]
    refine ⟨_, _, rfl, fun j hj => ?_, kl hq8⟩
    have hov' := hov
    simp only [hle, edge, if_true] at hov'
    refine out_long 512 448 128 pr cu v (big t sp) a ov
      (fun i => rise 448 128 (edge t sh (rightLong q)) (1024 - 1 - i) * b i)
      (fun i hi => ?_) (ht sp).1 hov' j hj
    have := hv i hi
    simp only [encoded, folded, if_neg hq8, hle, edge, if_true] at this
    exact this
  have sho : q ≠ .eight → ¬(q = .only ∨ q = .start) → ¬(pr = true ∧ cu = false) →
      ∃ out ov', fdFrame t 1024 q (kernel pr cu) sh sp v ov =
        .ok (out, ov') ∧ (∀ j < 1024, out j = a j) ∧
      Kept 1024 448 128 (edge t sh (rightLong q)) cu b ov' := by
    intro hq8 hq hk
    have hle : leftLong q = false := by cases q <;> simp_all [leftLong]
    rw [nl hq8]
    unfold fdLong
    simp only [if_neg hq]
    have e1 : nShort 1024 = 128 := rfl
    have e2 : nFlat 1024 = 448 := rfl
    rw [e1, win_small t sp hsp, e2]
    refine ⟨_, _, rfl, fun j hj => ?_, kl hq8⟩
    have hov' := hov
    simp only [hle, edge, Bool.false_eq_true, if_false] at hov'
    refine out_short 512 448 128 rfl pr cu hk v (small t sp) a ov
      (fun i => rise 448 128 (edge t sh (rightLong q)) (1024 - 1 - i) * b i)
      (fun i hi => ?_) (ht sp).2 hov' j hj
    have := hv i hi
    simp only [encoded, folded, if_neg hq8, hle, edge, Bool.false_eq_true, if_false] at this
    exact this
  cases q with
  | only => exact lo (Or.inl rfl)
  | start => exact lo (Or.inr rfl)
  | stop => exact sho (by simp) (by simp) hf
  | stopStart => exact sho (by simp) (by simp) hf
  | eight =>
    have hc : pr = cu := hf
    subst hc
    obtain ⟨out, ov', h1, h2, h3⟩ := eight t 64 sh sp (by omega) pr (small t sp) (small t sh) a b ov v
      _ _ (win_small t sh hsh) (win_small t sp hsp) (ht sh).2 (ht sp).2 hov hv
    exact ⟨out, ov', h1, h2, h3⟩

theorem run (t : Tables) (ht : Windows t) (x : ℕ → Buf) (fs : ℕ → Frame) (sp : ℕ → ℕ)
    (hs0 : sp 0 ≤ 1) (hs : ∀ i, (fs i).shape ≤ 1) (hsp : ∀ i, sp (i + 1) = (fs i).shape)
    (hf : ∀ i, Fits (fs i)) (hl : Linked fs)
    (hv : ∀ i, ∀ j < 1024, (fs i).v j = encoded t (sp i) (fs i) (x i) (x (i + 1)) j) (n : ℕ) :
    ∀ (k : ℕ) (ov : Buf),
      Kept 1024 448 128 (edge t (sp k) (leftLong (fs k).seq)) (fs k).prevSym (x k) ov →
      ∃ os, frames t 1024 ((List.range' k n).map fs) (sp k) ov = .ok os ∧ os.length = n ∧
        ∀ i < n, ∀ j < 1024, (os.getD i 0) j = x (k + i) j := by
  induction n with
  | zero => intro k ov _; exact ⟨[], rfl, rfl, fun i hi => absurd hi (Nat.not_lt_zero i)⟩
  | succ n ih =>
    intro k ov hov
    have hk : sp k ≤ 1 := by
      cases k with
      | zero => exact hs0
      | succ k => rw [hsp]; exact hs k
    obtain ⟨out, ov', h1, h2, h3⟩ := C323_frame t ht (fs k) (sp k) hk (hs k) (hf k) (x k) (x (k + 1)) ov
      hov (hv k)
    rw [← (hl k).1, ← (hl k).2, ← hsp k] at h3
    obtain ⟨os, g1, g2, g3⟩ := ih (k + 1) ov' h3
    refine ⟨out :: os, ?_, by rw [List.length_cons, g2], ?_⟩
    · rw [List.range'_succ, List.map_cons]
      unfold frames
      rw [h1]
      show Res.bind (frames t 1024 _ (fs k).shape ov') _ = _
      rw [← hsp k, g1]
      rfl
    · intro i hi j hj
      cases i with
      | zero => exact h2 j hj
      | succ i =>
        have := g3 i (by omega) j hj
        rw [show k + (i + 1) = k + 1 + i by omega]
        exact this

/-- A signal that begins with a silent block is given back block for block by frames that are linked, for
all sequences of windows, shapes and symmetries that fit. -/
theorem C324_signal (t : Tables) (ht : Windows t) (x : ℕ → Buf) (hx : ∀ j, x 0 j = 0)
    (fs : ℕ → Frame) (sp : ℕ) (hs0 : sp ≤ 1) (hs : ∀ i, (fs i).shape ≤ 1)
    (hf : ∀ i, Fits (fs i)) (hl : Linked fs)
    (h0 : ∀ j < 1024, (fs 0).v j = encoded t sp (fs 0) (x 0) (x 1) j)
    (hv : ∀ i, ∀ j < 1024, (fs (i + 1)).v j =
      encoded t (fs i).shape (fs (i + 1)) (x (i + 1)) (x (i + 2)) j) (n : ℕ) :
    ∃ os, frames t 1024 ((List.range n).map fs) sp (fun _ => 0) = .ok os ∧ os.length = n ∧
      ∀ i < n, ∀ j < 1024, (os.getD i 0) j = x i j := by
  have := run t ht x fs (fun i => match i with | 0 => sp | i + 1 => (fs i).shape) hs0 hs
    (fun _ => rfl) hf hl (fun i => by cases i with | zero => exact h0 | succ i => exact hv i) n 0
    (fun _ => 0) (by intro i _; simp [hx])
  rw [List.range_eq_range']
  simpa using this

/-! ## Where the symmetry is lost -/

/-- Windows with the values 3/5 and 4/5. -/
noncomputable def step (n : ℕ) : Buf := fun i => if i < n / 2 then 3 / 5 else 4 / 5

noncomputable def steps : Tables where
  kbd1024 := step 1024
  kbd128 := step 128
  kbd64 := step 64
  kbd16 := step 16
  kbd4 := step 4
  sine1024 := step 1024
  sine256 := step 256
  sine128 := step 128

theorem step_complementary (m : ℕ) : Complementary (2 * m) (step (2 * m)) := by
  intro i hi
  have e : 2 * m / 2 = m := by omega
  unfold step
  rw [e]
  by_cases h : i < m
  · rw [if_pos h, if_neg (by omega)]; norm_num
  · rw [if_neg h, if_pos (by omega)]; norm_num

theorem steps_windows : Windows steps := by
  intro sh
  constructor
  · have : big steps sh = step 1024 := by unfold big; split <;> rfl
    rw [this]; exact step_complementary 512
  · have : small steps sh = step 128 := by unfold small; split <;> rfl
    rw [this]; exact step_complementary 64
/-- Frames of all kinds with a change of symmetry meet what `C324_signal` asks for, for every signal. -/
noncomputable def cycle (t : Tables) (x : ℕ → Buf) (i : ℕ) : Frame :=
  let q : Seq := if i % 5 = 0 then .only else if i % 5 = 1 then .start else if i % 5 = 2 then .eight
    else if i % 5 = 3 then .stopStart else .stop
  let fr : Frame := ⟨q, i % 2, decide (i ≠ 0), true, fun _ => 0⟩
  { fr with v := encoded t (if i = 0 then 0 else (i - 1) % 2) fr (x i) (x (i + 1)) }

example (x : ℕ → Buf) (hx : ∀ j, x 0 j = 0) (n : ℕ) :
    ∃ os, frames steps 1024 ((List.range n).map (cycle steps x)) 0 (fun _ => 0) = .ok os ∧
      os.length = n ∧ ∀ i < n, ∀ j < 1024, (os.getD i 0) j = x i j := by
  refine C324_signal steps steps_windows x hx _ 0 (by omega)
    (fun i => Nat.le_of_lt_succ (Nat.mod_lt _ (by omega))) (fun i => ?_) (fun i => ⟨rfl, ?_⟩)
    (fun j _ => rfl) (fun i j _ => rfl) n
  · unfold Fits cycle
    by_cases h0 : i % 5 = 0
    · simp [h0]
    by_cases h1 : i % 5 = 1
    · simp [h1]
    by_cases h2 : i % 5 = 2
    · simp [h2]; omega
    by_cases h3 : i % 5 = 3
    · simp [h3]
    · simp [h0, h1, h2, h3]
  · unfold cycle
    have : i % 5 = 0 ∨ i % 5 = 1 ∨ i % 5 = 2 ∨ i % 5 = 3 ∨ i % 5 = 4 := by omega
    rcases this with h | h | h | h | h
    · have h' : (i + 1) % 5 = 1 := by omega
      simp [h, h', leftLong, rightLong]
    · have h' : (i + 1) % 5 = 2 := by omega
      simp [h, h', leftLong, rightLong]
    · have h' : (i + 1) % 5 = 3 := by omega
      simp [h, h', leftLong, rightLong]
    · have h' : (i + 1) % 5 = 4 := by omega
      simp [h, h', leftLong, rightLong]
    · have h' : (i + 1) % 5 = 0 := by omega
      simp [h, h', leftLong, rightLong]

/-- After a short edge a frame that goes back from symmetry `true` to `false` writes the end of the block
with the wrong sign. -/
theorem C325_flipped (t : Tables) (fr : Frame) (sp : ℕ) (hsp : sp ≤ 1)
    (hq : fr.seq = .stop ∨ fr.seq = .stopStart) (hp : fr.prevSym = true) (hc : fr.curSym = false)
    (a b ov : Buf) (hv : ∀ j < 1024, fr.v j = encoded t sp fr a b j) :
    ∃ out ov', fdFrame t 1024 fr.seq (kernel fr.prevSym fr.curSym) fr.shape sp fr.v ov =
        .ok (out, ov') ∧ ∀ j, 576 ≤ j → j < 1024 → out j = -(a j) := by
  obtain ⟨q, sh, pr, cu, v⟩ := fr
  simp only at hq hp hc hv ⊢
  subst hp hc
  have hq8 : q ≠ .eight := by rcases hq with rfl | rfl <;> simp
  have hqo : ¬(q = .only ∨ q = .start) := by rcases hq with rfl | rfl <;> simp
  have hle : leftLong q = false := by rcases hq with rfl | rfl <;> rfl
  unfold fdFrame
  rw [if_neg hq8]
  unfold fdLong
  simp only [if_neg hqo]
  have e1 : nShort 1024 = 128 := rfl
  have e2 : nFlat 1024 = 448 := rfl
  rw [e1, win_small t sp hsp, e2]
  refine ⟨_, _, rfl, fun j h1 h2 => ?_⟩
  have hk : kernel true false ≠ 3 := by decide
  simp only [long3]
  rw [if_neg (by omega), if_neg (by omega), if_neg (by omega), if_pos hk, hv _ (by omega)]
  simp only [encoded, folded, if_neg hq8, hle, edge, Bool.false_eq_true, if_false]
  have e3 : 1024 / 2 + (1024 - j - 1) = 512 + (1023 - j) := by omega
  rw [e3]
  have := fold_left true false 512 (fun i => rise 448 128 (.short (small t sp)) i * a i)
    (fun i => rise 448 128 (if rightLong q = true then Edge.long (big t sh) else
      Edge.short (small t sh)) (1024 - 1 - i) * b i) (1023 - j)
  rw [show (2 * 512 : ℕ) = 1024 from rfl] at this
  rw [this]
  have e4 : 1024 - 1 - (1023 - j) = j := by omega
  simp only [rise]
  rw [e4, if_pos (show 1023 - j < 448 by omega), if_neg (by omega), if_neg (by omega)]
  simp [sg]

example : ∃ out ov', fdFrame steps 1024 .stop (kernel true false) 0 0
    (encoded steps 0 ⟨.stop, 0, true, false, fun _ => 0⟩ (fun _ => 1) (fun _ => 0)) (fun _ => 0) =
      .ok (out, ov') ∧ ∀ j, 576 ≤ j → j < 1024 → out j = -1 :=
  C325_flipped steps ⟨.stop, 0, true, false, encoded steps 0 ⟨.stop, 0, true, false, fun _ => 0⟩
    (fun _ => 1) (fun _ => 0)⟩ 0 (by omega) (Or.inl rfl) rfl rfl (fun _ => 1) (fun _ => 0) _
    (fun _ _ => rfl)

/-- The claim of `C323_frame` for all symmetries is false. -/
theorem C325_refuted :
    ¬ ∀ (t : Tables) (fr : Frame) (sp : ℕ) (a b ov : Buf), Windows t → sp ≤ 1 → fr.shape ≤ 1 →
      fr.seq ≠ .eight →
      Kept 1024 448 128 (edge t sp (leftLong fr.seq)) fr.prevSym a ov →
      (∀ j < 1024, fr.v j = encoded t sp fr a b j) →
      ∃ out ov', fdFrame t 1024 fr.seq (kernel fr.prevSym fr.curSym) fr.shape sp fr.v ov =
        .ok (out, ov') ∧ ∀ j < 1024, out j = a j := by
  intro h
  let fr0 : Frame := ⟨.stop, 0, true, false, fun _ => 0⟩
  let fr : Frame := ⟨.stop, 0, true, false, encoded steps 0 fr0 (fun _ => 1) (fun _ => 0)⟩
  have hv : ∀ j < 1024, fr.v j = encoded steps 0 fr (fun _ => 1) (fun _ => 0) j := fun j _ => rfl
  obtain ⟨out, ov', h1, h2⟩ := h steps fr 0 (fun _ => 1) (fun _ => 0)
    (fun i => rise 448 128 (edge steps 0 (leftLong fr.seq)) (1024 - 1 - i) * 1 +
      sg fr.prevSym * (rise 448 128 (edge steps 0 (leftLong fr.seq)) i * 1))
    steps_windows (by omega) (Nat.zero_le _) (by simp [fr]) (fun i _ => rfl) hv
  obtain ⟨out2, ov2, g1, g2⟩ := C325_flipped steps fr 0 (by omega) (Or.inl rfl) rfl rfl (fun _ => 1)
    (fun _ => 0) _ hv
  rw [h1] at g1
  injection g1 with g1
  injection g1 with g1 _
  have p1 := h2 1000 (by omega)
  have p2 := g2 1000 (by omega) (by omega)
  rw [← g1, p1] at p2
  norm_num at p2

/-- For the other symmetries the frame after a short edge is right. -/
theorem C325_kept_partial (t : Tables) (ht : Windows t) (fr : Frame) (sp : ℕ) (hsp : sp ≤ 1)
    (hsh : fr.shape ≤ 1) (hq : fr.seq ≠ .eight) (hs : ¬(fr.prevSym = true ∧ fr.curSym = false))
    (a b ov : Buf) (hov : Kept 1024 448 128 (edge t sp (leftLong fr.seq)) fr.prevSym a ov)
    (hv : ∀ j < 1024, fr.v j = encoded t sp fr a b j) :
    ∃ out ov', fdFrame t 1024 fr.seq (kernel fr.prevSym fr.curSym) fr.shape sp fr.v ov =
        .ok (out, ov') ∧ ∀ j < 1024, out j = a j := by
  obtain ⟨out, ov', h1, h2, _⟩ := C323_frame t ht fr sp hsp hsh
    (by unfold Fits; split <;> simp_all) a b ov hov hv
  exact ⟨out, ov', h1, h2⟩

/-- Eight short blocks of kernel type 1 or 2 are windowed like those of type 0. -/
theorem C326_as_zero (t : Tables) (n k sh sp : ℕ) (hk : k ≠ 3) (v ov : Buf) :
    fdShort t n k sh sp v ov = fdShort t n 0 sh sp v ov := by
  have a2 : ∀ f ns s w b p, short2 f ns k s w b p = short2 f ns 0 s w b p := by
    intros; unfold short2; simp [hk]
  have a3 : ∀ ns s w b p, short3 ns k s w b p = short3 ns 0 s w b p := by
    intros; unfold short3; simp [hk]
  have a4 : ∀ ns l s w b p, short4 ns k l s w b p = short4 ns 0 l s w b p := by
    intros; unfold short4; simp [hk]
  have a5 : ∀ w i p, shorts n k v w i p = shorts n 0 v w i p := by
    intro w i p
    induction i with
    | zero => rfl
    | succ i ih => simp only [shorts, ih, a4]
  unfold fdShort
  simp only [a2, a3, a5]

theorem short4_far (ns k : ℕ) (last : Bool) (s w p : Buf) (b j : ℕ) (hj : b + 2 * ns ≤ j) :
    short4 ns k last s w b p j = p j := by
  unfold short4
  have h2 := Nat.div_le_self ns 2
  simp only
  rw [if_neg (by omega), if_neg (by omega), if_neg (by omega), if_neg (by omega), if_neg (by omega)]

/-- What eight short blocks of a kernel type other than 3 keep is always symmetric. -/
theorem even_kept (t : Tables) (k sh sp : ℕ) (hk : k ≠ 3) (v ov out ov' : Buf)
    (h : fdShort t 1024 k sh sp v ov = .ok (out, ov')) : ov' 448 = ov' 575 := by
  unfold fdShort at h
  have e1 : nShort 1024 = 128 := rfl
  have e2 : nFlat 1024 = 448 := rfl
  rw [e1] at h
  cases hw : calcWindow t 128 sh with
  | jump => rw [hw] at h; exact absurd h (by simp [Res.bind])
  | err c => rw [hw] at h; exact absurd h (by simp [Res.bind])
  | ub => rw [hw] at h; exact absurd h (by simp [Res.bind])
  | ok w =>
    rw [hw] at h
    cases hw2 : calcWindow t 128 sp with
    | jump => rw [hw2] at h; exact absurd h (by simp [Res.bind])
    | err c => rw [hw2] at h; exact absurd h (by simp [Res.bind])
    | ub => rw [hw2] at h; exact absurd h (by simp [Res.bind])
    | ok wp =>
      rw [hw2] at h
      simp only [Res.bind, e2] at h
      generalize hp1 : short2 448 128 k (fun j => v (128 / 2 + j)) wp 448
        (fun j => if j < 1024 then ov j else 0) = p1 at h
      generalize hp2 : short3 128 k v w (448 + 128) p1 = p2 at h
      have z : ∀ j, 1472 ≤ j → p2 j = 0 := by
        intro j hj
        rw [← hp2]
        unfold short3
        rw [if_neg (by omega), if_neg (by omega), if_neg (by omega), ← hp1]
        unfold short2
        rw [if_neg (by omega), if_neg (by omega), if_neg (by omega)]
        split
        · rfl
        · exact if_neg (by omega)
      have far : ∀ i ≤ 6, ∀ j, 1472 ≤ j → shorts 1024 k v w i p2 j = 0 := by
        intro i
        induction i with
        | zero => intro _ j hj; exact z j hj
        | succ i ih =>
          intro hi j hj
          simp only [shorts, e1, e2]
          rw [short4_far _ _ _ _ _ _ _ _ (by omega)]
          exact ih (by omega) j hj
      have e3 : shorts 1024 k v w 7 p2 = short4 128 k true (fun j => v ((6 + 1) * 128 + j)) w
          (448 + (6 + 1) * 128) (shorts 1024 k v w 6 p2) := rfl
      have h' := Res.ok.inj h
      have h2 : ov' = _ := (congrArg Prod.snd h').symm
      rw [h2]
      simp only [e3]
      unfold short4
      simp [hk, far 6 (Nat.le_refl _)]

/-- After eight short blocks in which the symmetry becomes `true` there are signals that no spectrum
gives back: what is kept never is what the next frame needs. -/
theorem C326_refuted (t : Tables) (ht : Windows t) (sh : ℕ) :
    ∃ b : Buf, ∀ (sp : ℕ) (v ov out ov' : Buf),
      fdFrame t 1024 .eight (kernel false true) sh sp v ov = .ok (out, ov') →
      ¬ Kept 1024 448 128 (edge t sh (rightLong .eight)) true b ov' := by
  have hw := (ht sh).2 0 (by omega)
  generalize hw0 : small t sh 0 = w0 at hw
  generalize hw1 : small t sh (128 - 1 - 0) = w1 at hw
  refine ⟨fun i => if i = 448 then w1 else if i = 575 then -w0 else 0, ?_⟩
  intro sp v ov out ov' h hk
  have h1 : fdShort t 1024 (kernel false true) sh sp v ov = .ok (out, ov') := h
  have he := even_kept t _ sh sp (by decide) v ov out ov' h1
  have k1 := hk 448 (by simp [edge, rightLong])
  have k2 := hk 575 (by simp [edge, rightLong])
  have hw1' : small t sh 127 = w1 := hw1
  simp [edge, rightLong, rise, hw0, hw1', sg] at k1 k2
  rw [k1, k2] at he
  nlinarith [sq_nonneg w0, sq_nonneg w1]

example : ∃ b : Buf, ∀ (sp : ℕ) (v ov out ov' : Buf),
    fdFrame steps 1024 .eight (kernel false true) 1 sp v ov = .ok (out, ov') →
    ¬ Kept 1024 448 128 (edge steps 1 (rightLong .eight)) true b ov' :=
  C326_refuted steps steps_windows 1

end Verif.Props.Tdac
