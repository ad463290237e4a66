import Verif.Model.Igf
import Verif.Spec.Igf
import Verif.Props.LpdFrame

/-!
# Gap filling: data of tiles
-/

namespace Verif.Igf

open Prog

theorem repeat_reads {α : Type} {p : Prog α} {R : α → Prop} {e : α → List Bool} (h : Reads p (fun a b => R a ∧ b = e a)) (n : Nat) :
    Reads (repeatP p n) (fun l b => l.length = n ∧ (∀ a ∈ l, R a) ∧ b = l.flatMap e) := by
  induction n with
  | zero =>
    unfold repeatP
    refine (Reads.pure []).congr fun l b => ?_
    constructor
    · rintro ⟨rfl, rfl⟩; simp
    · rintro ⟨h, -, rfl⟩
      obtain rfl := List.length_eq_zero_iff.1 h
      simp
  | succ n ih =>
    unfold repeatP
    refine (h.bind fun a _ _ => ih.bind fun l _ _ => Reads.pure (a :: l)).congr fun l b => ?_
    constructor
    · rintro ⟨a, b1, _, ⟨h1, rfl⟩, ⟨l, b2, _, ⟨h3, h4, rfl⟩, ⟨rfl, rfl⟩, rfl⟩, rfl⟩
      refine ⟨by simp [h3], ?_, by simp⟩
      intro x hx
      rcases List.mem_cons.1 hx with rfl | hx
      · exact h1
      · exact h4 x hx
    · rintro ⟨h1, h2, rfl⟩
      cases l with
      | nil => simp at h1
      | cons a l =>
        exact ⟨a, e a, l.flatMap e, ⟨h2 a (by simp), rfl⟩, ⟨l, l.flatMap e, [], ⟨by simpa using h1, fun x hx => h2 x (by simp [hx]), rfl⟩,
          ⟨rfl, rfl⟩, by simp⟩, by simp⟩

theorem bit_reads : Reads (bits 1) (fun v b => v < 2 ∧ b = [decide (v = 1)]) := by
  refine (Reads.bits 1).congr fun v b => ?_
  constructor
  · rintro ⟨-, h, rfl⟩
    have : v < 2 := by simpa using h
    refine ⟨this, ?_⟩
    interval_cases v <;> rfl
  · rintro ⟨h, rfl⟩
    refine ⟨by decide, by simpa using h, ?_⟩
    interval_cases v <;> rfl

theorem white_reads : Reads whiteLevel (fun w b => w ≤ 2 ∧ b = whiteBits w) := by
  unfold whiteLevel
  refine (bit_reads.bind fun a _ _ => Reads.ite (fun _ => bit_reads.bind fun b _ _ => Reads.ite (fun _ => Reads.pure 2) (fun _ => Reads.pure 1))
    (fun _ => Reads.pure 0)).congr fun w b => ?_
  constructor
  · rintro ⟨a, b1, b2, ⟨ha, rfl⟩, h, rfl⟩
    interval_cases a
    · simp only [Nat.zero_ne_one, if_false] at h
      obtain ⟨rfl, rfl⟩ := h
      exact ⟨by decide, rfl⟩
    · simp only [if_true] at h
      obtain ⟨a, b1, b2, ⟨ha, rfl⟩, h, rfl⟩ := h
      interval_cases a
      · simp only [Nat.zero_ne_one, if_false] at h
        obtain ⟨rfl, rfl⟩ := h
        exact ⟨by decide, rfl⟩
      · simp only [if_true] at h
        obtain ⟨rfl, rfl⟩ := h
        exact ⟨by decide, rfl⟩
  · rintro ⟨h, rfl⟩
    interval_cases w
    · exact ⟨0, [false], [], ⟨by decide, rfl⟩, ⟨rfl, rfl⟩, rfl⟩
    · exact ⟨1, [true], [false], ⟨by decide, rfl⟩, ⟨0, [false], [], ⟨by decide, rfl⟩, ⟨rfl, rfl⟩, rfl⟩, rfl⟩
    · exact ⟨1, [true], [true], ⟨by decide, rfl⟩, ⟨1, [true], [], ⟨by decide, rfl⟩, ⟨rfl, rfl⟩, rfl⟩, rfl⟩

theorem keep_reads (indep : Bool) : Reads (if indep = true then (pure 0 : Prog Nat) else bits 1)
    (fun v b => (v = 0 ∧ b = if indep then [] else [false]) ∨ (v = 1 ∧ indep = false ∧ b = [true])) := by
  cases indep
  · simp only [Bool.false_eq_true, if_false, true_and]
    refine bit_reads.congr fun v b => ?_
    constructor
    · rintro ⟨h, rfl⟩
      interval_cases v
      · exact Or.inl ⟨rfl, rfl⟩
      · exact Or.inr ⟨rfl, rfl⟩
    · rintro (⟨rfl, rfl⟩ | ⟨rfl, rfl⟩)
      · exact ⟨by decide, rfl⟩
      · exact ⟨by decide, rfl⟩
  · simp only [if_true]
    refine (Reads.pure 0).congr fun v b => ?_
    simp

theorem tiles_reads (n : Nat) (indep : Bool) (old : List Nat) : Reads (do
      let usePrev ← (if indep = true then (pure 0 : Prog Nat) else bits 1)
      let tiles ← (if usePrev = 0 then repeatP (bits 2) n else pure (old.take n))
      pure (tiles ++ List.replicate (4 - n) 3)) (TileCode n indep old) := by
  have h2 : Reads (bits 2) (fun v b => v < 4 ∧ b = natBits 2 v) := (Reads.bits 2).congr fun v b => by simp
  refine ((keep_reads indep).bind fun u _ _ => (Reads.ite (fun _ => repeat_reads h2 n) (fun _ => Reads.pure (old.take n))).bind fun t _ _ =>
    Reads.pure (t ++ List.replicate (4 - n) 3)).congr fun t b => ?_
  unfold TileCode
  constructor
  · rintro ⟨u, b1, _, hu, ⟨ts, b2, _, ht, ⟨rfl, rfl⟩, rfl⟩, rfl⟩
    rcases hu with ⟨rfl, rfl⟩ | ⟨rfl, hi, rfl⟩
    · simp only [if_true] at ht
      obtain ⟨h1, h2, rfl⟩ := ht
      exact Or.inr ⟨ts, h1, h2, rfl, by simp⟩
    · simp only [Nat.one_ne_zero, if_false] at ht
      obtain ⟨rfl, rfl⟩ := ht
      exact Or.inl ⟨hi, rfl, rfl⟩
  · rintro (⟨hi, rfl, rfl⟩ | ⟨ts, h1, h2, rfl, rfl⟩)
    · exact ⟨1, [true], [], Or.inr ⟨rfl, hi, rfl⟩, ⟨old.take n, [], [], ⟨rfl, rfl⟩, ⟨rfl, rfl⟩, rfl⟩, rfl⟩
    · exact ⟨0, _, ts.flatMap (natBits 2), Or.inl ⟨rfl, rfl⟩, ⟨ts, _, [], ⟨h1, h2, rfl⟩, ⟨rfl, rfl⟩, by simp⟩, rfl⟩

theorem whites_reads (n : Nat) (hn : 1 ≤ n) (indep : Bool) (old : List Nat) : Reads (do
      let usePrev ← (if indep = true then (pure 0 : Prog Nat) else bits 1)
      if usePrev = 0 then whiteLevels n
      else pure (old.take n ++ List.replicate (4 - n) 0)) (WhiteCode n indep old) := by
  unfold whiteLevels
  refine ((keep_reads indep).bind fun u _ _ => Reads.ite (fun _ => white_reads.bind fun a _ _ => bit_reads.bind fun d _ _ =>
    Reads.ite (fun _ => (repeat_reads white_reads (n - 1)).bind fun l _ _ => Reads.pure (a :: l ++ List.replicate (4 - (1 + (n - 1))) 0))
      (fun _ => Reads.pure (a :: List.replicate (n - 1) a ++ List.replicate (4 - (1 + (n - 1))) 0)))
    (fun _ => Reads.pure (old.take n ++ List.replicate (4 - n) 0))).congr fun w b => ?_
  unfold WhiteCode
  have e1 : 1 + (n - 1) = n := by omega
  have e2 : ∀ a : Nat, a :: List.replicate (n - 1) a = List.replicate n a := by
    intro a
    obtain ⟨k, rfl⟩ : ∃ k, n = k + 1 := ⟨n - 1, by omega⟩
    rfl
  constructor
  · rintro ⟨u, b1, b2, hu, h, rfl⟩
    rcases hu with ⟨rfl, rfl⟩ | ⟨rfl, hi, rfl⟩
    · simp only [if_true] at h
      obtain ⟨a, _, _, ⟨ha, rfl⟩, ⟨d, _, _, ⟨hd, rfl⟩, h, rfl⟩, rfl⟩ := h
      interval_cases d
      · simp only [Nat.zero_ne_one, if_false] at h
        obtain ⟨rfl, rfl⟩ := h
        refine Or.inr (Or.inl ⟨a, ha, ?_, by simp⟩)
        rw [e1, e2]
      · simp only [if_true] at h
        obtain ⟨l, _, _, ⟨h1, h2, rfl⟩, ⟨rfl, rfl⟩, rfl⟩ := h
        refine Or.inr (Or.inr ⟨a :: l, by simp [h1]; omega, ?_, by rw [e1], by simp⟩)
        intro x hx
        rcases List.mem_cons.1 hx with rfl | hx
        · exact ha
        · exact h2 x hx
    · simp only [Nat.one_ne_zero, if_false] at h
      obtain ⟨rfl, rfl⟩ := h
      exact Or.inl ⟨hi, rfl, rfl⟩
  · rintro (⟨hi, rfl, rfl⟩ | ⟨a, ha, rfl, rfl⟩ | ⟨ws, h1, h2, rfl, rfl⟩)
    · exact ⟨1, [true], [], Or.inr ⟨rfl, hi, rfl⟩, ⟨rfl, rfl⟩, rfl⟩
    · refine ⟨0, _, whiteBits a ++ [false], Or.inl ⟨rfl, rfl⟩, ⟨a, _, [false], ⟨ha, rfl⟩, ⟨0, [false], [], ⟨by decide, rfl⟩, ⟨?_, rfl⟩, rfl⟩, rfl⟩, by simp⟩
      rw [e1, e2]
    · cases ws with
      | nil => simp at h1; omega
      | cons a l =>
        refine ⟨0, _, whiteBits a ++ ([true] ++ l.flatMap whiteBits), Or.inl ⟨rfl, rfl⟩, ⟨a, _, _, ⟨h2 a (by simp), rfl⟩,
          ⟨1, [true], l.flatMap whiteBits, ⟨by decide, rfl⟩, ⟨l, _, [], ⟨by simp at h1; omega, fun x hx => h2 x (by simp [hx]), rfl⟩, ⟨?_, rfl⟩, by simp⟩, rfl⟩, rfl⟩, by simp⟩
        rw [e1]

/-- The data of the tiles in the stream: tile numbers, levels of whitening where they are used, a flag for the envelope filter where it is used. -/
def DataCode (c : Config) (n winType : Nat) (indep : Bool) (m m' : Memory) (b : List Bool) : Prop :=
  ∃ b1 b2 b3, TileCode n indep m.prevTiles m'.tiles b1 ∧
    (if c.whitening = true ∧ winType ≠ 1 then WhiteCode n indep m.prevWhite m'.white b2 else m'.white = [0, 0, 0, 0] ∧ b2 = []) ∧
    (if c.tnf = true ∧ winType ≠ 1 then m'.isTnf < 2 ∧ b3 = [decide (m'.isTnf = 1)] else m'.isTnf = m.isTnf ∧ b3 = []) ∧
    m'.prevTiles = m'.tiles ∧ m'.prevWhite = m'.white ∧ b = b1 ++ b2 ++ b3

/-- **C214** The data of the tiles is read exactly as coded: a frame of at least one tile delivers `m'` if and only if its bits are a code of it, given what
was kept from the frame before; what is kept for the next frame is what was delivered. -/
theorem C214_data (c : Config) (n winType : Nat) (hn : 1 ≤ n) (indep : Bool) (m : Memory) : Reads (data c n winType indep m) (DataCode c n winType indep m) := by
  have key : data c n winType indep m = (do
      let tiles ← (do
        let usePrev ← (if indep = true then (pure 0 : Prog Nat) else bits 1)
        let tiles ← (if usePrev = 0 then repeatP (bits 2) n else pure (m.prevTiles.take n))
        pure (tiles ++ List.replicate (4 - n) 3))
      let white ← (if c.whitening = true ∧ winType ≠ 1 then do
          let usePrev ← (if indep = true then (pure 0 : Prog Nat) else bits 1)
          if usePrev = 0 then whiteLevels n
          else pure (m.prevWhite.take n ++ List.replicate (4 - n) 0)
        else pure [0, 0, 0, 0])
      let tnf ← (if c.tnf = true ∧ winType ≠ 1 then bits 1 else pure m.isTnf)
      pure ⟨tiles, white, tiles, white, tnf⟩) := by
    simp only [bind_assoc, pure_bind]
    rfl
  rw [key]
  refine ((tiles_reads n indep m.prevTiles).bind fun t _ _ => (Reads.ite (fun _ => whites_reads n hn indep m.prevWhite)
    (fun _ => Reads.pure [0, 0, 0, 0])).bind fun w _ _ => (Reads.ite (fun _ => bit_reads) (fun _ => Reads.pure m.isTnf)).bind fun f _ _ =>
    Reads.pure (⟨t, w, t, w, f⟩ : Memory)).congr fun m' b => ?_
  unfold DataCode
  constructor
  · rintro ⟨t, b1, _, h1, ⟨w, b2, _, h2, ⟨f, b3, _, h3, ⟨rfl, rfl⟩, rfl⟩, rfl⟩, rfl⟩
    exact ⟨b1, b2, b3, h1, h2, h3, rfl, rfl, by simp⟩
  · rintro ⟨b1, b2, b3, h1, h2, h3, h4, h5, rfl⟩
    refine ⟨m'.tiles, b1, b2 ++ b3, h1, ⟨m'.white, b2, b3, h2, ⟨m'.isTnf, b3, [], h3, ⟨?_, rfl⟩, by simp⟩, rfl⟩, by simp⟩
    obtain ⟨p1, p2, p3, p4, p5⟩ := m'
    simp only at h4 h5
    subst h4 h5
    rfl

/-- **C214** Whatever is read, the numbers of the tiles stay below 4 and the levels of whitening at most 2, for all four tiles. -/
theorem C214_ranges (c : Config) (n winType : Nat) (hn : 1 ≤ n) (hn4 : n ≤ 4) (indep : Bool) (m m' : Memory) (l l' : List Bool)
    (hm : m.prevTiles.length = 4 ∧ (∀ t ∈ m.prevTiles, t < 4) ∧ m.prevWhite.length = 4 ∧ ∀ w ∈ m.prevWhite, w ≤ 2)
    (h : run (data c n winType indep m) l = .ok (m', l')) :
    (m'.tiles.length = 4 ∧ ∀ t ∈ m'.tiles, t < 4) ∧ (m'.white.length = 4 ∧ ∀ w ∈ m'.white, w ≤ 2) ∧
      m'.prevTiles = m'.tiles ∧ m'.prevWhite = m'.white := by
  obtain ⟨b, ⟨b1, b2, b3, h1, h2, h3, h4, h5, -⟩, -⟩ := (C214_data c n winType hn indep m _ _ _).1 h
  obtain ⟨m1, m2, m3, m4⟩ := hm
  refine ⟨?_, ?_, h4, h5⟩
  · rcases h1 with ⟨-, e, -⟩ | ⟨ts, e1, e2, e, -⟩
    · rw [e]
      refine ⟨by simp [m1]; omega, ?_⟩
      intro t ht
      rcases List.mem_append.1 ht with ht | ht
      · exact m2 t (List.mem_of_mem_take ht)
      · rw [List.eq_of_mem_replicate ht]; decide
    · rw [e]
      refine ⟨by simp [e1]; omega, ?_⟩
      intro t ht
      rcases List.mem_append.1 ht with ht | ht
      · exact e2 t ht
      · rw [List.eq_of_mem_replicate ht]; decide
  · split at h2
    · rcases h2 with ⟨-, e, -⟩ | ⟨w, hw, e, -⟩ | ⟨ws, e1, e2, e, -⟩
      · rw [e]
        refine ⟨by simp [m3]; omega, ?_⟩
        intro t ht
        rcases List.mem_append.1 ht with ht | ht
        · exact m4 t (List.mem_of_mem_take ht)
        · rw [List.eq_of_mem_replicate ht]; decide
      · rw [e]
        refine ⟨by simp; omega, ?_⟩
        intro t ht
        rcases List.mem_append.1 ht with ht | ht
        · rw [List.eq_of_mem_replicate ht]; exact hw
        · rw [List.eq_of_mem_replicate ht]; decide
      · rw [e]
        refine ⟨by simp [e1]; omega, ?_⟩
        intro t ht
        rcases List.mem_append.1 ht with ht | ht
        · exact e2 t ht
        · rw [List.eq_of_mem_replicate ht]; decide
    · rw [h2.1]
      simp

example : run (data ⟨0, 0, false, true, true⟩ 3 0 false Memory.init) [false, true, false, false, true, true, true, false, true, false, true, true, true, false, true] =
    .ok (⟨[2, 1, 3, 3], [1, 2, 0, 0], [2, 1, 3, 3], [1, 2, 0, 0], 1⟩, []) := by decide

end Verif.Igf
