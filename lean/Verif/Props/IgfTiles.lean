import Verif.Model.Igf
import Verif.Spec.Igf
import Verif.Props.FdStereo
import Mathlib.Data.List.GetD

/-!
# Gap filling: tiles and source lines
-/

namespace Verif.Igf

open Fd (bandTable bandsAt bandsAt_mem)

theorem advance_ok {off : Nat → Res Nat} {f : Nat → Nat} {n : Nat} (ho : ∀ j, 1 ≤ j → j ≤ n → off j = .ok (f j)) (lim : Int)
    (hl : lim ≤ f n) (fuel j : Nat) (h1 : 1 ≤ j) (hj : j ≤ n) (hf : n < fuel + j) (hb : ∀ i, 1 ≤ i → i < j → (f i : Int) < lim) :
    ∃ k, advance off lim fuel j = .ok k ∧ 1 ≤ k ∧ k ≤ n ∧ lim ≤ f k ∧ ∀ i, 1 ≤ i → i < k → (f i : Int) < lim := by
  induction fuel generalizing j with
  | zero => omega
  | succ fuel ih =>
    unfold advance
    rw [ho j h1 hj, Res.ok_bind]
    by_cases hv : (f j : Int) < lim
    · rw [if_pos hv]
      have : j ≠ n := by rintro rfl; omega
      refine ih (j + 1) (by omega) (by omega) (by omega) ?_
      intro i hi hij
      by_cases h : i = j
      · subst h; exact hv
      · exact hb i hi (by omega)
    · rw [if_neg hv]
      exact ⟨j, rfl, h1, hj, by omega, hb⟩

theorem tileLoop_ok {off : Nat → Res Nat} {f : Nat → Nat} {N : Nat} (hN : N ≤ 63) (ho : ∀ j, 1 ≤ j → j ≤ N → off j = .ok (f j))
    (hf : Ends f N) (high : Bool) (start stop quarter : Nat) (h1 : 1 ≤ start) (hstop : stop ≤ N) (hq : 1 ≤ quarter) (n mem p : Nat)
    (hn : n ≤ 4) (hp : start ≤ p) (hps : p < stop) (hm : high = false → mem = p) (hlow : high = false → 1 ≤ n)
    (hhigh : high = true → (f stop : Int) - f p ≤ n * quarter) :
    ∃ l, tileLoop off high start stop quarter (f stop) n mem (f p) = .ok l ∧ 1 ≤ l.length ∧ l.length ≤ n ∧ (∀ t ∈ l, 4 ≤ t) ∧
      (∀ k, k ≤ l.length → ∃ j, p ≤ j ∧ j ≤ stop ∧ (f p : Int) + (l.take k).sum = f j) ∧ (f p : Int) + l.sum = f stop := by
  induction n generalizing mem p with
  | zero =>
    exfalso
    cases high
    · exact absurd (hlow rfl) (by omega)
    · have := hhigh rfl
      have := hf.up p stop (by omega) hps hstop
      simp at *; omega
  | succ n ih =>
    have hup := hf.up p stop (by omega) hps hstop
    obtain ⟨j, e, hj1, hjN, hlim, hmin⟩ := advance_ok ho (min ((f p : Int) + quarter) (f stop))
      (by
        have : f stop ≤ f N := by
          rcases Nat.lt_or_ge stop N with h | h
          · exact le_of_lt (hf.up stop N (by omega) h le_rfl)
          · rw [show stop = N by omega]
        omega) 64 1 le_rfl (by omega) (by omega) (by intro i hi hi'; omega)
    have hjs : j ≤ stop := by
      by_contra h
      have := hmin stop (by omega) (by omega)
      omega
    have hpj : p < j := by
      by_contra h
      rcases Nat.lt_or_ge j p with h' | h'
      · have := hf.up j p hj1 h' (by omega)
        omega
      · have : j = p := by omega
        subst this
        omega
    have hal : p < align high (3 - n) start stop mem j ∧ align high (3 - n) start stop mem j ≤ stop ∧
        (high = true → align high (3 - n) start stop mem j = j) ∧ (high = false → n = 0 → align high (3 - n) start stop mem j = stop) := by
      unfold align
      cases high
      · have := hm rfl
        simp only [Bool.false_eq_true, if_false]
        split
        · exact ⟨hps, le_rfl, by simp, by intro _ _; rfl⟩
        · rename_i h3
          split
          · rename_i h4
            exact ⟨by omega, by omega, by simp, by omega⟩
          · exact ⟨hpj, hjs, by simp, by omega⟩
      · simp only [if_true]
        exact ⟨hpj, hjs, by simp, by simp⟩
    obtain ⟨ha1, ha2, ha3, ha4⟩ := hal
    unfold tileLoop
    rw [e, Res.ok_bind]
    simp only
    generalize align high (3 - n) start stop mem j = a at *
    rw [ho a (by omega) (by omega), Res.ok_bind]
    have hfa := hf.up p a (by omega) ha1 (by omega)
    have hfas : f a ≤ f stop := by
      rcases Nat.lt_or_ge a stop with h | h
      · exact le_of_lt (hf.up a stop (by omega) h hstop)
      · rw [show a = stop by omega]
    have h4p := hf.four p (by omega) (by omega)
    have h4a := hf.four a (by omega) (by omega)
    have ht : max 2 (min ((f a : Int) - f p) ((f stop : Int) - f p)) = (f a : Int) - f p := by omega
    rw [ht]
    by_cases hend : (f p : Int) + ((f a : Int) - f p) = f stop
    · rw [if_pos hend]
      refine ⟨_, rfl, by simp, by simp, by simp; omega, ?_, by simpa using hend⟩
      intro k hk
      simp only [List.length_singleton] at hk
      rcases Nat.eq_zero_or_pos k with h | h
      · subst h
        exact ⟨p, le_rfl, by omega, by simp⟩
      · have : k = 1 := by omega
        subst this
        exact ⟨stop, by omega, le_rfl, by simpa using hend⟩
    · rw [if_neg hend]
      have hastop : a < stop := by
        rcases Nat.lt_or_ge a stop with h | h
        · exact h
        · exfalso
          apply hend
          rw [show a = stop by omega]
          omega
      have ez : (f p : Int) + ((f a : Int) - f p) = f a := by omega
      rw [ez]
      obtain ⟨l, e2, l1, l2, l3, l4, l5⟩ := ih (if high then mem else a) a (by omega) (by omega) hastop (by intro h; simp [h])
        (by intro h; by_contra h0; have := ha4 h (by omega); omega)
        (by
          intro h
          have := hhigh h
          have := ha3 h
          subst this
          push_cast at this ⊢
          have e1 : min ((f p : Int) + quarter) (f stop) = (f p : Int) + quarter := by
            have hx : (f a : Int) ≠ f stop := by rw [← ez]; exact hend
            omega
          rw [e1] at hlim
          have h2 := hhigh h
          push_cast at h2
          linarith)
      rw [e2, Res.ok_bind]
      refine ⟨_, rfl, by simp, by simp; omega, ?_, ?_, ?_⟩
      · intro t ht
        simp only [List.mem_cons] at ht
        rcases ht with rfl | ht
        · omega
        · exact l3 t ht
      · intro k hk
        rcases k with _ | k
        · exact ⟨p, le_rfl, by omega, by simp⟩
        · simp only [List.length_cons] at hk
          obtain ⟨j', q1, q2, q3⟩ := l4 k (by omega)
          refine ⟨j', by omega, q2, ?_⟩
          simp only [List.take_succ_cons, List.sum_cons]
          omega
      · simp only [List.sum_cons]
        omega

/-- **C208** For band ends that are increasing multiples of 4, a range of bands that is not empty and starts above the smallest line is cut into one to
four tiles; every tile has at least 4 lines and begins and ends at ends of bands, the tiles follow each other, and the last one ends
where the range ends. -/
theorem C208_tiles {off : Nat → Res Nat} {f : Nat → Nat} {N : Nat} (hN : N ≤ 63) (ho : ∀ j, 1 ≤ j → j ≤ N → off j = .ok (f j))
    (hf : Ends f N) (g : Grid) (high : Bool) (h1 : 1 ≤ g.start) (h2 : g.start < g.stop) (h3 : g.stop ≤ N) (hl : g.least < f g.start) :
    ∃ l, tileWidths g high off = .ok l ∧ Cuts f g.start g.stop l := by
  have hup := hf.up g.start g.stop h1 h2 h3
  have h4p := hf.four g.start h1 (by omega)
  have h4s := hf.four g.stop (by omega) h3
  obtain ⟨l, e, l1, l2, l3, l4, l5⟩ := tileLoop_ok hN ho hf high g.start g.stop ((max 8 ((f g.stop : Int) - f g.start)).toNat / 4) h1 h3
    (by omega) 4 g.start g.start le_rfl le_rfl h2 (by simp) (by simp) (by intro _; push_cast; omega)
  refine ⟨l, ?_, l1, l2, l3, l4, l5⟩
  unfold tileWidths
  rw [ho g.start h1 (by omega), Res.ok_bind, ho g.stop (by omega) h3, Res.ok_bind]
  simp only
  rw [if_pos ⟨hl, hup⟩]
  exact e

/-- The band ends of a table, shifted, as a function. -/
def endsOf (tbl : List Nat) (shift j : Nat) : Nat := tbl.getD (j - 1) 0 * 2 ^ shift

theorem offset_ok (tbl : List Nat) (shift j : Nat) (h1 : 1 ≤ j) (h2 : j ≤ tbl.length) : offset tbl shift j = .ok (endsOf tbl shift j) := by
  obtain ⟨j, rfl⟩ : ∃ k, j = k + 1 := ⟨j - 1, by omega⟩
  unfold offset endsOf
  have : j < tbl.length := by omega
  simp [this]

/-- What the tables are like, checked for each. -/
def tableOk (tbl : List Nat) : Bool :=
  decide (tbl.length ≤ 63) && (List.range tbl.length).all fun j =>
    decide (tbl.getD j 0 % 4 = 0) && (List.range j).all fun i => decide (tbl.getD i 0 < tbl.getD j 0)

theorem ends_of_ok {tbl : List Nat} (h : tableOk tbl = true) (shift : Nat) : tbl.length ≤ 63 ∧ Ends (endsOf tbl shift) tbl.length := by
  simp only [tableOk, Bool.and_eq_true, decide_eq_true_eq, List.all_eq_true, List.mem_range] at h
  obtain ⟨h0, h⟩ := h
  refine ⟨h0, ?_, ?_⟩
  · intro i j h1 h2 h3
    have := (h (j - 1) (by omega)).2 (i - 1) (by omega)
    unfold endsOf
    exact Nat.mul_lt_mul_of_pos_right this (by positivity)
  · intro j h1 h2
    have := (h (j - 1) (by omega)).1
    unfold endsOf
    rw [Nat.mul_mod, this]
    simp

theorem tables_ok : ∀ b ∈ bandTable, tableOk b.long = true ∧ tableOk b.short = true := by decide +kernel

/-- The ranges of bands, checked for each table and all indices. -/
def rangesOk (b : Fd.Bands) : Bool :=
  (List.range 16).all fun i => (List.range 16).all fun j =>
    let s := startLong b.long.length i
    let e := stopLong b.long.length s j
    let ss := shortBand b.short (endsOf b.long 0 s.toNat / 8)
    let se := shortBand b.short (endsOf b.long 0 e.toNat / 8)
    decide (1 ≤ s ∧ s < e ∧ e ≤ b.long.length ∧ 1 ≤ ss ∧ ss ≤ se ∧ se ≤ b.short.length)

theorem ranges_ok : ∀ b ∈ bandTable, rangesOk b = true := by decide +kernel

/-- The tiles of a grid, or none if the range is empty or starts too low. -/
theorem widths_total {tbl : List Nat} (h : tableOk tbl = true) (shift : Nat) (g : Grid) (high : Bool) (h1 : 1 ≤ g.start) (h2 : g.start ≤ g.stop)
    (h3 : g.stop ≤ tbl.length) :
    ∃ l, tileWidths g high (offset tbl shift) = .ok l ∧
      ((l = [] ∧ (g.start = g.stop ∨ endsOf tbl shift g.start ≤ g.least)) ∨ (g.start < g.stop ∧ g.least < endsOf tbl shift g.start ∧
        Cuts (endsOf tbl shift) g.start g.stop l)) := by
  obtain ⟨hN, hf⟩ := ends_of_ok h shift
  by_cases hs : g.start < g.stop ∧ g.least < endsOf tbl shift g.start
  · obtain ⟨l, e, hc⟩ := C208_tiles hN (offset_ok tbl shift) hf g high h1 hs.1 h3 hs.2
    exact ⟨l, e, Or.inr ⟨hs.1, hs.2, hc⟩⟩
  · refine ⟨[], ?_, Or.inl ⟨rfl, by omega⟩⟩
    unfold tileWidths
    rw [offset_ok tbl shift _ h1 (by omega), Res.ok_bind, offset_ok tbl shift _ (by omega) h3, Res.ok_bind]
    simp only
    rw [if_neg]
    rintro ⟨ha, hb⟩
    apply hs
    refine ⟨?_, ha⟩
    rcases Nat.lt_or_ge g.start g.stop with h | h
    · exact h
    · rw [show g.start = g.stop by omega] at hb
      omega

/-- A grid over a table: the bands exist and the number of tiles is the number of tiles there are. -/
def GridOk (tbl : List Nat) (high : Bool) (g : Grid) : Prop :=
  1 ≤ g.start ∧ g.start ≤ g.stop ∧ g.stop ≤ tbl.length ∧ g.tiles ≤ 4 ∧ ∃ l, tileWidths g high (offset tbl 0) = .ok l ∧ g.tiles = l.length

theorem least_ok (grid ccfl rate : Nat) (h : 2 ≤ rate) : ∃ m, least grid ccfl rate = .ok m ∧ m < 256 := by
  unfold least
  simp only
  rw [if_neg (by omega)]
  exact ⟨_, rfl, Nat.mod_lt _ (by decide)⟩

/-- **C208** For every band table, all start and stop indices and every sampling rate above 1, the set up is defined: the four grids have bands of
the window, and the range of long windows is not empty. -/
theorem C208_setup {b : Fd.Bands} (hb : b ∈ bandTable) (c : Config) (h1 : c.startIndex < 16) (h2 : c.stopIndex < 16) (ccfl rate : Nat) (hr : 2 ≤ rate) :
    ∃ g0 g1 m2 m3, setup b c ccfl rate = .ok [g0, g1, { g1 with least := m2 }, { g1 with least := m3 }] ∧
      GridOk b.long c.highRes g0 ∧ GridOk b.short c.highRes g1 ∧ g0.start < g0.stop ∧
      least 0 ccfl rate = .ok g0.least ∧ least 1 ccfl rate = .ok g1.least ∧ least 2 ccfl rate = .ok m2 ∧ least 3 ccfl rate = .ok m3 := by
  have hR := ranges_ok b hb
  obtain ⟨hL, hS⟩ := tables_ok b hb
  simp only [rangesOk, List.all_eq_true, List.mem_range, decide_eq_true_eq] at hR
  obtain ⟨r1, r2, r3, r4, r5, r6⟩ := hR c.startIndex h1 c.stopIndex h2
  obtain ⟨m0, e0, hm0⟩ := least_ok 0 ccfl rate hr
  obtain ⟨m1, e1, hm1⟩ := least_ok 1 ccfl rate hr
  obtain ⟨m2, e2, -⟩ := least_ok 2 ccfl rate hr
  obtain ⟨m3, e3, -⟩ := least_ok 3 ccfl rate hr
  have hlen := (ends_of_ok hS 0).1
  generalize hs : startLong b.long.length c.startIndex = s at *
  generalize he : stopLong b.long.length s c.stopIndex = e at *
  obtain ⟨l0, w0, c0⟩ := widths_total hL 0 ⟨s.toNat, e.toNat, 0, m0⟩ c.highRes (by simp; omega) (by simp; omega) (by simp; omega)
  obtain ⟨l1, w1, c1⟩ := widths_total hS 0 ⟨((shortBand b.short (endsOf b.long 0 s.toNat / 8)) % 256).toNat,
    ((shortBand b.short (endsOf b.long 0 e.toNat / 8)) % 256).toNat, 0, m1⟩ c.highRes (by simp; omega) (by simp; omega) (by simp; omega)
  refine ⟨⟨s.toNat, e.toNat, l0.length, m0⟩, ⟨((shortBand b.short (endsOf b.long 0 s.toNat / 8)) % 256).toNat,
    ((shortBand b.short (endsOf b.long 0 e.toNat / 8)) % 256).toNat, l1.length, m1⟩, m2, m3, ?_, ?_, ?_, ?_, e0, e1, e2, e3⟩
  · unfold setup setupLong setupShort
    simp only [hs, he]
    rw [e0, Res.ok_bind, w0, Res.ok_bind, Res.ok_bind, offset_ok b.long 0 _ (by omega) (by omega), Res.ok_bind, offset_ok b.long 0 _ (by omega) (by omega), Res.ok_bind, e1,
      Res.ok_bind, w1, Res.ok_bind, Res.ok_bind, e2, Res.ok_bind, e3, Res.ok_bind]
  · refine ⟨by simp; omega, by simp; omega, by simp; omega, ?_, l0, w0, rfl⟩
    rcases c0 with ⟨rfl, -⟩ | ⟨-, -, hc⟩
    · simp
    · exact hc.2.1
  · refine ⟨by simp; omega, by simp; omega, by simp; omega, ?_, l1, w1, rfl⟩
    rcases c1 with ⟨rfl, -⟩ | ⟨-, -, hc⟩
    · simp
    · exact hc.2.1
  · simp; omega

/-- **C208** The range of long windows: it starts at the band the start index says, counted from 11, but not within the last five bands; it ends at the last band
for stop index 15 and otherwise after as many sixteenths of the bands above the start as the stop index says plus 2, rounded down, and at least one band. -/
theorem C208_range {b : Fd.Bands} (hb : b ∈ bandTable) (c : Config) (h1 : c.startIndex < 16) (h2 : c.stopIndex < 16) (ccfl rate : Nat) {g : Grid} {gs : List Grid}
    (h : setup b c ccfl rate = .ok (g :: gs)) : g.start ≤ 11 + c.startIndex ∧ g.start + 5 ≤ b.long.length ∧
      (g.start = 11 + c.startIndex ∨ g.start + 5 = b.long.length) ∧ (c.stopIndex = 15 → g.stop = b.long.length) ∧
      (c.stopIndex < 15 → 16 * (g.stop - g.start) ≤ max 16 ((b.long.length - g.start - 1) * (c.stopIndex + 2)) ∧
        (b.long.length - g.start - 1) * (c.stopIndex + 2) < 16 * (g.stop - g.start + 1)) := by
  have hR := ranges_ok b hb
  simp only [rangesOk, List.all_eq_true, List.mem_range, decide_eq_true_eq] at hR
  obtain ⟨r1, r2, r3, -⟩ := hR c.startIndex h1 c.stopIndex h2
  have hg : g.start = (startLong b.long.length c.startIndex).toNat ∧ g.stop = (stopLong b.long.length (startLong b.long.length c.startIndex) c.stopIndex).toNat := by
    unfold setup setupLong at h
    simp only [Res.bind_eq_ok] at h
    obtain ⟨g0, ⟨m, -, w, -, e0⟩, h⟩ := h
    cases e0
    obtain ⟨x1, -, x2, -, x3, -, e⟩ := h
    cases e
    exact ⟨rfl, rfl⟩
  obtain ⟨e1, e2⟩ := hg
  have e3 : (g.start : Int) = startLong b.long.length c.startIndex := by omega
  have e4 : (g.stop : Int) = stopLong b.long.length g.start c.stopIndex := by rw [e3]; omega
  rw [← e3] at r1 r2
  have hs : (g.start : Int) = min (11 + (c.startIndex : Int)) (b.long.length - 5) := e3
  refine ⟨by omega, by omega, by omega, fun h15 => ?_, fun h15 => ?_⟩
  · rw [stopLong, if_pos h15] at e4
    omega
  · rw [stopLong, if_neg (by omega)] at e4
    obtain ⟨m, hm⟩ : ∃ m, b.long.length = g.start + 1 + m := ⟨b.long.length - g.start - 1, by omega⟩
    rw [hm] at e4
    have hq : ((g.start + 1 + m : Nat) : Int) - (g.start + 1) = m := by push_cast; ring
    rw [hq] at e4
    rw [show b.long.length - g.start - 1 = m by omega]
    have hle : m * (c.stopIndex + 2) ≤ m * 16 := Nat.mul_le_mul_left _ (by omega)
    have hcast : ((m : Int) * ((c.stopIndex : Int) + 2)) = ((m * (c.stopIndex + 2) : Nat) : Int) := by push_cast; ring
    rw [hcast] at e4
    generalize m * (c.stopIndex + 2) = p at *
    omega

/-! ## Source lines -/

/-- How far below the lines of tile `k` their source lies: the tile is taken from `(5 - s) / 2` tile widths below the start of the range, rounded
down, then up to an even number. -/
def below (l : List Int) (sel : List Nat) (k : Nat) : Int :=
  2 * ((((5 - (sel.getD k 0 : Int)) * l.getD k 0 + 2 * (l.take k).sum) / 2 + 1) / 2)

theorem sum_take_nonneg (l : List Int) (h : ∀ t ∈ l, 4 ≤ t) (k : Nat) : 0 ≤ (l.take k).sum :=
  List.sum_nonneg fun t ht => by have := h t (List.mem_of_mem_take ht); omega

theorem tile_find (bgn tb : Int) (l : List Int) (hl : ∀ t ∈ l, 4 ≤ t) (sel : List Nat) (hs : l.length ≤ sel.length) (h3 : ∀ s ∈ sel, s ≤ 3) (sbs : Int)
    (hb : bgn ≤ sbs) (h1 : sbs ≤ tb) (h2 : tb < sbs + l.sum) :
    ∃ k, k < l.length ∧ tileIdx tb sbs l = k ∧ sbs + (l.take k).sum ≤ tb ∧ tb < sbs + (l.take k).sum + l.getD k 0 ∧
      distance bgn tb sbs l sel = 2 * ((((5 - (sel.getD k 0 : Int)) * l.getD k 0 + 2 * (sbs + (l.take k).sum - bgn)) / 2 + 1) / 2) := by
  induction l generalizing sel sbs with
  | nil => simp at h2; omega
  | cons t ts ih =>
    obtain ⟨s, ss, rfl⟩ : ∃ s ss, sel = s :: ss := by
      cases sel with
      | nil => simp at hs
      | cons s ss => exact ⟨s, ss, rfl⟩
    have ht := hl t (by simp)
    have hs3 := h3 s (by simp)
    by_cases h : tb < sbs + t
    · refine ⟨0, by simp, ?_, by simpa using h1, by simpa using h, ?_⟩
      · unfold tileIdx
        rw [if_pos h]
      · unfold distance
        rw [if_pos ⟨h1, h⟩]
        simp only [List.getD_cons_zero, List.take_zero, List.sum_nil, add_zero]
        have hpos : 0 ≤ (5 - (s : Int)) * t + 2 * (sbs - bgn) := by
          have : 0 ≤ (5 - (s : Int)) * t := mul_nonneg (by omega) (by omega)
          omega
        generalize (5 - (s : Int)) * t + 2 * (sbs - bgn) = x at *
        rw [Int.tdiv_eq_ediv_of_nonneg hpos, Int.tmod_eq_emod_of_nonneg (by omega)]
        omega
    · obtain ⟨k, k1, k2, k3, k4, k5⟩ := ih (fun t ht => hl t (by simp [ht])) ss (by simpa using hs) (fun s h => h3 s (by simp [h])) (sbs + t)
        (by omega) (by omega) (by simp only [List.sum_cons] at h2; omega)
      refine ⟨k + 1, by simpa using k1, ?_, ?_, ?_, ?_⟩
      · unfold tileIdx
        rw [if_neg h, k2]
      · simp only [List.take_succ_cons, List.sum_cons]; omega
      · simp only [List.take_succ_cons, List.sum_cons, List.getD_cons_succ]; omega
      · unfold distance
        rw [if_neg (by omega), k5]
        simp only [List.take_succ_cons, List.sum_cons, List.getD_cons_succ, ← add_assoc]

/-- **C209** A line in the range of tiles lies in one tile, the one found by both searches; its source is the line that lies `below` it if that
is not below the smallest line, and otherwise repeats the lines from the smallest one; in any case it is a line from the smallest one up to
the range, and the place read in the four copies of the spectrum exists. -/
theorem C209_source (least bgn tb : Int) (l : List Int) (sel : List Nat) (h0 : 0 ≤ least) (hb : least < bgn) (hl : ∀ t ∈ l, 4 ≤ t)
    (hs : l.length ≤ sel.length) (h3 : ∀ s ∈ sel, s ≤ 3) (h1 : bgn ≤ tb) (h2 : tb < bgn + l.sum) :
    ∃ k, k < l.length ∧ tileIdx tb bgn l = k ∧ bgn + (l.take k).sum ≤ tb ∧ tb < bgn + (l.take k).sum + l.getD k 0 ∧
      source least bgn tb l sel = (if tb - below l sel k < least then least + tb % (bgn - least) else tb - below l sel k) ∧
      least ≤ source least bgn tb l sel ∧ source least bgn tb l sel < bgn := by
  obtain ⟨k, k1, k2, k3, k4, k5⟩ := tile_find bgn tb l hl sel hs h3 bgn le_rfl h1 h2
  have e : distance bgn tb bgn l sel = below l sel k := by
    rw [k5]
    unfold below
    rw [show bgn + (l.take k).sum - bgn = (l.take k).sum by omega]
  have hm : tb.tmod (bgn - least) = tb % (bgn - least) := Int.tmod_eq_emod_of_nonneg (by omega)
  have hsrc : source least bgn tb l sel = (if tb - below l sel k < least then least + tb % (bgn - least) else tb - below l sel k) := by
    unfold source
    rw [if_pos (by omega)]
    simp only [e, hm]
  refine ⟨k, k1, k2, k3, k4, hsrc, ?_, ?_⟩
  · rw [hsrc]
    split
    · have := Int.emod_nonneg tb (show bgn - least ≠ 0 by omega)
      omega
    · omega
  · rw [hsrc]
    split
    · have := Int.emod_lt_of_pos tb (show 0 < bgn - least by omega)
      omega
    · have hk3 : sel.getD k 0 ≤ 3 := by
        have hk : k < sel.length := by omega
        rw [List.getD_eq_getElem _ _ hk]
        exact h3 _ (List.getElem_mem hk)
      have ht : 4 ≤ l.getD k 0 := by
        rw [List.getD_eq_getElem _ _ k1]
        exact hl _ (List.getElem_mem k1)
      have : 2 * l.getD k 0 ≤ (5 - (sel.getD k 0 : Int)) * l.getD k 0 := mul_le_mul_of_nonneg_right (by omega) (by omega)
      unfold below
      omega

/-- Neighbouring lines of a tile come from neighbouring lines (unless the source of the first lies below the smallest line). -/
theorem C209_neighbours (least bgn tb : Int) (l : List Int) (sel : List Nat) (h0 : 0 ≤ least) (hb : least < bgn) (hl : ∀ t ∈ l, 4 ≤ t)
    (hs : l.length ≤ sel.length) (h3 : ∀ s ∈ sel, s ≤ 3) (h1 : bgn ≤ tb) (h2 : tb + 1 < bgn + l.sum)
    (hk : tileIdx tb bgn l = tileIdx (tb + 1) bgn l) (hlow : least ≤ tb - below l sel (tileIdx tb bgn l)) :
    source least bgn (tb + 1) l sel = source least bgn tb l sel + 1 := by
  obtain ⟨k, -, e1, -, -, s1, -⟩ := C209_source least bgn tb l sel h0 hb hl hs h3 h1 (by omega)
  obtain ⟨k', -, e2, -, -, s2, -⟩ := C209_source least bgn (tb + 1) l sel h0 hb hl hs h3 (by omega) h2
  rw [e1] at hlow hk
  rw [e2] at hk
  subst hk
  rw [s1, s2, if_neg (by omega), if_neg (by omega)]
  omega

/-- In the four copies of the spectrum, 2048 lines each, the place read exists. -/
theorem C209_inside (least bgn tb : Int) (l : List Int) (sel : List Nat) (h0 : 0 ≤ least) (hb : least < bgn) (hl : ∀ t ∈ l, 4 ≤ t)
    (h4 : l.length ≤ 4) (hs : l.length ≤ sel.length) (h3 : ∀ s ∈ sel, s ≤ 3) (h1 : bgn ≤ tb) (h2 : tb < bgn + l.sum) (hend : bgn + l.sum ≤ 1024)
    (w : Int) (hw : 0 ≤ w) (hw2 : w ≤ 896) :
    0 ≤ w + (tileIdx tb bgn l : Int) * 2048 + source least bgn tb l sel ∧
      w + (tileIdx tb bgn l : Int) * 2048 + source least bgn tb l sel < 4 * 2048 := by
  obtain ⟨k, k1, e1, -, -, -, s1, s2⟩ := C209_source least bgn tb l sel h0 hb hl hs h3 h1 h2
  rw [e1]
  omega

example : tileWidths ⟨20, 49, 4, 48⟩ false (offset Fd.sfb48 0) = .ok [220, 192, 192, 288] ∧
    source 48 132 400 [220, 192, 192, 288] [3, 2, 1, 0] = 112 := by decide +kernel

/-- **C210** (refuted) "The smallest line copied lies at 1125 Hz": it is kept in a byte.  At 9000 Hz it is line 0 instead of 256, and at a sampling rate
of 1, which an explicit rate of the configuration can give, the set up divides by 0. -/
theorem C210_refuted : leastLine (lineCount 0) 9000 = 256 ∧ least 0 1024 9000 = .ok 0 ∧
    setup (bandsAt 1) ⟨0, 0, false, false, false⟩ 1024 1 = .ub := by decide +kernel

/-- **C210** (partial) From 9036 Hz on the smallest line is the one it should be.  Missing: lower rates, for which it is taken modulo 256. -/
theorem C210_least_partial (winType rate : Nat) (hr : 9036 ≤ rate) : least winType 1024 rate = .ok (leastLine (lineCount winType) rate) := by
  unfold least leastLine lineCount
  simp only
  rw [if_neg (by omega)]
  have key : ∀ x, x ≤ 1152000 → (x / (rate / 2) + x / (rate / 2) % 2) % 256 = 2 * ((x / (rate / 2) + 1) / 2) := by
    intro x hx
    have : x / (rate / 2) ≤ 254 := by
      have h : x / (rate / 2) < 255 := by
        rw [Nat.div_lt_iff_lt_mul (by omega)]
        omega
      omega
    omega
  congr 1
  split
  · rename_i h2
    subst h2
    exact key _ (by norm_num)
  · split <;> exact key _ (by norm_num)

example : least 0 1024 48000 = .ok 48 ∧ least 1 1024 44100 = .ok 6 := by decide

/-- **C211** (refuted) "Whitening reads lines of the spectrum": with the smallest line 0, as at 9000 Hz, it reads the three places before it. -/
theorem C211_refuted : ∃ g, setupLong (bandsAt 9000) ⟨0, 15, false, true, false⟩ 1024 9000 = .ok g ∧ g.tiles = 4 ∧
    (-3 : Int) ∈ whiteningReads g.least (endsOf (bandsAt 9000).long 0 g.start) :=
  ⟨⟨11, 40, 4, 0⟩, by decide +kernel⟩

/-- **C211** (partial) If the smallest line is at least 3, whitening reads lines below the gap only.  Missing: a smallest line 0 or 2. -/
theorem C211_reads_partial (least bgn : Int) (h : 3 ≤ least) : ∀ i ∈ whiteningReads least bgn, 0 ≤ i ∧ i < bgn := by
  intro i hi
  simp only [whiteningReads, List.mem_append, List.mem_flatMap, List.mem_map, List.mem_range] at hi
  rcases hi with ⟨k, hk, j, hj, rfl⟩ | ⟨k, hk, rfl⟩
  · omega
  · omega

/-- At the sampling rates from 9036 to 96000 Hz that holds for long windows and for parts of linear prediction frames, the windows that are whitened. -/
theorem C211_rates_partial (winType rate : Nat) (h1 : winType ≠ 1) (hr : 9036 ≤ rate) (hr2 : rate ≤ 96000) (bgn : Int) :
    ∃ m, least winType 1024 rate = .ok m ∧ ∀ i ∈ whiteningReads m bgn, 0 ≤ i ∧ i < bgn := by
  refine ⟨_, C210_least_partial winType rate hr, C211_reads_partial _ bgn ?_⟩
  have h : lineCount winType = 512 ∨ lineCount winType = 1024 := by unfold lineCount; rw [if_neg h1]; split <;> simp
  have : 4 ≤ lineCount winType * 1125 / (rate / 2) := by
    rw [Nat.le_div_iff_mul_le (by omega)]
    rcases h with h | h <;> rw [h] <;> omega
  unfold leastLine
  omega

end Verif.Igf
