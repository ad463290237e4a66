import Verif.Proofs.Always
import Verif.Props.LpdFreq

/-! # C158 to C162: the filters of a frame -/

namespace Verif.Lpd

open Prog
open Avq (IsCode extension baseNumber upTo)

/-! ## C158: the array of filter indices -/

theorem put_always {out : List Int} {x n : Nat} (h : out.length ≤ n) (hn : n < 110) : Always (fun o => o.length ≤ n + 1) (put out x) := by
  unfold put
  rw [if_pos (by omega)]
  exact Always.pure (by simp; omega)

theorem several_always (k w : Nat) {out : List Int} {n : Nat} (h : out.length ≤ n) (hn : n + k ≤ 110) :
    Always (fun o => o.length ≤ n + k) (several k w out) := by
  induction k generalizing out n with
  | zero => exact Always.pure (by simpa using h)
  | succ k ih =>
    unfold several
    refine Always.bits.bind fun v _ => (put_always h (by omega)).bind fun o ho => ?_
    exact (ih ho (by omega)).mono fun a ha => by omega

theorem indices_always (q : Nat) {out : List Int} {n : Nat} (h : out.length ≤ n) (hn : n + 9 ≤ 110) :
    Always (fun o => o.length ≤ n + 9) (indices q out) := by
  unfold indices
  split
  · exact (several_always 1 _ h (by omega)).bind fun o ho => (several_always 8 _ ho (by omega)).mono fun a ha => by omega
  · exact Always.pure (by omega)

theorem ones_always (n k : Nat) : Always (fun _ => True) (ones n k) := by
  induction n generalizing k with
  | zero => trivial
  | succ n ih =>
    unfold ones
    refine Always.bits.bind fun b _ => ?_
    split
    · exact ih _
    · trivial

theorem unary_always : Always (fun _ => True) unary := Always.avail.bind fun _ _ => ones_always _ _

theorem plain_always : Always (fun _ => True) plain := unary_always.bind fun _ _ => Always.pure trivial

theorem extendA_always (q : Nat) : Always (fun _ => True) (extendA q) := by
  unfold extendA
  split
  · exact unary_always.bind fun _ _ => Always.pure trivial
  · trivial

theorem extendB_always (q : Nat) : Always (fun _ => True) (extendB q) := by
  unfold extendB
  split
  · exact unary_always.bind fun _ _ => Always.pure trivial
  · trivial

theorem numbers_always (nk : Nat) (full : Bool) : Always (fun _ => True) (numbers nk full) := by
  unfold numbers
  split
  · exact plain_always.bind fun _ _ => plain_always.bind fun _ _ => Always.pure trivial
  · split
    · refine Always.bits.bind fun _ _ => Always.bits.bind fun _ _ => ?_
      split
      · exact (extendA_always _).bind fun _ _ => (extendA_always _).bind fun _ _ => Always.pure trivial
      · exact (extendB_always _).bind fun _ _ => (extendB_always _).bind fun _ _ => Always.pure trivial
    · trivial

theorem codes_always (nk : Nat) (full : Bool) {out : List Int} {n : Nat} (h : out.length ≤ n) (hn : n + 20 ≤ 110) :
    Always (fun o => o.length ≤ n + 20) (codes nk full out) := by
  unfold codes
  refine (numbers_always nk full).bind fun p _ => ?_
  obtain ⟨a, b⟩ := p
  refine (put_always h (by omega)).bind fun o1 h1 => (put_always h1 (by omega)).bind fun o2 h2 => ?_
  exact (indices_always a h2 (by omega)).bind fun o3 h3 => (indices_always b h3 (by omega)).mono fun o4 h4 => by omega

theorem mode_always (set nk : Nat) : Always (fun _ => True) (mode set nk) := by
  match set with
  | 0 | 2 => exact Always.bits.bind fun _ _ => Always.pure trivial
  | 1 =>
    simp only [mode]
    refine Always.bits.bind fun _ _ => ?_
    split
    · trivial
    · refine Always.bits.bind fun _ _ => ?_
      split <;> trivial
  | 3 =>
    simp only [mode]
    refine Always.bits.bind fun _ _ => ?_
    split
    · trivial
    · refine Always.bits.bind fun _ _ => ?_
      split
      · trivial
      · exact Always.bits.bind fun _ _ => Always.pure trivial
  | n + 4 => trivial

theorem filter_always (set : Nat) (full : Bool) {s : Nat × List Int} {n : Nat} (h : s.2.length ≤ n) (hn : n + 22 ≤ 110) :
    Always (fun o => o.2.length ≤ n + 22) (filter set full s) := by
  unfold filter
  refine (mode_always set s.1).bind fun p _ => ?_
  obtain ⟨m, nk⟩ := p
  refine (put_always h (by omega)).bind fun o1 h1 => ?_
  refine Always.bind (R := fun o => o.length ≤ n + 2) ?_ fun o2 h2 => Always.bind (R := fun o => o.length ≤ n + 22) ?_
    fun o3 h3 => Always.pure h3
  · split
    · exact (several_always 1 8 h1 (by omega)).mono fun o ho => by omega
    · exact Always.pure (by omega)
  · split
    · exact Always.pure (by omega)
    · exact (codes_always nk full h2 (by omega)).mono fun o ho => by omega

theorem opt_always {c : Prop} [Decidable c] {q : Nat × List Int → Prog (Nat × List Int)} {s : Nat × List Int} {n : Nat}
    (h : s.2.length ≤ n) (hq : Always (fun o => o.2.length ≤ n + 22) (q s)) :
    Always (fun o => o.2.length ≤ n + 22) (if c then q s else pure s) := by
  split
  · exact hq
  · exact Always.pure (by omega)

/-- Whatever the fields of the filters are, at most 109 entries are stored in the array of 110. -/
theorem C158_entries (first full : Bool) (mod : Nat → Nat) : Always (fun out => out.length ≤ 109) (filters first full mod) := by
  unfold filters
  refine (several_always 1 8 (out := []) (n := 0) (by simp) (by omega)).bind fun o1 h1 =>
    (codes_always 0 false h1 (by omega)).bind fun o2 h2 => ?_
  refine (opt_always (q := filter 0 false) h2 (filter_always 0 false h2 (by omega))).bind fun s3 h3 => ?_
  refine (opt_always (q := filter 2 false) h3 (filter_always 2 false h3 (by omega))).bind fun s4 h4 => ?_
  refine (opt_always (q := filter 1 full) h4 (filter_always 1 full h4 (by omega))).bind fun s5 h5 => ?_
  refine (opt_always (q := filter 3 false) h5 (filter_always 3 false h5 (by omega))).bind fun s6 h6 => ?_
  exact Always.pure (by omega)

/-- The code of the point 0 but for its sign bits in codebook 2. -/
def smallCode : Code := ⟨2, 0, List.replicate 8 0⟩

theorem smallCode_valid : smallCode.Valid := ⟨⟨by decide, by decide, by decide⟩, by decide, by decide⟩

/-- A frame with 109 entries: all filters are sent, each with a row of the tables and two codes. -/
theorem C158_most : ∃ (fs : Nat → Coded) (out : List Int), run (filters true false fun _ => 0) (filterBits true false (fun _ => 0) fs) = .ok (out, []) ∧
    out.length = 109 := by
  refine ⟨fun _ => ⟨0, 0, smallCode, smallCode⟩, _, (filters_reads true false (fun _ => 0) _ _ _).mpr ⟨_, ⟨_, fun i hi => ?_, rfl, rfl⟩,
    (List.append_nil _).symm⟩, by decide⟩
  refine ⟨?_, by decide, smallCode_valid, smallCode_valid⟩
  match i with
  | 0 | 1 | 2 | 3 | 4 => decide
  | n + 5 => simp [sent] at hi

/-- Bits with a codebook number of 69. -/
def longNumber : List UInt8 := [0, 255, 255, 255, 255, 255, 255, 255, 255, 248, 0, 0, 0, 0, 0, 0, 0, 0, 0, 0]

/-- Refuted: filters are read without undefined behaviour.  Codebook numbers have no limit, and with number 69 the Voronoi indices
are fields of 33 bits. -/
theorem C158_refuted (first full : Bool) (mod : Nat → Nat) : (filters first full mod).runC (BitBuf.create longNumber) = .ub := by
  have e : (several 1 8 [] >>= codes 0 false).runC (BitBuf.create longNumber) = .ub := by decide +kernel
  rw [filters_eq, runC_bind, e]
  rfl

/-! ## C159: filters are decoded as coded -/

/-- Whatever is accepted is the code of filters, and the rows are what those stand for; the other rows are left alone. -/
theorem C159_decoded (root : Rat → Rat) (T : Tables) {first full : Bool} {mod : Nat → Nat} {l l' : List Bool} {out : List Int}
    (h : run (filters first full mod) l = .ok (out, l')) (row : Nat → List Rat) :
    ∃ (fs : Nat → Coded) (v : Nat → List Int) (row' : Nat → List Rat),
      (∀ i, sent first full mod i = true → (fs i).Valid i ∧ VectorOf (fs i) (v i)) ∧
      l = filterBits first full mod fs ++ l' ∧ dequant root T out first full mod row = .ok row' ∧
      (∀ i, sent first full mod i = true → Stands root T.start T.weight (if full then 2 else 4) row' (fs i) (v i) i) ∧
      (∀ i, (i ≠ 4 → sent first full mod i = false) → i ≠ (if full then 2 else 4) → row' i = row i) := by
  obtain ⟨_, ⟨fs, hf, rfl, rfl⟩, rfl⟩ := (filters_reads first full mod _ _ _).mp h
  have hv : ∀ i, ∃ v, sent first full mod i = true → VectorOf (fs i) v := fun i => by
    by_cases hi : sent first full mod i = true
    · obtain ⟨v, hv⟩ := vectorOf (hf i hi)
      exact ⟨v, fun _ => hv⟩
    · exact ⟨[], fun e => absurd e hi⟩
  choose v hv using hv
  obtain ⟨row', h1, h2, h3⟩ := dequant_ok root T first full mod (fs := fs) (v := v) (fun i hi => ⟨hf i hi, hv i hi⟩) row
  exact ⟨fs, v, row', fun i hi => ⟨hf i hi, hv i hi⟩, rfl, h1, h2, h3⟩

/-- Whatever filters are coded, they are accepted, with whatever follows them left, and the rows are what they stand for. -/
theorem C159_coded (root : Rat → Rat) (T : Tables) {first full : Bool} {mod : Nat → Nat} {fs : Nat → Coded} {v : Nat → List Int}
    (hf : ∀ i, sent first full mod i = true → (fs i).Valid i ∧ VectorOf (fs i) (v i)) (l' : List Bool) (row : Nat → List Rat) :
    ∃ out row', run (filters first full mod) (filterBits first full mod fs ++ l') = .ok (out, l') ∧
      dequant root T out first full mod row = .ok row' ∧
      (∀ i, sent first full mod i = true → Stands root T.start T.weight (if full then 2 else 4) row' (fs i) (v i) i) ∧
      (∀ i, (i ≠ 4 → sent first full mod i = false) → i ≠ (if full then 2 else 4) → row' i = row i) := by
  obtain ⟨row', h1, h2, h3⟩ := dequant_ok root T first full mod hf row
  exact ⟨_, row', (filters_reads first full mod _ _ _).mpr ⟨_, ⟨fs, fun i hi => (hf i hi).1, rfl, rfl⟩, rfl⟩, h1, h2, h3⟩

/-! ## C162: divisions of a frame -/

def halfs : List Half := [.two false false, .two true false, .two false true, .two true true, .one]

def divisions : List Division := halfs.map .full ++ (halfs.flatMap fun h => halfs.map (.halves h)) ++ [.whole]

theorem mem_halfs (h : Half) : h ∈ halfs := by
  cases h with
  | two a b => cases a <;> cases b <;> decide
  | one => decide

theorem mem_divisions (d : Division) : d ∈ divisions := by
  cases d with
  | full h => simp [divisions, mem_halfs]
  | halves h h' => simp [divisions, mem_halfs]
  | whole => simp [divisions]

/-- The numbers that are accepted are those of the divisions. -/
theorem C162_numbers (full : Bool) (m : Nat) (old : Nat → Nat) :
    (∃ mod, modes full m old = some mod) ↔ ∃ d : Division, d.isFull = full ∧ d.number = m := by
  have h1 : (∃ mod, modes full m old = some mod) ↔ m < if full then 5 else 26 := by
    unfold modes
    cases full
    · simp only [Bool.false_eq_true, if_false]
      constructor
      · rintro ⟨mod, h⟩
        split at h
        · cases h
        · omega
      · intro h
        rw [if_neg (by omega)]
        split_ifs <;> exact ⟨_, rfl⟩
    · simp only [if_true]
      constructor
      · rintro ⟨mod, h⟩
        split at h
        · cases h
        · omega
      · intro h
        rw [if_neg (by omega)]
        split_ifs <;> exact ⟨_, rfl⟩
  rw [h1]
  constructor
  · have e1 : ∀ m < 5, ∃ d ∈ divisions, d.isFull = true ∧ d.number = m := by decide
    have e2 : ∀ m < 26, ∃ d ∈ divisions, d.isFull = false ∧ d.number = m := by decide
    intro h
    cases full
    · obtain ⟨d, _, hd⟩ := e2 m h
      exact ⟨d, hd⟩
    · obtain ⟨d, _, hd⟩ := e1 m h
      exact ⟨d, hd⟩
  · rintro ⟨d, rfl, rfl⟩
    have : ∀ d ∈ divisions, d.number < if d.isFull then 5 else 26 := by decide
    exact this d (mem_divisions d)

/-- Different divisions have different numbers. -/
theorem C162_injective {d d' : Division} (h : d.isFull = d'.isFull) (hn : d.number = d'.number) : d = d' := by
  have : ∀ d ∈ divisions, ∀ d' ∈ divisions, d.isFull = d'.isFull → d.number = d'.number → d = d' := by decide
  exact this d (mem_divisions d) d' (mem_divisions d') h hn

theorem agrees_of (mod : Nat → Nat) (d : Division) (N : Nat) (hN : ∀ p ∈ pieces 0 d.modes, p.1 + span p.2 ≤ N) (f : Nat → Nat)
    (hf : ∀ k < N, mod k = f k) (h : ∀ k < N, ∀ p ∈ pieces 0 d.modes, p.1 ≤ k → k < p.1 + span p.2 → f k = p.2) : Agrees mod d := by
  intro p hp k h1 h2
  have := hN p hp
  rw [hf k (by omega), h k (by omega) p hp h1 h2]

theorem C162_modes {d : Division} {old mod : Nat → Nat} (h : modes d.isFull d.number old = some mod) : Agrees mod d := by
  have e : ∀ d ∈ divisions, ∀ p ∈ pieces 0 d.modes, p.1 + span p.2 ≤ if d.isFull then 2 else 4 := by decide
  have e2 : ∀ d ∈ divisions, ∀ f, modes d.isFull d.number (fun _ => 0) = some f → ∀ k < if d.isFull then 2 else 4,
      ∀ p ∈ pieces 0 d.modes, p.1 ≤ k → k < p.1 + span p.2 → f k = p.2 := by
    intro d hd f hf
    have : ∀ d ∈ divisions, ∀ k < if d.isFull then 2 else 4, ∀ p ∈ pieces 0 d.modes, p.1 ≤ k → k < p.1 + span p.2 →
        (modes d.isFull d.number (fun _ => 0)).map (fun f => f k) = some p.2 := by decide
    intro k hk p hp h1 h2
    have := this d hd k hk p hp h1 h2
    rw [hf] at this
    exact Option.some.inj this
  have e3 : ∃ f, modes d.isFull d.number (fun _ => 0) = some f ∧ ∀ k < if d.isFull then 2 else 4, mod k = f k := by
    unfold modes at h ⊢
    split_ifs at h ⊢ <;> simp only [Option.some.injEq, reduceCtorEq] at h ⊢ <;> subst h <;> refine ⟨_, rfl, fun k hk => ?_⟩ <;>
      simp only at hk ⊢ <;> first | rfl | (rw [if_pos hk, if_pos hk])
  obtain ⟨f, hf, hk⟩ := e3
  exact agrees_of mod d _ (e d (mem_divisions d)) f hk (e2 d (mem_divisions d) f hf)

/-- The parts follow one another and fill the frame, which has two quarters if it is a full band frame. -/
theorem C162_fill (d : Division) : (d.modes.map span).sum = if d.isFull then 2 else 4 := by
  have : ∀ d ∈ divisions, (d.modes.map span).sum = if d.isFull then 2 else 4 := by decide
  exact this d (mem_divisions d)

/-! ## C161: the filters of the parts -/

/-- The mode of quarter `k`. -/
def modeAt (ps : List (Nat × Nat)) (k : Nat) : Nat := ((ps.find? fun p => p.1 ≤ k && k < p.1 + span p.2).map (·.2)).getD 0

theorem modeAt_eq {mod : Nat → Nat} {d : Division} (h : Agrees mod d) {k : Nat} (hk : k < if d.isFull then 2 else 4) :
    mod k = modeAt (pieces 0 d.modes) k := by
  have e : ∀ d ∈ divisions, ∀ k < if d.isFull then 2 else 4, ∃ p ∈ pieces 0 d.modes, p.1 ≤ k ∧ k < p.1 + span p.2 ∧
      modeAt (pieces 0 d.modes) k = p.2 := by decide
  obtain ⟨p, hp, h1, h2, h3⟩ := e d (mem_divisions d) k hk
  rw [h p hp k h1 h2, h3]

theorem sent_congr {first full : Bool} {mod mod' : Nat → Nat} (h0 : mod 0 = mod' 0) (h2 : full = false → mod 2 = mod' 2) (i : Nat) :
    sent first full mod i = sent first full mod' i := by
  match i with
  | 0 | 4 => rfl
  | 1 | 2 => simp only [sent, h0]
  | 3 =>
    cases full
    · simp only [sent, h2 rfl]
    · rfl
  | n + 5 => rfl

/-- The filters that are sent: that at the end of the frame, that at its start if it is the first, and those where a part ends and
another starts. -/
theorem C161_sent {mod : Nat → Nat} {d : Division} (h : Agrees mod d) (first : Bool) (i : Nat) :
    sent first d.isFull mod i = true ↔
      i = 4 ∨ (i = 0 ∧ first = true) ∨ (0 < i ∧ ∃ p ∈ pieces 0 d.modes, p.1 = i) := by
  have hs : sent first d.isFull mod i = sent first d.isFull (modeAt (pieces 0 d.modes)) i :=
    sent_congr (modeAt_eq h (by split <;> omega)) (fun hf => modeAt_eq h (by rw [hf]; simp)) i
  rw [hs]
  by_cases hi : i < 5
  · have e : ∀ first : Bool, ∀ d ∈ divisions, ∀ i < 5, sent first d.isFull (modeAt (pieces 0 d.modes)) i = true ↔
      i = 4 ∨ (i = 0 ∧ first = true) ∨ (0 < i ∧ ∃ p ∈ pieces 0 d.modes, p.1 = i) := by decide
    exact e first d (mem_divisions d) i hi
  · have e : ∀ d ∈ divisions, ∀ p ∈ pieces 0 d.modes, p.1 < 4 := by decide
    constructor
    · intro h
      match i with
      | n + 5 => simp [sent] at h
    · rintro (h | h | ⟨_, p, hp, rfl⟩)
      · omega
      · omega
      · have := e d (mem_divisions d) p hp
        omega

theorem schedule_ok {mod : Nat → Nat} {d : Division} (h : Agrees mod d) (row : Nat → List Rat) :
    schedule d.isFull mod row 5 0 (row 0) = .ok (follow row (pieces 0 d.modes)) := by
  have hm := fun k (hk : k < if d.isFull then 2 else 4) => modeAt_eq h hk
  have h0 := hm 0 (by split <;> omega)
  have h1 := hm 1 (by split <;> omega)
  rcases d with ⟨⟨a, b⟩ | _⟩ | ⟨⟨a, b⟩ | _, ⟨a', b'⟩ | _⟩ | _
  · cases a <;> cases b <;>
      simp [modeAt, pieces, Division.modes, Half.modes, span] at h0 h1 <;>
      simp [schedule, Division.isFull, follow, pieces, Division.modes, Half.modes, span, h0, h1]
  · simp [modeAt, pieces, Division.modes, Half.modes, span] at h0 h1
    simp [schedule, Division.isFull, follow, pieces, Division.modes, Half.modes, span, h0]
  all_goals
    have h2 := hm 2 (by simp [Division.isFull])
    have h3 := hm 3 (by simp [Division.isFull])
  · cases a <;> cases b <;> cases a' <;> cases b' <;>
      simp [modeAt, pieces, Division.modes, Half.modes, span] at h0 h1 h2 h3 <;>
      simp [schedule, Division.isFull, follow, pieces, Division.modes, Half.modes, span, h0, h1, h2, h3]
  · cases a <;> cases b <;>
      simp [modeAt, pieces, Division.modes, Half.modes, span] at h0 h1 h2 h3 <;>
      simp [schedule, Division.isFull, follow, pieces, Division.modes, Half.modes, span, h0, h1, h2]
  · cases a' <;> cases b' <;>
      simp [modeAt, pieces, Division.modes, Half.modes, span] at h0 h1 h2 h3 <;>
      simp [schedule, Division.isFull, follow, pieces, Division.modes, Half.modes, span, h0, h2, h3]
  · simp [modeAt, pieces, Division.modes, Half.modes, span] at h0 h1 h2 h3
    simp [schedule, Division.isFull, follow, pieces, Division.modes, Half.modes, span, h0, h2]
  · simp [modeAt, pieces, Division.modes, span] at h0 h1 h2 h3
    simp [schedule, Division.isFull, follow, pieces, Division.modes, span, h0]

/-- The parts of a frame get the frequencies of the filters at their starts and ends, which are those of this frame but for that at
the start of a frame which is not the first, and that is the one at the end of the frame before. -/
theorem C161_frequencies (root : Rat → Rat) (T : Tables) {first : Bool} {mod : Nat → Nat} {d : Division} (hd : Agrees mod d) {l l' : List Bool}
    {out : List Int} (h : run (filters first d.isFull mod) l = .ok (out, l')) (scratch : Nat → List Rat) (prev : List Rat) :
    ∃ (fs : Nat → Coded) (v : Nat → List Int) (row : Nat → List Rat),
      (∀ i, sent first d.isFull mod i = true → (fs i).Valid i ∧ VectorOf (fs i) (v i)) ∧ l = filterBits first d.isFull mod fs ++ l' ∧
      (∀ i, sent first d.isFull mod i = true → Stands root T.start T.weight (if d.isFull then 2 else 4) row (fs i) (v i) i) ∧
      (first = false → row 0 = prev) ∧
      frequencies root T out first d.isFull mod scratch prev = .ok (follow row (pieces 0 d.modes)) := by
  obtain ⟨fs, v, row, h1, h2, h3, h4, h5⟩ := C159_decoded root T h (if first then scratch else Function.update scratch 0 prev)
  have h0 : first = false → row 0 = prev := fun hf => by
    rw [h5 0 (fun _ => hf) (by split <;> omega), hf]
    simp
  refine ⟨fs, v, row, h1, h2, h4, h0, ?_⟩
  unfold frequencies
  rw [h3]
  simp only [Res.ok_bind]
  have : (if first = true then row 0 else prev) = row 0 := by
    cases first
    · exact (h0 rfl).symm
    · rfl
  rw [this]
  exact schedule_ok hd row

/-! ## C160: frequencies stay apart -/

theorem mean_separated {a b y : List Rat} (h : Mean a b y) (ha : Separated a) (hb : Separated b) : Separated y := by
  refine ⟨h.1, ?_, fun i hi => ?_⟩
  · have := h.2 0 (by omega)
    have := ha.2.1
    have := hb.2.1
    linarith
  · have e1 := h.2 i (by omega)
    have e2 := h.2 (i + 1) (by omega)
    have := ha.2.2 i hi
    have := hb.2.2 i hi
    linarith

theorem rows_separated {root : Rat → Rat} {start weight : Nat → Nat → Rat} {first full : Bool} {mod : Nat → Nat} {row : Nat → List Rat}
    {fs : Nat → Coded} {v : Nat → List Int} (hs : ∀ i, sent first full mod i = true → Stands root start weight (if full then 2 else 4) row (fs i) (v i) i)
    (h0 : first = false → Separated (row 0)) :
    Separated (row (if full then 2 else 4)) ∧ ∀ i, i = 0 ∨ (i < 4 ∧ sent first full mod i = true) → Separated (row i) := by
  have hl : Separated (row (if full then 2 else 4)) := (hs 4 rfl).1
  have r0 : Separated (row 0) := by
    cases first
    · exact h0 rfl
    · have := hs 0 rfl
      simp only [Stands] at this
      split at this <;> exact this.1
  have r2 : sent first full mod 2 = true → Separated (row 2) := fun h => by
    have := hs 2 h
    simp only [Stands] at this
    split at this <;> exact this.1
  refine ⟨hl, fun i hi => ?_⟩
  rcases hi with rfl | ⟨hi, h⟩
  · exact r0
  · match i with
    | 0 => exact r0
    | 2 => exact r2 h
    | 1 =>
      have := hs 1 h
      simp only [Stands] at this
      split at this
      · exact this.1
      · split at this
        · refine mean_separated this r0 ?_
          cases full
          · refine r2 ?_
            simp only [sent, decide_eq_true_eq] at h
            simp [sent]
            omega
          · exact hl
        · exact this.1
    | 3 =>
      have := hs 3 h
      simp only [Stands] at this
      split at this
      · exact this.1
      · split at this
        · obtain ⟨m, _, h⟩ := this
          exact h.1
        · split at this <;> exact this.1
    | n + 4 => omega

theorem follow_separated {root : Rat → Rat} {start weight : Nat → Nat → Rat} {first : Bool} {mod : Nat → Nat} {d : Division} (hd : Agrees mod d)
    {row : Nat → List Rat} {fs : Nat → Coded} {v : Nat → List Int}
    (hs : ∀ i, sent first d.isFull mod i = true → Stands root start weight (if d.isFull then 2 else 4) row (fs i) (v i) i)
    (h0 : first = false → Separated (row 0)) : ∀ p ∈ follow row (pieces 0 d.modes), Separated p.2.2.1 ∧ Separated p.2.2.2 := by
  obtain ⟨hl, hr⟩ := rows_separated hs h0
  have e1 : ∀ d ∈ divisions, ∀ p ∈ pieces 0 d.modes, p.1 < 4 := by decide
  have e2 : ∀ d ∈ divisions, ∀ p ∈ pieces 0 d.modes, p.1 + span p.2 = (if d.isFull then 2 else 4) ∨
      ∃ q ∈ pieces 0 d.modes, q.1 = p.1 + span p.2 ∧ 0 < q.1 := by decide
  have hrow : ∀ p ∈ pieces 0 d.modes, Separated (row p.1) := fun p hp => by
    refine hr p.1 ?_
    by_cases hz : p.1 = 0
    · exact .inl hz
    · exact .inr ⟨e1 d (mem_divisions d) p hp, (C161_sent hd first p.1).mpr (.inr (.inr ⟨by omega, p, hp, rfl⟩))⟩
  intro p hp
  obtain ⟨q, hq, rfl⟩ := List.mem_map.mp hp
  refine ⟨hrow q hq, ?_⟩
  rcases e2 d (mem_divisions d) q hq with h | ⟨r, hr, h, _⟩
  · show Separated (row (q.1 + span q.2))
    rw [h]
    exact hl
  · show Separated (row (q.1 + span q.2))
    rw [← h]
    exact hrow r hr

/-- The frequencies at the start, `ia_core_coder_lsf_init` (ia_core_coder_avq_rom.c 665-668). -/
def initial : List Rat :=
  [376.470581, 752.941162, 1129.411743, 1505.882324, 1882.352905, 2258.823486, 2635.294189, 3011.764648, 3388.235352, 3764.705811,
    4141.176270, 4517.646973, 4894.117676, 5270.588379, 5647.058594, 6023.529297]

/-- The frequencies `lsf_prev` can be between frames: at the start and when the decoder is reset (ia_core_coder_lpc.c 145) those
of the table, and after a frame those at the end of its last part. -/
inductive Reached (root : Rat → Rat) (T : Tables) : List Rat → Prop
  | start : Reached root T initial
  | frame {prev : List Rat} {first full : Bool} {m : Nat} {old mod : Nat → Nat} {l l' : List Bool} {out : List Int} {scratch : Nat → List Rat}
      {ps : List (Nat × Nat × List Rat × List Rat)} {p : Nat × Nat × List Rat × List Rat} :
      Reached root T prev → modes full m old = some mod → run (filters first full mod) l = .ok (out, l') →
      frequencies root T out first full mod scratch prev = .ok ps → p ∈ ps.getLast? → Reached root T p.2.2.2

theorem initial_separated : Separated initial := by
  refine ⟨rfl, by decide +kernel, ?_⟩
  decide +kernel

theorem frame_separated (root : Rat → Rat) (T : Tables) {prev : List Rat} {first full : Bool} {m : Nat} {old mod : Nat → Nat} {l l' : List Bool} {out : List Int}
    {scratch : Nat → List Rat} (hp : Separated prev) (hm : modes full m old = some mod) (hr : run (filters first full mod) l = .ok (out, l')) :
    ∃ ps, frequencies root T out first full mod scratch prev = .ok ps ∧ ∀ p ∈ ps, Separated p.2.2.1 ∧ Separated p.2.2.2 := by
  obtain ⟨d, rfl, rfl⟩ := (C162_numbers full m old).mp ⟨mod, hm⟩
  have hd := C162_modes hm
  obtain ⟨fs, v, row, _, _, h3, h4, h5⟩ := C161_frequencies root T hd hr scratch prev
  exact ⟨_, h5, follow_separated hd h3 fun hf => by rw [h4 hf]; exact hp⟩

/-- Whatever frames there were, the next one, if it is accepted, has frequencies for each part, and these are at least 50 apart. -/
theorem C160_separated (root : Rat → Rat) (T : Tables) {prev : List Rat} (h : Reached root T prev) {first full : Bool} {m : Nat} {old mod : Nat → Nat}
    {l l' : List Bool} {out : List Int} {scratch : Nat → List Rat} (hm : modes full m old = some mod)
    (hr : run (filters first full mod) l = .ok (out, l')) :
    ∃ ps, frequencies root T out first full mod scratch prev = .ok ps ∧ ∀ p ∈ ps, Separated p.2.2.1 ∧ Separated p.2.2.2 := by
  have : Separated prev := by
    induction h with
    | start => exact initial_separated
    | frame _ hm hr hf hp ih =>
      obtain ⟨ps, e, h⟩ := frame_separated root T (scratch := _) ih hm hr
      rw [hf] at e
      cases e
      exact (h _ (List.mem_of_getLast? hp)).2
  exact frame_separated root T this hm hr

/-- A code of codebook 7 whose point has 8 as its last number. -/
def farCode : Code := ⟨7, 134, List.replicate 8 0⟩

theorem farCode_valid : farCode.Valid := ⟨⟨by decide, by decide, by decide⟩, by decide, by decide⟩

/-- Refuted: the frequencies are below 6400, half the sampling rate they are scaled to.  With the first row of the tables and codebook
7 the last one is not, and then the weight for the next filter is the root of a negative number. -/
theorem C160_refuted (root : Rat → Rat) (T : Tables) (hs : T.start 0 15 = 5926.6816) (hw : T.weight 0 15 = 62.89968491) (prev : List Rat) :
    ∃ (l : List Bool) (out : List Int) (ps : List (Nat × Nat × List Rat × List Rat)), run (filters false false fun _ => 3) l = .ok (out, []) ∧
      frequencies root T out false false (fun _ => 3) (fun _ => []) prev = .ok ps ∧
      ∃ p ∈ ps, 6400 < p.2.2.2.getD 15 0 ∧ ∀ f v, moved root f p.2.2.2 v 15 = none := by
  set f : Coded := ⟨0, 0, ⟨0, 0, List.replicate 8 0⟩, farCode⟩ with hf
  have hv : VectorOf f [0, 0, 0, 0, 0, 0, 0, 0, 8, 0, 0, 0, 0, 0, 0, 8] :=
    ⟨List.replicate 8 0, [8, 0, 0, 0, 0, 0, 0, 8], by decide +kernel, by decide +kernel, rfl⟩
  have hval : f.Valid 4 := ⟨by decide, by decide, zeroCode_valid, farCode_valid⟩
  have hsent : ∀ i, sent false false (fun _ => 3) i = true → i = 4 := by
    intro i hi
    match i with
    | 0 | 1 | 2 | 3 => simp [sent] at hi
    | 4 => rfl
    | n + 5 => simp [sent] at hi
  obtain ⟨out, row, h1, h2, h3, _⟩ := C159_coded root T (first := false) (full := false) (mod := fun _ => 3) (fs := fun _ => f)
    (v := fun _ => [0, 0, 0, 0, 0, 0, 0, 0, 8, 0, 0, 0, 0, 0, 0, 8]) (fun i hi => by rw [hsent i hi]; exact ⟨hval, hv⟩) []
    (Function.update (fun _ => []) 0 prev)
  have hst := h3 4 rfl
  have hbig : 6400 < (row 4).getD 15 0 := by
    have := hst.2.1 15 (by omega) _ rfl
    simp only [hf] at this
    rw [hs, hw] at this
    refine lt_of_lt_of_le ?_ this
    norm_num
  refine ⟨_, out, [(0, 3, prev, row 4)], h1, ?_, _, List.mem_singleton.mpr rfl, hbig, fun f v => ?_⟩
  · unfold frequencies
    simp only [Bool.false_eq_true, if_false]
    rw [h2]
    rfl
  · have hg : (row 4).getD 14 0 + 50 ≤ (row 4).getD 15 0 := hst.1.2.2 14 (by omega)
    unfold moved
    simp only
    rw [if_neg]
    have d15 : 0 < distance (row 4) 15 := by
      show 0 < (row 4).getD 15 0 - (row 4).getD 14 0
      linarith
    have d16 : distance (row 4) 16 < 0 := by
      show 6400 - (row 4).getD 15 0 < 0
      linarith
    exact not_le.mpr (mul_neg_of_pos_of_neg d15 d16)

/-- A frame with a transform coded half and two parts: number 17, and filters at the quarters 2, 3 and 4. -/
example : (Division.halves .one (.two true false)).number = 17 ∧
    (∃ mod, modes false 17 (fun _ => 0) = some mod ∧ (List.range 4).map mod = [2, 2, 1, 0] ∧
      (List.range 5).map (sent false false mod) = [false, false, true, true, true]) ∧
    pieces 0 (Division.halves .one (.two true false)).modes = [(0, 2), (2, 1), (3, 0)] :=
  ⟨rfl, ⟨_, rfl, by decide, by decide⟩, rfl⟩

/-- The first frame: number 25, one filter with the code of `farCode`. -/
example : ∃ (mod : Nat → Nat) (l : List Bool) (out : List Int), modes false 25 (fun _ => 0) = some mod ∧
    run (filters false false mod) l = .ok (out, []) ∧ out.length = 12 := by
  refine ⟨fun _ => 3, _, _, rfl, (filters_reads false false _ _ _ _).mpr ⟨_, ⟨fun _ => ⟨0, 9, ⟨0, 0, List.replicate 8 0⟩, farCode⟩, fun i hi => ?_, rfl, rfl⟩,
    (List.append_nil _).symm⟩, by decide⟩
  have : i = 4 := by
    match i with
    | 0 | 1 | 2 | 3 => simp [sent] at hi
    | 4 => rfl
    | n + 5 => simp [sent] at hi
  subst this
  exact ⟨by decide, by decide, zeroCode_valid, farCode_valid⟩

end Verif.Lpd
