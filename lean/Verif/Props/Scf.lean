import Verif.Proofs.Scf
import Verif.Spec.Scf

/-! # Scale factors (C175-C177) -/

namespace Verif.Scf

open Prog
open Huff (Code sclTable huffCodeword word)

theorem nextP_cases (l : List Bool) :
    (∃ c ∈ sclTable, ∃ r, l = word c ++ r ∧ run nextP l = .ok (c.val.toNat, r)) ∨ run nextP l = .jump := by
  rcases Huff.C46_scl l with ⟨c, hc, r, h, hr⟩ | ⟨_, hr⟩
  · exact .inl ⟨c, hc, r, h, by simp only [nextP, run_bind, hr, Res.ok_bind, run_pure]⟩
  · exact .inr (by simp only [nextP, run_bind, hr]; rfl)

/-- The reader of the code follows the one bit by bit, as long as codewords end within the input. -/
def Follows {α : Type} (buf : List UInt8) (inc : Nat) (x : Res (α × Win)) : Res (α × List Bool) → Prop
  | .ok (a, r) => ∃ w p q, x = .ok (a, w) ∧ At buf inc p q w ∧ q ≤ 8 * buf.length ∧ bitsAt buf q = r
  | .err c => x = .err c
  | _ => True

/-- The results of `row` in pairs. -/
def pairUp {α β σ : Type} : Res (α × β × σ) → Res ((α × β) × σ)
  | .ok (a, b, s) => .ok ((a, b), s)
  | .err c => .err c
  | .jump => .jump
  | .ub => .ub

theorem row_follows (buf : List UInt8) (inc : Nat) (books : List Nat) (base : Nat) (first : Bool) :
    ∀ (n b : Nat) (factor : Int) (w : Win) (p q : Nat), At buf inc p q w → q ≤ 8 * buf.length →
      Follows buf inc (pairUp (row (Win.next buf) books base first n b factor w)) (run (rowP books base first n b factor) (bitsAt buf q))
  | 0, b, factor, w, p, q, ha, hq => ⟨w, p, q, rfl, ha, hq, rfl⟩
  | n + 1, b, factor, w, p, q, ha, hq => by
    unfold row rowP
    cases he : entry books (base + b) with
    | ok cb =>
      simp only [run_bind, run_lift (Res.ok cb) _ (by simp), Res.ok_bind]
      by_cases h1 : b = 0 ∧ first = true
      · simp only [if_pos h1]
        by_cases h2 : 255 < factor
        · simp only [if_pos h2, run_fail]; exact rfl
        · simp only [if_neg h2, run_bind]
          have ih := row_follows buf inc books base first n (b + 1) factor w p q ha hq
          revert ih
          cases run (rowP books base first n (b + 1) factor) (bitsAt buf q) with
          | ok y =>
            obtain ⟨⟨l, f⟩, r⟩ := y
            rintro ⟨w', p', q', hx, ha', hq', hr'⟩
            cases hrow : row (Win.next buf) books base first n (b + 1) factor w with
            | ok z => 
              rw [hrow] at hx
              obtain ⟨l', f', s'⟩ := z
              simp only [pairUp, Res.ok.injEq, Prod.mk.injEq] at hx
              obtain ⟨⟨rfl, rfl⟩, rfl⟩ := hx
              exact ⟨s', p', q', rfl, ha', hq', hr'⟩
            | _ => rw [hrow] at hx; cases hx
          | err c =>
            intro hx
            cases hrow : row (Win.next buf) books base first n (b + 1) factor w <;> rw [hrow] at hx <;> cases hx
            exact rfl
          | _ => intro _; exact trivial
      · simp only [if_neg h1]
        by_cases h2 : cb = 0
        · simp only [if_pos h2, run_bind]
          have ih := row_follows buf inc books base first n (b + 1) factor w p q ha hq
          revert ih
          cases run (rowP books base first n (b + 1) factor) (bitsAt buf q) with
          | ok y =>
            obtain ⟨⟨l, f⟩, r⟩ := y
            rintro ⟨w', p', q', hx, ha', hq', hr'⟩
            cases hrow : row (Win.next buf) books base first n (b + 1) factor w with
            | ok z => 
              rw [hrow] at hx
              obtain ⟨l', f', s'⟩ := z
              simp only [pairUp, Res.ok.injEq, Prod.mk.injEq] at hx
              obtain ⟨⟨rfl, rfl⟩, rfl⟩ := hx
              exact ⟨s', p', q', rfl, ha', hq', hr'⟩
            | _ => rw [hrow] at hx; cases hx
          | err c =>
            intro hx
            cases hrow : row (Win.next buf) books base first n (b + 1) factor w <;> rw [hrow] at hx <;> cases hx
            exact rfl
          | _ => intro _; exact trivial
        · simp only [if_neg h2, run_bind]
          rcases nextP_cases (bitsAt buf q) with ⟨c, hc, r, hr, hrun⟩ | hj
          · obtain ⟨w1, p1, hn, ha1, hq1, hb1⟩ := next_at ha c hc r hr
            simp only [hrun, hn, Res.ok_bind]
            by_cases h3 : 255 < toI16 (factor + ((c.val.toNat : Int) - 60))
            · simp only [if_pos h3, run_fail]; exact rfl
            · simp only [if_neg h3, run_bind]
              have ih := row_follows buf inc books base first n (b + 1) (toI16 (factor + ((c.val.toNat : Int) - 60))) w1 p1 _ ha1 hq1
              rw [hb1] at ih
              revert ih
              cases run (rowP books base first n (b + 1) (toI16 (factor + ((c.val.toNat : Int) - 60)))) r with
              | ok y =>
                obtain ⟨⟨l, f⟩, r'⟩ := y
                rintro ⟨w', p', q', hx, ha', hq', hr'⟩
                cases hrow : row (Win.next buf) books base first n (b + 1) (toI16 (factor + ((c.val.toNat : Int) - 60))) w1 with
                | ok z => 
                  rw [hrow] at hx
                  obtain ⟨l', f', s'⟩ := z
                  simp only [pairUp, Res.ok.injEq, Prod.mk.injEq] at hx
                  obtain ⟨⟨rfl, rfl⟩, rfl⟩ := hx
                  exact ⟨s', p', q', rfl, ha', hq', hr'⟩
                | _ => rw [hrow] at hx; cases hx
              | err c' =>
                intro hx
                cases hrow : row (Win.next buf) books base first n (b + 1) (toI16 (factor + ((c.val.toNat : Int) - 60))) w1 <;> rw [hrow] at hx <;> cases hx
                exact rfl
              | _ => intro _; exact trivial
          · rw [hj]; exact trivial
    | ub =>
      simp only [run_bind]
      exact trivial
    | err c => unfold entry at he; split at he <;> cases he
    | jump => unfold entry at he; split at he <;> cases he

theorem rows_follows (buf : List UInt8) (inc : Nat) (books : List Nat) (bands wins : Nat) :
    ∀ (ends : List Nat) (start : Nat) (first : Bool) (factor : Int) (w : Win) (p q : Nat), At buf inc p q w → q ≤ 8 * buf.length →
      Follows buf inc (rows (Win.next buf) books bands wins ends start first factor w)
        (run (rowsP books bands wins ends start first factor) (bitsAt buf q)) := by
  intro ends
  induction ends with
  | nil =>
    intro start first factor w p q ha hq
    unfold rows rowsP
    split
    · exact ⟨w, p, q, rfl, ha, hq, rfl⟩
    · exact trivial
  | cons e ends ih =>
    intro start first factor w p q ha hq
    unfold rows rowsP
    split
    · exact ⟨w, p, q, rfl, ha, hq, rfl⟩
    · simp only [run_bind]
      have hr := row_follows buf inc books (16 * start) first bands 0 factor w p q ha hq
      revert hr
      cases run (rowP books (16 * start) first bands 0 factor) (bitsAt buf q) with
      | ok y =>
        obtain ⟨⟨l, f⟩, r⟩ := y
        rintro ⟨w', p', q', hx, ha', hq', hr'⟩
        cases hrow : row (Win.next buf) books (16 * start) first bands 0 factor w with
        | ok z =>
          rw [hrow] at hx
          obtain ⟨l', f', s'⟩ := z
          simp only [pairUp, Res.ok.injEq, Prod.mk.injEq] at hx
          obtain ⟨⟨rfl, rfl⟩, rfl⟩ := hx
          simp only [Res.ok_bind]
          have hi := ih e false f' s' p' q' ha' hq'
          rw [hr'] at hi
          revert hi
          cases run (rowsP books bands wins ends e false f') r with
          | ok y =>
            obtain ⟨m, r2⟩ := y
            rintro ⟨w2, p2, q2, hx2, ha2, hq2, hr2⟩
            rw [hx2]
            exact ⟨w2, p2, q2, rfl, ha2, hq2, hr2⟩
          | err c => intro hx2; rw [show rows _ _ _ _ _ _ _ _ _ = _ from hx2]; exact rfl
          | _ => intro _; exact trivial
        | _ => rw [hrow] at hx; cases hx
      | err c =>
        intro hx
        cases hrow : row (Win.next buf) books (16 * start) first bands 0 factor w <;> rw [hrow] at hx <;> cases hx
        exact rfl
      | _ => intro _; exact trivial

theorem corr_loads (buf : List UInt8) : ∀ (n word p : Nat), p + n ≤ buf.length →
    ∃ word', corr buf n word p 0 = .ok (word', ((p + n : Nat) : Int), 0)
  | 0, word, p, _ => ⟨word, rfl⟩
  | n + 1, word, p, h => by
    rw [corr, if_neg (by omega), load_num _ _ (by omega), Res.ok_bind]
    obtain ⟨w', hw'⟩ := corr_loads buf n (word * 256 % 2 ^ 32 + num buf / 2 ^ (8 * (buf.length - 1 - p) + 32) % 256) (p + 1) (by omega)
    refine ⟨w', ?_⟩
    rw [show ((p : Int) + 1) = ((p + 1 : Nat) : Int) by omega, hw']
    congr 3
    omega

/-- **C175** `ia_core_coder_section_data` does what the reader bit by bit does, as long as the codewords end within the input: the same scale
factors, the same error, and the buffer is left behind the last codeword. -/
theorem C175_refines (gain bands wins maxSfb : Nat) (ends : List Nat) (s : BitBuf) (hs : s.WF)
    (ht : s.pos + s.cnt = 8 * s.buf.length) :
    (∀ x r, run (sectionP gain bands wins maxSfb ends) s.rest = .ok (x, r) →
      ∃ s', sectionData gain bands wins maxSfb ends s = .ok (x, s') ∧ s'.WF ∧ s'.buf = s.buf ∧
        s'.pos + s'.cnt = 8 * s'.buf.length ∧ s'.rest = r) ∧
    ∀ c, run (sectionP gain bands wins maxSfb ends) s.rest = .err c → sectionData gain bands wins maxSfb ends s = .err c := by
  obtain ⟨inc, hsh, ha⟩ := show32_at s hs ht
  have hpos0 : 0 ≤ s.pos := by have := hs.ptr_nonneg; have := hs.bit_hi; unfold BitBuf.pos; omega
  have hq : s.pos.toNat ≤ 8 * s.buf.length := by have := hs.cnt_nonneg; omega
  have hrest : s.rest = bitsAt s.buf s.pos.toNat := by
    unfold BitBuf.rest bitsAt
    rw [List.take_of_length_le]
    simp
    omega
  rw [hrest]
  unfold sectionP sectionData
  cases hb : codeBooks wins maxSfb with
  | ok books =>
    simp only [run_bind, run_lift (Res.ok books) _ (by simp), Res.ok_bind, hsh]
    have hf := rows_follows s.buf inc books bands wins ends 0 true gain _ _ _ ha hq
    constructor
    · intro x r hr
      rw [hr] at hf
      obtain ⟨w, p, q, hx, hw, hq', hr'⟩ := hf
      rw [hx]
      obtain ⟨hww, hwp, hwq, hwi, hwf, hw4⟩ := hw
      simp only [Res.ok_bind]
      have hpn : p + w.pos / 8 ≤ s.buf.length := by omega
      obtain ⟨word', hc⟩ := corr_loads s.buf (w.pos / 8) w.word p hpn
      have hcc : Win.corr s.buf { w with ptr := w.ptr - inc } = .ok ⟨word', w.pos % 8 + 0, ((p + w.pos / 8 : Nat) : Int)⟩ := by
        unfold Win.corr
        simp only [hwp]
        rw [show (((p + inc : Nat) : Int) - (inc : Int)) = (p : Int) by omega, hc]
        rfl
      rw [hcc]
      simp only [Res.ok_bind]
      have hp0 := hs.ptr_nonneg
      have hsp : s.pos = 8 * s.ptr + 7 - s.bitPos := rfl
      refine ⟨_, rfl, ⟨?_, ?_, ?_, ?_, ?_⟩, rfl, ?_, ?_⟩
      · show (0 : Int) ≤ ((p + w.pos / 8 : Nat) : Int); omega
      · show (0 : Int) ≤ 7 - ((w.pos % 8 + 0 : Nat) : Int); omega
      · show (7 - ((w.pos % 8 + 0 : Nat) : Int)) ≤ 7; omega
      · show (0 : Int) ≤ s.cnt - (8 * (((p + w.pos / 8 : Nat) : Int) - s.ptr) + (s.bitPos - (7 - ((w.pos % 8 + 0 : Nat) : Int)))); omega
      · show (8 * ((p + w.pos / 8 : Nat) : Int) + 7 - (7 - ((w.pos % 8 + 0 : Nat) : Int))) +
          (s.cnt - (8 * (((p + w.pos / 8 : Nat) : Int) - s.ptr) + (s.bitPos - (7 - ((w.pos % 8 + 0 : Nat) : Int))))) ≤ 8 * s.buf.length; omega
      · show (8 * ((p + w.pos / 8 : Nat) : Int) + 7 - (7 - ((w.pos % 8 + 0 : Nat) : Int))) +
          (s.cnt - (8 * (((p + w.pos / 8 : Nat) : Int) - s.ptr) + (s.bitPos - (7 - ((w.pos % 8 + 0 : Nat) : Int))))) = 8 * s.buf.length; omega
      · rw [← hr']
        unfold BitBuf.rest bitsAt BitBuf.pos
        simp only []
        rw [show (8 * ((p + w.pos / 8 : Nat) : Int) + 7 - (7 - ((w.pos % 8 + 0 : Nat) : Int))).toNat = q by omega,
          List.take_of_length_le]
        simp
        omega
    · intro c hr
      rw [hr] at hf
      rw [show rows _ _ _ _ _ _ _ _ _ = _ from hf]
      rfl
  | ub => 
    constructor
    · intro x r h; simp [run_bind] at h
    · intro c h; simp [run_bind] at h
  | err c =>
    constructor
    · intro x r h; simp [run_bind] at h
    · intro c' h
      simp [run_bind] at h
      subst h
      rfl
  | jump =>
    constructor
    · intro x r h; simp [run_bind, lift] at h
    · intro c h; simp [run_bind, lift] at h

/-! ## Coded scale factors -/

theorem fill_getElem? {α : Type} {t t' : List α} {pos n : Nat} {v : α} (h : fill t pos n v = .ok t') (i : Nat) :
    t'[i]? = if pos ≤ i ∧ i < pos + n then some v else t[i]? := by
  unfold fill at h
  split at h
  · simp only [Res.ok.injEq] at h
    subst h
    by_cases h1 : i < pos
    · rw [if_neg (by omega), List.append_assoc, List.getElem?_append_left (by simp; omega), List.getElem?_take_of_lt h1]
    · by_cases h2 : i < pos + n
      · rw [if_pos (by omega), List.getElem?_append_left (by simp; omega), List.getElem?_append_right (by simp; omega),
          List.getElem?_replicate, if_pos (by simp; omega)]
      · rw [if_neg (by omega), List.getElem?_append_right (by simp; omega), List.getElem?_drop]
        congr 1
        simp
        omega
  · cases h

/-- The codebook numbers of the bands of a group. -/
def BooksOk (books : List Nat) (bands wins maxSfb : Nat) : Prop :=
  ∀ g < wins, ∀ b < bands, entry books (16 * g + b) = .ok (if b < maxSfb then 11 else 0)

theorem codeBooks_long (bands maxSfb : Nat) (h : maxSfb ≤ bands) (h128 : bands ≤ 128) :
    ∃ books, codeBooks 1 maxSfb = .ok books ∧ BooksOk books bands 1 maxSfb := by
  have hf : fill (List.replicate 128 0) (16 * 0) maxSfb 11 = .ok ((List.replicate 128 0).take (16 * 0) ++ List.replicate maxSfb 11 ++
      (List.replicate 128 0).drop (16 * 0 + maxSfb)) := by
    rw [fill, if_pos (by simp; omega)]
  refine ⟨_, by rw [codeBooks, bookRows, hf]; rfl, ?_⟩
  intro g hg b hb
  obtain rfl : g = 0 := by omega
  unfold entry
  rw [fill_getElem? hf]
  by_cases h1 : b < maxSfb
  · rw [if_pos (by omega), if_pos h1]
  · rw [if_neg (by omega), if_neg h1, List.getElem?_replicate, if_pos (by omega)]

theorem codeBooks_short (bands maxSfb : Nat) (h : maxSfb ≤ bands) (h16 : bands ≤ 16) :
    ∃ books, codeBooks 8 maxSfb = .ok books ∧ BooksOk books bands 8 maxSfb := by
  have key : ∀ m : Fin 17, ∃ books, codeBooks 8 m.val = .ok books ∧
      ∀ g : Fin 8, ∀ b : Fin 16, entry books (16 * g.val + b.val) = .ok (if b.val < m.val then 11 else 0) := by
    intro m
    have : (match codeBooks 8 m.val with
      | .ok books => decide (∀ g : Fin 8, ∀ b : Fin 16, entry books (16 * g.val + b.val) = .ok (if b.val < m.val then 11 else 0))
      | _ => false) = true := by
      revert m
      decide +kernel
    revert this
    cases codeBooks 8 m.val with
    | ok books => intro h; exact ⟨books, rfl, of_decide_eq_true h⟩
    | _ => intro h; cases h
  obtain ⟨books, h1, h2⟩ := key ⟨maxSfb, by omega⟩
  exact ⟨books, h1, fun g hg b hb => h2 ⟨g, hg⟩ ⟨b, by omega⟩⟩

theorem diffCode_word (d : Int) (h1 : -60 ≤ d) (h2 : d ≤ 60) :
    ∃ c ∈ sclTable, diffCode d = word c ∧ (c.val.toNat : Int) = d + 60 := by
  have key : ∀ v : Fin 121, ∃ c, sclTable.find? (fun c => decide (c.val = (v.val : Int))) = some c := by
    have : ∀ v : Fin 121, (sclTable.find? (fun c => decide (c.val = (v.val : Int)))).isSome = true := by decide +kernel
    exact fun v => Option.isSome_iff_exists.mp (this v)
  obtain ⟨c, hc⟩ := key ⟨(d + 60).toNat, by omega⟩
  have hd : (((d + 60).toNat : Nat) : Int) = d + 60 := by omega
  simp only [hd] at hc
  refine ⟨c, List.mem_of_find?_eq_some hc, by simp only [diffCode, hc]; rfl, ?_⟩
  have := List.find?_some hc
  simp only [decide_eq_true_eq] at this
  omega

theorem nextP_diff (d : Int) (h1 : -60 ≤ d) (h2 : d ≤ 60) (r : List Bool) :
    ∃ i : Nat, run nextP (diffCode d ++ r) = .ok (i, r) ∧ (i : Int) = d + 60 := by
  obtain ⟨c, hc, hw, hv⟩ := diffCode_word d h1 h2
  refine ⟨c.val.toNat, ?_, hv⟩
  rw [hw, nextP, run_bind, Huff.C46_codeword _ Huff.scl_good c hc]
  rfl

theorem diffs_append : ∀ (p : Int) (a b : List Int), diffs p (a ++ b) = diffs p a ++ diffs (a.getLastD p) b
  | _, [], _ => rfl
  | p, x :: a, b => by
    rw [List.cons_append, diffs, diffs, diffs_append x a b, List.append_assoc]
    congr 3
    cases a <;> rfl

theorem codable_append : ∀ (p : Int) (a b : List Int), Codable p (a ++ b) ↔ Codable p a ∧ Codable (a.getLastD p) b
  | _, [], _ => by simp [Codable]
  | p, x :: a, b => by
    have : (x :: a).getLastD p = a.getLastD x := by cases a <;> rfl
    rw [List.cons_append, Codable, Codable, codable_append x a b, this]
    simp only [and_assoc]

theorem toI16_small (x : Int) (h1 : -32768 ≤ x) (h2 : x ≤ 255) : toI16 x = x := by unfold toI16; omega

theorem rowP_zeros (books : List Nat) (bands wins maxSfb g : Nat) (first : Bool) (hb : BooksOk books bands wins maxSfb) (hg : g < wins)
    (h1 : 1 ≤ maxSfb) (factor : Int) (r : List Bool) : ∀ (n b : Nat), maxSfb ≤ b → b + n ≤ bands →
      run (rowP books (16 * g) first n b factor) r = .ok ((List.replicate n 0, factor), r)
  | 0, b, _, _ => rfl
  | n + 1, b, hm, hn => by
    rw [rowP, run_bind, hb g hg b (by omega), run_lift _ _ (by simp), Res.ok_bind]
    simp only [Res.ok_bind]
    rw [if_neg (by omega), if_neg (show ¬ b < maxSfb by omega), if_pos rfl, run_bind,
      rowP_zeros books bands wins maxSfb g first hb hg h1 factor r n (b + 1) (by omega) (by omega), Res.ok_bind]
    simp [List.replicate_succ]

theorem rowP_diffs (books : List Nat) (bands wins maxSfb g : Nat) (first : Bool) (hb : BooksOk books bands wins maxSfb) (hg : g < wins)
    (h1 : 1 ≤ maxSfb) (hm : maxSfb ≤ bands) (r : List Bool) : ∀ (xs : List Int) (factor : Int) (b : Nat), b + xs.length = maxSfb →
      (b ≠ 0 ∨ first = false) → Codable factor xs →
      run (rowP books (16 * g) first (bands - b) b factor) (diffs factor xs ++ r) =
        .ok ((xs ++ List.replicate (bands - maxSfb) 0, xs.getLastD factor), r)
  | [], factor, b, hl, _, _ => by
    obtain rfl : b = maxSfb := by simpa using hl
    exact rowP_zeros books bands wins b g first hb hg h1 factor r _ b (Nat.le_refl _) (by omega)
  | x :: xs, factor, b, hl, hf, hc => by
    simp only [List.length_cons] at hl
    obtain ⟨c1, c2, c3, c4, c5⟩ := hc
    obtain ⟨i, hi, hiv⟩ := nextP_diff (x - factor) c1 c2 (diffs x xs ++ r)
    have hx : toI16 (factor + ((i : Int) - 60)) = x := by
      rw [show factor + ((i : Int) - 60) = x by omega]
      exact toI16_small x c4 c3
    rw [show bands - b = (bands - (b + 1)) + 1 by omega, rowP, run_bind, hb g hg b (by omega), run_lift _ _ (by simp), Res.ok_bind]
    simp only [Res.ok_bind]
    rw [if_neg (by rintro ⟨h, h'⟩; rcases hf with hf | hf; exact hf h; simp [hf] at h'),
      if_neg (by rw [if_pos (by omega)]; decide), run_bind, diffs, List.append_assoc, hi]
    simp only [Res.ok_bind, hx]
    rw [if_neg (by omega), run_bind, rowP_diffs books bands wins maxSfb g first hb hg h1 hm r xs x (b + 1) (by omega) (.inl (by omega)) c5]
    simp only [Res.ok_bind, run_pure]
    congr 2
    congr 1
    cases xs <;> rfl

theorem rowsP_diffs (books : List Nat) (bands wins maxSfb : Nat) (hb : BooksOk books bands wins maxSfb)
    (h1 : 1 ≤ maxSfb) (hm : maxSfb ≤ bands) (r : List Bool) : ∀ (lens : List Nat) (rows : List (List Int)) (start : Nat) (factor : Int),
      lens.length = rows.length → (∀ n ∈ lens, 1 ≤ n) → start + lens.sum = wins → (∀ x ∈ rows, x.length = maxSfb) →
      Codable factor rows.flatten →
      run (rowsP books bands wins (groupEnds start lens) start false factor) (diffs factor rows.flatten ++ r) =
        .ok (stored bands lens rows, r)
  | [], [], start, factor, _, _, hs, _, _ => by
    unfold rowsP
    rw [if_pos (by simpa using Nat.le_of_eq hs.symm)]
    rfl
  | n :: lens, x :: rows, start, factor, hl, hn, hs, hr, hc => by
    have hn1 := hn n (by simp)
    rw [List.sum_cons] at hs
    rw [List.flatten_cons] at hc ⊢
    obtain ⟨hc1, hc2⟩ := (codable_append _ _ _).mp hc
    have hx := hr x (by simp)
    unfold rowsP
    rw [if_neg (by omega), groupEnds]
    simp only [run_bind]
    rw [diffs_append, List.append_assoc]
    have := rowP_diffs books bands wins maxSfb start false hb (by omega) h1 hm (diffs (x.getLastD factor) rows.flatten ++ r) x factor 0
      (by omega) (.inr rfl) hc1
    rw [Nat.sub_zero] at this
    rw [this]
    simp only [Res.ok_bind, run_bind]
    rw [rowsP_diffs books bands wins maxSfb hb h1 hm r lens rows (start + n) _ (by simpa using hl)
      (fun m hm => hn m (by simp [hm])) (by omega) (fun y hy => hr y (by simp [hy])) hc2]
    simp only [Res.ok_bind, run_pure, stored, hx, Nat.add_sub_cancel_left]
  | [], _ :: _, _, _, hl, _, _, _, _ => by simp at hl
  | _ :: _, [], _, _, hl, _, _, _, _ => by simp at hl

/-- Lengths of groups of the windows of a frame: one long window, or eight short ones with at most 16 bands. -/
def Grouping (bands wins : Nat) (lens : List Nat) : Prop :=
  (∀ n ∈ lens, 1 ≤ n) ∧ lens.sum = wins ∧ (wins = 1 ∧ bands ≤ 128 ∨ wins = 8 ∧ bands ≤ 16)

theorem books_grouping {bands wins maxSfb : Nat} {lens : List Nat} (h : Grouping bands wins lens) (hm : maxSfb ≤ bands) :
    ∃ books, codeBooks wins maxSfb = .ok books ∧ BooksOk books bands wins maxSfb := by
  obtain ⟨_, _, ⟨rfl, h⟩ | ⟨rfl, h⟩⟩ := h
  · exact codeBooks_long bands maxSfb hm h
  · exact codeBooks_short bands maxSfb hm h

theorem sectionP_coded (gain bands wins maxSfb : Nat) (lens : List Nat) (rows : List (List Int)) (xs : List Int)
    (hg : Grouping bands wins lens) (hm1 : 1 ≤ maxSfb) (hm : maxSfb ≤ bands) (hl : lens.length = rows.length)
    (hr : ∀ x ∈ rows, x.length = maxSfb) (hf : rows.flatten = (gain : Int) :: xs) (hgain : gain ≤ 255) (hc : Codable gain xs)
    (r : List Bool) :
    run (sectionP gain bands wins maxSfb (groupEnds 0 lens)) (diffs gain xs ++ r) = .ok (stored bands lens rows, r) := by
  obtain ⟨books, hb, hbo⟩ := books_grouping hg hm
  obtain ⟨hpos, hsum, _⟩ := hg
  rw [sectionP, run_bind, hb, run_lift _ _ (by simp), Res.ok_bind]
  simp only [Res.ok_bind]
  match lens, rows, hl with
  | [], [], _ => simp at hf
  | n :: lens, x :: rows, hl =>
    have hn1 := hpos n (by simp)
    rw [List.sum_cons] at hsum
    have hx := hr x (by simp)
    match x, hx with
    | [], hx => simp at hx; omega
    | y :: ys, hx =>
      rw [List.flatten_cons, List.cons_append, List.cons.injEq] at hf
      obtain ⟨rfl, rfl⟩ := hf
      obtain ⟨hc1, hc2⟩ := (codable_append _ _ _).mp hc
      simp only [List.length_cons] at hx
      unfold rowsP
      rw [if_neg (by omega), groupEnds]
      simp only [run_bind]
      rw [diffs_append, List.append_assoc]
      have hrow := rowP_diffs books bands wins maxSfb 0 true hbo (by omega) hm1 hm
        (diffs (ys.getLastD gain) rows.flatten ++ r) ys gain 1 (by omega) (.inl (by omega)) hc1
      have hfirst : run (rowP books (16 * 0) true bands 0 gain) (diffs gain ys ++ (diffs (ys.getLastD gain) rows.flatten ++ r)) =
          .ok (((gain : Int) :: (ys ++ List.replicate (bands - maxSfb) 0), ys.getLastD gain),
            diffs (ys.getLastD gain) rows.flatten ++ r) := by
        rw [show bands = (bands - 1) + 1 by omega, rowP, run_bind, hbo 0 (by omega) 0 (by omega), run_lift _ _ (by simp), Res.ok_bind]
        simp only [Res.ok_bind]
        rw [if_pos (by simp), if_neg (by omega), run_bind]
        rw [show 0 + 1 = 1 from rfl, hrow]
        simp only [Res.ok_bind, run_pure, show bands - 1 + 1 = bands by omega]
      rw [hfirst]
      simp only [Res.ok_bind]
      rw [rowsP_diffs books bands wins maxSfb hbo hm1 hm r lens rows (0 + n) _ (by simpa using hl)
        (fun m hm => hpos m (by simp [hm])) (by omega) (fun z hz => hr z (by simp [hz])) hc2]
      simp only [Res.ok_bind, run_pure, stored, List.length_cons, hx, Nat.zero_add, Nat.sub_zero, List.cons_append]

/-- **C175** Coded scale factors are decoded: to every window of a group those of the group, zero in the bands that are not coded, and
the buffer is left behind them. -/
theorem C175_coded (gain bands wins maxSfb : Nat) (lens : List Nat) (rows : List (List Int)) (xs : List Int) (tail : List Bool)
    (s : BitBuf) (hs : s.WF) (ht : s.pos + s.cnt = 8 * s.buf.length)
    (hg : Grouping bands wins lens) (hm1 : 1 ≤ maxSfb) (hm : maxSfb ≤ bands) (hl : lens.length = rows.length)
    (hr : ∀ x ∈ rows, x.length = maxSfb) (hf : rows.flatten = (gain : Int) :: xs) (hgain : gain ≤ 255) (hc : Codable gain xs)
    (hrest : s.rest = diffs gain xs ++ tail) :
    ∃ s', sectionData gain bands wins maxSfb (groupEnds 0 lens) s = .ok (stored bands lens rows, s') ∧ s'.WF ∧ s'.rest = tail := by
  obtain ⟨s', h1, h2, _, _, h3⟩ := (C175_refines gain bands wins maxSfb (groupEnds 0 lens) s hs ht).1 _ _
    (hrest ▸ sectionP_coded gain bands wins maxSfb lens rows xs hg hm1 hm hl hr hf hgain hc tail)
  exact ⟨s', h1, h2, h3⟩

/-- Two groups of short windows with three coded bands of four: differences +1, -2, +4, 0 and -60. -/
example : (⟨[0xAA, 0xBE, 0x5F, 0xFF, 0x45], 0, 3, 36⟩ : BitBuf).WF ∧ Grouping 4 8 [3, 5] ∧
    ([[100, 101, 99], [103, 103, 43]] : List (List Int)).flatten = (100 : Int) :: [101, 99, 103, 103, 43] ∧
    Codable 100 [101, 99, 103, 103, 43] ∧
    (⟨[0xAA, 0xBE, 0x5F, 0xFF, 0x45], 0, 3, 36⟩ : BitBuf).rest = diffs 100 [101, 99, 103, 103, 43] ++ [true, false, true] ∧
    sectionData 100 4 8 3 [3, 8] ⟨[0xAA, 0xBE, 0x5F, 0xFF, 0x45], 0, 3, 36⟩ =
      .ok ([[100, 101, 99, 0], [100, 101, 99, 0], [100, 101, 99, 0], [103, 103, 43, 0], [103, 103, 43, 0], [103, 103, 43, 0],
        [103, 103, 43, 0], [103, 103, 43, 0]], ⟨[0xAA, 0xBE, 0x5F, 0xFF, 0x45], 4, 2, 3⟩) := by
  refine ⟨⟨by decide, by decide, by decide, by decide, by decide⟩, ⟨by decide, rfl, by decide⟩, rfl, ?_, by decide +kernel, by decide +kernel⟩
  simp [Codable]

/-! ## Truncated scale factors -/

/-- **C176** Refuted: scale factor data that ends before its last codeword is not reported.  There are 32 bits left, enough for the only
test there is (ia_core_coder_spectrum_dec.c 673-677), and the third codeword begins behind them: the word is shifted by more than 31
bits. -/
theorem C176_truncated_refuted :
    ¬ ∀ (gain bands wins maxSfb : Nat) (ends : List Nat) (s : BitBuf), s.WF → s.pos + s.cnt = 8 * s.buf.length →
      run (sectionP gain bands wins maxSfb ends) s.rest = .jump →
      sectionData gain bands wins maxSfb ends s = .jump ∨ ∃ c, sectionData gain bands wins maxSfb ends s = .err c := by
  intro h
  have hub : sectionData 100 4 1 4 [1] ⟨[0xFF, 0xFF, 0xFF, 0xFF], 0, 7, 32⟩ = .ub := by decide +kernel
  have := h 100 4 1 4 [1] ⟨[0xFF, 0xFF, 0xFF, 0xFF], 0, 7, 32⟩ ⟨by decide, by decide, by decide, by decide, by decide⟩ (by decide)
    (by decide +kernel)
  rw [hub] at this
  rcases this with h | ⟨c, h⟩ <;> cases h

theorem rowP_enough (books : List Nat) (base : Nat) (first : Bool) : ∀ (n b : Nat) (factor : Int) (l : List Bool),
    (∀ i < n, ∃ v, entry books (base + (b + i)) = .ok v) → 19 * n ≤ l.length →
    (∃ x r, run (rowP books base first n b factor) l = .ok (x, r) ∧ l.length ≤ r.length + 19 * n) ∨
      run (rowP books base first n b factor) l = .err invalid
  | 0, b, factor, l, _, _ => .inl ⟨([], factor), l, rfl, by omega⟩
  | n + 1, b, factor, l, hb, hl => by
    have hb0 := hb 0 (by omega)
    rw [Nat.add_zero] at hb0
    obtain ⟨v, hv⟩ := hb0
    have hb' : ∀ i < n, ∃ v, entry books (base + (b + 1 + i)) = .ok v := fun i hi => by
      have := hb (i + 1) (by omega)
      rwa [show b + (i + 1) = b + 1 + i by omega] at this
    rw [rowP, run_bind, hv, run_lift _ _ (by simp), Res.ok_bind]
    simp only [Res.ok_bind]
    by_cases h1 : b = 0 ∧ first = true
    · rw [if_pos h1]
      by_cases h2 : 255 < factor
      · rw [if_pos h2]; exact .inr rfl
      · rw [if_neg h2, run_bind]
        rcases rowP_enough books base first n (b + 1) factor l hb' (by omega) with ⟨x, r, h, hr⟩ | h
        · rw [h]; exact .inl ⟨_, r, rfl, by omega⟩
        · rw [h]; exact .inr rfl
    · rw [if_neg h1]
      by_cases h2 : v = 0
      · rw [if_pos h2, run_bind]
        rcases rowP_enough books base first n (b + 1) factor l hb' (by omega) with ⟨x, r, h, hr⟩ | h
        · rw [h]; exact .inl ⟨_, r, rfl, by omega⟩
        · rw [h]; exact .inr rfl
      · rw [if_neg h2, run_bind]
        rcases Huff.C46_scl l with ⟨c, hc, r, hw, hrun⟩ | ⟨⟨c, hc, _, hlt⟩, _⟩
        · have hg := table_good c hc
          simp only [good, Bool.and_eq_true, decide_eq_true_eq] at hg
          have h19 := hg.1.1
          have hlen : l.length = c.size + r.length := by rw [hw, List.length_append, Huff.word_length]
          have hn : run nextP l = .ok (c.val.toNat, r) := by simp only [nextP, run_bind, hrun, Res.ok_bind, run_pure]
          rw [hn]
          simp only [Res.ok_bind]
          split
          · exact .inr rfl
          · rw [run_bind]
            rcases rowP_enough books base first n (b + 1) (toI16 (factor + ((c.val.toNat : Int) - 60))) r hb' (by omega) with ⟨x, r', h, hr⟩ | h
            · rw [h]; exact .inl ⟨_, r', rfl, by omega⟩
            · rw [h]; exact .inr rfl
        · have hg := table_good c hc
          simp only [good, Bool.and_eq_true, decide_eq_true_eq] at hg
          omega

theorem rowsP_enough (books : List Nat) (bands wins maxSfb : Nat) (hb : BooksOk books bands wins maxSfb) :
    ∀ (lens : List Nat) (start : Nat) (first : Bool) (factor : Int) (l : List Bool), start + lens.sum = wins →
      (∀ n ∈ lens, 1 ≤ n) → 19 * (bands * lens.length) ≤ l.length →
      (∃ x r, run (rowsP books bands wins (groupEnds start lens) start first factor) l = .ok (x, r)) ∨
        run (rowsP books bands wins (groupEnds start lens) start first factor) l = .err invalid
  | [], start, first, factor, l, hs, _, _ => by
    unfold rowsP
    rw [if_pos (by simpa using Nat.le_of_eq hs.symm)]
    exact .inl ⟨_, _, rfl⟩
  | n :: lens, start, first, factor, l, hs, hn, hl => by
    have hn1 := hn n (by simp)
    rw [List.sum_cons] at hs
    rw [List.length_cons, Nat.mul_succ] at hl
    unfold rowsP
    rw [if_neg (by omega), groupEnds]
    simp only [run_bind]
    rcases rowP_enough books (16 * start) first bands 0 factor l (fun i hi => ⟨_, by rw [Nat.zero_add]; exact hb start (by omega) i hi⟩)
      (by omega) with ⟨⟨x, f⟩, r, h, hr⟩ | h
    · rw [h]
      simp only [Res.ok_bind]
      rcases rowsP_enough books bands wins maxSfb hb lens (start + n) false f r (by omega) (fun m hm => hn m (by simp [hm])) (by omega)
        with ⟨y, r', h'⟩ | h'
      · rw [h']; exact .inl ⟨_, _, rfl⟩
      · rw [h']; exact .inr rfl
    · rw [h]; exact .inr rfl

/-- **C176** With 19 bits left for each band of each group nothing is undefined: scale factors are delivered or the error. -/
theorem C176_enough_partial (gain bands wins maxSfb : Nat) (lens : List Nat) (s : BitBuf) (hs : s.WF)
    (ht : s.pos + s.cnt = 8 * s.buf.length) (hg : Grouping bands wins lens) (hm : maxSfb ≤ bands)
    (hcnt : ((19 * (bands * lens.length) : Nat) : Int) ≤ s.cnt) :
    (∃ x s', sectionData gain bands wins maxSfb (groupEnds 0 lens) s = .ok (x, s')) ∨
      sectionData gain bands wins maxSfb (groupEnds 0 lens) s = .err invalid := by
  obtain ⟨books, hb, hbo⟩ := books_grouping hg hm
  obtain ⟨hpos, hsum, _⟩ := hg
  have hlen := BitBuf.rest_length s hs
  have hrun : run (sectionP gain bands wins maxSfb (groupEnds 0 lens)) s.rest =
      run (rowsP books bands wins (groupEnds 0 lens) 0 true gain) s.rest := by
    rw [sectionP, run_bind, hb, run_lift _ _ (by simp), Res.ok_bind]
    simp only [Res.ok_bind]
  have href := C175_refines gain bands wins maxSfb (groupEnds 0 lens) s hs ht
  rcases rowsP_enough books bands wins maxSfb hbo lens 0 true gain s.rest (by omega) hpos (by omega) with ⟨x, r, h⟩ | h
  · obtain ⟨s', h', _⟩ := href.1 x r (hrun.trans h)
    exact .inl ⟨x, s', h'⟩
  · exact .inr (href.2 _ (hrun.trans h))

example : Grouping 14 8 [3, 5] ∧ (⟨List.replicate 100 0x55, 0, 3, 796⟩ : BitBuf).WF ∧
    ((19 * (14 * [3, 5].length) : Nat) : Int) ≤ 796 :=
  ⟨⟨by decide, rfl, by decide⟩, ⟨by decide, by decide, by decide, by decide, by decide⟩, by decide⟩

/-! ## The range of scale factors -/

/-- **C177** Refuted: scale factors are not all between 0 and 255.  Coded differences of -47 from a global gain of 40 lead below zero,
and the scale factors -7 and -54 are stored. -/
theorem C177_range_refuted :
    ¬ ∀ (gain bands wins maxSfb : Nat) (ends : List Nat) (s : BitBuf) (l : List (List Int)) (s' : BitBuf), s.WF → gain ≤ 255 →
      sectionData gain bands wins maxSfb ends s = .ok (l, s') → ∀ row ∈ l, ∀ x ∈ row, 0 ≤ x ∧ x ≤ 255 := by
  intro h
  have hok : sectionData 40 3 1 3 [1] ⟨[0xFF, 0xFF, 0xFF, 0xFF, 0xFF, 0xFF], 0, 7, 48⟩ =
      .ok ([[40, -7, -54]], ⟨[0xFF, 0xFF, 0xFF, 0xFF, 0xFF, 0xFF], 4, 1, 10⟩) := by decide +kernel
  have := h 40 3 1 3 [1] ⟨[0xFF, 0xFF, 0xFF, 0xFF, 0xFF, 0xFF], 0, 7, 48⟩ _ _ ⟨by decide, by decide, by decide, by decide, by decide⟩
    (by decide) hok [40, -7, -54] (by simp) (-7) (by simp)
  omega

theorem row_le {σ : Type} (next : σ → Res (Nat × σ)) (books : List Nat) (base : Nat) (first : Bool) :
    ∀ (n b : Nat) (factor : Int) (s : σ) (l : List Int) (f : Int) (s' : σ), row next books base first n b factor s = .ok (l, f, s') →
      l.length = n ∧ ∀ x ∈ l, x ≤ 255
  | 0, b, factor, s, l, f, s', h => by
    simp only [row, Res.ok.injEq, Prod.mk.injEq] at h
    obtain ⟨rfl, _, _⟩ := h
    exact ⟨rfl, by simp⟩
  | n + 1, b, factor, s, l, f, s', h => by
    rw [row] at h
    obtain ⟨cb, _, h⟩ := Res.bind_eq_ok.mp h
    split at h
    · split at h
      · cases h
      · obtain ⟨⟨l1, f1, s1⟩, h1, h⟩ := Res.bind_eq_ok.mp h
        simp only [Res.ok.injEq, Prod.mk.injEq] at h
        obtain ⟨rfl, _, _⟩ := h
        obtain ⟨ih1, ih2⟩ := row_le next books base first n _ _ _ _ _ _ h1
        refine ⟨by simp [ih1], fun x hx => ?_⟩
        rcases List.mem_cons.mp hx with rfl | hx
        · omega
        · exact ih2 x hx
    · split at h
      · obtain ⟨⟨l1, f1, s1⟩, h1, h⟩ := Res.bind_eq_ok.mp h
        simp only [Res.ok.injEq, Prod.mk.injEq] at h
        obtain ⟨rfl, _, _⟩ := h
        obtain ⟨ih1, ih2⟩ := row_le next books base first n _ _ _ _ _ _ h1
        refine ⟨by simp [ih1], fun x hx => ?_⟩
        rcases List.mem_cons.mp hx with rfl | hx
        · omega
        · exact ih2 x hx
      · obtain ⟨⟨i, s2⟩, _, h⟩ := Res.bind_eq_ok.mp h
        simp only [] at h
        split at h
        · cases h
        · obtain ⟨⟨l1, f1, s1⟩, h1, h⟩ := Res.bind_eq_ok.mp h
          simp only [Res.ok.injEq, Prod.mk.injEq] at h
          obtain ⟨rfl, _, _⟩ := h
          obtain ⟨ih1, ih2⟩ := row_le next books base first n _ _ _ _ _ _ h1
          refine ⟨by simp [ih1], fun x hx => ?_⟩
          rcases List.mem_cons.mp hx with rfl | hx
          · omega
          · exact ih2 x hx

theorem rows_le {σ : Type} (next : σ → Res (Nat × σ)) (books : List Nat) (bands wins : Nat) :
    ∀ (ends : List Nat) (start : Nat) (first : Bool) (factor : Int) (s : σ) (l : List (List Int)) (s' : σ),
      rows next books bands wins ends start first factor s = .ok (l, s') → ∀ r ∈ l, r.length = bands ∧ ∀ x ∈ r, x ≤ 255 := by
  intro ends
  induction ends with
  | nil =>
    intro start first factor s l s' h
    unfold rows at h
    split at h
    · simp only [Res.ok.injEq, Prod.mk.injEq] at h
      obtain ⟨rfl, _⟩ := h
      simp
    · cases h
  | cons e ends ih =>
    intro start first factor s l s' h
    unfold rows at h
    split at h
    · simp only [Res.ok.injEq, Prod.mk.injEq] at h
      obtain ⟨rfl, _⟩ := h
      simp
    · obtain ⟨⟨l1, f1, s1⟩, h1, h⟩ := Res.bind_eq_ok.mp h
      obtain ⟨⟨l2, s2⟩, h2, h⟩ := Res.bind_eq_ok.mp h
      simp only [Res.ok.injEq, Prod.mk.injEq] at h
      obtain ⟨rfl, _⟩ := h
      intro r hr
      rcases List.mem_append.mp hr with hr | hr
      · rw [(List.mem_replicate.mp hr).2]
        exact row_le next books _ first bands 0 factor s l1 f1 s1 h1
      · exact ih _ _ _ _ _ _ h2 r hr

/-- **C177** No scale factor is above 255, and every stored row has one for each band. -/
theorem C177_range_partial (gain bands wins maxSfb : Nat) (ends : List Nat) (s s' : BitBuf) (l : List (List Int))
    (h : sectionData gain bands wins maxSfb ends s = .ok (l, s')) : ∀ r ∈ l, r.length = bands ∧ ∀ x ∈ r, x ≤ 255 := by
  unfold sectionData at h
  obtain ⟨books, _, h⟩ := Res.bind_eq_ok.mp h
  obtain ⟨⟨w, inc⟩, _, h⟩ := Res.bind_eq_ok.mp h
  obtain ⟨⟨l1, w1⟩, h1, h⟩ := Res.bind_eq_ok.mp h
  obtain ⟨w2, _, h⟩ := Res.bind_eq_ok.mp h
  simp only [Res.ok.injEq, Prod.mk.injEq] at h
  obtain ⟨rfl, _⟩ := h
  exact rows_le _ _ _ _ _ _ _ _ _ _ _ h1

end Verif.Scf
