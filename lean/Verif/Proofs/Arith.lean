import Verif.Model.Arith
import Verif.Proofs.Prog
import Verif.Proofs.Safe
import Verif.Spec.ArithCode
import Mathlib.Tactic.Linarith
import Mathlib.Tactic.Ring
import Mathlib.Tactic.NormNum
import Mathlib.Tactic.IntervalCases

/-! Helper lemmas for the arithmetic decoder. -/

namespace Verif.Arith

open Prog ArithCode

variable {α β : Type}

theorem run_w32 {x : Int} (h0 : -2147483648 ≤ x) (h1 : x ≤ 2147483647) (l : List Bool) :
    run (w32 x) l = .ok (x, l) := by
  have : Ops.i32 x = .ok x := by simp [Ops.i32, Ops.MIN_32, Ops.MAX_32, h0, h1]
  simp [w32, this, lift]

theorem run_w32_bind {x : Int} (h0 : -2147483648 ≤ x) (h1 : x ≤ 2147483647) (f : Int → Prog β)
    (l : List Bool) : run (w32 x >>= f) l = run (f x) l := by
  rw [run_bind, run_w32 h0 h1]; rfl

/-- The next bit as a number. -/
def bit (l : List Bool) : Int := if l.headD false then 1 else 0

theorem bit_range (l : List Bool) : 0 ≤ bit l ∧ bit l ≤ 1 := by
  unfold bit; split <;> omega

theorem run_nextBit (l : List Bool) : run nextBit l = .ok (bit l, l.tail) := by
  unfold nextBit
  rw [run_bind]
  simp only [run_avail, Res.ok_bind]
  cases l with
  | nil => simp [bit]
  | cons b t =>
    rw [if_neg (by simp), run_bind]
    cases b <;> simp [bit, bitsVal]

theorem run_shift (s : St) (off : Int) (l : List Bool) (_h0 : 0 ≤ off) (h1 : off ≤ s.low)
    (h2 : s.low ≤ s.value) (h3 : s.value ≤ s.high) (h4 : s.high - off ≤ 32767) :
    run (shift s off) l =
      .ok (⟨2 * (s.low - off), 2 * (s.high - off) + 1, 2 * (s.value - off) + bit l⟩, l.tail) := by
  have hb := bit_range l
  unfold shift
  rw [run_w32_bind (by omega) (by omega), run_w32_bind (by omega) (by omega),
    run_w32_bind (by omega) (by omega), run_w32_bind (by omega) (by omega),
    run_w32_bind (by omega) (by omega), run_bind, run_nextBit, Res.ok_bind]
  simp only
  rw [run_w32_bind (by omega) (by omega), run_pure]
  congr 3 <;> omega

/-- Value of the first `n` bits, missing bits being 0. -/
def pv : Nat → List Bool → Int
  | 0, _ => 0
  | n + 1, S => 2 * pv n S + bit (S.drop n)

theorem pv_nonneg (n : Nat) (S : List Bool) : 0 ≤ pv n S := by
  induction n with
  | zero => simp [pv]
  | succ n ih => have := bit_range (S.drop n); simp only [pv]; omega

theorem pv_lt (n : Nat) (S : List Bool) : pv n S < 2 ^ n := by
  induction n with
  | zero => simp [pv]
  | succ n ih => have := bit_range (S.drop n); simp only [pv, pow_succ]; omega

theorem pv_cons (b : Bool) (S : List Bool) (n : Nat) :
    pv (n + 1) (b :: S) = b.toNat * 2 ^ n + pv n S := by
  induction n with
  | zero => cases b <;> simp [pv, bit]
  | succ n ih =>
    rw [pv, ih, List.drop_succ_cons, pv, pow_succ]; ring

theorem pv_append (A S : List Bool) (n : Nat) :
    pv (A.length + n) (A ++ S) = bitsVal A * 2 ^ n + pv n S := by
  induction A with
  | nil => simp
  | cons b A ih =>
    rw [List.length_cons, List.cons_append, show A.length + 1 + n = A.length + n + 1 by omega, pv_cons,
      ih, bitsVal_cons, pow_add]
    push_cast; ring

theorem pv_nil (n : Nat) : pv n [] = 0 := by
  induction n with
  | zero => rfl
  | succ n ih => simp [pv, ih, bit]

theorem pv_tail (n : Nat) (l : List Bool) : pv (n + 1) l = bit l * 2 ^ n + pv n l.tail := by
  cases l with
  | nil => simp [pv_nil, bit]
  | cons b t => rw [pv_cons]; cases b <;> simp [bit]

theorem pv_exhausted (n : Nat) (l : List Bool) (h : l.length ≤ n) :
    pv n l = 2 ^ (n - l.length) * bitsVal l := by
  have := pv_append l [] (n - l.length)
  rw [List.append_nil, pv_nil, show l.length + (n - l.length) = n by omega] at this
  rw [this]; ring

/-- The registers before renormalisation. -/
def Inside (s : St) : Prop :=
  0 ≤ s.low ∧ s.low ≤ s.value ∧ s.value ≤ s.high ∧ s.high ≤ 65535

/-- The registers after renormalisation. -/
def Good (s : St) : Prop :=
  Inside s ∧ s.low < 32768 ∧ 32768 ≤ s.high ∧ (s.low < 16384 ∨ 49152 ≤ s.high)

theorem Good.range {s : St} (h : Good s) : 16384 < s.high - s.low + 1 ∧ s.high - s.low + 1 ≤ 65536 := by
  obtain ⟨⟨_, _, _, _⟩, _, _, _⟩ := h
  omega

/-- What `k` renormalisation steps do to the registers and the input. -/
structure Shifted (s : St) (l : List Bool) (k : Nat) (s' : St) (l' : List Bool) : Prop where
  size : s'.high - s'.low + 1 = 2 ^ k * (s.high - s.low + 1)
  dist : s'.value - s'.low = 2 ^ k * (s.value - s.low) + pv k l
  rest : l' = l.drop k

theorem renorm_ok (fuel : Nat) (s : St) (bc : Int) (l : List Bool) (hs : Inside s)
    (hf : 32768 < 2 ^ fuel * (s.high - s.low + 1)) (hb0 : -2147483648 ≤ bc)
    (hb : bc + fuel ≤ 2147483647) :
    ∃ s' k, k ≤ fuel ∧ run (renorm (fuel + 1) s bc) l = .ok ((s', bc + k), l.drop k) ∧ Good s' ∧
      Shifted s l k s' (l.drop k) := by
  have step : ∀ (n : Nat), (∀ (s : St) (bc : Int) (l : List Bool), Inside s →
      32768 < 2 ^ n * (s.high - s.low + 1) → -2147483648 ≤ bc → bc + n ≤ 2147483647 →
      ∃ s' k, k ≤ n ∧ run (renorm (n + 1) s bc) l = .ok ((s', bc + k), l.drop k) ∧ Good s' ∧
      Shifted s l k s' (l.drop k)) → ∀ (s : St) (bc : Int) (l : List Bool) (off : Int), Inside s →
      32768 < 2 ^ (n + 1) * (s.high - s.low + 1) → -2147483648 ≤ bc → bc + (n + 1) ≤ 2147483647 →
      0 ≤ off → off ≤ s.low → s.high - off ≤ 32767 →
      ∃ s' k, k ≤ n + 1 ∧ run (shift s off >>= fun s => w32 (bc + 1) >>= fun bc =>
          renorm (n + 1) s bc) l = .ok ((s', bc + k), l.drop k) ∧ Good s' ∧
        Shifted s l k s' (l.drop k) := by
    intro n ih s bc l off hs hf hb0 hb h0 h1 h4
    obtain ⟨i1, i2, i3, i4⟩ := hs
    have hbit := bit_range l
    obtain ⟨s', k, hk, hr, hg, hsh⟩ := ih
      ⟨2 * (s.low - off), 2 * (s.high - off) + 1, 2 * (s.value - off) + bit l⟩ (bc + 1) l.tail
      ⟨by simp; omega, by simp; omega, by simp; omega, by simp; omega⟩
      (by simp only; rw [pow_succ] at hf; linarith) (by omega) (by omega)
    refine ⟨s', k + 1, by omega, ?_, hg, ?_, ?_, rfl⟩
    · rw [run_bind, run_shift s off l h0 h1 i2 i3 h4, Res.ok_bind]
      simp only
      rw [run_w32_bind (by omega) (by omega), hr]
      simp only [List.drop_tail]
      push_cast
      congr 3; omega
    · have := hsh.size
      simp only at this
      rw [this, pow_succ]; ring
    · have := hsh.dist
      simp only at this
      rw [this, pow_succ, pv_tail]; ring
  induction fuel generalizing s bc l with
  | zero =>
    obtain ⟨i1, i2, i3, i4⟩ := hs
    simp only [pow_zero, one_mul] at hf
    refine ⟨s, 0, le_refl _, ?_, ⟨⟨i1, i2, i3, i4⟩, by omega, by omega, by omega⟩, by simp, by simp [pv], rfl⟩
    unfold renorm
    rw [if_neg (by omega), if_neg (by omega), if_neg (by omega)]
    simp
  | succ n ih =>
    push_cast at hb
    have hs' := hs
    obtain ⟨i1, i2, i3, i4⟩ := hs'
    unfold renorm
    split
    · exact step n ih s bc l 0 hs hf hb0 (by omega) (by omega) (by omega) (by omega)
    · split
      · exact step n ih s bc l 32768 hs hf hb0 (by omega) (by omega) (by omega) (by omega)
      · split
        · exact step n ih s bc l 16384 hs hf hb0 (by omega) (by omega) (by omega) (by omega)
        · refine ⟨s, 0, by omega, by simp, ⟨hs, by omega, by omega, by omega⟩, by simp, by simp [pv], rfl⟩

/-- The symbol a cumulative count belongs to. -/
def IsSym (tbl : List Nat) (cum : Int) (sym : Nat) : Prop :=
  sym < tbl.length ∧ (tbl.getD sym 0 : Int) ≤ cum ∧ (sym = 0 ∨ cum < (tbl.getD (sym - 1) 0 : Int))

theorem getElem?_getD (tbl : List Nat) (i : Nat) (h : i < tbl.length) :
    tbl[i]? = some (tbl.getD i 0) := by
  simp [List.getD_eq_getElem?_getD, h]

theorem search_ok (tbl : List Nat) (cum : Int) (fuel : Nat) (p : Int) (cfl : Nat)
    (hf : cfl ≤ fuel) (h2 : 2 ≤ cfl) (hp : -1 ≤ p) (hN : p + cfl < tbl.length)
    (hlo : p = -1 ∨ cum < (tbl.getD p.toNat 0 : Int))
    (hhi : (tbl.getD (p + cfl).toNat 0 : Int) ≤ cum) :
    ∃ sym : Nat, search tbl cum fuel p cfl = .ok ((sym : Int) - 1) ∧ IsSym tbl cum sym := by
  induction fuel generalizing p cfl with
  | zero => omega
  | succ n ih =>
    unfold search
    simp only
    have hq : ¬ (p + (cfl / 2 : Nat) < 0) := by omega
    rw [if_neg hq, getElem?_getD _ _ (by omega)]
    simp only
    by_cases hc : cum < (tbl.getD (p + (cfl / 2 : Nat)).toNat 0 : Int)
    · rw [if_pos hc, if_pos hc]
      have he : p + (cfl / 2 : Nat) + ((cfl + 1) / 2 : Nat) = p + cfl := by omega
      split
      · exact ih _ _ (by omega) (by omega) (by omega) (by omega) (Or.inr hc) (by rw [he]; exact hhi)
      · have h1 : (cfl + 1) / 2 = 1 := by omega
        rw [h1] at he
        refine ⟨(p + (cfl / 2 : Nat) + 1).toNat, by congr 1; omega, by omega, ?_, Or.inr ?_⟩
        · rw [show p + (cfl / 2 : Nat) + 1 = p + cfl by omega]; exact hhi
        · rw [show (p + (cfl / 2 : Nat) + 1).toNat - 1 = (p + (cfl / 2 : Nat)).toNat by omega]
          exact hc
    · rw [if_neg hc, if_neg hc]
      split
      · exact ih _ _ (by omega) (by omega) hp (by omega) hlo (by omega)
      · have h1 : cfl / 2 = 1 := by omega
        rw [h1] at hc
        refine ⟨(p + 1).toNat, by congr 1; omega, by omega, ?_, ?_⟩
        · push_cast at hc; omega
        · rcases hlo with h | h
          · left; omega
          · by_cases h0 : p = -1
            · left; omega
            · right; rw [show (p + 1).toNat - 1 = p.toNat by omega]; exact h

theorem getD_mono {tbl : List Nat} (h : FreqTable tbl) {i j : Nat} (hij : i < j)
    (hj : j < tbl.length) : tbl.getD j 0 < tbl.getD i 0 := by
  induction j with
  | zero => omega
  | succ j ih =>
    have h1 := h.dec j hj
    rcases Nat.lt_or_ge i j with h2 | h2
    · have := ih h2 (by omega); omega
    · have : i = j := by omega
      rw [this]; exact h1

theorem IsSym.unique {tbl : List Nat} (h : FreqTable tbl) {cum : Int} {a b : Nat}
    (ha : IsSym tbl cum a) (hb : IsSym tbl cum b) : a = b := by
  have key : ∀ a b : Nat, IsSym tbl cum a → IsSym tbl cum b → ¬ a < b := by
    intro a b ha hb hab
    obtain ⟨a1, a2, a3⟩ := ha
    obtain ⟨b1, b2, b3⟩ := hb
    have h3 : cum < (tbl.getD (b - 1) 0 : Int) := by
      rcases b3 with h | h
      · omega
      · exact h
    rcases Nat.lt_or_ge a (b - 1) with h4 | h4
    · have := getD_mono h h4 (by omega); omega
    · have : a = b - 1 := by omega
      rw [this] at a2; omega
  have := key a b ha hb
  have := key b a hb ha
  omega

theorem tbl_lt {tbl : List Nat} (h : FreqTable tbl) (i : Nat) : tbl.getD i 0 < 16384 := by
  rcases Nat.lt_or_ge i tbl.length with h1 | h1
  · rcases Nat.eq_zero_or_pos i with h2 | h2
    · rw [h2]; exact h.first
    · have := getD_mono h h2 h1
      have := h.first; omega
  · simp [List.getD_eq_getElem?_getD, h1]

/-- The bounds of the interval of a symbol. -/
def lowOf (tbl : List Nat) (s : St) (sym : Nat) : Int :=
  s.low + (s.high - s.low + 1) * (tbl.getD sym 0 : Nat) / 16384
def highOf (tbl : List Nat) (s : St) (sym : Nat) : Int :=
  if sym = 0 then s.high else s.low + (s.high - s.low + 1) * (tbl.getD (sym - 1) 0 : Nat) / 16384 - 1

/-- The count the decoder looks up. -/
def cumOf (s : St) : Int := ((s.value - s.low + 1) * 16384 - 1) / (s.high - s.low + 1)

theorem low_iff (f r d : Int) (hr : 0 < r) (_hd : 0 ≤ d) :
    f ≤ ((d + 1) * 16384 - 1) / r ↔ r * f / 16384 ≤ d := by
  rw [Int.le_ediv_iff_mul_le hr]
  constructor
  · intro h
    have : r * f / 16384 < d + 1 := by
      rw [Int.ediv_lt_iff_lt_mul (by norm_num)]; linarith
    omega
  · intro h
    have : r * f / 16384 < d + 1 := by omega
    rw [Int.ediv_lt_iff_lt_mul (by norm_num)] at this
    linarith

/-- A symbol is found exactly when the value lies in its interval. -/
theorem isSym_iff {tbl : List Nat} {s : St} (hs : Good s) {sym : Nat} (hsym : sym < tbl.length) :
    IsSym tbl (cumOf s) sym ↔ lowOf tbl s sym ≤ s.value ∧ s.value ≤ highOf tbl s sym := by
  have hr := hs.range
  obtain ⟨⟨i1, i2, i3, i4⟩, _⟩ := hs
  unfold IsSym cumOf lowOf highOf
  have e1 := low_iff (tbl.getD sym 0 : Nat) (s.high - s.low + 1) (s.value - s.low) (by omega) (by omega)
  have e2 := low_iff (tbl.getD (sym - 1) 0 : Nat) (s.high - s.low + 1) (s.value - s.low) (by omega) (by omega)
  rw [e1]
  constructor
  · rintro ⟨_, h1, h2⟩
    refine ⟨by omega, ?_⟩
    split
    · exact i3
    · rcases h2 with h2 | h2
      · omega
      · rw [← not_le, e2] at h2; omega
  · rintro ⟨h1, h2⟩
    refine ⟨hsym, by omega, ?_⟩
    by_cases h0 : sym = 0
    · left; exact h0
    · right
      rw [if_neg h0] at h2
      rw [← not_le, e2]; omega

theorem floor_gap (r f g : Int) (hr : 16384 < r) (hfg : f < g) : r * f / 16384 + 1 ≤ r * g / 16384 := by
  rw [Int.le_ediv_iff_mul_le (by norm_num)]
  have h1 : r * f / 16384 * 16384 ≤ r * f := Int.ediv_mul_le _ (by norm_num)
  nlinarith

/-- The interval of a symbol is not empty and lies inside the current one. -/
theorem interval_ok {tbl : List Nat} (ht : FreqTable tbl) {s : St} (hs : Good s) {sym : Nat}
    (hsym : sym < tbl.length) :
    s.low ≤ lowOf tbl s sym ∧ lowOf tbl s sym ≤ highOf tbl s sym ∧ highOf tbl s sym ≤ s.high := by
  have hr := hs.range
  have h1 := tbl_lt ht sym
  have h2 := tbl_lt ht (sym - 1)
  have p1 : 0 ≤ (s.high - s.low + 1) * (tbl.getD sym 0 : Nat) / 16384 :=
    Int.ediv_nonneg (mul_nonneg (by omega) (by omega)) (by norm_num)
  refine ⟨by unfold lowOf; omega, ?_, ?_⟩
  · unfold lowOf highOf
    split
    · rename_i h0
      have := floor_gap (s.high - s.low + 1) (tbl.getD sym 0 : Nat) 16384 (by omega) (by omega)
      rw [Int.mul_ediv_cancel _ (by norm_num)] at this
      omega
    · have h3 := getD_mono ht (show sym - 1 < sym by omega) hsym
      have := floor_gap (s.high - s.low + 1) (tbl.getD sym 0 : Nat) (tbl.getD (sym - 1) 0 : Nat)
        (by omega) (by omega)
      omega
  · unfold highOf
    split
    · exact le_refl _
    · have := floor_gap (s.high - s.low + 1) (tbl.getD (sym - 1) 0 : Nat) 16384 (by omega) (by omega)
      rw [Int.mul_ediv_cancel _ (by norm_num)] at this
      omega

/-- The complete behaviour of the decoding function from a renormalised state. -/
theorem decode_ok {tbl : List Nat} (ht : FreqTable tbl) {s : St} (hs : Good s) (bc : Int)
    (hb0 : -2147483648 ≤ bc) (hb : bc + 16 ≤ 2147483647) (l : List Bool) :
    (l = [] ∧ cumOf s ≤ 0 ∧ run (decode tbl tbl.length s bc) l = .ok (none, l)) ∨
    (¬ (l = [] ∧ cumOf s ≤ 0) ∧
      ∃ sym s' k, k ≤ 16 ∧ run (decode tbl tbl.length s bc) l =
        .ok (some (sym, s', bc + (k : Nat)), l.drop k) ∧ IsSym tbl (cumOf s) sym ∧ Good s' ∧
        Shifted ⟨lowOf tbl s sym, highOf tbl s sym, s.value⟩ l k s' (l.drop k) ∧
        run (renorm 17 ⟨lowOf tbl s sym, highOf tbl s sym, s.value⟩ bc) l =
          .ok ((s', bc + (k : Nat)), l.drop k)) := by
  have hr := hs.range
  have hi := hs.1
  obtain ⟨i1, i2, i3, i4⟩ := hi
  have hcum0 : 0 ≤ cumOf s := Int.ediv_nonneg (by omega) (by omega)
  have hcum1 : cumOf s ≤ 65536 * 16384 := by
    unfold cumOf
    apply Int.le_trans (Int.ediv_le_self _ (by omega)); omega
  have htd : ((s.value - s.low + 1) * 16384 - 1).tdiv (s.high - s.low + 1) = cumOf s := by
    rw [Int.tdiv_eq_ediv_of_nonneg (by omega)]; rfl
  have hmul : ∀ i, 0 ≤ (s.high - s.low + 1) * (tbl.getD i 0 : Nat) ∧
      (s.high - s.low + 1) * (tbl.getD i 0 : Nat) ≤ 65536 * 16384 := by
    intro i
    have := tbl_lt ht i
    exact ⟨mul_nonneg (by omega) (by omega), mul_le_mul hr.2 (by omega) (by omega) (by norm_num)⟩
  have pre : run (decode tbl tbl.length s bc) l =
      if ((l.length : Int) = 0 ∧ cumOf s ≤ 0) then .ok (none, l) else
      run (do
        let p ← lift (search tbl (cumOf s) (tbl.length + 1) (-1) tbl.length)
        let symbol := (p + 1).toNat
        let high ← (if symbol ≠ 0 then do
            let f ← getAt tbl (symbol - 1)
            let x ← w32 ((s.high - s.low + 1) * f)
            w32 (s.low + x / 16384 - 1)
          else pure s.high)
        let f ← getAt tbl symbol
        let x ← w32 ((s.high - s.low + 1) * f)
        let low ← w32 (s.low + x / 16384)
        let r ← renorm 17 ⟨low, high, s.value⟩ bc
        pure (some (symbol, r.1, r.2))) l := by
    unfold decode
    rw [run_w32_bind (by omega) (by omega), run_w32_bind (by omega) (by omega),
      run_w32_bind (by omega) (by omega), run_w32_bind (by omega) (by omega),
      if_neg (by omega), htd, run_w32_bind (by omega) (by omega), run_bind, run_avail, Res.ok_bind]
    split <;> rename_i hc <;> simp only at hc
    · rfl
    · rfl
  rw [pre]
  by_cases hc : (l.length : Int) = 0 ∧ cumOf s ≤ 0
  · left
    rw [if_pos hc]
    exact ⟨List.eq_nil_of_length_eq_zero (by omega), hc.2, rfl⟩
  · right
    refine ⟨by rintro ⟨h1, h2⟩; apply hc; rw [h1]; exact ⟨rfl, h2⟩, ?_⟩
    rw [if_neg hc]
    obtain ⟨sym, hsearch, hsym⟩ := search_ok tbl (cumOf s) (tbl.length + 1) (-1) tbl.length (by omega)
      ht.two (by omega) (by omega) (Or.inl rfl) (by
        rw [show (-1 + (tbl.length : Int)).toNat = tbl.length - 1 by omega, ht.last]
        exact hcum0)
    have hlt := hsym.1
    have hin := (isSym_iff hs hlt).mp hsym
    have hint := interval_ok ht hs hlt
    rw [hsearch]
    obtain ⟨s', k, hk, hrn, hg, hsh⟩ := renorm_ok 16 ⟨lowOf tbl s sym, highOf tbl s sym, s.value⟩ bc l
      ⟨by simp only; omega, hin.1, hin.2, by simp only; omega⟩
      (by simp only; norm_num; omega) hb0 (by omega)
    refine ⟨sym, s', k, hk, ?_, hsym, hg, hsh, hrn⟩
    rw [show (lift (Res.ok ((sym : Int) - 1)) : Prog Int) = pure ((sym : Int) - 1) from rfl, pure_bind]
    simp only
    rw [show ((sym : Int) - 1 + 1).toNat = sym by omega]
    have m1 := hmul sym
    have m2 := hmul (sym - 1)
    have tail : ∀ high : Int, high = highOf tbl s sym → run (do
        let f ← getAt tbl sym
        let x ← w32 ((s.high - s.low + 1) * f)
        let low ← w32 (s.low + x / 16384)
        let r ← renorm 17 ⟨low, high, s.value⟩ bc
        pure (some (sym, r.1, r.2))) l = .ok (some (sym, s', bc + (k : Nat)), l.drop k) := by
      intro high hh
      rw [getAt, getElem?_getD _ _ hlt]
      simp only
      rw [pure_bind, run_w32_bind (by omega) (by omega), run_w32_bind (by omega) (by omega),
        show s.low + (s.high - s.low + 1) * (tbl.getD sym 0 : Nat) / 16384 = lowOf tbl s sym from rfl,
        hh, run_bind, hrn]
      rfl
    by_cases h0 : sym = 0
    · rw [if_neg (by simpa using h0), pure_bind]
      exact tail s.high (by simp [highOf, h0])
    · rw [if_pos h0, getAt, getElem?_getD _ _ (by omega)]
      simp only [pure_bind, bind_assoc]
      rw [run_w32_bind (by omega) (by omega), run_w32_bind (by omega) (by omega)]
      exact tail _ (by simp [highOf, h0])

end Verif.Arith
