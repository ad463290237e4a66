import Verif.Props.Fdp
import Mathlib.Tactic.NormNum
import Mathlib.Tactic.FieldSimp

/-! # Frames with prediction of harmonic lines -/

namespace Verif.Fdp

open Verif.Spec.Fdp
open Ops (i32)

/-! ## C190: what the prediction does -/

/-- C190: in a frame with long window, a coded spacing and coded bands that reach beyond the prediction bandwidth, every line below the
bandwidth gets the estimate of the specification; the memory gets the last values; all other lines stay, and have no memory. -/
theorem C190_predict (rate : Nat) (factors q : Nat → Int) (spacing : Int) (maxSfb top : Nat) (p1 p2 : Nat → Int) (coef : Nat → ℚ)
    (hq : ∀ j, |q j| ≤ 2147483647) (htop : (Fd.bandsAt rate).long[maxSfb - 1]? = some top) (h0 : 1 ≤ maxSfb) (hb : bandwidth rate < top)
    (hs0 : 0 ≤ spacing) (hs : spacing < 256) (h1 : Mem (bandwidth rate) p1) (h2 : Mem (bandwidth rate) p2) :
    ∃ sp p1' p2' coef', spacings[spacing.toNat]? = some sp ∧
      frame rate false true factors q spacing maxSfb p1 p2 coef = .ok (p1', p2', coef') ∧
      (∀ j < bandwidth rate, ∃ b e, InBand (Fd.bandsAt rate).long b j ∧ Estimate sp j (p1 j) (p2 j) e ∧
        coef' j = coef j + 512 * e ∧ p2' j = p1 j ∧ p1' j = limit (value (factors b) (q j) + e)) ∧
      (∀ j, bandwidth rate ≤ j → coef' j = coef j ∧ (j < 172 → p1' j = 0 ∧ p2' j = 0)) := by
  obtain ⟨m, rfl⟩ : ∃ m, maxSfb = m + 1 := ⟨maxSfb - 1, by omega⟩
  rw [Nat.add_sub_cancel] at htop
  have hE : E (Fd.bandsAt rate).long (m + 1) = top := by
    show (Fd.bandsAt rate).long.getD m 0 = top
    rw [List.getD_eq_getElem?_getD, htop]; rfl
  have hl : m < (Fd.bandsAt rate).long.length := by
    by_contra hc
    rw [List.getElem?_eq_none (by omega)] at htop
    exact absurd htop (by simp)
  obtain ⟨sp, s1, -, -⟩ := spacings_ok hs0 hs
  have hu : used rate true spacing (m + 1) := ⟨rfl, by rw [hE]; exact hb, hs0, hs⟩
  have hk : kept rate true (m + 1) = bandwidth rate := by
    unfold kept; rw [if_pos rfl, hE]; omega
  obtain ⟨p1', p2', coef', f1, f2, f3⟩ := frame_ok rate false true factors q spacing (m + 1) p1 p2 coef hq (fun _ => by omega) h1 h2
  rw [hk] at f2 f3
  refine ⟨sp, p1', p2', coef', s1, f1, fun j hj => ?_, f3⟩
  obtain ⟨b, e, c1, c2, c3, c4, -, c6⟩ := f2 j hj
  obtain ⟨sp', s2, c7⟩ := c6 hu
  have : sp' = sp := by rw [s1] at s2; exact (Option.some.inj s2).symm
  rw [this] at c7
  have hf : ∀ p : Nat → Int, from_ false p = p := fun p => by funext x; unfold from_; simp
  rw [hf, hf] at c7
  rw [hf] at c2
  exact ⟨b, e, c1, c7, c4, c2, c3⟩

/-- C190: without a coded spacing the spectrum stays, and the lines of the coded bands up to the bandwidth are in the memory. -/
theorem C190_silent (rate : Nat) (indep long : Bool) (factors q : Nat → Int) (maxSfb : Nat) (p1 p2 : Nat → Int) (coef : Nat → ℚ)
    (hq : ∀ j, |q j| ≤ 2147483647) (hmax : long = true → maxSfb ≤ (Fd.bandsAt rate).long.length)
    (h1 : Mem (bandwidth rate) p1) (h2 : Mem (bandwidth rate) p2) :
    ∃ p1' p2', frame rate indep long factors q (-1) maxSfb p1 p2 coef = .ok (p1', p2', coef) ∧
      ∀ j < 172, (∃ b < maxSfb, long = true ∧ j < bandwidth rate ∧ InBand (Fd.bandsAt rate).long b j ∧
          p2' j = (if indep then 0 else p1 j) ∧ p1' j = limit (value (factors b) (q j))) ∨
        ((∀ b < maxSfb, long = true → j < bandwidth rate → ¬ InBand (Fd.bandsAt rate).long b j) ∧ p1' j = 0 ∧ p2' j = 0) := by
  obtain ⟨p1', p2', coef', f1, f2, f3⟩ := frame_ok rate indep long factors q (-1) maxSfb p1 p2 coef hq hmax h1 h2
  have hnu : ¬ used rate long (-1) maxSfb := fun h => absurd h.2.2.1 (by decide)
  have hc : coef' = coef := by
    funext j
    by_cases hj : j < kept rate long maxSfb
    · obtain ⟨b, e, -, -, -, c4, c5, -⟩ := f2 j hj
      rw [c4, c5 hnu]; simp
    · exact (f3 j (by omega)).1
  rw [hc] at f1
  refine ⟨p1', p2', f1, fun j hj => ?_⟩
  have hEm : ∀ {a b : Nat}, a ≤ b → b ≤ (Fd.bandsAt rate).long.length → E (Fd.bandsAt rate).long a ≤ E (Fd.bandsAt rate).long b :=
    fun hab hb => E_mono (m := (Fd.bandsAt rate).long.length) (fun k hk => le_of_lt ((good rate).2.1 k hk)) hab hb
  have hEhi : ∀ b e, (Fd.bandsAt rate).long[b]? = some e → E (Fd.bandsAt rate).long (b + 1) = e := by
    intro b e h
    show (Fd.bandsAt rate).long.getD b 0 = e
    rw [List.getD_eq_getElem?_getD, h]; rfl
  have hlen : ∀ b e, (Fd.bandsAt rate).long[b]? = some e → b < (Fd.bandsAt rate).long.length := by
    intro b e h
    by_contra hc
    rw [List.getElem?_eq_none (by omega)] at h
    exact absurd h (by simp)
  by_cases hk : j < kept rate long maxSfb
  · left
    obtain ⟨b, e, c1, c2, c3, c4, c5, -⟩ := f2 j hk
    rw [c5 hnu, add_zero] at c3
    have hl : long = true := by
      by_contra hc
      unfold kept at hk
      rw [if_neg hc] at hk
      omega
    have hk2 : j < E (Fd.bandsAt rate).long maxSfb ∧ j < bandwidth rate := by
      unfold kept at hk
      rw [if_pos hl] at hk
      omega
    refine ⟨b, ?_, hl, hk2.2, c1, ?_, c3⟩
    · by_contra hbm
      rcases c1.1 with hb0 | ⟨e0, g1, g2⟩
      · have : maxSfb = 0 := by omega
        rw [this] at hk2
        exact absurd hk2.1 (by show ¬ j < 0; omega)
      · by_cases hb0 : b = 0
        · have : maxSfb = 0 := by omega
          rw [this] at hk2
          exact absurd hk2.1 (by show ¬ j < 0; omega)
        · have h1 := hEhi _ _ g1
          rw [Nat.sub_add_cancel (by omega)] at h1
          have h2 := hlen _ _ g1
          have := hEm (a := maxSfb) (b := b) (by omega) (by omega)
          omega
    · rw [c2]
      unfold from_
      cases indep <;> simp [hj]
  · right
    obtain ⟨c1, c2⟩ := f3 j (by omega)
    refine ⟨fun b hb hl hjb hin => hk ?_, c2 hj⟩
    obtain ⟨e, g1, g2⟩ := hin.2
    have h1 := hEhi _ _ g1
    have := hEm (a := b + 1) (b := maxSfb) (by omega) (hmax hl)
    unfold kept
    rw [if_pos hl]
    omega

/-- A concrete frame meets the hypotheses: 48 kHz, 49 bands, spacing 0. -/
example : (Fd.bandsAt 48000).long[(49 : Nat) - 1]? = some 1024 ∧ bandwidth 48000 < 1024 ∧ Mem (bandwidth 48000) (fun _ => 0) :=
  ⟨by decide, by decide, fun _ _ => ⟨by simp, fun _ => rfl⟩⟩

/-! ## C191: no undefined behaviour -/

/-- A frame. -/
structure Fr where
  indep : Bool
  long : Bool
  factors : Nat → Int
  q : Nat → Int
  spacing : Int
  maxSfb : Nat
  coef : Nat → ℚ

/-- The frames of a channel one after another. -/
def frames (rate : Nat) : List Fr → (p1 p2 : Nat → Int) → Res ((Nat → Int) × (Nat → Int))
  | [], p1, p2 => .ok (p1, p2)
  | f :: fs, p1, p2 => do
    let r ← frame rate f.indep f.long f.factors f.q f.spacing f.maxSfb p1 p2 f.coef
    frames rate fs r.1 r.2.1

/-- C191: whatever frames are decoded one after another, no access is outside of the memory and no intermediate result leaves its type,
and the memory stays limited and 0 from the prediction bandwidth on. -/
theorem C191_safe (rate : Nat) (fs : List Fr) (p1 p2 : Nat → Int) (h1 : Mem (bandwidth rate) p1) (h2 : Mem (bandwidth rate) p2)
    (hf : ∀ f ∈ fs, (∀ j, |f.q j| ≤ 2147483647) ∧ (f.long = true → f.maxSfb ≤ (Fd.bandsAt rate).long.length)) :
    ∃ p1' p2', frames rate fs p1 p2 = .ok (p1', p2') ∧ Mem (bandwidth rate) p1' ∧ Mem (bandwidth rate) p2' := by
  induction fs generalizing p1 p2 with
  | nil => exact ⟨p1, p2, rfl, h1, h2⟩
  | cons f fs ih =>
    obtain ⟨hq, hm⟩ := hf f (by simp)
    obtain ⟨p1', p2', coef', f1, f2, f3⟩ := frame_ok rate f.indep f.long f.factors f.q f.spacing f.maxSfb p1 p2 f.coef hq hm h1 h2
    rw [frames, f1, Res.ok_bind]
    have hkb : kept rate f.long f.maxSfb ≤ bandwidth rate := by unfold kept; split <;> omega
    refine ih p1' p2' ?_ ?_ (fun g hg => hf g (List.mem_cons_of_mem _ hg))
    · intro j hj
      by_cases hk : j < kept rate f.long f.maxSfb
      · obtain ⟨b, e, -, -, c3, -⟩ := f2 j hk
        rw [c3]
        exact ⟨limit_le _, fun h => by omega⟩
      · rw [((f3 j (by omega)).2 hj).1]
        exact ⟨by decide, fun _ => rfl⟩
    · intro j hj
      by_cases hk : j < kept rate f.long f.maxSfb
      · obtain ⟨b, e, -, c2, -⟩ := f2 j hk
        rw [c2]
        exact ⟨(from_mem h1 j hj).1, fun h => by omega⟩
      · rw [((f3 j (by omega)).2 hj).2]
        exact ⟨by decide, fun _ => rfl⟩

/-- Every value that the arithmetic decoder delivers is allowed, with the largest number of bands. -/
example : (∀ j : Nat, |(fun _ => -2147483647 : Nat → Int) j| ≤ 2147483647) ∧ 51 ≤ (Fd.bandsAt 32000).long.length :=
  ⟨fun _ => by simp, by decide⟩

/-! ## C192: coded prediction is used -/

/-- The claim: in every frame with long window and a coded spacing the lines in the memory are predicted. -/
def AlwaysUsed : Prop :=
  ∀ (rate : Nat) (factors q : Nat → Int) (spacing : Int) (maxSfb : Nat) (p1 p2 p1' p2' : Nat → Int) (coef coef' : Nat → ℚ),
    (∀ j, |q j| ≤ 2147483647) → maxSfb ≤ (Fd.bandsAt rate).long.length → 0 ≤ spacing → spacing < 256 →
    Mem (bandwidth rate) p1 → Mem (bandwidth rate) p2 →
    frame rate false true factors q spacing maxSfb p1 p2 coef = .ok (p1', p2', coef') →
    ∀ b < maxSfb, ∀ j < bandwidth rate, InBand (Fd.bandsAt rate).long b j →
      ∃ sp e, spacings[spacing.toNat]? = some sp ∧ Estimate sp j (p1 j) (p2 j) e ∧ coef' j = coef j + 512 * e

/-- C192: the claim holds for frames with coded bands that end beyond the prediction bandwidth. -/
theorem C192_partial (rate : Nat) (factors q : Nat → Int) (spacing : Int) (maxSfb top : Nat) (p1 p2 p1' p2' : Nat → Int) (coef coef' : Nat → ℚ)
    (hq : ∀ j, |q j| ≤ 2147483647) (htop : (Fd.bandsAt rate).long[maxSfb - 1]? = some top) (h0 : 1 ≤ maxSfb) (hb : bandwidth rate < top)
    (hs0 : 0 ≤ spacing) (hs : spacing < 256) (h1 : Mem (bandwidth rate) p1) (h2 : Mem (bandwidth rate) p2)
    (h : frame rate false true factors q spacing maxSfb p1 p2 coef = .ok (p1', p2', coef')) :
    ∀ j < bandwidth rate, ∃ sp e, spacings[spacing.toNat]? = some sp ∧ Estimate sp j (p1 j) (p2 j) e ∧ coef' j = coef j + 512 * e := by
  obtain ⟨sp, a, b, c, g1, g2, g3, -⟩ := C190_predict rate factors q spacing maxSfb top p1 p2 coef hq htop h0 hb hs0 hs h1 h2
  rw [h] at g2
  have hc : coef' = c := by injection g2 with g2; injection g2 with _ g2; injection g2
  intro j hj
  obtain ⟨_, e, -, k2, k3, -⟩ := g3 j hj
  exact ⟨sp, e, g1, k2, by rw [hc]; exact k3⟩

/-- A concrete frame meets the hypotheses: 44.1 kHz, 30 bands, and a memory with a harmonic. -/
example : ∃ top, (Fd.bandsAt 44100).long[(30 : Nat) - 1]? = some top ∧ bandwidth 44100 < top ∧
    Mem (bandwidth 44100) (fun j => if j = 2 then 1000 else 0) :=
  ⟨_, rfl, by decide, fun j _ => ⟨by show |if j = 2 then (1000 : Int) else 0| ≤ _; split <;> decide, fun h => by
    have h' : 2 < bandwidth 44100 := by decide
    show (if j = 2 then (1000 : Int) else 0) = 0
    rw [if_neg (by omega)]⟩⟩

/-- C192: at 48 kHz with 20 coded bands, which end at line 132, the coded prediction of a harmonic is not used: line 2 of the last frame
was 1000, its estimate is -1500. -/
theorem C192_refuted : ¬ AlwaysUsed := by
  intro h
  have hm1 : Mem (bandwidth 48000) (fun j => if j = 2 then 1000 else 0) := fun j _ => by
    show |if j = 2 then (1000 : Int) else 0| ≤ 31775 ∧ (bandwidth 48000 ≤ j → (if j = 2 then (1000 : Int) else 0) = 0)
    have : bandwidth 48000 = 132 := by decide
    rw [this]
    by_cases h2 : j = 2
    · rw [if_pos h2]; exact ⟨by decide, fun _ => by omega⟩
    · rw [if_neg h2]; exact ⟨by decide, fun _ => rfl⟩
  have hm2 : Mem (bandwidth 48000) (fun _ => 0) := fun j _ => ⟨by simp, fun _ => rfl⟩
  obtain ⟨p1', p2', coef', f1, f2, f3⟩ := frame_ok 48000 false true (fun _ => 0) (fun _ => 0) 0 20 (fun j => if j = 2 then 1000 else 0)
    (fun _ => 0) (fun _ => 0) (fun _ => by decide) (fun _ => by decide) hm1 hm2
  have hnu : ¬ used 48000 true 0 20 := fun hu => absurd hu.2.1 (by decide)
  obtain ⟨b, e, -, -, -, c4, c5, -⟩ := f2 2 (by decide)
  rw [c5 hnu] at c4
  obtain ⟨sp, e', g1, g2, g3⟩ := h 48000 (fun _ => 0) (fun _ => 0) 0 20 _ _ p1' p2' _ coef' (fun _ => by decide) (by decide) (le_refl _)
    (by decide) hm1 hm2 f1 0 (by decide) 2 (by decide) ⟨Or.inl rfl, 4, by decide, by decide⟩
  have he' : e' = 0 := by
    rw [c4] at g3
    have h0 : (0 : ℚ) + 512 * (0 : Int) = 0 + 512 * (e' : ℚ) := g3
    have h1 : (e' : ℚ) = 0 := by push_cast at h0; linarith
    exact_mod_cast h1
  have hsp : sp = 768 := by
    have : spacings[(0 : Int).toNat]? = some 768 := by decide
    rw [this] at g1; exact (Option.some.inj g1).symm
  rw [hsp, he'] at g2
  have hnear : Near 768 2 1 := ⟨le_refl _, by decide⟩
  rcases g2 with ⟨n, a, b, k1, k2, k3⟩ | ⟨k1, -⟩
  · have hn : n = 1 := by rw [← near_num (by omega) k1, near_num (by omega) hnear]
    subst hn
    obtain ⟨d, m, k, d1, d2, d3, d4, d5, d6⟩ := k2
    have hk : k = 2 := by omega
    have hd : d = 128 := by
      rcases abs_cases (((1 : Nat) : Int) * (768 : Nat) - 128 - 256 * m) with ⟨x1, x2⟩ | ⟨x1, x2⟩ <;> omega
    have ha : a = -49152 := by
      rcases d6 with ⟨-, x⟩ | ⟨x, -⟩
      · rw [x, hd]; decide
      · rw [hk] at x; exact absurd (by decide : Even (2 : Int)) x
    have hr := k3.1
    rw [ha] at hr
    revert hr
    show ¬ 2 * |(32768 : Int) * 0 - (-49152 * (1000 : Int) + b * 0)| ≤ 32768
    rw [mul_zero, mul_zero, add_zero]
    decide
  · exact k1 1 hnear

/-! ## C193: spacings -/

/-- C193: the spacings are 894 * 256 / (298 - index) rounded, for every index, and the frames of both cores use the same. -/
theorem C193_spacing : ∀ i < 256, tcxSpacing i = .ok (spacings.getD i 0) ∧
    2 * spacings.getD i 0 * (298 - i) ≤ 894 * 512 + (298 - i) ∧ 894 * 512 + (298 - i) < 2 * (spacings.getD i 0 + 1) * (298 - i) := by
  decide +kernel

example : spacings.getD 0 0 = 768 ∧ spacings.getD 255 0 = 5322 := by decide +kernel

/-! ## C195: the rounded square root -/

theorem sqrtLoop_ok (k : Nat) (x r num v : Nat) (hx : x = num + r * r) (hv : v = r * 2 ^ (k + 1)) (hb : x < (r + 2 ^ (k + 1)) * (r + 2 ^ (k + 1))) :
    sqrtLoop k num v * sqrtLoop k num v ≤ x ∧ x < (sqrtLoop k num v + 1) * (sqrtLoop k num v + 1) := by
  induction k generalizing r num v with
  | zero =>
    rw [sqrtLoop]
    rw [Nat.zero_add, pow_one] at hv hb
    by_cases h : v + 1 ≤ num
    · rw [if_pos h, show (v + 2) / 2 = r + 1 by omega]
      constructor <;> nlinarith
    · rw [if_neg h, show v / 2 = r by omega]
      constructor <;> nlinarith
  | succ k ih =>
    rw [sqrtLoop]
    have h4 : 4 ^ (k + 1) = 2 ^ (k + 1) * 2 ^ (k + 1) := by
      rw [← pow_add, show (4 : Nat) = 2 ^ 2 by norm_num, ← pow_mul]; congr 1; ring
    have h2 : 2 ^ (k + 1 + 1) = 2 * 2 ^ (k + 1) := by rw [pow_succ]; ring
    obtain ⟨t, ht⟩ : ∃ t, t = 2 ^ (k + 1) := ⟨_, rfl⟩
    rw [h2] at hv hb
    rw [h4]
    rw [← ht] at hv hb ih ⊢
    have hvv : v = 2 * (r * t) := by rw [hv]; ring
    by_cases h : v + t * t ≤ num
    · rw [if_pos h]
      have he : (v + 2 * (t * t)) / 2 = (r + t) * t := by
        rw [hvv, show 2 * (r * t) + 2 * (t * t) = 2 * ((r + t) * t) by ring, Nat.mul_div_cancel_left _ (by norm_num)]
      rw [he]
      refine ih (r + t) _ _ ?_ rfl ?_
      · have e2 : (r + t) * (r + t) = r * r + 2 * (r * t) + t * t := by ring
        rw [e2, hx]; omega
      · have e2 : r + t + t = r + 2 * t := by ring
        rw [e2]; exact hb
    · rw [if_neg h]
      have he : v / 2 = r * t := by rw [hvv, Nat.mul_div_cancel_left _ (by norm_num)]
      rw [he]
      refine ih r num _ hx rfl ?_
      have e2 : (r + t) * (r + t) = r * r + 2 * (r * t) + t * t := by ring
      rw [e2, hx]; omega

/-- C195: the rounded square root of every number below 2^64 is the nearest integer to the root. -/
theorem C195_root (x : Nat) (h : x < 2 ^ 64) : NearestRoot x (roundedSqrt x) := by
  obtain ⟨h1, h2⟩ := sqrtLoop_ok 31 x 0 x 0 (by omega) (by omega) (by norm_num at h ⊢; omega)
  unfold roundedSqrt
  obtain ⟨v, hv⟩ : ∃ v, v = sqrtLoop 31 x 0 := ⟨_, rfl⟩
  rw [← hv] at h1 h2 ⊢
  simp only
  have hz : ((v : Int) + 1) * (v + 1) - x < (x : Int) - v * v ↔ (v + 1) * (v + 1) + v * v < 2 * x := by
    constructor
    · intro hh
      have : (((v + 1) * (v + 1) + v * v : Nat) : Int) < ((2 * x : Nat) : Int) := by push_cast; linarith
      exact_mod_cast this
    · intro hh
      have : (((v + 1) * (v + 1) + v * v : Nat) : Int) < ((2 * x : Nat) : Int) := by exact_mod_cast hh
      push_cast at this
      linarith
  by_cases hc : (v + 1) * (v + 1) + v * v < 2 * x
  · rw [if_pos (hz.2 hc)]
    refine ⟨by nlinarith, Or.inr ?_⟩
    rw [show 2 * (v + 1) - 1 = 2 * v + 1 by omega]
    nlinarith
  · rw [if_neg (fun hh => hc (hz.1 hh))]
    have e1 : (v + 1) * (v + 1) = v * v + 2 * v + 1 := by ring
    have e2 : (2 * v + 1) * (2 * v + 1) = 4 * (v * v) + 4 * v + 1 := by ring
    refine ⟨by rw [e2]; rw [e1] at hc; omega, ?_⟩
    cases v with
    | zero => exact Or.inl rfl
    | succ w =>
      right
      rw [show 2 * (w + 1) - 1 = 2 * w + 1 by omega]
      nlinarith

example : NearestRoot 41 6 ∧ ¬ NearestRoot 41 7 ∧ (41 : Nat) < 2 ^ 64 := by unfold NearestRoot; decide

/-! ## C194: linear prediction parts -/

theorem not_near_zero {sp : Nat} (h : 768 ≤ sp) (n : Nat) : ¬ Near sp 0 n := by
  rintro ⟨h1, h2⟩
  have : num sp 0 = n := near_num h ⟨h1, h2⟩
  rw [num] at this
  omega

theorem tcxLines_ok (present : Bool) (gain : Nat) (q : Nat → Int) (n i : Nat) (s : St) (e : Nat → Int) (hi : i + n ≤ 172)
    (hq : ∀ j < i + n, |q j * gain| ≤ 2147418111) (he : ∀ j, i ≤ j → j < i + n → |e j| ≤ 65536 ∧ (present = true → s.est j = some (e j)) ∧
      (present = false → e j = 0)) :
    ∃ s', tcxLines present gain q n i s = .ok s' ∧ s'.coef = s.coef ∧
      (∀ j, i ≤ j → j < i + n → s'.p2 j = s.p1 j ∧ s'.p1 j = limit (q j * gain + e j)) ∧
      (∀ j, j < i ∨ i + n ≤ j → s'.p1 j = s.p1 j ∧ s'.p2 j = s.p2 j) := by
  induction n generalizing i s with
  | zero => exact ⟨s, rfl, rfl, fun j _ _ => by omega, fun j _ => ⟨rfl, rfl⟩⟩
  | succ n ih =>
    obtain ⟨e1, e2, e3⟩ := he i (by omega) (by omega)
    have hqi := hq i (by omega)
    have hx : addEst present (s.est i) (q i * gain) = .ok (q i * gain + e i) := by
      cases present with
      | true =>
        rw [e2 rfl]
        refine i32_ok ?_
        refine le_trans (abs_add_le _ _) ?_
        omega
      | false => rw [e3 rfl, add_zero]; rfl
    rw [tcxLines, inside_ok (by omega), Res.ok_bind, i32_ok (by omega), Res.ok_bind, hx, Res.ok_bind, sat_limit]
    obtain ⟨s1, h1⟩ : ∃ s1 : St, s1 = { s with p2 := upd s.p2 i (s.p1 i), p1 := upd s.p1 i (limit (q i * gain + e i)) } := ⟨_, rfl⟩
    rw [← h1]
    obtain ⟨s', hs', q2, q4, q5⟩ := ih (i + 1) s1 (by omega) (fun j hj => hq j (by omega))
      (fun j hj hj' => by rw [h1]; exact he j (by omega) (by omega))
    refine ⟨s', hs', by rw [q2, h1], fun j hj hj' => ?_, fun j hj => ?_⟩
    · by_cases hji : j = i
      · subst hji
        obtain ⟨a1, a2⟩ := q5 j (by omega)
        rw [a1, a2, h1]
        simp [upd]
      · obtain ⟨a1, a2⟩ := q4 j (by omega) (by omega)
        rw [a1, a2, h1]
        simp [upd, hji]
    · obtain ⟨a1, a2⟩ := q5 j (by omega)
      have hji : j ≠ i := by omega
      rw [a1, a2, h1]
      simp [upd, hji]

/-- The claim: the prediction of the linear prediction part of a superframe gives every line below the bandwidth its estimate, for all
quantised values of 32 bits. -/
def TcxPredicts : Prop :=
  ∀ (present : Bool) (idx : Nat) (q : Nat → Int) (energy : ℚ) (full index : Nat) (gain : Nat) (g : ℚ) (lg bw : Nat) (p1 p2 : Nat → Int)
    (est : Nat → Option Int) (coef : Nat → ℚ),
    idx < 256 → (∀ j, |q j| ≤ 2147483647) → index < 128 → quantGain energy full index = .ok gain → (∀ j < lg, (q j : ℚ) * q j ≤ energy) →
    bw ≤ 160 → Mem bw p1 → Mem bw p2 →
    ∃ p1' p2' coef', tcxDecode present idx q gain g lg bw p1 p2 est coef = .ok (p1', p2', coef')

/-- C194: as long as the scaled values have 32 bits less 65536, the estimates of the specification are used, and the memory keeps the
values of the lines below the bandwidth and of the last frame. -/
theorem C194_tcx_partial (present : Bool) (idx : Nat) (q : Nat → Int) (gain : Nat) (g : ℚ) (lg bw : Nat) (p1 p2 : Nat → Int)
    (est : Nat → Option Int) (coef : Nat → ℚ) (hidx : idx < 256) (hq : ∀ j < min lg bw, |q j * gain| ≤ 2147418111) (hbw : bw ≤ 160)
    (h1 : Mem bw p1) (h2 : Mem bw p2) :
    ∃ sp p1' p2' coef', spacings[idx]? = some sp ∧ tcxDecode present idx q gain g lg bw p1 p2 est coef = .ok (p1', p2', coef') ∧
      Mem bw p1' ∧ Mem bw p2' ∧
      (∀ j < min lg bw, ∃ e, (present = true → Estimate sp j (p1 j) (p2 j) e) ∧ (present = false → e = 0) ∧
        coef' j = coef j + g * e ∧ p2' j = p1 j ∧ p1' j = limit (q j * gain + e)) ∧
      (∀ j, min lg bw ≤ j → coef' j = coef j ∧ (j < 172 → p1' j = 0 ∧ p2' j = 0)) := by
  obtain ⟨sp, s1, s2, s3⟩ := spacings_ok (i := (idx : Int)) (by omega) (by omega)
  rw [Int.toNat_natCast] at s1
  have hsp : tcxSpacing idx = .ok sp := by
    rw [(C193_spacing idx hidx).1, List.getD_eq_getElem?_getD, s1]; rfl
  obtain ⟨n, hn⟩ : ∃ n, n = min lg bw := ⟨_, rfl⟩
  have hm0 : ∀ j < 172, |p1 j| ≤ 31775 ∧ |upd p2 0 0 j| ≤ 31775 := fun j hj => by
    refine ⟨(h1 j hj).1, ?_⟩
    unfold upd
    split
    · decide
    · exact (h2 j hj).1
  have hest : ∃ t1 : St, ∃ e : Nat → Int, (if present then estLines sp g n 0 ⟨p1, upd p2 0 0, est, coef, start⟩ else
        .ok ⟨p1, upd p2 0 0, est, coef, start⟩) = (.ok t1 : Res St) ∧ t1.p1 = p1 ∧
      (∀ j < n, (present = false → e j = 0) ∧ (present = true → t1.est j = some (e j)) ∧
        (present = true → Estimate sp j (p1 j) (p2 j) (e j)) ∧ |e j| ≤ 65536 ∧ t1.coef j = coef j + g * e j) ∧
      (∀ j, n ≤ j → t1.coef j = coef j) := by
    cases present with
    | false =>
      exact ⟨_, fun _ => 0, rfl, rfl, fun j _ => ⟨fun _ => rfl, by simp, by simp, by simp, by simp⟩, fun _ _ => rfl⟩
    | true =>
      obtain ⟨t1, g1, g2, g3, g4, g5, g6⟩ := estLines_ok s3 g n 0 ⟨p1, upd p2 0 0, est, coef, start⟩ (by omega) (T_zero sp).symm hm0
      rw [Nat.zero_add] at g4 g5 g6
      refine ⟨t1, fun j => (t1.est j).getD 0, g1, g2, fun j hj => ?_, fun j hj => (g6 j (by omega)).2⟩
      obtain ⟨e, a1, a2, a3, a4⟩ := g5 j (by omega) hj
      refine ⟨by simp, fun _ => ?_, fun _ => ?_, ?_, ?_⟩
      · show t1.est j = some ((t1.est j).getD 0); rw [a1]; rfl
      · show Estimate sp j _ _ ((t1.est j).getD 0)
        rw [a1]
        by_cases hj0 : j = 0
        · subst hj0
          rcases a2 with ⟨m, _, _, hm, -⟩ | ⟨b1, b2⟩
          · exact absurd hm (not_near_zero s3 m)
          · exact Or.inr ⟨b1, b2⟩
        · have : upd p2 0 0 j = p2 j := if_neg hj0
          change Estimate sp j (p1 j) (upd p2 0 0 j) e at a2
          rw [this] at a2
          exact a2
      · show |(t1.est j).getD 0| ≤ _; rw [a1]; exact a3
      · show t1.coef j = coef j + g * ((t1.est j).getD 0 : Int); rw [a1]; exact a4
  obtain ⟨t1, e, g1, g2, g3, g4⟩ := hest
  obtain ⟨t2, k1, k2, k3, k4⟩ := tcxLines_ok present gain q n 0 t1 e (by omega) (fun j hj => hq j (by omega))
    (fun j _ hj => by obtain ⟨a1, a2, a3, a4, a5⟩ := g3 j (by omega); exact ⟨a4, a2, a1⟩)
  rw [Nat.zero_add] at k3 k4
  have hmin : min n bw = n := by omega
  have hdec : tcxDecode present idx q gain g lg bw p1 p2 est coef =
      .ok ((fun j => if n ≤ j ∧ j < 172 then 0 else t2.p1 j), (fun j => if n ≤ j ∧ j < 172 then 0 else t2.p2 j), t2.coef) := by
    unfold tcxDecode
    rw [hsp, Res.ok_bind, ← hn]
    dsimp only
    rw [g1, Res.ok_bind, k1, Res.ok_bind, hmin]
  rw [← hn]
  have hq1 : ∀ j < n, (if n ≤ j ∧ j < 172 then 0 else t2.p1 j) = limit (q j * gain + e j) := fun j hj => by
    rw [if_neg (by omega)]; exact (k3 j (by omega) hj).2
  have hq2 : ∀ j < n, (if n ≤ j ∧ j < 172 then 0 else t2.p2 j) = p1 j := fun j hj => by
    rw [if_neg (by omega), (k3 j (by omega) hj).1, g2]
  refine ⟨sp, _, _, _, s1, hdec, fun j hj => ?_, fun j hj => ?_, fun j hj => ?_, fun j hj => ⟨?_, fun h => ⟨if_pos ⟨hj, h⟩, if_pos ⟨hj, h⟩⟩⟩⟩
  · by_cases hjn : j < n
    · show |if _ then _ else _| ≤ _ ∧ (_ → (if _ then _ else _) = _)
      rw [hq1 j hjn]; exact ⟨limit_le _, fun h => by omega⟩
    · show |if _ then _ else _| ≤ _ ∧ (_ → (if _ then _ else _) = _)
      rw [if_pos ⟨by omega, hj⟩]; exact ⟨by decide, fun _ => rfl⟩
  · by_cases hjn : j < n
    · show |if _ then _ else _| ≤ _ ∧ (_ → (if _ then _ else _) = _)
      rw [hq2 j hjn]; exact ⟨(h1 j hj).1, fun h => by omega⟩
    · show |if _ then _ else _| ≤ _ ∧ (_ → (if _ then _ else _) = _)
      rw [if_pos ⟨by omega, hj⟩]; exact ⟨by decide, fun _ => rfl⟩
  · obtain ⟨a1, a2, a3, a4, a5⟩ := g3 j hj
    exact ⟨e j, a3, a1, by rw [k2, a5], hq2 j hj, hq1 j hj⟩
  · rw [k2, g4 j hj]

/-- Concrete values meet the hypotheses: 1000 at gain 95 in 100 lines. -/
example : (∀ j < min 100 160, |(fun _ => 1000 : Nat → Int) j * (95 : Nat)| ≤ 2147418111) ∧ Mem 160 (fun _ => 0) :=
  ⟨fun _ _ => show |(1000 : Int) * (95 : Nat)| ≤ 2147418111 by decide, fun _ _ => ⟨by simp, fun _ => rfl⟩⟩

/-- C194: with the value 2^25, which the arithmetic decoder can deliver, at the largest gain the product overflows. -/
theorem C194_refuted : ¬ TcxPredicts := by
  intro h
  have hg : quantGain 1125899906842624 0 127 = .ok 95 := by
    unfold quantGain
    rw [if_pos (by norm_num)]
    decide +kernel
  have hm : Mem 160 (fun _ => 0) := fun j _ => ⟨by simp, fun _ => rfl⟩
  obtain ⟨a, b, c, habc⟩ := h false 0 (fun j => if j = 0 then 33554432 else 0) 1125899906842624 0 127 95 1 1024 160 (fun _ => 0) (fun _ => 0)
    (fun _ => none) (fun _ => 0) (by omega) (fun j => by show |if j = 0 then (33554432 : Int) else 0| ≤ _; split <;> decide) (by omega) hg
    (fun j _ => by
      show (((if j = 0 then 33554432 else 0 : Int)) : ℚ) * ((if j = 0 then 33554432 else 0 : Int) : ℚ) ≤ _
      split <;> norm_num) (by omega) hm hm
  revert habc
  unfold tcxDecode
  rw [(C193_spacing 0 (by omega)).1, Res.ok_bind]
  simp only [Bool.false_eq_true, if_false, Res.ok_bind]
  rw [show min 1024 160 = 159 + 1 by decide, tcxLines, inside_ok (by omega), Res.ok_bind,
    show i32 ((if (0 : Nat) = 0 then (33554432 : Int) else 0) * (95 : Nat)) = .ub by decide]
  intro hc
  exact absurd hc (by intro h; cases h)

end Verif.Fdp
