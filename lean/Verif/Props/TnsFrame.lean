import Verif.Props.Tns
import Verif.Props.FdWindow

/-! # Noise shaping of channels and of parts of linear prediction (C199-C203) -/

namespace Verif.Tns

open Verif.Spec.Tns
open Fd (Filt TnsWin)

/-! ## C199: noise shaping is inverted -/

theorem residual_congr (ks : List ℚ) (lo hi dir : Nat) (y y' x x' : Nat → ℚ) (hy : ∀ p, lo ≤ p → p < hi → y p = y' p)
    (hx : ∀ p, lo ≤ p → p < hi → x p = x' p) (h : Residual ks lo hi dir y x) : Residual ks lo hi dir y' x' := by
  intro p h1 h2
  rw [← hx p h1 h2, h p h1 h2]
  refine Finset.sum_congr rfl fun j _ => ?_
  congr 1
  unfold tap
  split
  · split
    · exact hy _ (by omega) (by omega)
    · rfl
  · split
    · exact hy _ (by omega) (by omega)
    · rfl

theorem top_ok (ends : List Nat) (b : Nat) (h : b ≤ ends.length) : top ends b = .ok (lineOf ends b) := by
  unfold top lineOf
  by_cases h0 : b = 0
  · rw [if_pos h0, if_pos h0]
  · rw [if_neg h0, if_neg h0, List.getElem?_eq_getElem (by omega), List.getD_eq_getElem _ _ (by omega)]

theorem lineOf_mono (ends : List Nat) (hs : ends.Pairwise (· ≤ ·)) {a b : Nat} (hab : a ≤ b) (hb : b ≤ ends.length) : lineOf ends a ≤ lineOf ends b := by
  unfold lineOf
  by_cases h0 : a = 0
  · rw [if_pos h0]; exact Nat.zero_le _
  · rw [if_neg h0, if_neg (by omega), List.getD_eq_getElem _ _ (by omega), List.getD_eq_getElem _ _ (by omega)]
    rcases Nat.lt_or_ge (a - 1) (b - 1) with h | h
    · exact (List.pairwise_iff_getElem.1 hs) _ _ (by omega) (by omega) h
    · have : a - 1 = b - 1 := by omega
      simp only [this]; exact le_refl _

/-- The first line of a filter: its first band, but not above the largest band of noise shaping and the number of bands. -/
def first (c : Cfg) (g : Filt) : Nat := lineOf c.ends (min (min g.start c.most) c.nbands)

/-- The end of a filter; with gap filling the largest band of noise shaping is not looked at. -/
def last (c : Cfg) (g : Filt) : Nat := lineOf c.ends (if c.igf then min g.stop c.nbands else min (min g.stop c.most) c.nbands)

theorem filter_ok (c : Cfg) (res : Nat) (g : Filt) (f : Nat → ℚ) (h1 : g.start ≤ c.ends.length) (h2 : g.stop ≤ c.ends.length) (h3 : g.coef.length ≤ 15) :
    ∃ f', filter c res g f = .ok f' ∧
      (g.coef ≠ [] → Residual (g.coef.map (c.sn res)) (first c g) (last c g) g.dir f' f) ∧
      (∀ p, ¬ (g.coef ≠ [] ∧ first c g ≤ p ∧ p < last c g) → f' p = f p) := by
  unfold filter
  by_cases h0 : g.coef = []
  · rw [if_pos h0]
    exact ⟨f, rfl, fun h => absurd h0 h, fun _ _ => rfl⟩
  · have hs : ¬ c.ends.length < min (min g.start c.most) c.nbands := by omega
    have he : ¬ c.ends.length < (if c.igf then min g.stop c.nbands else min (min g.stop c.most) c.nbands) := by split <;> omega
    rw [if_neg h0]
    dsimp only
    rw [if_neg hs, top_ok _ _ (by omega), Res.ok_bind, if_neg he, top_ok _ _ (by omega), Res.ok_bind]
    by_cases hlh : last c g ≤ first c g
    · unfold last first at hlh
      rw [if_pos hlh]
      refine ⟨f, rfl, fun _ p a1 a2 => ?_, fun _ _ => rfl⟩
      unfold first at a1
      unfold last at a2
      omega
    · unfold last first at hlh
      rw [if_neg hlh, if_neg (by omega)]
      obtain ⟨k1, k2⟩ := arFilter_ok (g.coef.map (c.sn res)) (first c g) (last c g) g.dir (by unfold first last; omega) f
      refine ⟨_, rfl, fun _ => k1, fun p hp => k2 p ?_⟩
      by_contra hc
      exact hp ⟨h0, by omega, by omega⟩

theorem chain_le {t : Nat} {gs : List Filt} (h : Chain t gs) {g : Filt} (hg : g ∈ gs) : g.start ≤ t ∧ g.stop ≤ t ∧ g.coef.length ≤ 15 ∧ g.start ≤ g.stop := by
  induction gs generalizing t with
  | nil => cases hg
  | cons g' gs ih =>
    obtain ⟨a1, a2, a3, a4⟩ := h
    rcases List.mem_cons.1 hg with rfl | hg
    · exact ⟨a2, by omega, a3, by omega⟩
    · obtain ⟨b1, b2, b3, b4⟩ := ih a4 hg
      exact ⟨by omega, by omega, b3, b4⟩

theorem filters_ok (c : Cfg) (hs : c.ends.Pairwise (· ≤ ·)) (hi : c.igf = true → c.nbands ≤ c.most) (res : Nat) (gs : List Filt) (t : Nat)
    (ht : t ≤ c.ends.length) (hc : Chain t gs) (f : Nat → ℚ) :
    ∃ f', filters c res gs f = .ok f' ∧
      (∀ g ∈ gs, g.coef ≠ [] → Residual (g.coef.map (c.sn res)) (first c g) (last c g) g.dir f' f) ∧
      (∀ p, (∀ g ∈ gs, g.coef ≠ [] → ¬ (first c g ≤ p ∧ p < last c g)) → f' p = f p) := by
  induction gs generalizing t f with
  | nil => exact ⟨f, rfl, fun g hg => absurd hg List.not_mem_nil, fun _ _ => rfl⟩
  | cons g gs ih =>
    obtain ⟨a1, a2, a3, a4⟩ := hc
    obtain ⟨f1, h1, h2, h3⟩ := filter_ok c res g f (by omega) (by omega) a3
    rw [filters, h1, Res.ok_bind]
    obtain ⟨f', k1, k2, k3⟩ := ih g.start (by omega) a4 f1
    have hsep : ∀ g' ∈ gs, last c g' ≤ first c g := by
      intro g' hg'
      obtain ⟨b1, b2, -, -⟩ := chain_le a4 hg'
      unfold last first
      refine lineOf_mono c.ends hs ?_ (by omega)
      split
      · have := hi (by assumption); omega
      · omega
    refine ⟨f', k1, fun g' hg' hne => ?_, fun p hp => ?_⟩
    · rcases List.mem_cons.1 hg' with rfl | hg'
      · refine residual_congr _ _ _ _ f1 f' f f (fun p p1 p2 => (k3 p fun g'' hg'' _ hin => ?_).symm) (fun _ _ _ => rfl) (h2 hne)
        have := hsep g'' hg''
        omega
      · refine residual_congr _ _ _ _ f' f' f1 f (fun _ _ _ => rfl) (fun p p1 p2 => h3 p fun hin => ?_) (k2 g' hg' hne)
        have := hsep g' hg'
        omega
    · rw [k3 p fun g' hg' hne => hp g' (List.mem_cons_of_mem _ hg') hne, h3 p fun hin => hp g List.mem_cons_self hin.1 hin.2]

/-- `x` is what an encoder makes of the lines `y` of a window with filters `gs`: each filter over its bands, and nothing elsewhere. -/
def Encoded (c : Cfg) (res : Nat) (gs : List Filt) (y x : Nat → ℚ) : Prop :=
  (∀ g ∈ gs, g.coef ≠ [] → Residual (g.coef.map (c.sn res)) (first c g) (last c g) g.dir y x) ∧
  (∀ p, (∀ g ∈ gs, g.coef ≠ [] → ¬ (first c g ≤ p ∧ p < last c g)) → y p = x p)

/-- The claim: what encoders make is inverted, for all filters. -/
def Inverts : Prop :=
  ∀ (c : Cfg) (res : Nat) (gs : List Filt) (y x : Nat → ℚ), c.ends.Pairwise (· ≤ ·) → Chain c.ends.length gs →
    Encoded c res gs y x → filters c res gs x = .ok y

/-- C199: what encoders make is inverted without gap filling, and with gap filling if there are no bands above the largest band of noise
shaping. -/
theorem C199_inverse_partial (c : Cfg) (res : Nat) (gs : List Filt) (y x : Nat → ℚ) (hs : c.ends.Pairwise (· ≤ ·))
    (hi : c.igf = true → c.nbands ≤ c.most) (hc : Chain c.ends.length gs) (h : Encoded c res gs y x) : filters c res gs x = .ok y := by
  obtain ⟨f', k1, k2, k3⟩ := filters_ok c hs hi res gs c.ends.length (le_refl _) hc x
  rw [k1]
  congr 1
  funext p
  by_cases hp : ∀ g ∈ gs, g.coef ≠ [] → ¬ (first c g ≤ p ∧ p < last c g)
  · rw [k3 p hp, h.2 p hp]
  · push Not at hp
    obtain ⟨g, hg, hne, h1, h2⟩ := hp
    exact residual_unique _ _ _ _ f' y x (k2 g hg hne) (h.1 g hg hne) p h1 h2

/-- C199: every spectrum is decoded to one of which it is what an encoder makes. -/
theorem C199_decodes_partial (c : Cfg) (res : Nat) (gs : List Filt) (x : Nat → ℚ) (hs : c.ends.Pairwise (· ≤ ·))
    (hi : c.igf = true → c.nbands ≤ c.most) (hc : Chain c.ends.length gs) : ∃ y, filters c res gs x = .ok y ∧ Encoded c res gs y x := by
  obtain ⟨f', k1, k2, k3⟩ := filters_ok c hs hi res gs c.ends.length (le_refl _) hc x
  exact ⟨f', k1, k2, k3⟩

/-- C199: with gap filling, filters before it end where the gap starts at the latest, and filters after it reach to the end of the gap at least. -/
theorem C199_bands (start stop nbands : Nat) : igfBands true true start stop nbands = min start nbands ∧ igfBands true false start stop nbands = max stop nbands ∧
    ∀ after, igfBands false after start stop nbands = nbands := by
  refine ⟨?_, ?_, fun _ => rfl⟩
  · simp only [igfBands, if_true]
    split_ifs <;> omega
  · simp only [igfBands, if_true, Bool.false_eq_true, if_false]
    split_ifs <;> omega

example : igfBands true true 40 47 45 = 40 ∧ igfBands true false 40 47 45 = 47 := by decide

/-- C199: windows are decoded one by one; windows without filters keep their lines. -/
theorem C199_windows_partial (c : Cfg) (ws : List TnsWin) (j : Nat) (s : Nat → Nat → ℚ) (hs : c.ends.Pairwise (· ≤ ·))
    (hi : c.igf = true → c.nbands ≤ c.most) (hc : ∀ w ∈ ws, Chain c.ends.length w.filt) :
    ∃ s', apply c ws j s = .ok s' ∧ (∀ i w, ws[i]? = some w → Encoded c w.res w.filt (s' (j + i)) (s (j + i))) ∧
      (∀ i, (i < j ∨ j + ws.length ≤ i) → s' i = s i) := by
  induction ws generalizing j s with
  | nil => exact ⟨s, rfl, fun i w h => by simp at h, fun _ _ => rfl⟩
  | cons w ws ih =>
    obtain ⟨f, h1, h2⟩ := C199_decodes_partial c w.res w.filt (s j) hs hi (hc w List.mem_cons_self)
    rw [apply, h1, Res.ok_bind]
    obtain ⟨s', k1, k2, k3⟩ := ih (j + 1) (fun j' => if j' = j then f else s j') (fun w hw => hc w (List.mem_cons_of_mem _ hw))
    refine ⟨s', k1, fun i w' hw' => ?_, fun i hi' => ?_⟩
    · cases i with
      | zero =>
        simp only [List.getElem?_cons_zero, Option.some.injEq] at hw'
        subst hw'
        rw [Nat.add_zero, k3 j (by omega), if_pos rfl]
        exact h2
      | succ i =>
        rw [List.getElem?_cons_succ] at hw'
        have := k2 i w' hw'
        rw [if_neg (by omega)] at this
        rw [show j + (i + 1) = j + 1 + i by omega]
        exact this
    · rw [List.length_cons] at hi'
      rw [k3 i (by omega), if_neg (by omega)]

/-- Concrete filters meet the hypotheses: two filters one below the other in the bands of 48 kHz. -/
example : ((Fd.bandsAt 48000).long).Pairwise (· ≤ ·) ∧ Chain (Fd.bandsAt 48000).long.length [⟨30, 49, 0, [3, -2]⟩, ⟨10, 30, 1, [1]⟩] :=
  ⟨by decide +kernel, by simp only [Chain]; decide⟩

/-- 48 kHz with gap filling up to band 47. -/
def gapCfg : Cfg := ⟨fun _ _ => 1 / 2, (Fd.bandsAt 48000).long, 40, 47, true⟩

/-- C199: at 48 kHz with gap filling up to band 47, a filter from band 45 on is applied from band 40 on, where the filter below it is applied
too: these lines are filtered twice. -/
theorem C199_refuted : ¬ Inverts := by
  intro h
  have l1 : first gapCfg ⟨45, 49, 0, [1]⟩ = 672 := by decide +kernel
  have l2 : last gapCfg ⟨45, 49, 0, [1]⟩ = 896 := by decide +kernel
  have l3 : first gapCfg ⟨30, 45, 0, [1]⟩ = 352 := by decide +kernel
  have l4 : last gapCfg ⟨30, 45, 0, [1]⟩ = 832 := by decide +kernel
  have hks : ([1] : List Int).map (gapCfg.sn 4) = [1 / 2] := rfl
  have hp0 : (poly [1 / 2]).getD 0 0 = 1 := poly_head _
  have hp1 : (poly [1 / 2]).getD 1 0 = 1 / 2 := by simp [poly, levinson]
  obtain ⟨y, hy⟩ : ∃ y : Nat → ℚ, y = fun p => if p = 700 then 1 else 0 := ⟨_, rfl⟩
  obtain ⟨x, hx⟩ : ∃ x : Nat → ℚ, x = fun p => if p = 700 then 1 else if p = 701 then 1 / 2 else 0 := ⟨_, rfl⟩
  have hres : ∀ lo hi, lo ≤ 699 → 702 ≤ hi → Residual [1 / 2] lo hi 0 y x := by
    intro lo hi h1 h2 p p1 p2
    rw [show ([1 / 2] : List ℚ).length + 1 = 2 from rfl, Finset.sum_range_succ, Finset.sum_range_one, hp0, hp1]
    unfold tap
    rw [if_pos rfl, if_pos rfl, if_pos (by omega), hx, hy]
    simp only
    by_cases e0 : p = 700
    · subst e0; simp
    · by_cases e1 : p = 701
      · subst e1
        have hc : lo < 701 := by omega
        simp [hc]
      · simp only [Nat.sub_zero, e0, e1, if_false]
        split
        · rw [if_neg (by omega)]; simp
        · simp
  have hdec := h gapCfg 4 [⟨45, 49, 0, [1]⟩, ⟨30, 45, 0, [1]⟩] y x (by decide +kernel)
    (by show Chain (Fd.bandsAt 48000).long.length _; simp only [Chain]; decide) ⟨by
      intro g hg _
      simp only [List.mem_cons, List.not_mem_nil, or_false] at hg
      rcases hg with rfl | rfl
      · rw [l1, l2, hks]; exact hres _ _ (by omega) (by omega)
      · rw [l3, l4, hks]; exact hres _ _ (by omega) (by omega), by
      intro p hp
      have := hp ⟨45, 49, 0, [1]⟩ (by simp) (by simp)
      rw [l1, l2] at this
      rw [hx, hy]
      simp only
      rw [if_neg (by omega), if_neg (by omega), if_neg (by omega)]⟩
  rw [filters] at hdec
  obtain ⟨f1, k1, k2, k3⟩ := filter_ok gapCfg 4 ⟨45, 49, 0, [1]⟩ x (by decide) (by decide) (by decide)
  rw [k1, Res.ok_bind, filters] at hdec
  have hk2 := k2 (by simp)
  rw [l1, l2, hks] at hk2
  have hf1 : f1 = y := by
    funext p
    by_cases hp : 672 ≤ p ∧ p < 896
    · exact residual_unique _ _ _ _ f1 y x hk2 (hres 672 896 (by omega) (by omega)) p hp.1 hp.2
    · rw [k3 p (fun hc => by rw [l1, l2] at hc; exact hp hc.2), hx, hy]
      simp only
      rw [if_neg (by omega), if_neg (by omega), if_neg (by omega)]
  rw [hf1] at hdec
  obtain ⟨f2, m1, m2, m3⟩ := filter_ok gapCfg 4 ⟨30, 45, 0, [1]⟩ y (by decide) (by decide) (by decide)
  rw [m1, Res.ok_bind, filters] at hdec
  have hf2 : f2 = y := by injection hdec
  have hm2 := m2 (by simp)
  rw [l3, l4, hks, hf2] at hm2
  have := hm2 701 (by omega) (by omega)
  rw [show ([1 / 2] : List ℚ).length + 1 = 2 from rfl, Finset.sum_range_succ, Finset.sum_range_one, hp0, hp1] at this
  unfold tap at this
  rw [if_pos rfl, if_pos rfl, if_pos (by omega), if_pos (by omega), hy] at this
  norm_num at this

/-! ## C200: decoded filters are applied without error -/

theorem filts_chain {sb ob res : Nat} (ho : ob ≤ 4) : ∀ (gs : List Filt) (t : Nat) (b : List Bool), Fd.FiltsCode 1 sb ob res t gs b → Chain t gs
  | [], _, _, _ => trivial
  | g :: gs, t, b, h => by
    obtain ⟨b1, b2, ⟨d, h1, h2, h3, h4, h5, -⟩, h6, -⟩ := h
    have hpow : 2 ^ ob ≤ 2 ^ 4 := Nat.pow_le_pow_right (by omega) ho
    exact ⟨h2, by omega, by omega, filts_chain ho gs g.start b2 h6⟩

theorem win_chain {fb sb ob num : Nat} (ho : ob ≤ 4) {w : TnsWin} {b : List Bool} (h : Fd.WinCode 1 fb sb ob num w b) : Chain num w.filt := by
  obtain ⟨-, ⟨h1, -⟩ | ⟨-, r, -, -, b', h1, -⟩⟩ := h
  · rw [h1]; trivial
  · exact filts_chain ho _ _ _ h1

theorem each_mem {α : Type} {R : Nat → α → List Bool → Prop} : ∀ (xs : List α) (i : Nat) (b : List Bool), Lpd.Each R i xs b →
    ∀ x ∈ xs, ∃ j b', R j x b'
  | [], _, _, _, x, hx => absurd hx List.not_mem_nil
  | y :: ys, i, b, h, x, hx => by
    obtain ⟨b1, b2, h1, h2, -⟩ := h
    rcases List.mem_cons.1 hx with rfl | hx
    · exact ⟨i, b1, h1⟩
    · exact each_mem ys (i + 1) b2 h2 x hx

theorem filters_safe (c : Cfg) (res : Nat) (gs : List Filt) (t : Nat) (ht : t ≤ c.ends.length) (hc : Chain t gs) (f : Nat → ℚ) :
    ∃ f', filters c res gs f = .ok f' := by
  induction gs generalizing t f with
  | nil => exact ⟨f, rfl⟩
  | cons g gs ih =>
    obtain ⟨a1, a2, a3, a4⟩ := hc
    obtain ⟨f1, h1, -, -⟩ := filter_ok c res g f (by omega) (by omega) a3
    rw [filters, h1, Res.ok_bind]
    exact ih g.start (by omega) a4 f1

/-- C200: noise shaping data that are accepted for the windows of a channel are applied without error and without access outside of any
array, with and without gap filling, whatever the number of bands; and they are filters one below the other. -/
theorem C200_accepted (rate : Nat) (long : Bool) (l l' : List Bool) (ws : List TnsWin) (sn : Nat → Int → ℚ) (most nbands : Nat) (igf : Bool)
    (h : Prog.run (Fd.tnsData (Fd.bandsAt rate) (some long)) l = .ok (ws, l')) (s : Nat → Nat → ℚ) :
    (∀ w ∈ ws, Chain (if long then (Fd.bandsAt rate).long else (Fd.bandsAt rate).short).length w.filt) ∧
    ∃ s', apply ⟨sn, if long then (Fd.bandsAt rate).long else (Fd.bandsAt rate).short, most, nbands, igf⟩ ws 0 s = .ok s' := by
  obtain ⟨b, hb, -⟩ := (Fd.C180_tns_partial (Fd.bandsAt rate) long l ws l').1 h
  have hch : ∀ w ∈ ws, Chain (if long then (Fd.bandsAt rate).long else (Fd.bandsAt rate).short).length w.filt := by
    intro w hw
    unfold Fd.TnsCode at hb
    cases long with
    | true =>
      simp only [if_true] at hb ⊢
      obtain ⟨_, _, h'⟩ := each_mem _ _ _ hb.2 w hw
      exact win_chain (by decide) h'
    | false =>
      simp only [Bool.false_eq_true, if_false] at hb ⊢
      obtain ⟨_, _, h'⟩ := each_mem _ _ _ hb.2 w hw
      exact win_chain (by decide) h'
  refine ⟨hch, ?_⟩
  clear h hb
  generalize 0 = j
  induction ws generalizing j s with
  | nil => exact ⟨s, rfl⟩
  | cons w ws ih =>
    obtain ⟨f, hf⟩ := filters_safe ⟨sn, if long then (Fd.bandsAt rate).long else (Fd.bandsAt rate).short, most, nbands, igf⟩ w.res w.filt _ (le_refl _)
      (hch w List.mem_cons_self) (s j)
    rw [apply, hf, Res.ok_bind]
    exact ih _ (fun w hw => hch w (List.mem_cons_of_mem _ hw)) (j + 1)

/-- Concrete bits are accepted: a long window at 48 kHz without filters. -/
example : ∃ ws l', Prog.run (Fd.tnsData (Fd.bandsAt 48000) (some true)) [false, false] = .ok (ws, l') := ⟨_, _, rfl⟩

/-! ## C201: coefficients are limited -/

/-- C201: with reflection coefficients of at most 1, which sines are, coefficient `i` of a filter of order `m` is at most `m` over `i`. -/
theorem C201_limit (ks : List ℚ) (hk : ∀ k ∈ ks, |k| ≤ 1) (i : Nat) (hi : i ≤ ks.length) : |lpc ks i| ≤ (ks.length.choose i : Nat) := by
  rw [lpc_eq ks i hi]
  unfold poly
  have key : ∀ (ks : List ℚ) (p : List ℚ) (m : Nat), p.length = m + 1 → (∀ k ∈ ks, |k| ≤ 1) → (∀ i ≤ m, |p.getD i 0| ≤ (m.choose i : Nat)) →
      ∀ i ≤ m + ks.length, |(ks.foldl levinson p).getD i 0| ≤ ((m + ks.length).choose i : Nat) := by
    intro ks
    induction ks with
    | nil => intro p m _ _ h i hi; exact h i hi
    | cons k ks ih =>
      intro p m hl hk h i hi
      rw [List.foldl_cons, List.length_cons, show m + (ks.length + 1) = m + 1 + ks.length by omega]
      refine ih (levinson p k) (m + 1) (by rw [levinson_length, hl]) (fun k hk' => hk k (List.mem_cons_of_mem _ hk')) ?_ i (by rw [List.length_cons] at hi; omega)
      intro j hj
      rw [levinson_getD p k (by omega) j (by omega), hl]
      have hk1 := hk k List.mem_cons_self
      have hmul : ∀ z : ℚ, |k * z| ≤ |z| := fun z => by
        rw [abs_mul]
        have := mul_le_mul_of_nonneg_right hk1 (abs_nonneg z)
        linarith
      cases j with
      | zero =>
        rw [if_pos (by omega), if_pos rfl, mul_zero, add_zero]
        have := h 0 (by omega)
        simpa using this
      | succ j =>
        rw [if_neg (Nat.succ_ne_zero j), Nat.choose_succ_succ, Nat.cast_add, add_comm ((m.choose j : Nat) : ℚ)]
        refine le_trans (abs_add_le _ _) (add_le_add ?_ (le_trans (hmul _) ?_))
        · by_cases hjm : j + 1 ≤ m
          · rw [if_pos (by omega)]; exact h (j + 1) hjm
          · rw [if_neg (by omega), abs_zero]; exact Nat.cast_nonneg _
        · rw [show m + 1 - (j + 1) = m - j by omega]
          have := h (m - j) (by omega)
          rw [Nat.choose_symm (by omega)] at this
          exact this
  have := key ks [1] 0 rfl hk (fun i hi => by have : i = 0 := by omega
                                              subst this; simp) i (by omega)
  rw [Nat.zero_add] at this
  exact this

/-- A concrete filter of order 2 meets the hypotheses, and its second coefficient reaches the limit. -/
example : (∀ k ∈ ([1, 1] : List ℚ), |k| ≤ 1) ∧ (poly [1, 1]) = [1, 2, 1] := by
  constructor
  · intro k hk; simp only [List.mem_cons, List.not_mem_nil, or_false, or_self] at hk; rw [hk]; norm_num
  · simp [poly, levinson]; norm_num

/-! ## C202: noise shaping of parts of linear prediction is inverted -/

/-- The claim: whatever the grouping of the last short windows of any channel was, what an encoder makes of a part is inverted. -/
def LpdInverts : Prop :=
  ∀ (sn : Nat → Int → ℚ) (rate : Nat) (lens : List Nat) (mode maxSfb k res : Nat) (g : Filt) (st : Nat → TnsWin) (y x : Nat → ℚ),
    Fd.Groups lens → (mode = 1 ∨ mode = 2) → 1 ≤ g.start → g.start ≤ maxSfb → g.stop = maxSfb → maxSfb ≤ (Fd.bandsAt rate).short.length →
    g.coef ≠ [] → g.coef.length ≤ 7 →
    Residual (g.coef.map (sn res)) (lineOf (Fd.bandsAt rate).short g.start * (mode * 4)) (lineOf (Fd.bandsAt rate).short maxSfb * (mode * 4)) g.dir y x →
    (∀ p, (p < lineOf (Fd.bandsAt rate).short g.start * (mode * 4) ∨ lineOf (Fd.bandsAt rate).short maxSfb * (mode * 4) ≤ p) → y p = x p) →
    ∃ st', lpdPart sn (Fd.bandsAt rate).short (Fd.offsets (Fd.widths 0 (Fd.bandsAt rate).short) 0 lens) mode maxSfb k (some ⟨res, [g]⟩) st x = .ok (st', y)

theorem lineOf_le (rate b : Nat) (hb : b ≤ (Fd.bandsAt rate).short.length) : lineOf (Fd.bandsAt rate).short b ≤ 128 := by
  obtain ⟨h1, h2, -⟩ := Fd.short_ok _ (Fd.bandsAt_mem rate)
  refine le_trans (lineOf_mono _ (List.pairwise_cons.1 h1).2 hb (le_refl _)) ?_
  unfold lineOf
  rw [List.getLast?_eq_getElem?] at h2
  split
  · omega
  · rw [List.getD_eq_getElem?_getD, h2]; exact le_refl _

/-- C202: the claim holds if the first group of the last short windows had one window, as in the table at the start. -/
theorem C202_lpd_partial (sn : Nat → Int → ℚ) (rate : Nat) (lens : List Nat) (mode maxSfb k res : Nat) (g : Filt) (st : Nat → TnsWin) (y x : Nat → ℚ)
    (hl : Fd.Groups (1 :: lens)) (hm : mode = 1 ∨ mode = 2) (h1 : 1 ≤ g.start) (h2 : g.start ≤ maxSfb) (h3 : g.stop = maxSfb)
    (h4 : maxSfb ≤ (Fd.bandsAt rate).short.length) (h5 : g.coef ≠ []) (h6 : g.coef.length ≤ 7)
    (hr : Residual (g.coef.map (sn res)) (lineOf (Fd.bandsAt rate).short g.start * (mode * 4)) (lineOf (Fd.bandsAt rate).short maxSfb * (mode * 4)) g.dir y x)
    (ho : ∀ p, (p < lineOf (Fd.bandsAt rate).short g.start * (mode * 4) ∨ lineOf (Fd.bandsAt rate).short maxSfb * (mode * 4) ≤ p) → y p = x p) :
    ∃ st', lpdPart sn (Fd.bandsAt rate).short (Fd.offsets (Fd.widths 0 (Fd.bandsAt rate).short) 0 (1 :: lens)) mode maxSfb k (some ⟨res, [g]⟩) st x =
      .ok (st', y) := by
  obtain ⟨es, hes⟩ : ∃ es, es = (Fd.bandsAt rate).short := ⟨_, rfl⟩
  have hlen := (Fd.short_ok _ (Fd.bandsAt_mem rate)).2.2
  have hle := lineOf_le rate maxSfb h4
  have hmono := lineOf_mono (Fd.bandsAt rate).short (List.pairwise_cons.1 (Fd.short_ok _ (Fd.bandsAt_mem rate)).1).2 h2 h4
  obtain ⟨-, -, -, hoff, -⟩ := Fd.C178_offsets rate (1 :: lens) hl
  have hidx := hoff 0 (g.start - 1) (by simp) (by omega)
  have htop : top (Fd.offsets (Fd.widths 0 (Fd.bandsAt rate).short) 0 (1 :: lens)) g.start = .ok (lineOf (Fd.bandsAt rate).short g.start) := by
    unfold top lineOf
    rw [if_neg (by omega), if_neg (by omega)]
    simp only [Nat.zero_mul, Nat.zero_add, List.take_zero, List.sum_nil, Nat.mul_zero, List.getElem_cons_zero, Nat.mul_one] at hidx
    rw [hidx, List.getD_eq_getElem _ _ (by omega)]
  have hcnt : 512 * mode / 256 * 256 = 512 * mode := by rcases hm with rfl | rfl <;> rfl
  rw [← hes] at hr ho h4 hle hmono htop ⊢
  unfold lpdPart noiseBw
  have hlm : lineOf es maxSfb * (mode * 4) ≤ 512 * mode := by rcases hm with rfl | rfl <;> omega
  have hmm : lineOf es g.start * (mode * 4) ≤ lineOf es maxSfb * (mode * 4) := Nat.mul_le_mul_right _ hmono
  rw [if_neg (by omega), if_neg (by omega), top_ok es maxSfb h4, Res.ok_bind, if_neg (by omega), Res.ok_bind]
  have hk : keep st k (some ⟨res, [g]⟩) k = ⟨res, [g]⟩ := by unfold keep; dsimp only; rw [if_pos rfl]
  rw [hk]
  unfold lpdFilter
  dsimp only
  rw [if_neg (by rintro (h | h); omega; exact h5 h), if_neg (by omega), htop, Res.ok_bind, hcnt, Nat.min_eq_left hlm]
  obtain ⟨k1, k2⟩ := arFilter_ok (g.coef.map (sn res)) (lineOf es g.start * (mode * 4)) (lineOf es maxSfb * (mode * 4)) g.dir hmm x
  by_cases hc : lineOf es maxSfb * (mode * 4) ≤ lineOf es g.start * (mode * 4)
  · rw [if_pos hc, Res.ok_bind]
    refine ⟨keep st k (some ⟨res, [g]⟩), ?_⟩
    congr 2
    funext p
    exact (ho p (by omega)).symm
  · rw [if_neg hc, Res.ok_bind]
    refine ⟨keep st k (some ⟨res, [g]⟩), ?_⟩
    congr 2
    funext p
    by_cases hp : lineOf es g.start * (mode * 4) ≤ p ∧ p < lineOf es maxSfb * (mode * 4)
    · exact residual_unique _ _ _ _ _ y x k1 hr p hp.1 hp.2
    · rw [k2 p (by omega), ho p (by omega)]

/-- The table at the start is that of eight single windows (ia_core_coder_create.c 205-220). -/
theorem C202_start (rate : Nat) : Fd.Groups [1, 1, 1, 1, 1, 1, 1, 1] ∧
    Fd.offsets (Fd.widths 0 (Fd.bandsAt rate).short) 0 [1, 1, 1, 1, 1, 1, 1, 1] =
      (List.range 8).flatMap fun w => (Fd.bandsAt rate).short.map fun e => e + 128 * w := by
  refine ⟨⟨by decide, by decide⟩, ?_⟩
  have : ∀ b ∈ Fd.bandTable, Fd.offsets (Fd.widths 0 b.short) 0 [1, 1, 1, 1, 1, 1, 1, 1] =
      (List.range 8).flatMap fun w => b.short.map fun e => e + 128 * w := by decide +kernel
  exact this _ (Fd.bandsAt_mem rate)

/-- Concrete values meet the hypotheses of the partial theorem. -/
example : Fd.Groups [1, 7] ∧ 14 ≤ (Fd.bandsAt 48000).short.length ∧ ([2, -1] : List Int) ≠ [] := ⟨⟨by decide, by decide⟩, by decide, by decide⟩

/-- C202: at 48 kHz, after a frame of any channel whose eight short windows were one group, a filter from band 10 on is not applied. -/
theorem C202_refuted : ¬ LpdInverts := by
  intro h
  have hp0 : (poly [1 / 2]).getD 0 0 = 1 := poly_head _
  have hp1 : (poly [1 / 2]).getD 1 0 = 1 / 2 := by simp [poly, levinson]
  have l1 : lineOf (Fd.bandsAt 48000).short 10 = 68 := by decide +kernel
  have l2 : lineOf (Fd.bandsAt 48000).short 14 = 128 := by decide +kernel
  obtain ⟨st', hst⟩ := h (fun _ _ => 1 / 2) 48000 [8] 1 14 0 4 ⟨10, 14, 0, [1]⟩ (fun _ => ⟨0, []⟩) (fun p => if p = 300 then 1 else 0)
    (fun p => if p = 300 then 1 else if p = 301 then 1 / 2 else 0) ⟨by decide, by decide⟩ (Or.inl rfl) (by decide) (by decide) rfl (by decide) (by decide)
    (by decide) (by
      show Residual [1 / 2] _ _ _ _ _
      rw [l1, l2]
      intro p p1 p2
      rw [show ([1 / 2] : List ℚ).length + 1 = 2 from rfl, Finset.sum_range_succ, Finset.sum_range_one, hp0, hp1]
      unfold tap
      rw [if_pos rfl, if_pos rfl, if_pos (by omega)]
      simp only
      by_cases e0 : p = 300
      · subst e0; simp
      · by_cases e1 : p = 301
        · subst e1; simp
        · simp only [Nat.sub_zero, e0, e1, if_false]
          split
          · rw [if_neg (by omega)]; simp
          · simp) (by
      intro p hp
      rw [l1, l2] at hp
      rw [if_neg (by omega), if_neg (by omega), if_neg (by omega)])
  have hbw : noiseBw (Fd.bandsAt 48000).short 1 14 (512 * 1) = .ok 512 := by decide +kernel
  have hsame : lpdFilter (fun _ _ => 1 / 2) (Fd.offsets (Fd.widths 0 (Fd.bandsAt 48000).short) 0 [8]) ⟨4, [⟨10, 14, 0, [1]⟩]⟩ 1 512 (512 * 1 / 256)
      (fun p => if p = 300 then 1 else if p = 301 then 1 / 2 else 0) = .ok (fun p => if p = 300 then 1 else if p = 301 then 1 / 2 else 0) := by
    unfold lpdFilter
    dsimp only
    rw [if_neg (by decide), if_neg (by decide),
      show top (Fd.offsets (Fd.widths 0 (Fd.bandsAt 48000).short) 0 [8]) 10 = .ok 544 by decide +kernel, Res.ok_bind, if_pos (by decide)]
  unfold lpdPart at hst
  rw [hbw, Res.ok_bind, show keep (fun _ => ⟨0, []⟩) 0 (some ⟨4, [⟨10, 14, 0, [1]⟩]⟩) 0 = ⟨4, [⟨10, 14, 0, [1]⟩]⟩ from rfl, hsame, Res.ok_bind] at hst
  have hf : (fun p => if p = 300 then 1 else if p = 301 then 1 / 2 else 0 : Nat → ℚ) = fun p => if p = 300 then 1 else 0 := by
    injection hst with hst; injection hst
  have := congrFun hf 301
  norm_num at this

/-! ## C203: parts without coded filters are not filtered -/

/-- A part: `mode`, `max_sfb`, its place in the frame, the coded filters and its lines. -/
structure Part where
  mode : Nat
  maxSfb : Nat
  k : Nat
  coded : Option TnsWin
  f : Nat → ℚ

/-- The filters that are kept after parts of one channel one after another; at the start there are none. -/
def kept (ps : List Part) : Nat → TnsWin := ps.foldl (fun st p => keep st p.k p.coded) fun _ => ⟨0, []⟩

/-- The claim: a part without coded filters keeps its lines, whatever parts came before. -/
def Unfiltered : Prop :=
  ∀ (sn : Nat → Int → ℚ) (rate : Nat) (lens : List Nat) (ps : List Part) (p : Part), Fd.Groups lens → (p.mode = 1 ∨ p.mode = 2) → p.maxSfb < 16 → p.k < 4 →
    p.coded = none → (∀ q ∈ ps, ∀ w, q.coded = some w → ∃ b, Fd.WinCode 1 1 4 3 q.maxSfb w b) →
    ∃ st, lpdPart sn (Fd.bandsAt rate).short (Fd.offsets (Fd.widths 0 (Fd.bandsAt rate).short) 0 lens) p.mode p.maxSfb p.k p.coded (kept ps) p.f = .ok (st, p.f)

theorem kept_none (k : Nat) (ps : List Part) (st : Nat → TnsWin) (h : ∀ q ∈ ps, q.k = k → q.coded = none) (hst : (st k).filt = []) :
    ((ps.foldl (fun st p => keep st p.k p.coded) st) k).filt = [] := by
  induction ps generalizing st with
  | nil => exact hst
  | cons q ps ih =>
    rw [List.foldl_cons]
    refine ih _ (fun q hq => h q (List.mem_cons_of_mem _ hq)) ?_
    by_cases hk : q.k = k
    · rw [h q List.mem_cons_self hk]; exact hst
    · unfold keep
      cases q.coded with
      | none => exact hst
      | some w => dsimp only; rw [if_neg (fun h => hk h.symm)]; exact hst

theorem noiseBw_ok (rate mode maxSfb len : Nat) : ∃ n, noiseBw (Fd.bandsAt rate).short mode maxSfb len = .ok n := by
  unfold noiseBw
  by_cases h0 : maxSfb = 0
  · exact ⟨0, by rw [if_pos h0]⟩
  · rw [if_neg h0]
    by_cases h1 : (Fd.bandsAt rate).short.length < maxSfb
    · exact ⟨len, by rw [if_pos h1]⟩
    · rw [if_neg h1, top_ok _ _ (by omega), Res.ok_bind]
      exact ⟨_, rfl⟩

/-- C203: the claim holds if no part at the same place of a frame had coded filters before. -/
theorem C203_unfiltered_partial (sn : Nat → Int → ℚ) (rate : Nat) (idx : List Nat) (ps : List Part) (p : Part) (hp : p.coded = none)
    (h : ∀ q ∈ ps, q.k = p.k → q.coded = none) :
    ∃ st, lpdPart sn (Fd.bandsAt rate).short idx p.mode p.maxSfb p.k p.coded (kept ps) p.f = .ok (st, p.f) := by
  obtain ⟨n, hn⟩ := noiseBw_ok rate p.mode p.maxSfb (512 * p.mode)
  unfold lpdPart
  rw [hn, Res.ok_bind, hp]
  have := kept_none p.k ps (fun _ => ⟨0, []⟩) h rfl
  have hf : lpdFilter sn idx (keep (kept ps) p.k none p.k) p.mode n (512 * p.mode / 256) p.f = .ok p.f := by
    unfold lpdFilter
    rw [show (keep (kept ps) p.k none p.k).filt = [] from this]
  rw [hf, Res.ok_bind]
  exact ⟨_, rfl⟩

/-- Parts at other places with coded filters meet the hypotheses. -/
example : ∀ q ∈ [(⟨1, 14, 0, some ⟨4, [⟨10, 14, 0, [1]⟩]⟩, fun _ => 0⟩ : Part)], q.k = 2 → q.coded = none := by
  intro q hq
  simp only [List.mem_cons, List.not_mem_nil, or_false] at hq
  subst hq
  simp

/-- C203: a filter that was coded in a frame is applied in the next frame that has no filters. -/
theorem C203_refuted : ¬ Unfiltered := by
  intro h
  have hp0 : (poly [1 / 2]).getD 0 0 = 1 := poly_head _
  have hp1 : (poly [1 / 2]).getD 1 0 = 1 / 2 := by simp [poly, levinson]
  obtain ⟨st, hst⟩ := h (fun _ _ => 1 / 2) 48000 [1, 7] [⟨1, 14, 0, some ⟨4, [⟨10, 14, 0, [1]⟩]⟩, fun _ => 0⟩]
    ⟨1, 14, 0, none, fun p => if p = 300 then 1 else 0⟩ ⟨by decide, by decide⟩ (Or.inl rfl) (by decide) (by decide) rfl (by
      intro q hq w hw
      simp only [List.mem_cons, List.not_mem_nil, or_false] at hq
      subst hq
      simp only [Option.some.injEq] at hw
      subst hw
      exact ⟨_, by decide, Or.inr ⟨by decide, 1, by decide, rfl, _, ⟨_, [], ⟨4, by decide, rfl, rfl, by decide, by decide,
        Or.inr ⟨by decide, by decide, 0, by decide, by decide, rfl⟩⟩, rfl, rfl⟩, rfl⟩⟩)
  have hbw : noiseBw (Fd.bandsAt 48000).short 1 14 (512 * 1) = .ok 512 := by decide +kernel
  unfold lpdPart at hst
  dsimp only at hst
  rw [hbw, Res.ok_bind, show keep (kept [⟨1, 14, 0, some ⟨4, [⟨10, 14, 0, [1]⟩]⟩, fun _ => 0⟩]) 0 none 0 = ⟨4, [⟨10, 14, 0, [1]⟩]⟩ from rfl] at hst
  unfold lpdFilter at hst
  dsimp only at hst
  rw [if_neg (by decide), if_neg (by decide),
    show top (Fd.offsets (Fd.widths 0 (Fd.bandsAt 48000).short) 0 [1, 7]) 10 = .ok 68 by decide +kernel, Res.ok_bind, if_neg (by decide), Res.ok_bind] at hst
  obtain ⟨k1, -⟩ := arFilter_ok ([1].map fun (_ : Int) => (1 / 2 : ℚ)) (68 * (1 * 4)) (min 512 (512 * 1 / 256 * 256)) 0 (by decide)
    (fun p => if p = 300 then 1 else 0)
  have hf : arFilter ([1].map fun (_ : Int) => (1 / 2 : ℚ)) (68 * (1 * 4)) (min 512 (512 * 1 / 256 * 256)) 0 (fun p => if p = 300 then 1 else 0) =
      fun p => if p = 300 then 1 else 0 := by
    injection hst with hst; injection hst
  rw [hf] at k1
  have := k1 301 (by decide) (by decide)
  rw [show ([1].map fun (_ : Int) => (1 / 2 : ℚ)) = [1 / 2] from rfl, show ([1 / 2] : List ℚ).length + 1 = 2 from rfl, Finset.sum_range_succ,
    Finset.sum_range_one, hp0, hp1] at this
  unfold tap at this
  norm_num at this

/-! ## C204: accepted filters of parts are applied -/

theorem filts_start {sb ob res num : Nat} (gs : List Filt) (b : List Bool) (h : Fd.FiltsCode 1 sb ob res num gs b) :
    ∀ g ∈ gs.take 1, 1 ≤ g.start ∧ g.start ≤ num ∧ g.coef.length < 2 ^ ob := by
  cases gs with
  | nil => intro g hg; simp at hg
  | cons g gs =>
    intro g' hg'
    simp only [List.take_succ_cons, List.take_zero, List.mem_cons, List.not_mem_nil, or_false] at hg'
    subst hg'
    obtain ⟨b1, b2, ⟨d, h1, h2, h3, h4, h5, -⟩, -⟩ := h
    exact ⟨h4, by omega, h5⟩

/-- All kept filters meet a condition that coded filters and absent filters meet. -/
theorem kept_all (P : TnsWin → Prop) (ps : List Part) (st : Nat → TnsWin) (h : ∀ q ∈ ps, ∀ w, q.coded = some w → P w) (hst : ∀ j, P (st j)) (j : Nat) :
    P (ps.foldl (fun st p => keep st p.k p.coded) st j) := by
  induction ps generalizing st with
  | nil => exact hst j
  | cons q ps ih =>
    rw [List.foldl_cons]
    refine ih _ (fun q hq => h q (List.mem_cons_of_mem _ hq)) ?_
    intro i
    unfold keep
    cases hq : q.coded with
    | none => exact hst i
    | some w =>
      dsimp only
      split
      · exact h q List.mem_cons_self w hq
      · exact hst i

/-- C204: a filter of 8 coefficients, or one that starts at band 0, would leave the arrays; the theorem below has to exclude them. -/
theorem C204_array (sn : Nat → Int → ℚ) (idx : List Nat) (g : Filt) (res mode len count : Nat) (f : Nat → ℚ) (h1 : g.stop ≤ 15) (h2 : g.coef ≠ [])
    (h3 : 8 ≤ g.coef.length ∨ g.start = 0) : lpdFilter sn idx ⟨res, [g]⟩ mode len count f = .ub := by
  unfold lpdFilter
  simp only
  rw [if_neg (by rintro (h | h); · omega
                 · exact h2 h), if_pos (by omega)]

/-- C204: after any parts whose filters were accepted, noise shaping of a part, coded or kept, ends without error and without access outside of
the table of 125 band offsets and the coefficients of a filter, whatever the table contains, and lines above the part are not changed. -/
theorem C204_safe (sn : Nat → Int → ℚ) (rate : Nat) (idx : List Nat) (ps : List Part) (p : Part) (hx : idx.length = 125)
    (h : ∀ q ∈ ps ++ [p], q.maxSfb < 16 ∧ ∀ w, q.coded = some w → ∃ l l', Prog.run (Fd.tnsTcx q.maxSfb) l = .ok (w, l')) :
    ∃ st f, lpdPart sn (Fd.bandsAt rate).short idx p.mode p.maxSfb p.k p.coded (kept ps) p.f = .ok (st, f) ∧ st = kept (ps ++ [p]) ∧
      ∀ i, 512 * p.mode ≤ i → f i = p.f i := by
  obtain ⟨n, hn⟩ := noiseBw_ok rate p.mode p.maxSfb (512 * p.mode)
  have hw : ∀ q ∈ ps ++ [p], ∀ w, q.coded = some w → ∀ g ∈ w.filt.take 1, 1 ≤ g.start ∧ g.start ≤ 15 ∧ g.coef.length ≤ 7 := by
    intro q hq w hqw g hg
    obtain ⟨hm, hc⟩ := h q hq
    obtain ⟨l, l', hr⟩ := hc w hqw
    obtain ⟨b, hb, -⟩ := (Fd.tnsWin_reads (fb := 1) (sb := 4) (ob := 3) (by decide) (by decide) (by decide) l w l').1 hr
    obtain ⟨-, ⟨h1, -⟩ | ⟨-, r, -, -, b', h1, -⟩⟩ := hb
    · rw [h1] at hg; simp at hg
    · have := filts_start _ _ h1 g hg
      omega
  have hk : keep (kept ps) p.k p.coded = kept (ps ++ [p]) := by unfold kept; rw [List.foldl_append]; rfl
  have ha := kept_all (fun w => ∀ g ∈ w.filt.take 1, 1 ≤ g.start ∧ g.start ≤ 15 ∧ g.coef.length ≤ 7) (ps ++ [p]) (fun _ => ⟨0, []⟩) hw
    (fun j g hg => by simp at hg) p.k
  unfold lpdPart
  rw [hn, Res.ok_bind, hk]
  have hnl : n ≤ 512 * p.mode := by
    unfold noiseBw at hn
    split at hn
    · injection hn; omega
    · split at hn
      · injection hn; omega
      · rw [top_ok _ _ (by omega), Res.ok_bind] at hn
        injection hn with hn
        split at hn <;> omega
  obtain ⟨f, hf, hf'⟩ : ∃ f, lpdFilter sn idx (kept (ps ++ [p]) p.k) p.mode n (512 * p.mode / 256) p.f = .ok f ∧ ∀ i, 512 * p.mode ≤ i → f i = p.f i := by
    have ha' : ∀ g ∈ (kept (ps ++ [p]) p.k).filt.take 1, 1 ≤ g.start ∧ g.start ≤ 15 ∧ g.coef.length ≤ 7 := ha
    unfold lpdFilter
    cases hg : (kept (ps ++ [p]) p.k).filt with
    | nil => exact ⟨_, rfl, fun _ _ => rfl⟩
    | cons g gs =>
      obtain ⟨g1, g2, g3⟩ := ha' g (by rw [hg]; simp)
      dsimp only
      split
      · exact ⟨_, rfl, fun _ _ => rfl⟩
      · rw [if_neg (by omega), top_ok idx g.start (by omega), Res.ok_bind]
        split
        · exact ⟨_, rfl, fun _ _ => rfl⟩
        · obtain ⟨-, k2⟩ := arFilter_ok (g.coef.map (sn (kept (ps ++ [p]) p.k).res)) (lineOf idx g.start * (p.mode * 4)) (min n (512 * p.mode / 256 * 256)) g.dir
            (by omega) p.f
          exact ⟨_, rfl, fun i hi => k2 i (by omega)⟩
  rw [hf, Res.ok_bind]
  exact ⟨_, f, rfl, rfl, hf'⟩

/-- Concrete bits are accepted: one filter of order 1 over 4 of 14 bands. -/
example : ∃ w l', Prog.run (Fd.tnsTcx 14) [true, true, false, true, false, false, false, false, true, false, false, false, false, false, true] = .ok (w, l') ∧
    w.filt = [⟨10, 14, 0, [1]⟩] := ⟨_, _, rfl, rfl⟩

end Verif.Tns
