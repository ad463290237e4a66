import Mathlib.Tactic.Linarith
import Mathlib.Data.List.Nodup
import Mathlib.Tactic.Ring
import Verif.Proofs.Does
import Verif.Spec.DrcApply

/-! # C146: gains are applied to samples -/

namespace Verif.DrcApply

open DrcConfig DrcSel Res

theorem firstGain_succ (o : Instr) (g : Nat) : firstGain o (g + 1) = firstGain o g + bands o g := by
  simp [firstGain, List.range_succ]

theorem firstSig_succ (o : Instr) (ch : Nat) : firstSig o (ch + 1) = firstSig o ch + sigs o ch := by
  simp [firstSig, List.range_succ]

theorem firstGain_mono (o : Instr) {g h : Nat} (hgh : g ≤ h) : firstGain o g ≤ firstGain o h := by
  induction hgh with
  | refl => exact Nat.le_refl _
  | step _ ih => exact Nat.le_trans ih (by rw [firstGain_succ]; omega)

theorem firstSig_mono (o : Instr) {g h : Nat} (hgh : g ≤ h) : firstSig o g ≤ firstSig o h := by
  induction hgh with
  | refl => exact Nat.le_refl _
  | step _ ih => exact Nat.le_trans ih (by rw [firstSig_succ]; omega)

theorem at_group {o : Instr} {ch : Nat} (h : ch < o.chGroup.length) : at_ o.chGroup ch = .ok (group o ch) := by
  unfold at_ group
  rw [List.getElem?_eq_getElem h]
  rfl

theorem at_bands {o : Instr} {g : Nat} (h : g < o.bandCount.length) : at_ o.bandCount g = .ok (bands o g) := by
  unfold at_ bands
  rw [List.getElem?_eq_getElem h]
  rfl

section

variable {q : Par} {x : Inst} {gains : List (Nat → Rat)} (h : Shape q x gains)

include h

theorem Shape.group_lt {ch : Nat} (hc : ch < x.chans) (hg : ¬ group x.o ch < 0) : (group x.o ch).toNat < x.o.groups := by
  have := (h.member ch hc).2
  omega

theorem Shape.sigs_pos {ch : Nat} (hc : ch < x.chans) : 1 ≤ sigs x.o ch ∧ sigs x.o ch ≤ 4 := by
  unfold sigs
  split
  · omega
  · rename_i hg
    exact h.count _ (h.group_lt hc hg)

theorem Shape.signals_ok {ch : Nat} (hc : ch < x.chans) : signals x.o ch = .ok (sigs x.o ch) := by
  unfold signals sigs
  have := h.length
  rw [at_group (by omega), ok_bind]
  split
  · rfl
  · rename_i hg
    have := h.group_lt hc hg
    have := h.groups.1
    rw [at_bands (by omega)]

theorem Shape.gainIdx_ok : ∃ gi, gainIdx x.o = .ok gi ∧ ∀ g < x.o.groups, gi[g]? = some (firstGain x.o g) := by
  have : Does (gainIdx x.o) fun gi => gi.length = x.o.groups - 1 + 1 ∧ ∀ g < gi.length, gi[g]? = some (firstGain x.o g) := by
    unfold gainIdx
    refine does_range (I := fun n (gi : List Nat) => gi.length = n + 1 ∧ ∀ g < gi.length, gi[g]? = some (firstGain x.o g)) ?_ ?_
    · intro i hi gi ⟨hl, hg⟩
      have h1 := h.groups
      refine Does.bind (does_at' (hg i (by omega))) fun v hv => ?_
      subst hv
      rw [at_bands (by omega), ok_bind]
      refine does_push (by omega) ⟨by simp [hl], ?_⟩
      intro g hlt
      rw [List.length_append, List.length_singleton] at hlt
      by_cases e : g < gi.length
      · rw [List.getElem?_append_left e, hg g e]
      · have : g = i + 1 := by omega
        subst this
        rw [List.getElem?_append_right (by omega), firstGain_succ]
        simp [hl]
    · refine ⟨rfl, fun g hg => ?_⟩
      have : g = 0 := by simp at hg; exact hg
      subst this
      rfl
  obtain ⟨gi, hgi, hl, hg⟩ := this
  exact ⟨gi, hgi, fun g hlt => hg g (by omega)⟩

end

theorem Fits.sigIdx_ok {q : Par} {multi : Bool} {x : Inst} {gains : List (Nat → Rat)} (h : Fits q multi x gains) :
    ∃ si, sigIdx x = .ok si ∧ ∀ ch < x.chans, si[ch]? = some (firstSig x.o ch) := by
  have : Does (sigIdx x) fun si => si.length = x.chans - 1 + 1 ∧ ∀ ch < si.length, si[ch]? = some (firstSig x.o ch) := by
    unfold sigIdx
    refine does_range (I := fun n (si : List Nat) => si.length = n + 1 ∧ ∀ ch < si.length, si[ch]? = some (firstSig x.o ch)) ?_ ?_
    · intro i hi si ⟨hl, hg⟩
      have h1 := h.most
      refine Does.bind (does_at' (hg i (by omega))) fun v hv => ?_
      subst hv
      rw [h.signals_ok (by omega), ok_bind]
      refine does_push (by omega) ⟨by simp [hl], ?_⟩
      intro g hlt
      rw [List.length_append, List.length_singleton] at hlt
      by_cases e : g < si.length
      · rw [List.getElem?_append_left e, hg g e]
      · have : g = i + 1 := by omega
        subst this
        rw [List.getElem?_append_right (by omega), firstSig_succ]
        simp [hl]
    · refine ⟨rfl, fun g hg => ?_⟩
      have : g = 0 := by simp at hg; exact hg
      subst this
      rfl
  obtain ⟨si, hsi, hl, hg⟩ := this
  exact ⟨si, hsi, fun g hlt => hg g (by omega)⟩

/-- Signals are told apart by channel and band. -/
theorem sig_inj {o : Instr} {c d k j : Nat} (hk : k < sigs o c) (hj : j < sigs o d)
    (he : firstSig o c + k = firstSig o d + j) : c = d ∧ k = j := by
  rcases Nat.lt_trichotomy c d with hlt | heq | hgt
  · have := firstSig_mono o (show c + 1 ≤ d by omega)
    rw [firstSig_succ] at this
    omega
  · subst heq
    omega
  · have := firstSig_mono o (show d + 1 ≤ c by omega)
    rw [firstSig_succ] at this
    omega

/-- A loop whose rounds multiply different signals. -/
theorem each_mul {α : Type} (o : Instr) (chans frame : Nat) (G : Nat → Nat → Nat → Rat) (P : α → Nat → Nat → Prop)
    (f : α → Buf → Res Buf) : ∀ (l : List α), l.Nodup →
      (∀ a ∈ l, ∀ a' ∈ l, ∀ c k, P a c k → P a' c k → a = a') →
      (∀ a ∈ l, ∀ b : Buf, Does (f a b) fun b' : Buf => ∀ c < chans, ∀ k < sigs o c, ∀ t < frame,
        (P a c k → b' (firstSig o c + k) t = b (firstSig o c + k) t * G c k t) ∧
        (¬ P a c k → b' (firstSig o c + k) t = b (firstSig o c + k) t)) →
      ∀ b : Buf, Does (each f l b) fun b' : Buf => ∀ c < chans, ∀ k < sigs o c, ∀ t < frame,
        ((∃ a ∈ l, P a c k) → b' (firstSig o c + k) t = b (firstSig o c + k) t * G c k t) ∧
        ((∀ a ∈ l, ¬ P a c k) → b' (firstSig o c + k) t = b (firstSig o c + k) t)
  | [], _, _, _, b => Does.ok fun c _ k _ t _ => ⟨fun ⟨a, ha, _⟩ => by simp at ha, fun _ => rfl⟩
  | a :: l, hn, hu, hf, b => by
    unfold each
    refine Does.bind (hf a (by simp) b) fun b1 h1 => ?_
    refine (each_mul o chans frame G P f l (List.nodup_cons.mp hn).2 (fun x hx y hy => hu x (by simp [hx]) y (by simp [hy]))
      (fun x hx => hf x (by simp [hx])) b1).mono fun b2 h2 c hc k hk t ht => ?_
    obtain ⟨p1, n1⟩ := h1 c hc k hk t ht
    obtain ⟨p2, n2⟩ := h2 c hc k hk t ht
    have hnot : P a c k → ∀ x ∈ l, ¬ P x c k := fun ha x hx hp =>
      (List.nodup_cons.mp hn).1 (hu a (by simp) x (by simp [hx]) c k ha hp ▸ hx)
    constructor
    · rintro ⟨y, hy, hp⟩
      rcases List.mem_cons.mp hy with rfl | hy
      · rw [n2 (hnot hp), p1 hp]
      · rw [p2 ⟨y, hy, hp⟩, n1 fun ha => hnot ha y hy hp]
    · intro hall
      rw [n2 fun y hy => hall y (by simp [hy]), n1 (hall a (by simp))]

section

variable {q : Par} {x : Inst} {gains : List (Nat → Rat)} (h : Shape q x gains)

include h

theorem Shape.frameGains_ok {g b : Nat} (hg : g < x.o.groups) (hb : b < bands x.o g) :
    Does (frameGains q gains (firstGain x.o g + b)) fun lg => ∀ t, lg t = gainAt q x.o gains g b t := by
  have h1 := firstGain_mono x.o (show g + 1 ≤ x.o.groups by omega)
  rw [firstGain_succ] at h1
  have h2 := h.gains
  unfold frameGains
  refine Does.bind (does_at (by omega)) fun v hv => ?_
  have hw := h.window
  unfold origin at hw
  rw [if_neg (by omega)]
  refine Does.ok fun t => ?_
  unfold gainAt origin
  rw [hv]
  rfl

end

section

variable {q : Par} {multi : Bool} {x : Inst} {gains : List (Nat → Rat)} (h : Fits q multi x gains)

include h

theorem Fits.mulGroup_ok {gi si : List Nat} (hgi : ∀ g < x.o.groups, gi[g]? = some (firstGain x.o g))
    (hsi : ∀ ch < x.chans, si[ch]? = some (firstSig x.o ch)) {g : Nat} (hg : g < x.o.groups) (b : Buf) :
    Does (mulGroup q x gains gi si g b) fun b' : Buf => ∀ c < q.chans, ∀ k < sigs x.o c, ∀ t < q.frame,
      (group x.o c = (g : Int) → b' (firstSig x.o c + k) t = b (firstSig x.o c + k) t * gainAt q x.o gains (group x.o c).toNat k t) ∧
      (¬ group x.o c = (g : Int) → b' (firstSig x.o c + k) t = b (firstSig x.o c + k) t) := by
  unfold mulGroup
  have hgr := h.groups.1
  rw [at_bands (by omega), ok_bind]
  refine (each_mul x.o q.chans q.frame (fun c k t => gainAt q x.o gains (group x.o c).toNat k t)
    (fun k c k' => k' = k ∧ group x.o c = (g : Int)) _ _ (List.nodup_reverse.mpr List.nodup_range)
    (fun a _ a' _ c k h1 h2 => h1.1.symm.trans h2.1) ?_ b).mono ?_
  · intro k hk b1
    rw [List.mem_reverse, List.mem_range] at hk
    refine Does.bind (does_at' (hgi g hg)) fun e he => ?_
    subst he
    refine Does.bind (h.frameGains_ok hg hk) fun lg hlg => ?_
    refine (each_mul x.o q.chans q.frame (fun c k t => gainAt q x.o gains (group x.o c).toNat k t)
      (fun ch c k' => c = ch ∧ k' = k ∧ group x.o c = (g : Int)) _ _ List.nodup_range
      (fun a _ a' _ c k h1 h2 => h1.1.symm.trans h2.1) ?_ b1).mono ?_
    · intro ch hch b2
      rw [List.mem_range] at hch
      have h1 := h.chans
      have h2 := h.length
      rw [at_group (by omega), ok_bind]
      refine Does.ite (fun he => ?_) fun he => Does.ok ?_
      · refine Does.bind (does_at' (hsi ch (by omega))) fun i hi => ?_
        subst hi
        have hsg : sigs x.o ch = bands x.o g := by
          unfold sigs
          rw [if_neg (by omega), he]
          rfl
        have hrow : firstSig x.o ch + k < q.rows := by
          have := firstSig_mono x.o (show ch + 1 ≤ q.chans by omega)
          rw [firstSig_succ] at this
          have := h.rows
          omega
        rw [if_pos hrow]
        refine Does.ok ?_
        intro c hc k' hk' t ht
        unfold mulRow
        constructor
        · rintro ⟨rfl, rfl, hgg⟩
          rw [if_pos ⟨rfl, ht⟩, hlg, hgg]
          rfl
        · intro hn
          rw [if_neg]
          rintro ⟨e, _⟩
          obtain ⟨rfl, rfl⟩ := sig_inj hk' (by rw [hsg]; exact hk) e
          exact hn ⟨rfl, rfl, he⟩
      · intro c hc k' hk' t ht
        refine ⟨?_, fun _ => rfl⟩
        rintro ⟨rfl, rfl, hgg⟩
        exact absurd hgg he
    · intro b2 hb2 c hc k' hk' t ht
      obtain ⟨p, n⟩ := hb2 c hc k' hk' t ht
      constructor
      · rintro ⟨rfl, hgg⟩
        exact p ⟨c, List.mem_range.mpr hc, rfl, rfl, hgg⟩
      · intro hn
        exact n fun a _ ha => hn ⟨ha.2.1, ha.2.2⟩
  · intro b2 hb2 c hc k' hk' t ht
    obtain ⟨p, n⟩ := hb2 c hc k' hk' t ht
    constructor
    · intro hgg
      refine p ⟨k', ?_, rfl, hgg⟩
      rw [List.mem_reverse, List.mem_range]
      unfold sigs at hk'
      rw [if_neg (by omega), hgg] at hk'
      exact hk'
    · intro hn
      exact n fun a _ ha => hn ha.2

/-- What is in the rows when channels are split. -/
def Split (q : Par) (k : Banks) (multi : Bool) (o : Instr) (a : Buf) (n : Nat) (s : Nat × Buf × Buf) : Prop :=
  s.1 = firstSig o n ∧
  (∀ c < n, ∀ b < sigs o c, ∀ t < q.frame, s.2.1 (firstSig o c + b) t =
    if sigs o c = 1 then signal q k multi o a c t else k.split (group o c).toNat c (sigs o c) (signal q k multi o a c) b t) ∧
  ∀ c t, s.2.2 c t = if c < n then signal q k multi o a c t else a c t

theorem Fits.filterStep_ok (k : Banks) (a : Buf) {n : Nat} (hn : n < q.chans) (s : Nat × Buf × Buf)
    (hs : Split q k multi x.o a n s) :
    Does (filterStep q k x.o multi n s) (Split q k multi x.o a (n + 1)) := by
  obtain ⟨h1, h2, h3⟩ := hs
  have hch := h.chans
  have hlen := h.length
  have hgr := h.groups.1
  have hpos := h.sigs_pos (show n < x.chans by omega)
  unfold filterStep
  refine Does.bind (Q := fun r : Nat × Buf × Nat => r.1 = sigs x.o n ∧
    (∀ c t, r.2.1 c t = if c < n + 1 then signal q k multi x.o a c t else a c t) ∧ (1 < sigs x.o n → r.2.2 = (group x.o n).toNat)) ?_ ?_
  · cases hm : multi with
    | false =>
      rw [if_neg (by simp)]
      have hsg : sigs x.o n = 1 := by
        unfold sigs
        split
        · rfl
        · rename_i hg
          exact h.single hm _ (h.group_lt (by omega) hg)
      refine Does.ok ⟨hsg.symm, fun c t => ?_, fun hh => by omega⟩
      simp only
      rw [h3 c t]
      have e : signal q k multi x.o a c t = a c t := by
        unfold signal
        rw [if_neg (by simp [hm])]
      rw [hm] at e
      simp [hm, e]
    | true =>
      rw [if_pos (by have := h.id; simp; omega), at_group (by omega), ok_bind]
      have hb := h.banks hm
      refine Does.bind (Q := fun r : Nat × Nat => r.1 = sigs x.o n ∧
        r.2 = (if group x.o n < 0 then x.o.groups else (group x.o n).toNat)) ?_ ?_
      · by_cases hg : group x.o n < 0
        · have : group x.o n = -1 := by have := (h.member n (by omega)).1; omega
          rw [if_neg (by omega), if_pos hg]
          exact Does.ok ⟨by unfold sigs; rw [if_pos hg], rfl⟩
        · rw [if_pos (by omega), if_neg hg, if_neg hg]
          have := h.group_lt (by omega) hg
          rw [at_bands (by omega), ok_bind]
          exact Does.ok ⟨by unfold sigs; rw [if_neg hg], rfl⟩
      · rintro ⟨r1, r2⟩ ⟨e1, e2⟩
        simp only at e1 e2
        have hlt : r2 < 8 := by
          rw [e2]
          split
          · omega
          · rename_i hg
            have := h.group_lt (by omega) hg
            omega
        simp only
        rw [if_neg (by omega)]
        refine Does.ok ⟨e1, ?_, ?_⟩
        · intro c t
          simp only
          have hold : s.2.2 n = a n := by
            funext u
            rw [h3 n u, if_neg (by omega)]
          by_cases hc : c = n
          · subst hc
            rw [if_pos (show c < c + 1 by omega)]
            unfold signal
            by_cases ht : t < q.frame
            · rw [if_pos ⟨rfl, ht⟩, if_pos ⟨rfl, ht⟩, hold, e2]
            · rw [if_neg (by omega), if_neg (by omega), hold]
          · rw [if_neg (by omega), h3 c t, hm]
            by_cases hlt : c < n
            · rw [if_pos hlt, if_pos (by omega)]
            · rw [if_neg hlt, if_neg (by omega)]
        · intro hh
          simp only
          rw [e2, if_neg]
          intro hg
          unfold sigs at hh
          rw [if_pos hg] at hh
          omega
  · rintro ⟨m, au, bank⟩ ⟨e1, e2, e3⟩
    simp only at e1 e2 e3
    subst e1
    simp only
    have hrow : firstSig x.o n + sigs x.o n ≤ q.rows := by
      have := firstSig_mono x.o (show n + 1 ≤ q.chans by omega)
      rw [firstSig_succ] at this
      have := h.rows
      omega
    rw [if_neg (by omega), if_neg (by omega)]
    refine Does.ok ⟨by simp only [h1, firstSig_succ], ?_, e2⟩
    have hau : au n = signal q k multi x.o a n := by
      funext u
      rw [e2 n u, if_pos (by omega)]
    intro c hc b hb t ht
    simp only
    unfold setRows
    by_cases hcn : c = n
    · subst hcn
      rw [if_pos ⟨by omega, by omega, ht⟩]
      by_cases h1s : sigs x.o c = 1
      · rw [if_pos h1s, if_pos h1s, hau]
      · rw [if_neg h1s, if_neg h1s, hau, e3 (by omega)]
        rw [show firstSig x.o c + b - s.1 = b by omega]
    · have hm := firstSig_mono x.o (show c + 1 ≤ n by omega)
      rw [firstSig_succ] at hm
      rw [if_neg (by omega)]
      exact h2 c (by omega) b hb t ht

theorem Fits.tdSet_ok (k : Banks) {i : Nat} (hm : decide (q.multi = i) = multi) (s : Buf × Buf) :
    Does (tdSet q k i x gains s) fun r => r.2 = setOut q k multi x.o gains s.2 := by
  have hch := h.chans
  have hlen := h.length
  have hgr := h.groups.1
  have hid := h.id
  unfold tdSet
  rw [if_neg (by omega), hm]
  refine Does.bind (Q := Split q k multi x.o s.2 q.chans) ?_ fun r hr => ?_
  · refine does_range (I := Split q k multi x.o s.2) (fun n hn r hr => h.filterStep_ok k s.2 hn r hr) ⟨rfl, ?_, ?_⟩
    · intro c hc; omega
    · intro c t
      rw [if_neg (by omega)]
  obtain ⟨n, rows, au⟩ := r
  obtain ⟨h1, h2, h3⟩ := hr
  simp only at h1 h2 h3 ⊢
  unfold applyGains
  rw [if_pos hid]
  obtain ⟨gi, hgi, hgi'⟩ := h.gainIdx_ok
  obtain ⟨si, hsi, hsi'⟩ := h.sigIdx_ok
  rw [hgi, ok_bind, hsi, ok_bind]
  refine Does.bind (each_mul x.o q.chans q.frame (fun c k t => gainAt q x.o gains (group x.o c).toNat k t)
    (fun g c _ => group x.o c = ((g : Nat) : Int)) _ _ (List.nodup_reverse.mpr List.nodup_range) ?_ ?_ rows) fun b hb => ?_
  · intro a _ a' _ c k e1 e2
    omega
  · intro g hg b
    rw [List.mem_reverse, List.mem_range] at hg
    exact h.mulGroup_ok hgi' hsi' hg b
  refine Does.bind (Q := fun r : Nat × Buf => r.1 = firstSig x.o q.chans ∧ r.2 = setOut q k multi x.o gains s.2) ?_ fun r hr => Does.ok hr.2
  have hall := does_range (f := sumStep q x.o b) (n := q.chans) (s := (0, au))
    (I := fun n (r : Nat × Buf) => r.1 = firstSig x.o n ∧ ∀ c t, r.2 c t = if c < n then setOut q k multi x.o gains s.2 c t else au c t) ?_ ?_
  · refine hall.mono fun r hr => ⟨hr.1, ?_⟩
    funext c t
    rw [hr.2 c t]
    by_cases hc : c < q.chans
    · rw [if_pos hc]
    · rw [if_neg hc, h3 c t, if_neg hc]
      unfold setOut
      rw [if_neg (by omega)]
  · intro n hn r ⟨r1, r2⟩
    unfold sumStep
    rw [at_group (by omega), ok_bind]
    refine Does.ite (fun hg => Does.ok ⟨?_, ?_⟩) fun hg => ?_
    · simp only [r1, firstSig_succ, sigs, if_pos hg]
    · intro c t
      simp only
      rw [r2 c t]
      by_cases hc : c < n
      · rw [if_pos hc, if_pos (by omega)]
      · rw [if_neg hc]
        by_cases hcn : c = n
        · subst hcn
          rw [if_pos (by omega), h3 c t, if_pos hn]
          unfold setOut
          by_cases ht : t < q.frame
          · rw [if_pos ⟨hn, ht⟩, if_pos hg]
          · rw [if_neg (by omega)]
            unfold signal
            rw [if_neg (by omega)]
        · rw [if_neg (by omega)]
    · have hlt := h.group_lt (by omega) hg
      rw [at_bands (by omega), ok_bind]
      have hsg : sigs x.o n = bands x.o (group x.o n).toNat := by
        unfold sigs; rw [if_neg hg]
      have hrow : firstSig x.o n + sigs x.o n ≤ q.rows := by
        have := firstSig_mono x.o (show n + 1 ≤ q.chans by omega)
        rw [firstSig_succ] at this
        have := h.rows
        omega
      rw [if_neg (by omega)]
      refine Does.ok ⟨by simp only [r1, firstSig_succ, hsg], ?_⟩
      intro c t
      simp only
      by_cases hcn : c = n
      · subst hcn
        rw [if_pos (show c < c + 1 by omega)]
        by_cases ht : t < q.frame
        · rw [if_pos ⟨rfl, ht⟩]
          unfold setOut
          rw [if_pos ⟨hn, ht⟩, if_neg hg]
          simp only
          refine congrArg List.sum (List.map_congr_left fun j hj => ?_)
          rw [List.mem_range] at hj
          rw [r1, (hb c hn j (by omega) t ht).1 ⟨(group x.o c).toNat, by simpa using hlt, by omega⟩,
            h2 c hn j (by omega) t ht, hsg]
        · rw [if_neg (by omega), r2 c t, if_neg (by omega), h3 c t, if_pos hn]
          unfold setOut signal
          rw [if_neg (by omega), if_neg (by omega)]
      · rw [if_neg (by omega), r2 c t]
        by_cases hc : c < n
        · rw [if_pos hc, if_pos (by omega)]
        · rw [if_neg hc, if_neg (by omega)]
  · refine ⟨rfl, fun c t => ?_⟩
    rw [if_neg (by omega)]

end

/-- **C146**: time domain: active sets that fit are applied one after the other, from last to first, and nothing is
read or written outside its buffer.  Each multiplies the bands of every channel with the gains of its group. -/
theorem C146_time_domain (q : Par) (k : Banks) (sets : List (Inst × List (Nat → Rat)))
    (h : ∀ (i : Nat) y, sets[i]? = some y → Fits q (decide (q.multi = i)) y.1 y.2) (s : Buf × Buf) :
    ∃ r, tdProcess q k sets s = .ok r ∧
      r.2 = sets.zipIdx.foldr (fun y a => setOut q k (decide (q.multi = y.2)) y.1.1.o y.1.2 a) s.2 := by
  unfold tdProcess
  have : ∀ l : List ((Inst × List (Nat → Rat)) × Nat), (∀ y ∈ l, sets[y.2]? = some y.1) → ∀ s : Buf × Buf,
      Does (each (fun (x : (Inst × List (Nat → Rat)) × Nat) s => tdSet q k x.2 x.1.1 x.1.2 s) l s)
        fun r => r.2 = l.foldl (fun a y => setOut q k (decide (q.multi = y.2)) y.1.1.o y.1.2 a) s.2 := by
    intro l
    induction l with
    | nil => intro _ s; exact Does.ok rfl
    | cons y l ih =>
      intro hl s
      unfold each
      refine Does.bind ((h y.2 y.1 (hl y (by simp))).tdSet_ok k rfl s) fun r hr => ?_
      refine (ih (fun z hz => hl z (by simp [hz])) r).mono fun r' hr' => ?_
      rw [hr', hr]
      rfl
  obtain ⟨r, hr, hq⟩ := this sets.zipIdx.reverse (by
    intro y hy
    rw [List.mem_reverse] at hy
    have := List.mem_zipIdx_iff_getElem?.mp hy
    exact this) s
  refine ⟨r, hr, ?_⟩
  rw [hq, List.foldl_reverse]

/-- What this comes to for sets of one band: each sample is multiplied with the gain of the group of its channel. -/
theorem C146_one_band (q : Par) (k : Banks) (o : Instr) (gains : List (Nat → Rat)) (a : Buf) {ch t : Nat} (hch : ch < q.chans)
    (ht : t < q.frame) {g : Nat} (hg : group o ch = (g : Int)) (hb : bands o g = 1) :
    setOut q k false o gains a ch t = a ch t * gainAt q o gains g 0 t := by
  unfold setOut
  rw [if_pos ⟨hch, ht⟩, if_neg (by omega), hg]
  simp only [Int.toNat_natCast, hb, if_true]
  simp [signal]

/-- A channel in a group of two bands, and one in no group. -/
def twoBands : Inst :=
  ⟨{ zeroInstr with setId := 1, groups := 1, groupSet := [0], bandCount := [2], chGroup := [0, -1], elements := 2 }, 2, 3⟩

theorem twoBands_fits : Fits ⟨256, false, 1024, 2, 0, 3⟩ true twoBands [fun _ => 1 / 2, fun _ => 1 / 4] := by
  refine ⟨⟨by decide, by decide, by decide, by decide, by decide, by decide, by decide, by decide⟩, by decide, by decide, by decide,
    by decide⟩

/-- With bands that are a half of the signal each, the channel in the group is multiplied with 3/8 and the other is
not changed. -/
example (a : Buf) : setOut ⟨256, false, 1024, 2, 0, 3⟩ ⟨fun _ _ _ v _ t => v t / 2, fun _ _ v => v⟩ true twoBands.o
    [fun _ => 1 / 2, fun _ => 1 / 4] a 0 5 = a 0 5 * (3 / 8) ∧
    setOut ⟨256, false, 1024, 2, 0, 3⟩ ⟨fun _ _ _ v _ t => v t / 2, fun _ _ v => v⟩ true twoBands.o
    [fun _ => 1 / 2, fun _ => 1 / 4] a 1 5 = a 1 5 := by
  constructor
  · simp [setOut, signal, twoBands, group, bands, gainAt, firstGain, List.range_succ]
    ring
  · simp [setOut, signal, twoBands, group]

end Verif.DrcApply
