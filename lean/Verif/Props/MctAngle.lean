import Verif.Props.Mct
import Verif.Proofs.Post

/-! # Rotation angles are table indices (C68) -/

namespace Verif.Mct

open Prog

/-- An index into the tables of sines and cosines (65 entries). -/
def InR (x : Int) : Prop := 0 ≤ x ∧ x ≤ 64

/-- The coefficients of box `box` kept for the next frame are angles. -/
def Kept (m : Mc) (box : Nat) : Prop :=
  (∀ f, m.fbPrev[box]? = some f → InR f) ∧
  ∀ r, m.sfbPrev[box]? = some r → ∀ i, i < maxBands → ∀ x, r[i]? = some x → InR x

/-- The coefficients of the masked bands of box `box` are angles. -/
def Used (m : Mc) (box : Nat) : Prop :=
  ∀ n row c, m.numBand[box]? = some n → m.mask[box]? = some row → m.coef[box]? = some c →
    ∀ b, b < n → row[b]? = some true → ∀ x, c[b]? = some x → InR x

theorem mcAngle_vals : ∀ e ∈ Huff.mcAngle, 0 ≤ e.val ∧ e.val ≤ 64 := by decide +kernel

theorem angle_post : Post 11 (Huff.mcDecode Huff.mcAngle) InR := by
  intro l a r h hk
  have hl : r.length ≤ l.length := run_length_le _ _ h
  obtain ⟨e, he, r', _, h'⟩ := (Huff.C46_mc_tables l).1 (by omega)
  rw [h] at h'
  injection h' with h'
  injection h' with h1 _
  rw [h1]
  exact mcAngle_vals e he

theorem fullCoef_post (x : Int) (hx : InR x) : Post 11 (fullCoef 1 x) InR := by
  unfold fullCoef
  rw [if_neg (by decide)]
  refine Post.bind angle_post fun d hd => Post.pure ?_
  unfold InR betaLav at *
  split <;> omega

theorem bandCoef_post (x : Int) (hx : InR x) : Post 11 (bandCoef 1 x) InR := by
  unfold bandCoef
  rw [if_neg (by decide)]
  refine Post.bind angle_post fun d hd => Post.pure ?_
  unfold InR betaLav at *
  split <;> split <;> omega

theorem getElem?_set_cases {α : Type} {l : List α} {i j : Nat} {v x : α} (h : (l.set i v)[j]? = some x) :
    (i = j ∧ x = v) ∨ (i ≠ j ∧ l[j]? = some x) := by
  by_cases hij : i = j
  · subst hij
    rw [List.getElem?_set_self'] at h
    cases hl : l[i]? with
    | none => rw [hl] at h; simp at h
    | some y => rw [hl] at h; simp at h; exact .inl ⟨rfl, h.symm⟩
  · rw [List.getElem?_set_ne hij] at h
    exact .inr ⟨hij, h⟩

/-- `if (bands_per_win != 0) prev[band % bands_per_win] = v` with an angle `v`. -/
theorem keep_post (D : Prop) (prev : List Int) (bpw band : Nat) (v : Int) (hv : InR v)
    (h : ∀ i x, i < maxBands → (D ∨ i < min band bpw) → prev[i]? = some x → InR x) :
    Post 11 (if bpw ≠ 0 then setAt prev (band % bpw) v else pure prev)
      (fun p => ∀ i x, i < maxBands → (D ∨ i < min (band + 1) bpw) → p[i]? = some x → InR x) := by
  refine Post.ite (fun hb => ?_) (fun hb => Post.pure ?_)
  · refine Post.setAt.mono fun p ⟨hp, _⟩ i x hi hd hx => ?_
    subst hp
    rcases getElem?_set_cases hx with ⟨_, rfl⟩ | ⟨hne, hx⟩
    · exact hv
    · refine h i x hi (hd.imp_right fun hlt => ?_) hx
      by_cases hbb : band < bpw
      · rw [Nat.mod_eq_of_lt hbb] at hne
        omega
      · omega
  · intro i x hi hd hx
    exact h i x hi (hd.imp_right fun hlt => by omega) hx

theorem default_inR : InR (default 1) := by unfold default InR; decide

theorem coefs_post (bw dt : Bool) (n bpw : Nat) (mask : List Bool) (coef prev : List Int) (fb : Int) (hb : bpw ≤ n)
    (hdt : dt = true → InR fb ∧ ∀ i, i < maxBands → ∀ x, prev[i]? = some x → InR x) (hb64 : bpw ≤ maxBands) :
    Post 11 (coefs 1 bw dt n bpw mask coef prev fb) (fun r =>
      (∀ b, b < n → mask[b]? = some true → ∀ x, r.1[b]? = some x → InR x) ∧
      (∀ i x, i < bpw → r.2.1[i]? = some x → InR x) ∧ InR r.2.2) := by
  have hprev0 : ∀ i x, i < maxBands → (dt = true ∨ i < min 0 bpw) → prev[i]? = some x → InR x := by
    intro i x hi hd hx
    rcases hd with hd | hd
    · exact (hdt hd).2 i hi x hx
    · omega
  unfold coefs
  refine Post.ite (fun _ => ?_) (fun _ => ?_)
  · refine Post.bind (Post.foldN (fun j st => InR st.last ∧
      (∀ b, b < j → mask[b]? = some true → ∀ x, st.coef[b]? = some x → InR x) ∧
      (∀ i x, i < maxBands → (dt = true ∨ i < min j bpw) → st.prev[i]? = some x → InR x)) n 0 _
      ⟨⟨Int.le_refl 0, by show (0 : Int) ≤ 64; decide⟩, by intro b hb; omega, hprev0⟩ ?_) fun st hst => Post.pure ?_
    · intro j st _ hj ⟨h1, h2, h3⟩
      unfold bandStep
      refine Post.bind (R := InR) ?_ fun last hlast => ?_
      · refine Post.ite (fun h => ?_) (fun _ => Post.pure h1)
        refine Post.ite (fun hd => ?_) (fun _ => ?_)
        · have := Nat.mod_lt j (Nat.pos_of_ne_zero h)
          exact Post.getAt.mono fun x hx => h3 _ x (by omega) (.inl hd) hx
        · refine Post.pure ?_
          split
          · exact default_inR
          · exact h1
      refine Post.bind Post.getAt fun m hm => ?_
      refine Post.ite (fun hmt => ?_) (fun hmt => ?_)
      · refine Post.bind (bandCoef_post last hlast) fun new hnew => ?_
        refine Post.bind Post.setAt fun c hc => ?_
        refine Post.bind (keep_post (dt = true) st.prev bpw j new hnew h3) fun p hp => Post.pure ⟨hnew, ?_, hp⟩
        intro b hbj hmb x hx
        rw [hc.1] at hx
        rcases getElem?_set_cases hx with ⟨_, rfl⟩ | ⟨hne, hx⟩
        · exact hnew
        · exact h2 b (by omega) hmb x hx
      · refine Post.bind (keep_post (dt = true) st.prev bpw j _ default_inR h3) fun p hp => Post.pure ⟨hlast, ?_, hp⟩
        intro b hbj hmb x hx
        by_cases hbe : b = j
        · subst hbe
          rw [hm] at hmb
          exact absurd (by simpa using hmb) hmt
        · exact h2 b (by omega) hmb x hx
    · obtain ⟨_, h2, h3⟩ := hst
      simp only [Nat.zero_add] at h2 h3
      exact ⟨h2, fun i x hi => h3 i x (by omega) (.inr (by omega)), default_inR⟩
  · refine Post.bind (fullCoef_post _ (by split; exact (hdt ‹_›).1; exact default_inR)) fun new hnew => ?_
    refine Post.bind (Post.foldN (fun j st =>
      (∀ b, b < j → mask[b]? = some true → ∀ x, st.1[b]? = some x → InR x) ∧
      (∀ i x, i < maxBands → (dt = true ∨ i < min j bpw) → st.2[i]? = some x → InR x)) n 0 _
      ⟨by intro b hb; omega, hprev0⟩ ?_) fun st hst => ?_
    · intro j st _ hj ⟨h2, h3⟩
      unfold fullStep
      refine Post.bind Post.setAt fun c hc => ?_
      refine Post.bind Post.getAt fun m hm => ?_
      refine Post.bind (keep_post (dt = true) st.2 bpw j _ (by split; exact hnew; exact default_inR) h3) fun p hp =>
        Post.pure ⟨?_, hp⟩
      intro b hbj hmb x hx
      rw [hc.1] at hx
      rcases getElem?_set_cases hx with ⟨_, rfl⟩ | ⟨hne, hx⟩
      · exact hnew
      · exact h2 b (by omega) hmb x hx
    · obtain ⟨c, p⟩ := st
      obtain ⟨h2, h3⟩ := hst
      simp only [Nat.zero_add] at h2 h3
      exact Post.pure ⟨h2, fun i x hi => h3 i x (by omega) (.inr (by omega)), hnew⟩

theorem parseNumBand_post (b : Bool) : Post 11 (parseNumBand b) (fun n => n ≤ maxBands) := by
  unfold parseNumBand
  refine Post.bind Post.triv fun n _ => ?_
  exact Post.ite (fun _ => Post.fail) (fun h => Post.pure (by omega))

/-- What is known before box `j` of `n` boxes is parsed; `p` is the previous signal type. -/
structure Inv (p n j : Nat) (m : Mc) : Prop where
  sig : m.signalType = 1
  prev : m.prevSignalType = p
  num : m.numPairs = n
  kept : ∀ box, (box < j ∨ n ≤ box ∨ p = 1) → Kept m box
  used : ∀ box, box < j → Used m box

set_option maxHeartbeats 2000000 in
theorem boxStep_post (p n j : Nat) (indep keep stereo : Bool) (long : List (Option Bool)) (m : Mc) (h : Inv p n j m) :
    Post 11 (boxStep indep keep stereo long j m) (Inv p n (j + 1)) := by
  unfold boxStep
  refine Post.bind Post.triv fun f _ => ?_
  refine Post.bind Post.triv fun fill _ => ?_
  refine Post.bind Post.triv fun old _ => ?_
  refine Post.bind Post.triv fun pair _ => ?_
  refine Post.bind Post.triv fun pairs _ => ?_
  refine Post.bind Post.triv fun ch _ => ?_
  refine Post.bind Post.triv fun info _ => ?_
  cases info with
  | none => exact Post.fail
  | some isLong =>
    refine Post.bind Post.triv fun lp _ => ?_
    refine Post.bind Post.getAt fun fb hfb => ?_
    refine Post.bind Post.getAt fun prev hprev => ?_
    refine Post.bind Post.triv fun longPrev _ => ?_
    refine Post.bind Post.triv fun mf _ => ?_
    refine Post.bind Post.triv fun bw _ => ?_
    refine Post.bind Post.triv fun maskFlag _ => ?_
    refine Post.bind Post.triv fun bandwise _ => ?_
    refine Post.bind (parseNumBand_post _) fun nb hnb => ?_
    refine Post.bind Post.setAt fun numBand hnumBand => ?_
    refine Post.bind Post.triv fun row0 _ => ?_
    refine Post.bind Post.triv fun row _ => ?_
    refine Post.bind Post.setAt fun mask hmask => ?_
    refine Post.bind Post.triv fun pd _ => ?_
    refine Post.bind Post.triv fun predDir _ => ?_
    refine Post.bind Post.triv fun dt _ => ?_
    refine Post.bind Post.triv fun deltaTime _ => ?_
    refine Post.ite (fun _ => Post.fail) (fun hsame => ?_)
    rw [h.sig] at hsame ⊢
    have hbpw : (if isLong then nb else nb / 8) ≤ nb := by split <;> omega
    refine Post.bind Post.triv fun coef _ => ?_
    refine Post.bind (coefs_post _ _ _ _ _ _ _ _ hbpw ?_ (by omega)) fun r hr => ?_
    · intro hd
      have hp : p = 1 := by
        rw [← h.prev]
        exact Classical.byContradiction fun hne => hsame ⟨hne, hd⟩
      have hk := h.kept j (.inr (.inr hp))
      constructor
      · split
        · exact default_inR
        · exact hk.1 fb hfb
      · intro i hi x hx
        split at hx
        · rw [List.getElem?_replicate] at hx
          split at hx
          · injection hx with hx
            rw [← hx]; exact default_inR
          · simp at hx
        · exact hk.2 prev hprev i hi x hx
    obtain ⟨coef', prev', fb'⟩ := r
    obtain ⟨hr1, hr2, hr3⟩ := hr
    generalize hbw : (if isLong = true then nb else nb / 8) = bpw at *
    refine Post.bind (Post.foldN (fun k (p : List Int) => ∀ i x, i < k → p[i]? = some x → InR x) _ _ _ hr2 ?_)
      fun prev'' hprev'' => ?_
    · intro k q _ _ hq
      refine Post.setAt.mono fun q' hq' i x hi hx => ?_
      rw [hq'.1] at hx
      rcases getElem?_set_cases hx with ⟨_, rfl⟩ | ⟨hne, hx⟩
      · exact default_inR
      · exact hq i x (by omega) hx
    rw [show bpw + (maxBands - bpw) = maxBands by omega] at hprev''
    refine Post.bind Post.setAt fun coefs hcoefs => ?_
    refine Post.bind Post.setAt fun sfbPrev hsfbPrev => ?_
    refine Post.bind Post.setAt fun fbPrev hfbPrev => Post.pure ?_
    refine ⟨rfl, h.prev, h.num, ?_, ?_⟩
    · intro box hbox
      constructor
      · intro f hf
        simp only [hfbPrev.1] at hf
        rcases getElem?_set_cases hf with ⟨_, rfl⟩ | ⟨hne, hf⟩
        · exact hr3
        · exact (h.kept box (by omega)).1 f hf
      · intro r hr
        simp only [hsfbPrev.1] at hr
        rcases getElem?_set_cases hr with ⟨_, rfl⟩ | ⟨hne, hr⟩
        · exact fun i hi x hx => hprev'' i x hi hx
        · exact (h.kept box (by omega)).2 r hr
    · intro box hbox n' row' c' h1 h2 h3
      simp only [hnumBand.1] at h1
      simp only [hmask.1] at h2
      simp only [hcoefs.1] at h3
      rcases getElem?_set_cases h1 with ⟨e1, rfl⟩ | ⟨ne1, h1⟩ <;>
      rcases getElem?_set_cases h2 with ⟨e2, rfl⟩ | ⟨ne2, h2⟩ <;>
      rcases getElem?_set_cases h3 with ⟨e3, rfl⟩ | ⟨ne3, h3⟩
      · exact hr1
      · exact absurd e1 ne3
      · exact absurd e1 ne2
      · exact absurd e1 ne2
      · exact absurd e2 ne1
      · exact absurd e2 ne1
      · exact absurd e3 ne1
      · exact h.used box (by omega) n' row' c' h1 h2 h3

theorem resetFrom_kept (n : Nat) (m : Mc) (hs : m.signalType = 1) (box : Nat) :
    (n ≤ box ∨ Kept m box) → Kept (resetFrom n m) box := by
  intro h
  constructor
  · intro f hf
    simp only [resetFrom, hs] at hf
    rw [List.getElem?_append] at hf
    split at hf
    · rename_i hlt
      have : box < n := by simp at hlt; omega
      rw [List.getElem?_take_of_lt this] at hf
      exact (h.resolve_left (by omega)).1 f hf
    · obtain ⟨_, _, rfl⟩ := List.mem_map.mp (List.mem_of_getElem? hf)
      exact default_inR
  · intro r hr
    simp only [resetFrom, hs] at hr
    rw [List.getElem?_append] at hr
    split at hr
    · rename_i hlt
      have : box < n := by simp at hlt; omega
      rw [List.getElem?_take_of_lt this] at hr
      exact (h.resolve_left (by omega)).2 r hr
    · obtain ⟨r', _, rfl⟩ := List.mem_map.mp (List.mem_of_getElem? hr)
      intro i _ x hx
      have := List.mem_of_getElem? hx
      rw [List.mem_replicate] at this
      rw [this.2]; exact default_inR

theorem boxStep_sig (j : Nat) (indep keep stereo : Bool) (long : List (Option Bool)) (m : Mc) :
    Post 11 (boxStep indep keep stereo long j m) (fun m' => m'.signalType = m.signalType) := by
  unfold boxStep
  iterate 7 refine Post.bind Post.triv fun _ _ => ?_
  rename_i info _
  cases info with
  | none => exact Post.fail
  | some isLong =>
    iterate 17 refine Post.bind Post.triv fun _ _ => ?_
    refine Post.ite (fun _ => Post.fail) (fun hsame => ?_)
    iterate 6 refine Post.bind Post.triv fun _ _ => ?_
    exact Post.pure rfl

/-- The state between two frames: if the last frame had rotations, all coefficients kept are angles. -/
def Between (m : Mc) : Prop := m.prevSignalType = 1 → ∀ box, Kept m box

/-- **C68**, the part that holds: as long as every frame leaves at least 11 bits of its payload unread (the
length of the longest codeword for an angle), all angles used are indices of the tables, whatever the
history of frames; the state is again one between frames.  Missing: frames whose payload ends earlier. -/
theorem C68_angles_partial (B : Nat) (indep : Bool) (long : List (Option Bool)) (m m' : Mc) (l r : List Bool)
    (hm : Between m) (h : run (mcParse B indep long m) l = .ok (m', r)) (h11 : 11 ≤ r.length) :
    Between m' ∧ (m'.signalType = 1 → ∀ box, box < m'.numPairs → Used m' box) := by
  suffices hp : Post 11 (mcParse B indep long m) fun m' =>
      Between m' ∧ (m'.signalType = 1 → ∀ box, box < m'.numPairs → Used m' box) from hp l m' r h h11
  unfold mcParse
  refine Post.bind Post.triv fun stereo _ => ?_
  refine Post.bind Post.triv fun sig _ => ?_
  refine Post.bind Post.triv fun keep _ => ?_
  refine Post.bind Post.triv fun n _ => ?_
  refine Post.ite (fun _ => Post.fail) (fun hn => ?_)
  by_cases hs : sig = 1
  · subst hs
    refine Post.bind (Post.foldN (fun j m' => Inv m.prevSignalType n j m') n 0 _ ?_ ?_) fun m4 hm4 => Post.pure ?_
    · refine ⟨?_, ?_, rfl, ?_, by intro box hb; omega⟩
      · show (if indep = true then resetFrom 0 _ else _ : Mc).signalType = 1
        split <;> rfl
      · show (if indep = true then resetFrom 0 _ else _ : Mc).prevSignalType = _
        split <;> rfl
      · intro box hb
        refine resetFrom_kept _ _ (by show (if indep = true then resetFrom 0 _ else _ : Mc).signalType = 1; split <;> rfl) box ?_
        rcases hb with hb | hb | hb
        · omega
        · exact .inl hb
        · refine .inr ?_
          have hk := hm hb box
          by_cases hi : indep = true
          · simp only [hi, if_true]
            exact resetFrom_kept 0 _ rfl box (.inl (by omega))
          · simp only [hi]
            exact hk
    · intro j t _ _ ht
      exact boxStep_post _ _ j indep keep stereo long t ht
    · simp only [Nat.zero_add] at hm4
      constructor
      · intro _ box
        exact hm4.kept box (by omega)
      · intro _ box hb
        exact hm4.used box (by have := hm4.num; simp only at hb; omega)
  · refine Post.bind (Post.foldN (fun j m' => m'.signalType = sig) n 0 _ ?_ ?_) fun m4 hm4 => Post.pure ?_
    · show (if indep = true then resetFrom 0 _ else _ : Mc).signalType = _
      split <;> rfl
    · intro j t _ _ ht
      exact (boxStep_sig j indep keep stereo long t).mono fun m' hm' => by rw [hm', ht]
    · constructor
      · intro hc
        exact absurd hc hs
      · intro hc
        exact absurd (by simpa [hm4] using hc) hs

/-- The example of C67 with 11 bits following. -/
example : Between (initial 16) ∧
    (run (mcParse 16 true [some true, some true] (initial 16)) (frame1 ++ List.replicate 11 true)).map
      (fun r => (r.1.numPairs, r.1.coef.head?, decide (11 ≤ r.2.length))) =
      .ok (1, some (List.replicate 64 0), true) :=
  ⟨by intro h; simp [initial] at h, by decide +kernel⟩

/-- A second frame, of 8 bits: the tree is kept, one angle for the whole band coded as difference in time; the
payload ends after two bits of the codeword. -/
def frame2 : List Bool := [false, true, true, false, false, true, true, true]

/-- **C68** is false: no codeword of angles is recognised in the last bits of `frame2`, so the difference is -1;
the angle 0 becomes -1, and the rotation reads before the tables.  Both frames are accepted. -/
theorem C68_refuted : ∃ m1 r1 m2 r2,
    run (mcParse 16 true [some true, some true] (initial 16)) frame1 = .ok (m1, r1) ∧
    run (mcParse 16 false [some true, some true] m1) frame2 = .ok (m2, r2) ∧
    m2.signalType = 1 ∧ m2.numPairs = 1 ∧ m2.coef.head? = some (List.replicate 64 (-1)) ∧
    mcProcess 1 false true [4, 8] 2 (List.replicate 64 (true, -1)) [(1, 0)] = .ub := by
  have h1 : (run (mcParse 16 true [some true, some true] (initial 16)) frame1).map (fun _ => ()) = .ok () := by
    decide +kernel
  cases h : run (mcParse 16 true [some true, some true] (initial 16)) frame1 with
  | jump => rw [h] at h1; cases h1
  | err _ => rw [h] at h1; cases h1
  | ub => rw [h] at h1; cases h1
  | ok v =>
    obtain ⟨m1, r1⟩ := v
    have h2 : ((run (mcParse 16 true [some true, some true] (initial 16)) frame1).bind fun v =>
        (run (mcParse 16 false [some true, some true] v.1) frame2).map fun w =>
          (w.1.signalType, w.1.numPairs, w.1.coef.head?)) = .ok (1, 1, some (List.replicate 64 (-1))) := by
      decide +kernel
    rw [h] at h2
    change (run (mcParse 16 false [some true, some true] m1) frame2).map _ = _ at h2
    cases h' : run (mcParse 16 false [some true, some true] m1) frame2 with
    | jump => rw [h'] at h2; cases h2
    | err _ => rw [h'] at h2; cases h2
    | ub => rw [h'] at h2; cases h2
    | ok w =>
      obtain ⟨m2, r2⟩ := w
      rw [h'] at h2
      injection h2 with h2
      simp only [Prod.mk.injEq] at h2
      exact ⟨m1, r1, m2, r2, rfl, h', h2.1, h2.2.1, h2.2.2, by decide +kernel⟩

end Verif.Mct
