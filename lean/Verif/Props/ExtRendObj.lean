import Verif.Props.ExtRend
import Verif.Proofs.Meets

/-! # C261, C262, C264, C265, C266: limits of the object metadata for an external renderer -/

namespace Verif.ExtRend

open Prog

/-! ### Cases -/

/-- No enhanced metadata. -/
def plainEnh : EnhOam.Obj := ⟨0, 0, 0, 0, 0, [], 0, 0, 0, [], 0, 0⟩

/-- `n` objects with the metadata of `s` and the enhanced metadata of `e`. -/
def caseOf (n : Nat) (c : Oam.Cfg) (s : Oam.State) (e : EnhOam.Obj) : Objects :=
  ⟨1024, c, n, s, List.replicate 24 e, List.replicate 24 0, none, ⟨0, 0, 0, 0, 0, [], []⟩⟩

/-- A group of 5 channels with priority 2 and a group of objects with priority 7. -/
def groupsCase (n : Nat) : Signals :=
  ⟨2, 0 :: 1 :: List.replicate 30 0, 5 :: n :: List.replicate 30 0, List.replicate 32 0,
   2 :: 7 :: List.replicate 30 0, 1, 0, []⟩

theorem getD_replicate' {α : Type} (n i : Nat) (d : α) : (List.replicate n d).getD i d = d := by
  rw [List.getD_eq_getElem?_getD, List.getElem?_replicate]
  split <;> rfl

theorem init_held : HeldOk Oam.init := by
  refine ⟨by simp [Oam.init], by simp [Oam.init], by simp [Oam.init], by simp [Oam.init], by simp [Oam.init],
    by simp [Oam.init], by simp [Oam.init], by simp [Oam.init], by simp [Oam.init], ?_, ?_, ?_, ?_, ?_, ?_, ?_, ?_, ?_⟩
  all_goals intro i
  all_goals simp only [Oam.init, getD_replicate']
  all_goals omega

theorem caseOf_ok (n : Nat) (c : Oam.Cfg) (s : Oam.State) (e : EnhOam.Obj) (hn : n ≤ 24)
    (hc : c.frameLength = 256 ∨ c.frameLength = 512 ∨ c.frameLength = 1024) (hs : HeldOk s) (he : EnhOk e) :
    ObjectsOk (caseOf n c s e) (groupsCase n) := by
  refine ⟨rfl, hc, hn, hs, by simp [caseOf], ?_, by simp [caseOf], rfl, by simp [groupsCase], ?_,
    by simp [groupsCase], ?_, by simp [groupsCase], by simp [groupsCase], by simp [groupsCase]⟩
  · intro x hx
    rw [List.eq_of_mem_replicate hx]; exact he
  · intro x hx
    rw [List.eq_of_mem_replicate hx]; omega
  · intro x hx
    simp [groupsCase] at hx
    omega

theorem plain_ok : EnhOk plainEnh := by
  refine ⟨by simp [plainEnh], by simp [plainEnh], by simp [plainEnh], ?_, ?_⟩ <;> norm_num [plainEnh]

example : ObjectsOk (caseOf 3 ⟨true, false, 512⟩ Oam.init plainEnh) (groupsCase 3) :=
  caseOf_ok _ _ _ _ (by omega) (by simp) init_held plain_ok

/-- Two sub-frames of 512 samples; the object is signal 5. -/
example : (oam (caseOf 1 ⟨true, false, 512⟩ Oam.init plainEnh) (groupsCase 1)).map fieldBits =
    .ok (natBits 6 8 ++ natBits 2 0 ++ natBits 9 1 ++ natBits 9 5 ++ [false, true] ++ natBits 6 2 ++
      [false, false] ++ [false] ++ natBits 3 2 ++ natBits 24 0 ++ natBits 3 0) := by decide +kernel

/-! ### Differences -/

/-- Two frames of one object: the elevation sent as 31 times 3 degrees, then increased by one step. -/
def raised : List (List Bool) :=
  [[true] ++ natBits 8 0 ++ natBits 6 31 ++ List.replicate 30 false,
   [false, false, true] ++ natBits 3 0 ++ [false, true, false, true] ++ List.replicate 30 false]

/-- **C261** (refuted) without the ranges of the coded values: an object that rises to 90 degrees, by a
difference that exceeds the range of the field, is sent to the external renderer below the listener. -/
theorem C261_refuted : ∃ s p fs, Oam.frames Oam.noPow ⟨true, false, 1024⟩ 1 raised (Oam.init, [0, 0, 0, 0]) = .ok (s, p) ∧
    s.desc.el[0]? = some 90 ∧
    oam (caseOf 1 ⟨true, false, 1024⟩ s plainEnh) (groupsCase 1) = .ok fs ∧
    (run Spec.oam (fieldBits fs)).map (fun r => r.1.objs.map fun o => o.frames.map (Option.map (·.el))) =
      .ok [[some (-32)]] := by
  have : ((Oam.frames Oam.noPow ⟨true, false, 1024⟩ 1 raised (Oam.init, [0, 0, 0, 0])).bind fun r =>
      (oam (caseOf 1 ⟨true, false, 1024⟩ r.1 plainEnh) (groupsCase 1)).bind fun fs =>
        (run Spec.oam (fieldBits fs)).map fun x =>
          (r.1.desc.el[0]?, x.1.objs.map fun o => o.frames.map (Option.map (·.el)))) =
      .ok (some 90, [[some (-32)]]) := by decide +kernel
  cases h : Oam.frames Oam.noPow ⟨true, false, 1024⟩ 1 raised (Oam.init, [0, 0, 0, 0]) with
  | ok r =>
    rw [h] at this
    change (oam (caseOf 1 ⟨true, false, 1024⟩ r.1 plainEnh) (groupsCase 1)).bind _ = _ at this
    cases h2 : oam (caseOf 1 ⟨true, false, 1024⟩ r.1 plainEnh) (groupsCase 1) with
    | ok fs =>
      rw [h2] at this
      change Res.map _ (run Spec.oam (fieldBits fs)) = _ at this
      refine ⟨r.1, r.2, fs, rfl, ?_, h2, ?_⟩ <;>
        cases h3 : run Spec.oam (fieldBits fs) with
        | ok x => rw [h3] at this; simp [Res.map] at this ⊢; simp [this]
        | _ => rw [h3] at this; simp [Res.map] at this
    | _ => rw [h2] at this; cases this
  | _ => rw [h] at this; cases this

/-! ### Size -/

theorem fieldWidth_append (a b : List Field) : fieldWidth (a ++ b) = fieldWidth a + fieldWidth b := by
  unfold fieldWidth; simp

theorem rep_width (f : Nat → Res (List Field)) (B : Nat → Nat) (k i : Nat) (fs : List Field)
    (h : ∀ m gs, i ≤ m → m < i + k → f m = .ok gs → fieldWidth gs ≤ B m) (e : rep f k i = .ok fs) :
    fieldWidth fs ≤ ((List.range' i k).map B).sum := by
  induction k generalizing i fs with
  | zero => simp only [rep, Res.ok.injEq] at e; subst e; simp [fieldWidth]
  | succ k ih =>
    simp only [rep] at e
    obtain ⟨a, ha, e⟩ := (Res.bind_eq_ok).mp e
    obtain ⟨b, hb, e⟩ := (Res.bind_eq_ok).mp e
    cases e
    have h1 := h i a (Nat.le_refl _) (by omega) ha
    have h2 := ih (i + 1) b (fun m gs a1 a2 => h m gs (by omega) (by omega)) hb
    rw [fieldWidth_append, List.range'_succ, List.map_cons, List.sum_cons]
    omega

theorem subFrame_width (c : Oam.Cfg) (s : Oam.State) (i : Nat) (fs : List Field) (e : subFrame c s i = .ok fs) :
    fieldWidth fs ≤ 45 := by
  unfold subFrame at e
  obtain ⟨h, _, e⟩ := (Res.bind_eq_ok).mp e
  split at e
  · obtain ⟨_, _, e⟩ := (Res.bind_eq_ok).mp e
    obtain ⟨_, _, e⟩ := (Res.bind_eq_ok).mp e
    obtain ⟨_, _, e⟩ := (Res.bind_eq_ok).mp e
    obtain ⟨_, _, e⟩ := (Res.bind_eq_ok).mp e
    obtain ⟨p, hp, e⟩ := (Res.bind_eq_ok).mp e
    obtain ⟨_, _, e⟩ := (Res.bind_eq_ok).mp e
    obtain ⟨q, hq, e⟩ := (Res.bind_eq_ok).mp e
    cases e
    have w1 : fieldWidth p ≤ 3 := by
      split at hp
      · obtain ⟨_, _, e⟩ := (Res.bind_eq_ok).mp hp
        cases e; exact Nat.le_refl _
      · cases hp; exact Nat.zero_le _
    have w2 : fieldWidth q ≤ 16 := by
      split at hq
      · cases hq; simp [fieldWidth, word]
      · obtain ⟨_, _, e⟩ := (Res.bind_eq_ok).mp hq
        obtain ⟨_, _, e⟩ := (Res.bind_eq_ok).mp e
        cases e; simp [fieldWidth, word]
    rw [fieldWidth_append, fieldWidth_append]
    have : ∀ a b c d, fieldWidth [(h, 1), word a 8, word b 6, word c 4, word d 7] = 26 := fun _ _ _ _ => rfl
    rw [this]
    omega
  · cases e; exact (show (1 : Nat) ≤ 45 by omega)

theorem sector_width (s : EnhOam.Sector) (fs : List Field) (e : sector s = .ok fs) : fieldWidth fs ≤ 25 := by
  unfold sector at e
  split at e
  · obtain ⟨_, _, e⟩ := (Res.bind_eq_ok).mp e
    obtain ⟨_, _, e⟩ := (Res.bind_eq_ok).mp e
    obtain ⟨_, _, e⟩ := (Res.bind_eq_ok).mp e
    obtain ⟨_, _, e⟩ := (Res.bind_eq_ok).mp e
    cases e; simp [fieldWidth, word]
  · cases e; simp [fieldWidth]

theorem sum_const (k i c : Nat) : ((List.range' i k).map fun _ => c).sum = k * c := by
  rw [List.map_const', List.sum_replicate, List.length_range']; rfl

theorem object_width (o : Objects) (sg : Signals) (grp before frames k : Nat) (fs : List Field) (hf : frames ≤ 4)
    (e : object o sg grp before frames k = .ok fs) :
    fieldWidth fs ≤ 225 + 25 * (o.enh.getD k plainEnh).num := by
  unfold object at e
  obtain ⟨id, _, e⟩ := (Res.bind_eq_ok).mp e
  obtain ⟨subs, hs, e⟩ := (Res.bind_eq_ok).mp e
  obtain ⟨_, _, e⟩ := (Res.bind_eq_ok).mp e
  obtain ⟨_, _, e⟩ := (Res.bind_eq_ok).mp e
  obtain ⟨en, hen, e⟩ := (Res.bind_eq_ok).mp e
  obtain ⟨_, _, e⟩ := (Res.bind_eq_ok).mp e
  obtain ⟨_, _, e⟩ := (Res.bind_eq_ok).mp e
  obtain ⟨_, _, e⟩ := (Res.bind_eq_ok).mp e
  obtain ⟨secs, hc, e⟩ := (Res.bind_eq_ok).mp e
  cases e
  have w1 := rep_width _ (fun _ => 45) _ _ _ (fun m gs _ _ h => subFrame_width _ _ _ _ h) hs
  have w2 := rep_width _ (fun _ => 25) _ _ _ (fun m gs _ _ h => by
    obtain ⟨_, _, h⟩ := (Res.bind_eq_ok).mp h
    exact sector_width _ _ h) hc
  rw [sum_const] at w1 w2
  have hen' : o.enh.getD k plainEnh = en := by
    unfold at_ at hen
    split at hen
    · rename_i x hx
      cases hen
      rw [List.getD_eq_getElem?_getD, hx]; rfl
    · cases hen
  rw [hen']
  simp only [fieldWidth_append]
  have a1 : ∀ a b c, fieldWidth [word id 9, (a, 1), (b, 1), (c, 6)] = 17 := fun _ _ _ => rfl
  have a2 : ∀ a b c d f g, fieldWidth [(a, 1), (b, 3), word c 7, word d 7, word f 6, (g, 4)] = 28 :=
    fun _ _ _ _ _ _ => rfl
  rw [a1, a2]
  omega

/-- **C262** (partial) The metadata of up to 24 objects fit the buffer of 768 bytes when there are no
production metadata and at most 28 exclusion sectors in all. -/
theorem C262_fits_partial (o : Objects) (sg : Signals) (hn : o.n ≤ 24) (hf : o.ccfl.tdiv o.cfg.frameLength ≤ 4)
    (hp : o.prod.present ≠ 1)
    (hs : ((List.range' 0 o.n).map fun k => (o.enh.getD k plainEnh).num).sum ≤ 28) (fs : List Field)
    (e : oam o sg = .ok fs) : payloadLength fs ≤ bufSize := by
  unfold oam at e
  split at e
  · cases e
  obtain ⟨⟨g, b⟩, _, e⟩ := (Res.bind_eq_ok).mp e
  obtain ⟨os, ho, e⟩ := (Res.bind_eq_ok).mp e
  obtain ⟨ext, hx, e⟩ := (Res.bind_eq_ok).mp e
  cases e
  have w := rep_width _ (fun k => 225 + 25 * (o.enh.getD k plainEnh).num) _ _ _
    (fun m gs _ _ h => object_width o sg g b _ m gs (by omega) h) ho
  have w2 : ∀ (k i : Nat) (v : Nat → Nat), ((List.range' i k).map fun m => 225 + 25 * v m).sum =
      225 * k + 25 * ((List.range' i k).map v).sum := by
    intro k i v
    induction k generalizing i with
    | zero => simp
    | succ k ih => rw [List.range'_succ, List.map_cons, List.sum_cons, ih, List.map_cons, List.sum_cons]; ring
  rw [w2] at w
  unfold goaExt at hx
  rw [if_pos hp] at hx
  cases hx
  change (fieldWidth _ + 7) / 8 ≤ 768
  rw [fieldWidth_append, fieldWidth_append]
  have a1 : ∀ a b, fieldWidth [word a 6, (0, 2), (b, 9)] = 17 := fun _ _ => rfl
  have a2 : fieldWidth [(0, 3)] = 3 := rfl
  rw [a1, a2]
  omega

theorem fieldWidth_payload (fs : List Field) (h : payloadLength fs ≤ bufSize) : fieldWidth fs ≤ 8 * 768 := by
  unfold payloadLength bufSize at h
  unfold fieldWidth
  omega

/-- **C261** for the buffer of 768 bytes of the decoder: with at most 28 exclusion sectors the receiver
reads the metadata of all objects. -/
theorem C261_buffer (o : Objects) (sg : Signals) (h : ObjectsOk o sg) (hp : o.prod.present ≠ 1)
    (hs : ((List.range' 0 o.n).map fun k => (o.enh.getD k plainEnh).num).sum ≤ 28)
    (buf : List UInt8) (hb : buf.length = bufSize) :
    ∃ fs w, oam o sg = .ok fs ∧ (WBuf.create buf).writeSeq fs = .ok (fieldWidth fs, w) ∧
      w.buf.length = buf.length ∧
      run Spec.oam (bitsOf w.buf) = .ok (oamOf o sg, (bitsOf buf).drop (fieldWidth fs)) := by
  refine C261_objects o sg h hp buf fun fs e => ?_
  have := C262_fits_partial o sg h.n (by rw [h.ccfl]; rcases h.frame with e | e | e <;> rw [e] <;> decide) hp hs fs e
  have := fieldWidth_payload fs this
  rw [hb]
  exact this

/-- 15 exclusion sectors given by angles. -/
def sectors15 : EnhOam.Obj := ⟨0, 0, 0, 0, 15, List.replicate 15 ⟨0, 0, -30, 30, 0, 12⟩, 0, 0, 0, [], 0, 0⟩

theorem sectors15_ok : EnhOk sectors15 := by
  refine ⟨by simp [sectors15], by simp [sectors15], ?_, ?_, ?_⟩
  · intro s hs
    rw [List.eq_of_mem_replicate hs]
    refine ⟨by norm_num, by norm_num, ?_, ?_, ?_, ?_⟩ <;> norm_num
  · norm_num [sectors15]
  · norm_num [sectors15]

/-- Metadata in every sub-frame. -/
def announced : Oam.State := { Oam.init with hasMd := List.replicate 96 1 }

theorem announced_held : HeldOk announced := by
  have h := init_held
  refine ⟨by simp [announced], h.laz, h.lel, h.lrad, h.lgain, h.lpri, h.lsw, h.lsh, h.lsd, h.az, h.el, h.rad, h.gain, h.pri,
    h.sw, h.sh, h.sd, fun i => ?_⟩
  by_cases hi : i < 96
  · rw [List.getD_eq_getElem?_getD, announced, List.getElem?_replicate_of_lt hi]; exact Nat.le_refl _
  · rw [List.getD_eq_getElem?_getD, announced, List.getElem?_eq_none (by simp; omega)]; exact Nat.zero_le _

/-- **C262** (refuted) 16 objects with 15 exclusion sectors each need 1203 bytes. -/
theorem C262_refuted : ∃ o sg fs, ObjectsOk o sg ∧ o.n = 16 ∧ o.prod.present ≠ 1 ∧ oam o sg = .ok fs ∧
    payloadLength fs = 1203 ∧ bufSize < payloadLength fs := by
  have h : (oam (caseOf 16 ⟨false, true, 256⟩ announced sectors15) (groupsCase 16)).map payloadLength = .ok 1203 := by
    decide +kernel
  cases e : oam (caseOf 16 ⟨false, true, 256⟩ announced sectors15) (groupsCase 16) with
  | ok fs =>
    rw [e] at h
    have h : payloadLength fs = 1203 := Res.ok.inj h
    exact ⟨_, _, fs, caseOf_ok 16 ⟨false, true, 256⟩ announced sectors15 (by omega) (by simp) announced_held sectors15_ok, rfl,
      by decide, e, h, by rw [h]; decide⟩
  | _ => rw [e] at h; cases h

/-! ### Enhanced metadata -/

/-- **C264** (refuted) Of the 128 codes of the diffuseness the interface keeps one: the receiver sees 1 for
the code 127 and 0 for all others. -/
theorem C264_refuted (o : EnhOam.Obj) (v : Nat) (hv : v < 128) (l : List Bool) :
    ∃ o', run (EnhOam.diffuseness true o) (natBits 7 v ++ l) = .ok (o', l) ∧ o'.diff = (v : Rat) / 127 ∧
      ∀ (q : Objects) (sg : Signals) (b f k : Nat), k < q.enh.length → q.enh.getD k plainEnh = o' →
        (objectOf q sg b f k).diff = if v = 127 then 1 else 0 := by
  refine ⟨{ o with keepDiff := 0, diff := (v : Rat) / 127 }, ?_, rfl, ?_⟩
  · unfold EnhOam.diffuseness EnhOam.keep
    simp only [if_true, pure_bind, ne_eq, not_true_eq_false, if_false]
    rw [run_bits_bind _ _ _ _ (by omega) (by norm_num; omega)]
    rfl
  · intro q sg b f k hk he
    unfold objectOf
    change Spec.low 7 (Pcm.truncZ (q.enh.getD k plainEnh).diff) = _
    rw [he]
    simp only
    have h0 : (0 : Rat) ≤ (v : Rat) / 127 := by positivity
    unfold Pcm.truncZ
    rw [if_pos h0]
    split
    · rename_i e; subst e; norm_num; decide
    · rename_i e
      have : ⌊(v : Rat) / 127⌋ = 0 := by
        rw [Int.floor_eq_zero_iff]
        refine ⟨h0, ?_⟩
        rw [div_lt_one (by norm_num)]
        have : v < 127 := by omega
        exact_mod_cast this
      rw [this]; decide

/-- The same for the divergence. -/
theorem C264_divergence (o : EnhOam.Obj) (v : Nat) (hv : v < 128) (l : List Bool) :
    ∃ o', run (EnhOam.divergence true o) (natBits 7 v ++ l) = .ok (o', l) ∧ o'.div = (v : Rat) / 127 ∧
      ∀ (q : Objects) (sg : Signals) (b f k : Nat), k < q.enh.length → q.enh.getD k plainEnh = o' →
        (objectOf q sg b f k).div = if v = 127 then 1 else 0 := by
  refine ⟨{ o with keepDiv := 0, div := (v : Rat) / 127 }, ?_, rfl, ?_⟩
  · unfold EnhOam.divergence EnhOam.keep
    simp only [if_true, pure_bind, ne_eq, not_true_eq_false, if_false]
    rw [run_bits_bind _ _ _ _ (by omega) (by norm_num; omega)]
    rfl
  · intro q sg b f k hk he
    unfold objectOf
    change Spec.low 7 (Pcm.truncZ (q.enh.getD k plainEnh).div) = _
    rw [he]
    simp only
    have h0 : (0 : Rat) ≤ (v : Rat) / 127 := by positivity
    unfold Pcm.truncZ
    rw [if_pos h0]
    split
    · rename_i e; subst e; norm_num; decide
    · rename_i e
      have : ⌊(v : Rat) / 127⌋ = 0 := by
        rw [Int.floor_eq_zero_iff]
        refine ⟨h0, ?_⟩
        rw [div_lt_one (by norm_num)]
        have : v < 127 := by omega
        exact_mod_cast this
      rw [this]; decide

/-! ### Announcements -/

theorem meets_any {α : Type} (p : Prog α) : Meets False p (fun _ => True) :=
  fun _ => ⟨fun h => h.elim, fun _ _ _ => trivial⟩

/-- Flags that are not those of the first object of a sub-frame are 0. -/
def Quiet (n : Nat) (s : Oam.State) : Prop := ∀ i, ¬ n ∣ i → s.hasMd.getD i 0 = 0

theorem getD_set_ne (t : List Nat) (i j v : Nat) (h : i ≠ j) : (t.set i v).getD j 0 = t.getD j 0 := by
  rw [List.getD_eq_getElem?_getD, List.getD_eq_getElem?_getD, List.getElem?_set_ne h]

theorem dynamic_quiet (cfg : Oam.Cfg) (n sub : Nat) (s : Oam.State) (h : Quiet n s) :
    Meets False (Oam.dynamic cfg (sub * n) n s) (Quiet n) := by
  unfold Oam.dynamic
  refine Meets.bind (meets_any _) fun a _ => ?_
  refine Meets.foldN (fun _ s => Quiet n s) n 0 s h fun j t _ _ ht => ?_
  refine Meets.bind (meets_any _) fun p _ => ?_
  refine Meets.bind (Meets.setAt (fun h => h.elim)) fun m hm => ?_
  have hq : Quiet n { t with hasMd := m } := by
    intro i hi
    rw [hm.1]
    rw [getD_set_ne _ (sub * n) i _ (fun e => hi (by rw [← e]; exact Dvd.intro_left sub rfl))]
    exact ht i hi
  refine Meets.ite (fun _ => ?_) (fun _ => Meets.pure hq)
  exact Meets.bind (meets_any _) fun c _ => Meets.pure hq

theorem lowDelay_quiet (m : Oam.Libm) (cfg : Oam.Cfg) (n sub : Nat) (s : Oam.State) (h : Quiet n s) :
    Meets False (Oam.lowDelay m cfg n sub s) (Quiet n) := by
  unfold Oam.lowDelay
  refine Meets.bind (meets_any _) fun a _ => ?_
  refine Meets.bind (R := Quiet n) (Meets.ite (fun _ => ?_) (fun _ => dynamic_quiet cfg n sub s h)) fun t ht => ?_
  · exact Meets.bind (meets_any _) fun c _ => Meets.pure h
  · refine Meets.bind (meets_any _) fun _ _ => Meets.bind (meets_any _) fun _ _ => Meets.bind (meets_any _) fun _ _ => ?_
    exact Meets.pure ht

theorem payload_quiet (m : Oam.Libm) (cfg : Oam.Cfg) (n : Nat) (s : Oam.State) (p : List Nat) (h : Quiet n s) :
    Meets False (Oam.payload m cfg 1024 n s p) (fun r => Quiet n r.1) := by
  unfold Oam.payload
  refine Meets.ite (fun _ => Meets.fail) fun _ => Meets.ite (fun _ => ?_) fun _ => ?_
  · refine Meets.bind (R := fun (r : Oam.State × List Nat × Nat) => Quiet n r.1)
      (Meets.foldN (fun _ (r : Oam.State × List Nat × Nat) => Quiet n r.1) _ _ _ h fun j t _ _ ht => ?_)
      fun r hr => Meets.pure hr
    refine Meets.bind (meets_any _) fun _ _ => Meets.bind (meets_any _) fun _ _ => ?_
    refine Meets.ite (fun _ => ?_) fun _ => Meets.pure ht
    exact Meets.bind (lowDelay_quiet m cfg n _ _ ht) fun r hr => Meets.pure hr
  · exact Meets.bind (lowDelay_quiet m cfg n _ _ h) fun r hr => Meets.pure hr

theorem frames_quiet (m : Oam.Libm) (cfg : Oam.Cfg) (n : Nat) (ls : List (List Bool)) (s r : Oam.State × List Nat)
    (h : Quiet n s.1) (e : Oam.frames m cfg n ls s = .ok r) : Quiet n r.1 := by
  induction ls generalizing s with
  | nil => unfold Oam.frames at e; cases e; exact h
  | cons l ls ih =>
    unfold Oam.frames at e
    obtain ⟨⟨x, l'⟩, hx, e⟩ := (Res.bind_eq_ok).mp e
    exact ih x ((payload_quiet m cfg n s.1 s.2 h l).2 x l' hx) e

/-- **C265** (refuted) Whatever was decoded, objects other than the first are never announced to the
external renderer: all their sub-frames are without metadata. -/
theorem C265_refuted (m : Oam.Libm) (n : Nat) (ls : List (List Bool)) (o : Objects) (sg : Signals)
    (p p' : List Nat) (hd : Oam.frames m o.cfg n ls (Oam.init, p) = .ok (o.state, p')) (hn : o.n = n)
    (b frames k : Nat) (h0 : 1 ≤ k) (hk : k < n) :
    (objectOf o sg b frames k).frames = List.replicate frames none := by
  have hq : Quiet n o.state := frames_quiet m o.cfg n ls _ _ (by
    intro i _
    simp only [Oam.init]
    rw [getD_replicate']) hd
  unfold objectOf
  simp only
  rw [List.eq_replicate_iff]
  refine ⟨by simp, fun x hx => ?_⟩
  obtain ⟨f, _, rfl⟩ := List.mem_map.mp hx
  unfold heldAt
  rw [hn, if_neg]
  rw [hq (f * n + k) (fun hd => by
    have := (Nat.dvd_add_right (Dvd.intro_left f rfl)).mp hd
    have := Nat.le_of_dvd (by omega) this
    omega)]
  decide

/-- Nor is the first one after a frame that is sent without reference to others: the flags are left alone. -/
theorem C265_intra (m : Oam.Libm) (cfg : Oam.Cfg) (n sub : Nat) (s s' : Oam.State) (l l' : List Bool)
    (e : run (Oam.lowDelay m cfg n sub s) (true :: l) = .ok (s', l')) : s'.hasMd = s.hasMd := by
  unfold Oam.lowDelay at e
  rw [run_bind, show run flag (true :: l) = .ok (true, l) from rfl] at e
  simp only [Res.ok_bind, if_true] at e
  have h : Meets False (do
      let s ← (do
        let (c, fx) ← Oam.intra cfg (sub * n) n s.coded s.fixed
        pure { s with coded := c, fixed := fx })
      let d ← Oam.descale m cfg (sub * n) (sub * n + n) s.coded s.desc
      let d ← Oam.limitRange cfg n d
      let sample ← Oam.advance cfg.frameLength n s.sample
      pure { s with desc := d, sample := sample } : Prog Oam.State) (fun t => t.hasMd = s.hasMd) := by
    refine Meets.bind (R := fun t => t.hasMd = s.hasMd) (Meets.bind (meets_any _) fun c _ => Meets.pure rfl) fun t ht => ?_
    refine Meets.bind (meets_any _) fun _ _ => Meets.bind (meets_any _) fun _ _ => Meets.bind (meets_any _) fun _ _ => ?_
    exact Meets.pure ht
  exact (h l).2 s' l' e

example : ∃ r, Oam.frames Oam.noPow ⟨true, false, 1024⟩ 1 raised (Oam.init, [0, 0, 0, 0]) = .ok r ∧
    r.1.hasMd[0]? = some 1 := by
  have : (Oam.frames Oam.noPow ⟨true, false, 1024⟩ 1 raised (Oam.init, [0, 0, 0, 0])).map (fun r => r.1.hasMd[0]?) =
      .ok (some 1) := by decide +kernel
  cases h : Oam.frames Oam.noPow ⟨true, false, 1024⟩ 1 raised (Oam.init, [0, 0, 0, 0]) with
  | ok r => rw [h] at this; exact ⟨r, rfl, Res.ok.inj this⟩
  | _ => rw [h] at this; cases this

/-! ### Groups -/

/-- The signal group of object `k`, counting the signals of the groups of objects. -/
def groupOf : List (Nat × Nat) → Nat → Nat → Option Nat
  | [], _, _ => none
  | (t, n) :: gs, g, k =>
    if t = 1 then if k < n then some g else groupOf gs (g + 1) (k - n)
    else groupOf gs (g + 1) k

/-- **C266** (refuted) An object in a group of priority 7 behind a group of channels of priority 2 is sent
with priority 2. -/
theorem C266_refuted : ∃ (o : Objects) (sg : Signals), ObjectsOk o sg ∧ o.n = 1 ∧
    groupOf ((sg.type.zip sg.numSig).take sg.numGroups) 0 0 = some 1 ∧ sg.prio[1]? = some 7 ∧
    (objectOf o sg (signalsBefore sg) 1 0).prio = 2 :=
  ⟨caseOf 1 ⟨true, false, 1024⟩ Oam.init plainEnh, groupsCase 1,
   caseOf_ok _ _ _ _ (by omega) (by simp) init_held plain_ok, rfl, by decide, by decide, by decide⟩

theorem groupOf_single (gs : List (Nat × Nat)) (g k : Nat) (hk : k < gs.length)
    (h : ∀ i, i ≤ k → gs[i]? = some (1, 1)) : groupOf gs g k = some (g + k) := by
  induction gs generalizing g k with
  | nil => simp at hk
  | cons x gs ih =>
    have h0 := h 0 (Nat.zero_le _)
    simp only [List.getElem?_cons_zero, Option.some.injEq] at h0
    subst h0
    unfold groupOf
    rw [if_pos rfl]
    by_cases e : k = 0
    · subst e; simp
    · rw [if_neg (by omega), ih (g + 1) (k - 1) (by simp at hk; omega) (fun i hi => by
        have := h (i + 1) (by omega)
        simpa using this)]
      congr 1; omega

/-- **C266** (partial) When the stream begins with a group of one object for every object, fixed position
and priority are those of the group of the object. -/
theorem C266_groups_partial (o : Objects) (sg : Signals) (k : Nat) (hl : k < 32) (h1 : sg.fixed.length = 32)
    (h2 : sg.prio.length = 32) (hk : k < ((sg.type.zip sg.numSig).take sg.numGroups).length)
    (h : ∀ i, i ≤ k → ((sg.type.zip sg.numSig).take sg.numGroups)[i]? = some (1, 1)) :
    ∃ g, groupOf ((sg.type.zip sg.numSig).take sg.numGroups) 0 k = some g ∧
      sg.prio[g]? = some (objectOf o sg (signalsBefore sg) 1 k).prio ∧
      sg.fixed[g]? = some (objectOf o sg (signalsBefore sg) 1 k).fixed := by
  refine ⟨k, by rw [groupOf_single _ _ _ hk h, Nat.zero_add], ?_, ?_⟩
  · unfold objectOf
    simp only [List.getD_eq_getElem?_getD]
    rw [List.getElem?_eq_getElem (by omega)]; rfl
  · unfold objectOf
    simp only [List.getD_eq_getElem?_getD]
    rw [List.getElem?_eq_getElem (by omega)]; rfl

example : groupOf [(1, 1), (1, 1), (0, 6)] 0 1 = some 1 := by decide

end Verif.ExtRend
