import Verif.Props.DrcSel

/-! # Bounds of the DRC set selection

Up to sixteen entries of loudness information, measurement systems of the table and at most thirteen sets keep
the selection inside its tables. -/

namespace Verif.DrcSel

open DrcConfig Res
open DrcLoud hiding errUnexpected

theorem sound_of_gives {α : Type} {Q R : α → Prop} {r : Res α} (h : Sound r Q) (g : Gives r R) : Sound r (fun a => Q a ∧ R a) :=
  ⟨h.1, fun a ha => ⟨h.2 a ha, g a ha⟩⟩

theorem sound_put {α : Type} {Q : List α → Prop} {cap n : Nat} {xs : List α} {x : α} (hc : n < xs.length ∨ n < cap)
    (h : ∀ ys, xs.length ≤ ys.length → (ys.length ≤ xs.length ∨ ys.length ≤ cap) → Q ys) (hx : xs.length ≤ cap) : Sound (put cap xs n x) Q := by
  unfold put
  refine Sound.ite (fun _ => Sound.ok (h _ (by simp) (by simp))) fun hn => ?_
  by_cases e : xs.length = cap
  · rw [if_neg (by omega)]
    omega
  · exact Sound.ite (fun _ => Sound.ok (h _ (by simp) (by simp; omega))) fun h' => by omega

/-! ## Loudness information -/

theorem sound_match {α : Type} {v : Int} {x : α} {cap : Nat} : ∀ (gs : List Int) (xs : List α), gs.Nodup → xs.length < cap →
    Sound (each (fun g xs => if v = g then push cap xs x else .ok xs) gs xs) (fun ys => xs.length ≤ ys.length ∧ ys.length ≤ xs.length + 1 ∧
      ∀ y ∈ ys, y ∈ xs ∨ y = x)
  | [], xs, _, _ => Sound.ok ⟨by omega, by omega, fun y hy => Or.inl hy⟩
  | g :: gs, xs, hn, hc => by
    have hn' := List.nodup_cons.mp hn
    unfold each
    by_cases hv : v = g
    · rw [if_pos hv]
      refine Sound.bind (sound_push (Q := fun ys => ys = xs ++ [x]) hc rfl) fun ys hys => ?_
      subst hys
      refine (sound_each (I := fun ys => ys = xs ++ [x]) (fun e he ys hys => ?_) rfl).mono fun ys hys => ?_
      · rw [if_neg (fun h => hn'.1 (by rw [← hv, h]; exact he))]
        exact Sound.ok hys
      · subst hys
        exact ⟨by simp, by simp, fun y hy => by simpa using hy⟩
    · rw [if_neg hv]
      refine Sound.bind (Sound.ok (Q := fun ys => ys = xs) rfl) fun ys hys => ?_
      subst hys
      exact sound_match gs ys hn'.2 hc

theorem collect_sound {infos : List Info} {dmx set : Int} (h : infos.length ≤ 16) :
    Sound (collect infos dmx set) (fun ls => ls.length ≤ 16 ∧ ∀ l ∈ ls, l ∈ infos) := by
  unfold collect
  refine (sound_eachN (I := fun k (ls : List Info) => ls.length ≤ k ∧ ∀ l ∈ ls, l ∈ infos) (n := 0) (fun l hl k ls _ hk hs => ?_)
    ⟨by simp, by simp⟩).mono fun ls hls => ⟨by omega, hls.2⟩
  refine Sound.ite (fun _ => sound_push (by unfold matchMax; omega) ⟨by simp; omega, snoc_all hs.2 hl⟩) fun _ => Sound.ok ⟨by omega, hs.2⟩

/-- The places are inside the array, and there are not more than `k`. -/
structure Placed (n k : Nat) (t : Sorted) : Prop where
  plain : (∀ i ∈ t.plain, i < n) ∧ t.plain.length ≤ k
  group : (∀ i ∈ t.group, i < n) ∧ t.group.length ≤ k
  preset : (∀ i ∈ t.preset, i.1 < n) ∧ t.preset.length ≤ k

theorem sort_sound {p : Request} {arr : List Info} (hg : p.groups.Nodup) (hp : p.presets.length ≤ 1) (h : arr.length ≤ 16) :
    Sound (each (sortStep p) arr (0, ⟨[], [], []⟩)) (fun r => Placed arr.length arr.length r.2) := by
  refine (sound_eachN (I := fun k (s : Nat × Sorted) => s.1 = k ∧ Placed arr.length k s.2) (n := 0) (fun l _ k s _ hk hs => ?_)
    ⟨rfl, ⟨by simp, by simp⟩, ⟨by simp, by simp⟩, ⟨by simp, by simp⟩⟩).mono fun s hs => ?_
  · obtain ⟨rfl, h1, h2, h3⟩ := hs
    have keep : ∀ {α : Type} {P : α → Prop} {xs : List α}, ((∀ i ∈ xs, P i) ∧ xs.length ≤ s.1) → (∀ i ∈ xs, P i) ∧ xs.length ≤ s.1 + 1 :=
      fun h => ⟨h.1, by omega⟩
    unfold sortStep
    refine Sound.ite (fun _ => ?_) fun _ => Sound.ite (fun _ => ?_) fun _ => Sound.ite (fun _ => ?_) fun _ => ?_
    · refine Sound.bind (sound_push (Q := fun xs => xs = s.2.plain ++ [s.1]) (by unfold infoMax; omega) rfl) fun xs hxs => Sound.ok ?_
      subst hxs
      exact ⟨rfl, ⟨snoc_all h1.1 (by omega), by simp; omega⟩, keep h2, keep h3⟩
    · refine Sound.bind (sound_match p.groups.reverse s.2.group (List.pairwise_reverse.mpr (List.Pairwise.imp Ne.symm hg)) (by unfold infoMax; omega)) fun xs hxs => Sound.ok ?_
      refine ⟨rfl, keep h1, ⟨fun i hi => ?_, by dsimp only; omega⟩, keep h3⟩
      rcases hxs.2.2 i hi with h | rfl
      · exact h2.1 i h
      · omega
    · refine Sound.bind (Q := fun xs => (∀ i ∈ xs, i.1 < arr.length) ∧ xs.length ≤ s.1 + 1) ?_ fun xs hxs => Sound.ok
        ⟨rfl, keep h1, keep h2, hxs⟩
      match hpp : p.presets, hp with
      | [], _ => exact Sound.ok (keep h3)
      | [g], _ =>
        refine Sound.bind (Q := fun xs => (∀ i ∈ xs, i.1 < arr.length) ∧ xs.length ≤ s.1 + 1) ?_ fun xs hxs => Sound.ok hxs
        refine Sound.ite (fun _ => sound_push (by unfold infoMax; omega) ⟨snoc_all h3.1 (by dsimp only; omega), by simp; omega⟩) fun _ => Sound.ok (keep h3)
    · exact Sound.ok ⟨rfl, keep h1, keep h2, keep h3⟩
  · rw [Nat.zero_add] at hs
    exact hs.2

/-- What holds of the array and the number of entries copied. -/
def Copied (n k : Nat) (s : List Info × Nat) : Prop := n ≤ s.1.length ∧ s.1.length ≤ 16 ∧ s.2 ≤ k

theorem copyIf_sound {keep : Info → Bool} {n : Nat} {is : List Nat} (hi : ∀ i ∈ is, i < n) (hl : is.length ≤ n) {arr : List Info}
    (ha : n ≤ arr.length) (hb : arr.length ≤ 16) : Sound (each (copyIf keep) is (arr, 0)) (fun s => n ≤ s.1.length ∧ s.1.length ≤ 16) := by
  refine (sound_eachN (I := Copied n) (n := 0) (fun i hm k s _ hk hs => ?_) ⟨ha, hb, Nat.le_refl _⟩).mono fun s hs => ⟨hs.1, hs.2.1⟩
  obtain ⟨h1, h2, h3⟩ := hs
  unfold copyIf
  refine Sound.bind (sound_at (by have := hi i hm; omega)) fun l _ => ?_
  refine Sound.ite (fun _ => ?_) fun _ => Sound.ok ⟨h1, h2, by omega⟩
  refine Sound.bind (sound_put (Q := fun ys => n ≤ ys.length ∧ ys.length ≤ 16) (Or.inl (by omega)) (fun ys hy1 hy2 => ⟨by omega, ?_⟩) h2) fun ys hys =>
    Sound.ok ⟨hys.1, hys.2, by dsimp only; omega⟩
  unfold matchMax at hy2
  omega

theorem choosePreset_sound {p : Request} {req : Int} {t3 : List (Nat × Int)} {arr : List Info} (hi : ∀ i ∈ t3, i.1 < arr.length)
    (hl : t3.length ≤ arr.length) (hb : arr.length ≤ 16) :
    Sound (choosePreset p req t3 arr) (fun s => arr.length ≤ s.1.length ∧ s.1.length ≤ 16) := by
  have hi' : ∀ i ∈ t3.map Prod.fst, i < arr.length := by
    intro i hm
    obtain ⟨x, hx, rfl⟩ := List.mem_map.mp hm
    exact hi x hx
  unfold choosePreset
  refine Sound.bind (Q := fun s => arr.length ≤ s.1.length ∧ s.1.length ≤ 16) ?_ fun s hs => ?_
  · exact Sound.ite (fun _ => copyIf_sound hi' (by simpa using hl) (Nat.le_refl _) hb) fun _ => Sound.ok ⟨Nat.le_refl _, hb⟩
  refine Sound.bind (Q := fun s => arr.length ≤ s.1.length ∧ s.1.length ≤ 16) ?_ fun s hs => ?_
  · exact Sound.ite (fun _ => copyIf_sound hi' (by simpa using hl) hs.1 hs.2) fun _ => Sound.ok hs
  refine Sound.ite (fun _ => ?_) fun _ => Sound.ok hs
  refine Sound.bind (sound_eachN (I := fun k (s : (List Info × Nat) × Int × Int) => Copied arr.length k s.1) (n := 0)
    (fun i hm k s _ hk hs => ?_) ⟨hs.1, hs.2, Nat.le_refl _⟩) fun r hr => Sound.ok ⟨hr.1, hr.2.1⟩
  obtain ⟨h1, h2, h3⟩ := hs
  unfold copyMost
  refine Sound.ite (fun _ => ?_) fun _ => Sound.ok ⟨h1, h2, by omega⟩
  have hn : (if s.2.1 < i.2 then 0 else s.1.2) ≤ k := by split <;> omega
  refine Sound.bind (sound_at (by have := hi i hm; omega)) fun l _ => ?_
  refine Sound.ite (fun _ => ?_) fun _ => Sound.ok ⟨h1, h2, by dsimp only; omega⟩
  have hn' : (if s.2.2 < l.preset then 0 else if s.2.1 < i.2 then 0 else s.1.2) ≤ k := by split <;> omega
  refine Sound.bind (sound_put (Q := fun ys => arr.length ≤ ys.length ∧ ys.length ≤ 16) (Or.inl (by omega)) (fun ys hy1 hy2 => ⟨by omega, ?_⟩) h2) fun ys hys =>
    Sound.ok ⟨hys.1, hys.2, by dsimp only; omega⟩
  unfold matchMax at hy2
  omega

theorem chooseGroup_sound {req : Int} {t2 : List Nat} {n : Nat} {arr : List Info} (hi : ∀ i ∈ t2, i < n)
    (hl : t2.length ≤ n) (ha : n ≤ arr.length) (hb : arr.length ≤ 16) :
    Sound (chooseGroup req t2 arr) (fun s => n ≤ s.1.length ∧ s.1.length ≤ 16) := by
  unfold chooseGroup
  refine Sound.bind (Q := fun s => n ≤ s.1.length ∧ s.1.length ≤ 16) ?_ fun s hs => ?_
  · exact Sound.ite (fun _ => copyIf_sound hi hl ha hb) fun _ => Sound.ok ⟨ha, hb⟩
  refine Sound.ite (fun _ => ?_) fun _ => Sound.ok hs
  refine Sound.bind (sound_eachN (I := fun k (s : (List Info × Nat) × Int) => Copied n k s.1) (n := 0)
    (fun i hm k s _ hk hs => ?_) ⟨hs.1, hs.2, Nat.le_refl _⟩) fun r hr => Sound.ok ⟨hr.1, hr.2.1⟩
  obtain ⟨h1, h2, h3⟩ := hs
  unfold copyLargest
  refine Sound.bind (sound_at (by have := hi i hm; omega)) fun l _ => ?_
  refine Sound.ite (fun _ => ?_) fun _ => Sound.ok ⟨h1, h2, by omega⟩
  have hn : (if s.2 < l.group then 0 else s.1.2) ≤ k := by split <;> omega
  refine Sound.bind (sound_put (Q := fun ys => n ≤ ys.length ∧ ys.length ≤ 16) (Or.inl (by omega)) (fun ys hy1 hy2 => ⟨by omega, ?_⟩) h2) fun ys hys =>
    Sound.ok ⟨hys.1, hys.2, by dsimp only; omega⟩
  unfold matchMax at hy2
  omega

theorem checkInfo_sound {p : Request} {infos : List Info} {o : Instr} {dmx set : Int} (hg : p.groups.Nodup) (hp : p.presets.length ≤ 1)
    (h : infos.length ≤ 16) : Sound (checkInfo p infos o dmx set) (fun _ => True) := by
  unfold checkInfo
  refine Sound.bind (collect_sound h) fun arr ⟨harr, _⟩ => ?_
  refine Sound.bind (sort_sound hg hp harr) fun t ht => ?_
  refine Sound.bind (Q := fun s => arr.length ≤ s.1.length ∧ s.1.length ≤ 16 ∧ (t.2.preset.isEmpty = true → s.2 = 0)) ?_ fun s hs => ?_
  · refine Sound.ite (fun _ => Sound.ok ⟨Nat.le_refl _, harr, fun _ => rfl⟩) fun h => ?_
    exact (choosePreset_sound ht.preset.1 ht.preset.2 harr).mono fun s hs => ⟨hs.1, hs.2, fun e => absurd e h⟩
  refine Sound.bind (Q := fun s => arr.length ≤ s.1.length ∧ s.1.length ≤ 16) ?_ fun s hs => ?_
  · exact Sound.ite (fun _ => chooseGroup_sound ht.group.1 ht.group.2 hs.1 hs.2.1) fun _ => Sound.ok ⟨hs.1, hs.2.1⟩
  refine Sound.bind (Q := fun _ => True) ?_ fun s _ => Sound.ok trivial
  refine Sound.ite (fun h0 => ?_) fun _ => Sound.ok trivial
  have : s = (s.1, 0) := Prod.ext rfl h0
  rw [this]
  exact (copyIf_sound ht.plain.1 ht.plain.2 hs.1 hs.2).mono fun _ _ => trivial

theorem firstOf_sound {P : List Info → Prop} {f : Int × Int → Res (List Info)} (h0 : P []) (h : ∀ a, Sound (f a) P) : ∀ as, Sound (firstOf f as) P
  | [] => Sound.ok h0
  | a :: as => by
    unfold firstOf
    exact Sound.bind (h a) fun xs hxs => Sound.ite (fun _ => firstOf_sound h0 h as) fun _ => Sound.ok hxs

/-- The measurement systems are those of the table. -/
def Systems (infos : List Info) : Prop := ∀ l ∈ infos, ∀ m ∈ l.measures.take l.count, m.system < 12

theorem loudnessOf_sound {l : Info} {v : Rat} (h : ∀ m ∈ l.measures.take l.count, m.system < 12) : Sound (loudnessOf l v) (fun _ => True) := by
  have step : ∀ meth m (s : Int × Rat), m ∈ l.measures.take l.count → Sound (bestStep meth m s) (fun _ => True) := by
    intro meth m s hm
    unfold bestStep
    refine Sound.ite (fun _ => ?_) fun _ => Sound.ok trivial
    refine Sound.bind (sound_at (show m.system < bonus.length from h m hm)) fun b _ => ?_
    exact Sound.ite (fun _ => Sound.ok trivial) fun _ => Sound.ok trivial
  unfold loudnessOf
  refine Sound.bind (sound_each (I := fun _ => True) (fun m hm s _ => step 1 m s hm) trivial) fun s _ => ?_
  refine Sound.bind (Q := fun _ => True) ?_ fun s _ => Sound.ok trivial
  exact Sound.ite (fun _ => sound_each (I := fun _ => True) (fun m hm s _ => step 2 m s hm) trivial) fun _ => Sound.ok trivial

theorem gainsOf_sound {target : Rat} : ∀ (ls : List Info) (v : Rat), (∀ l ∈ ls, ∀ m ∈ l.measures.take l.count, m.system < 12) →
    Sound (gainsOf target ls v) (fun _ => True)
  | [], _, _ => Sound.ok trivial
  | l :: ls, v, h => by
    unfold gainsOf
    refine Sound.bind (loudnessOf_sound (h l (by simp))) fun v _ => ?_
    exact Sound.bind (gainsOf_sound ls v fun l' hl' => h l' (by simp [hl'])) fun _ _ => Sound.ok trivial

theorem control_sound {p : Request} {infos : List Info} {o : Instr} (hg : p.groups.Nodup) (hp : p.presets.length ≤ 1)
    (h : infos.length ≤ 16) (hs : Systems infos) : Sound (loudnessControl p infos o) (fun _ => True) := by
  unfold loudnessControl
  refine Sound.ite (fun _ => ?_) fun _ => Sound.ok trivial
  unfold findInfo
  refine Sound.bind (firstOf_sound (P := fun ls => ∀ l ∈ ls, l ∈ infos) (by simp) (fun a => ?_) _) fun ls hls => ?_
  · exact (sound_of_gives (checkInfo_sound hg hp h) (checkInfo_mem p infos _ a.1 a.2)).mono fun ls hls l hl => (hls.2 l hl).1
  · exact Sound.bind (gainsOf_sound ls 0 fun l hl => hs l (hls l hl)) fun _ _ => Sound.ok trivial

/-! ## Peak levels -/

/-- Before a loop has run `k` times. -/
def Filled (k : Nat) (s : Peaks) : Prop := s.slots.length = 16 ∧ (s.found = false → s.cnt = 0) ∧ s.cnt ≤ k

/-- The first entry is not bound to an equaliser. -/
def Free (s : Peaks) : Prop := ∀ pk, s.slots[0]? = some pk → pk.eq = 0

theorem note_sound {o : Instr} {l : Info} {level : Rat} {explicit : Int} {k : Nat} {s : Peaks} (hk : k < 16) (hs : Filled k s) (hf : Free s) :
    Sound (notePeak o l level explicit s) (fun t => Filled (k + 1) t ∧ Free t ∧ (t.found = false → Filled k t)) := by
  obtain ⟨h1, h2, h3⟩ := hs
  have free : ∀ c b, Free ⟨s.slots.set s.cnt ⟨0, level, explicit⟩, c, b⟩ := by
    intro c b pk hpk
    dsimp only at hpk
    rw [List.getElem?_set] at hpk
    split at hpk
    · split at hpk
      · cases hpk; rfl
      · cases hpk
    · exact hf pk hpk
  unfold notePeak
  rw [if_pos (by omega)]
  refine Sound.bind (Sound.ok (Q := fun x => x = _) rfl) fun x hx => ?_
  subst hx
  refine Sound.ite (fun _ => Sound.ok ?_) fun _ => Sound.ok ?_
  · exact ⟨⟨by simpa using h1, by simp, by dsimp only; omega⟩, free _ _, by simp⟩
  · exact ⟨⟨by simpa using h1, h2, by dsimp only; omega⟩, free _ _, fun hfound => ⟨by simpa using h1, h2, h3⟩⟩

theorem info_sound {o : Instr} {which : Info → Bool} {explicit : Int} {infos : List Info} (h : infos.length ≤ 16) {s : Peaks}
    (hs : Filled 0 s) (hf : Free s) : Sound (each (infoPeak o which explicit) infos s) (fun t => Filled 16 t ∧ Free t) := by
  refine (sound_eachN (I := fun k t => Filled k t ∧ Free t) (n := 0) (fun l _ k s _ hk ⟨hs, hf⟩ => ?_) ⟨hs, hf⟩).mono fun t ht =>
    ⟨⟨ht.1.1, ht.1.2.1, by have := ht.1.2.2; omega⟩, ht.2⟩
  have up : ∀ {t}, Filled k t → Filled (k + 1) t := fun h => ⟨h.1, h.2.1, by have := h.2.2; omega⟩
  unfold infoPeak
  refine Sound.ite (fun _ => ?_) fun _ => Sound.ok ⟨up hs, hf⟩
  refine Sound.bind (Q := fun t => Filled (k + 1) t ∧ Free t ∧ (t.found = false → Filled k t)) ?_ fun t ⟨h1, h2, h3⟩ => ?_
  · exact Sound.ite (fun _ => note_sound (by omega) hs hf) fun _ => Sound.ok ⟨up hs, hf, fun _ => hs⟩
  · refine Sound.ite (fun hc => ?_) fun _ => Sound.ok ⟨h1, h2⟩
    simp only [Bool.and_eq_true, Bool.not_eq_true'] at hc
    exact (note_sound (by omega) (h3 hc.1) h2).mono fun u hu => ⟨hu.1, hu.2.1⟩

theorem limit_sound {eq : Int} {level : Rat} {explicit : Int} {k : Nat} {s : Peaks} (hk : k < 16) (hs : Filled k s) :
    Sound (limitPeak eq level explicit s) (fun t => Filled (k + 1) t ∧ (eq = 0 → Free s → Free t)) := by
  obtain ⟨h1, h2, h3⟩ := hs
  unfold limitPeak
  rw [if_pos (by omega)]
  refine Sound.ok ⟨⟨by simpa using h1, by simp, by dsimp only; omega⟩, fun he hf pk hpk => ?_⟩
  dsimp only at hpk
  rw [List.getElem?_set] at hpk
  split at hpk
  · split at hpk
    · cases hpk; exact he
    · cases hpk
  · exact hf pk hpk

theorem unless_sound {f : Peaks → Res Peaks} {s : Peaks} (hs : Filled 16 s) (hf : Free s)
    (h : ∀ s, Filled 0 s → Free s → Sound (f s) (fun t => Filled 16 t ∧ Free t)) : Sound (unlessFound f s) (fun t => Filled 16 t ∧ Free t) := by
  unfold unlessFound
  refine Sound.ite (fun _ => Sound.ok ⟨hs, hf⟩) fun hn => h s ⟨hs.1, hs.2.1, ?_⟩ hf
  rw [hs.2.1 (by simpa using hn)]

theorem peakLevels_sound {instrs : List Instr} {infos : List Info} {o : Instr} {dmx : Int} {slots : List Peak} (hi : infos.length ≤ 16)
    (hn : instrs.length ≤ 15) (hd : o.dmxIds.length ≤ 15) (hs : slots.length = 16) :
    Sound (peakLevels instrs infos o dmx slots) (fun r => r.2.length = 16 ∧ r.1 ≤ 16 ∧ peakPlace r.1 r.2 < 16) := by
  have start : Filled 0 ⟨slots.set 0 ⟨0, 0, 0⟩, 0, false⟩ ∧ Free ⟨slots.set 0 ⟨0, 0, 0⟩, 0, false⟩ := by
    refine ⟨⟨by simpa using hs, fun _ => rfl, Nat.le_refl _⟩, fun pk hpk => ?_⟩
    dsimp only at hpk
    rw [List.getElem?_set_self (by omega)] at hpk
    cases hpk; rfl
  have hids : (o.dmxIds.take o.dmxCount).length ≤ 15 := by rw [List.length_take]; omega
  have lim : ∀ (ds : List Int) (P : Int → Bool) (s : Peaks), ds.length ≤ 15 → Filled 0 s → Free s →
      Sound (each (fun d s => if P d = true then limitPeak 0 o.peak 1 s else .ok s) ds s) (fun t => Filled 16 t ∧ Free t) := by
    intro ds P s hl hs hf
    refine (sound_eachN (I := fun k t => Filled k t ∧ Free t) (n := 0) (fun d _ k s _ hk hs => ?_) ⟨hs, hf⟩).mono fun t ht =>
      ⟨⟨ht.1.1, ht.1.2.1, by have := ht.1.2.2; omega⟩, ht.2⟩
    refine Sound.ite (fun _ => ?_) fun _ => Sound.ok ⟨⟨hs.1.1, hs.1.2.1, by have := hs.1.2.2; omega⟩, hs.2⟩
    exact (limit_sound (by omega) hs.1).mono fun t ht => ⟨ht.1, ht.2 rfl hs.2⟩
  unfold peakLevels
  refine Sound.bind (info_sound hi start.1 start.2) fun s hs => ?_
  refine Sound.bind (unless_sound hs.1 hs.2 fun s h1 h2 => info_sound hi h1 h2) fun s hs => ?_
  refine Sound.bind (unless_sound hs.1 hs.2 fun s h1 h2 => lim _ (fun _ => _) s hids h1 h2) fun s hs => ?_
  refine Sound.bind (unless_sound hs.1 hs.2 fun s h1 h2 => lim _ (fun d => dmx == d && o.peakPresent != 0) s (by simp; omega) h1 h2) fun s hs => ?_
  refine Sound.bind (Q := fun t => Filled 16 t ∧ (Free t ∨ t.cnt ≤ 15)) ?_ fun s hs => Sound.ok ?_
  · refine Sound.ite (fun _ => Sound.ok ⟨hs.1, Or.inl hs.2⟩) fun _ => ?_
    refine Sound.bind (unless_sound hs.1 hs.2 fun s h1 h2 => info_sound hi h1 h2) fun s hs => ?_
    refine Sound.bind (unless_sound hs.1 hs.2 fun s h1 h2 => info_sound hi h1 h2) fun s hs => ?_
    unfold unlessFound
    refine Sound.ite (fun _ => Sound.ok ⟨hs.1, Or.inl hs.2⟩) fun hnf => ?_
    have h0 : Filled 0 s := ⟨hs.1.1, hs.1.2.1, by rw [hs.1.2.1 (by simpa using hnf)]⟩
    refine (sound_eachN (I := fun k t => Filled k t) (n := 0) (fun d _ k s _ hk hs => ?_) h0).mono fun t ht =>
      ⟨⟨ht.1, ht.2.1, by have := ht.2.2; omega⟩, Or.inr (by have := ht.2.2; omega)⟩
    refine Sound.ite (fun _ => ?_) fun _ => Sound.ok ⟨hs.1, hs.2.1, by have := hs.2.2; omega⟩
    exact (limit_sound (by omega) hs).mono fun t ht => ht.1
  · obtain ⟨⟨h1, h2, h3⟩, h4⟩ := hs
    dsimp only
    have hle : (if s.cnt = 0 then 1 else s.cnt) ≤ 16 := by split <;> omega
    refine ⟨h1, hle, ?_⟩
    unfold peakPlace
    have hl : (s.slots.take (if s.cnt = 0 then 1 else s.cnt)).length = (if s.cnt = 0 then 1 else s.cnt) := by
      rw [List.length_take]; omega
    rcases h4 with hf | hc
    · have hz : (s.slots.take (if s.cnt = 0 then 1 else s.cnt)).findIdx (·.eq == 0) = 0 := by
        cases hcase : s.slots with
        | nil => rw [hcase] at h1; simp at h1
        | cons a as =>
          have ha : a.eq = 0 := hf a (by rw [hcase]; rfl)
          have : (if s.cnt = 0 then 1 else s.cnt) ≠ 0 := by split <;> omega
          obtain ⟨m, hm⟩ := Nat.exists_eq_succ_of_ne_zero this
          rw [hm, List.take_succ_cons, List.findIdx_cons]
          simp [ha]
      omega
    · have := List.findIdx_le_length (p := fun pk : Peak => pk.eq == 0) (xs := s.slots.take (if s.cnt = 0 then 1 else s.cnt))
      rw [hl] at this
      have : (if s.cnt = 0 then 1 else s.cnt) ≤ 15 := by split <;> omega
      omega

/-! ## Pre-selection -/

/-- What keeps the selection inside its tables. -/
structure Tame (p : Request) (c : Config) (infos : List Info) (slots : List Peak) : Prop where
  entries : infos.length ≤ 16
  systems : Systems infos
  arrays : slots.length = 16
  groups : p.groups.Nodup
  presets : p.presets.length ≤ 1
  plus : 0 < c.plus ∧ c.plus ≤ 15 ∧ c.plus ≤ c.instrs.length ∧ c.instrCount ≤ c.plus
  ids : ∀ o ∈ c.instrs, o.dmxIds.length ≤ 15
  sets : ∀ cf, lastAt (c.coeffs.take c.coeffCount) 1 = some cf → ∀ o ∈ c.instrs, ∀ t ∈ c.instrs, ∀ j < o.groups,
    ∃ g : Nat, t.groupSet[j]? = some (g : Int) ∧ g < cf.sets.length

/-- What holds in the loop of the pre-selection. -/
structure Tidy (c : Config) (s : Pre) : Prop where
  kept : Kept c s.instrs
  slots : s.slots.length = 16
  count : s.cands.length ≤ 32
  instr : ∀ x ∈ s.cands, x.instr < c.instrs.length

theorem fewBands_sound {sets : List GainSet} {n : Nat} {gs : List Int} (h : ∀ j < n, ∃ g : Nat, gs[j]? = some (g : Int) ∧ g < sets.length) :
    Sound (fewBands sets n gs) (fun _ => True) := by
  unfold fewBands
  refine sound_each (fun j hj b _ => ?_) trivial
  obtain ⟨g, hg, hlt⟩ := h j (List.mem_range.mp hj)
  refine Sound.bind (sound_at (List.getElem?_eq_some_iff.mp hg).1) fun g' hg' => ?_
  rw [hg] at hg'
  cases hg'
  rw [if_neg (by omega)]
  exact Sound.bind (sound_at (by simpa using hlt)) fun _ _ => Sound.ok trivial

theorem permitted_sound {p : Request} {c : Config} {infos : List Info} {slots : List Peak} (ht : Tame p c infos slots) {is : List Instr}
    (hk : Kept c is) {o : Instr} (ho : o ∈ is) : Sound (permitted c (lastAt (c.coeffs.take c.coeffCount) 1) is o) (fun _ => True) := by
  have same : ∀ t ∈ is, ∃ u ∈ c.instrs, t.groups = u.groups ∧ t.groupSet = u.groupSet := by
    intro t ht
    obtain ⟨i, hi⟩ := List.mem_iff_getElem?.mp ht
    obtain ⟨u, hu, h⟩ := hk.2 i t hi
    refine ⟨u, List.mem_of_getElem? hu, ?_⟩
    rcases h with rfl | ⟨_, rfl⟩ <;> exact ⟨rfl, rfl⟩
  obtain ⟨u, hu, hug, hus⟩ := same o ho
  unfold permitted
  refine Sound.bind (Q := fun _ => True) ?_ fun a _ => Sound.bind (Q := fun _ => True) ?_ fun b _ => Sound.ok trivial
  · refine Sound.ite (fun _ => ?_) fun _ => Sound.ok trivial
    cases hf : (is.take c.instrCount).find? (fun t => (o.dependsOn : Int) == t.setId) with
    | none => exact Sound.err
    | some t =>
      cases hcf : lastAt (c.coeffs.take c.coeffCount) 1 with
      | none => exact Sound.ok trivial
      | some cf =>
        obtain ⟨v, hv, _, hvs⟩ := same t (List.mem_of_mem_take (List.mem_of_find?_eq_some hf))
        refine fewBands_sound ?_
        rw [hug, hvs]
        exact ht.sets cf hcf u hu v hv
  · cases hcf : lastAt (c.coeffs.take c.coeffCount) 1 with
    | none => exact Sound.ok trivial
    | some cf =>
      refine fewBands_sound ?_
      rw [hug, hus]
      exact ht.sets cf hcf u hu u hu

theorem preStep_sound {p : Request} {c : Config} {infos : List Info} {slots : List Peak} (ht : Tame p c infos slots) {i : Nat}
    (hi : i < c.plus) {s : Pre} (hs : Tidy c s) : Sound (preStep p c infos i s) (Tidy c) := by
  have hlen := hs.kept.1
  have hplus := ht.plus
  unfold preStep
  refine Sound.bind (sound_at (by omega)) fun o ho => ?_
  have hmem := List.mem_of_getElem? ho
  have tail : ∀ (r : Instr × List (Rat × Rat)) (n : Nat) (sl : List Peak) (step : Rat × Rat → List Cand × Rat → Res (List Cand × Rat)),
      (r.1 = o ∨ (o.setId < 0 ∧ r.1 = { o with setId := 0 })) → sl.length = 16 →
      (∀ g (t : List Cand × Rat), (t.1.length ≤ 32 ∧ ∀ x ∈ t.1, x.instr < c.instrs.length) →
        Sound (step g t) (fun t => t.1.length ≤ 32 ∧ ∀ x ∈ t.1, x.instr < c.instrs.length)) →
      Sound (do let (cands, gain) ← each step r.2 (s.cands, s.gain); .ok ⟨s.instrs.set i r.1, sl, cands, gain⟩) (Tidy c) := by
    intro r n sl step hr hsl hstep
    refine Sound.bind (sound_each (I := fun t : List Cand × Rat => t.1.length ≤ 32 ∧ ∀ x ∈ t.1, x.instr < c.instrs.length)
      (fun g _ t htt => hstep g t htt) ⟨hs.count, hs.instr⟩) fun t htt => Sound.ok ?_
    exact ⟨hs.kept.set ho hr, hsl, htt.1, htt.2⟩
  have peaks : ∀ (r : Instr × List (Rat × Rat)), (r.1 = o ∨ (o.setId < 0 ∧ r.1 = { o with setId := 0 })) →
      Sound (peakLevels ((s.instrs.set i r.1).take c.plus) infos r.1 p.dmx s.slots) (fun r => r.2.length = 16 ∧ r.1 ≤ 16 ∧ peakPlace r.1 r.2 < 16) := by
    intro r hr
    refine peakLevels_sound ht.entries (by rw [List.length_take]; omega) ?_ hs.slots
    have : r.1.dmxIds = o.dmxIds := by rcases hr with h | ⟨_, h⟩ <;> rw [h]
    rw [this]
    exact hs.kept.all (P := fun t => t.dmxIds.length ≤ 15) ht.ids (fun _ h => h) o hmem
  refine Sound.ite (fun _ => Sound.ok hs) fun _ => ?_
  refine Sound.ite (fun _ => ?_) fun _ => ?_
  · refine Sound.ite (fun _ => ?_) fun _ => Sound.ok hs
    refine Sound.bind (sound_of_gives (control_sound ht.groups ht.presets ht.entries ht.systems) (control_gives p infos o)) fun r ⟨_, hr⟩ => ?_
    refine Sound.bind (peaks r hr.1) fun q hq => ?_
    refine tail r q.1 q.2 (offCand i q.1 q.2) hr.1 hq.1 fun g t htt => ?_
    unfold offCand
    refine Sound.ite (fun _ => Sound.err) fun hc => ?_
    unfold candMax at hc
    refine Sound.ite (fun hp => ?_) fun _ => Sound.ok htt
    exact Sound.bind (sound_at (by omega)) fun pk _ => Sound.ok ⟨by simp; omega, snoc_all htt.2 (by dsimp only; omega)⟩
  · refine Sound.ite (fun _ => ?_) fun _ => Sound.ok hs
    refine Sound.bind (permitted_sound ht hs.kept hmem) fun b _ => ?_
    refine Sound.ite (fun _ => ?_) fun _ => Sound.ok hs
    refine Sound.bind (sound_of_gives (control_sound ht.groups ht.presets ht.entries ht.systems) (control_gives p infos o)) fun r ⟨_, hr⟩ => ?_
    refine Sound.bind (peaks r hr.1) fun q hq => ?_
    refine tail r q.1 q.2 (onCand p r.1 i q.1 q.2) hr.1 hq.1 fun g t htt => ?_
    unfold onCand
    refine Sound.ite (fun _ => Sound.err) fun hc => ?_
    unfold candMax at hc
    refine Sound.bind (sound_at (by omega)) fun pk _ => ?_
    exact Sound.ite (fun _ => Sound.ok ⟨by simp; omega, snoc_all htt.2 (by dsimp only; omega)⟩) fun _ => Sound.ok htt

theorem withinLimit_sound {p : Request} {instrs : List Instr} {cands : List Cand} (hc : cands.length ≤ 32)
    (hi : ∀ x ∈ cands, x.instr < instrs.length) : Sound (withinLimit p instrs cands) (fun n => n ≤ cands.length) := by
  unfold withinLimit
  refine Sound.bind (sound_eachN (I := fun k (s : List Cand × Rat) => s.1.length ≤ k) (n := 0) (fun x hx k s _ hk hs => ?_) (by simp)) fun s hs => ?_
  · unfold limitStep
    refine Sound.ite (fun _ => ?_) fun _ => ?_
    · exact Sound.bind (sound_push (Q := fun ys => ys.length ≤ k + 1) (by unfold candMax; omega) (by simp; omega)) fun ys hys => Sound.ok hys
    · refine Sound.bind (Q := fun ys => ys.length ≤ k + 1) ?_ fun ys hys => ?_
      · exact Sound.ite (fun _ => sound_push (by unfold candMax; omega) (by simp; omega)) fun _ => Sound.ok (by omega)
      · exact Sound.ite (fun _ => Sound.bind (sound_at (hi x hx)) fun _ _ => Sound.ok hys) fun _ => Sound.ok hys
  · refine Sound.ite (fun _ => Sound.ok (by omega)) fun _ => ?_
    dsimp only
    refine Sound.ite (fun _ => Sound.ok (List.length_filter_le _ _)) fun _ => Sound.ok ?_
    split <;> omega

theorem preSelect_sound {p : Request} {c : Config} {infos : List Info} {slots : List Peak} (ht : Tame p c infos slots) :
    Sound (preSelect p c infos slots) (Tidy c) := by
  unfold preSelect
  refine Sound.bind (sound_each (I := Tidy c) (fun i hi s hs => preStep_sound ht (List.mem_range.mp hi) hs)
    ⟨Kept.refl c, ht.arrays, by simp, by simp⟩) fun s hs => ?_
  refine Sound.ite (fun _ => ?_) fun _ => Sound.ok hs
  have hinstr : ∀ x ∈ s.cands, x.instr < s.instrs.length := fun x hx => by rw [hs.kept.1]; exact hs.instr x hx
  refine Sound.bind (withinLimit_sound hs.count hinstr) fun n hn => ?_
  have hcount := hs.count
  have look : ∀ {k : Nat} {R : List Cand × Bool → Prop} {f : Cand → Instr → Res (List Cand × Bool)}, k < s.cands.length →
      (∀ x o, x ∈ s.cands → Sound (f x o) R) → Sound (do let x ← at_ s.cands k; let o ← at_ s.instrs x.instr; f x o) R := by
    intro k R f hk hf
    refine Sound.bind (sound_at hk) fun x hx => ?_
    exact Sound.bind (sound_at (hinstr x (List.mem_of_getElem? hx))) fun o _ => hf x o (List.mem_of_getElem? hx)
  have look' : ∀ {k : Nat} {R : List Cand → Prop} {f : Cand → Instr → Res (List Cand)}, k < s.cands.length →
      (∀ x o, x ∈ s.cands → Sound (f x o) R) → Sound (do let x ← at_ s.cands k; let o ← at_ s.instrs x.instr; f x o) R := by
    intro k R f hk hf
    refine Sound.bind (sound_at hk) fun x hx => ?_
    exact Sound.bind (sound_at (hinstr x (List.mem_of_getElem? hx))) fun o _ => hf x o (List.mem_of_getElem? hx)
  refine Sound.bind (Q := fun r : List Cand × Bool => r.1.length ≤ n) ?_ fun r hr => ?_
  · refine (sound_eachN (I := fun k (t : List Cand × Bool) => t.1.length ≤ k) (n := 0) (fun k hk j t _ hj htl => ?_) (by simp)).mono fun t htt => by
      rw [List.length_range, Nat.zero_add] at htt; exact htt
    have hk := List.mem_range.mp hk
    rw [List.length_range] at hj
    unfold presetStep
    refine look (by omega) fun x o hx => ?_
    refine Sound.ite (fun _ => ?_) fun _ => Sound.ite (fun _ => ?_) fun _ => Sound.ok (by omega)
    · match hpp : p.presets, ht.presets with
      | [], _ => exact Sound.ok (by omega)
      | [g], _ =>
        refine Sound.bind (Q := fun t : List Cand × Bool => t.1.length ≤ j + 1) ?_ fun t htt => Sound.ok htt
        refine Sound.ite (fun _ => ?_) fun _ => Sound.ok (by omega)
        exact Sound.bind (sound_push (Q := fun ys => ys.length ≤ j + 1) (by unfold candMax; omega) (by simp; omega)) fun ys hys => Sound.ok hys
    · exact Sound.bind (sound_push (Q := fun ys => ys.length ≤ j + 1) (by unfold candMax; omega) (by simp; omega)) fun ys hys => Sound.ok hys
  refine Sound.bind (Q := fun ys => ys.length ≤ 32 ∧ ∀ x ∈ ys, x.instr < c.instrs.length) ?_ fun ys hys => Sound.ok ⟨hs.kept, hs.slots, hys.1, hys.2⟩
  have loop : ∀ (f : Nat → List Cand → Res (List Cand)), (∀ k j xs, k < s.cands.length → j < 32 → xs.length ≤ j → (∀ x ∈ xs, x.instr < c.instrs.length) →
      Sound (f k xs) (fun ys => ys.length ≤ j + 1 ∧ ∀ x ∈ ys, x.instr < c.instrs.length)) →
      Sound (each f (List.range r.1.length) []) (fun ys => ys.length ≤ 32 ∧ ∀ x ∈ ys, x.instr < c.instrs.length) := by
    intro f hf
    refine (sound_eachN (I := fun k (xs : List Cand) => xs.length ≤ k ∧ ∀ x ∈ xs, x.instr < c.instrs.length) (n := 0)
      (fun k hk j xs _ hj hxs => ?_) ⟨by simp, by simp⟩).mono fun ys hys => ⟨?_, hys.2⟩
    · rw [List.length_range] at hj
      have hk := List.mem_range.mp hk
      exact hf k j xs (by omega) (by omega) hxs.1 hxs.2
    · have := hys.1
      rw [List.length_range] at this
      omega
  refine Sound.ite (fun _ => loop _ fun k j xs hk hj hl hall => ?_) fun _ => loop _ fun k j xs hk hj hl hall => ?_
  · unfold noGroupStep
    refine look' hk fun x o hx => ?_
    exact Sound.ite (fun _ => sound_push (by unfold candMax; omega) ⟨by simp; omega, snoc_all hall (hs.instr x hx)⟩) fun _ => Sound.ok ⟨by omega, hall⟩
  · unfold groupStep
    refine look' hk fun x o hx => ?_
    refine Sound.ite (fun _ => sound_push (by unfold candMax; omega) ⟨by simp; omega, snoc_all hall (hs.instr x hx)⟩) fun _ => ?_
    refine Sound.ite (fun _ => ?_) fun _ => Sound.ok ⟨by omega, hall⟩
    refine (sound_match p.groups xs ht.groups (by unfold candMax; omega)).mono fun ys hys => ⟨by omega, fun y hy => ?_⟩
    rcases hys.2.2 y hy with h | rfl
    · exact hall y h
    · exact hs.instr y hx

/-! ## Effects and final selection -/

theorem dependent_sound (c : Config) (instrs : List Instr) (o : Instr) : Sound (dependent c instrs o) (fun _ => True) := by
  unfold dependent
  cases (instrs.take c.instrCount).find? (fun t => t.setId == (o.dependsOn : Int)) with
  | none => exact Sound.err
  | some t => exact Sound.ite (fun _ => Sound.err) fun _ => Sound.ok trivial

theorem attempt_sound {c : Config} {instrs : List Instr} {e : Nat} {cands : List Cand} (hc : cands.length ≤ 32)
    (hi : ∀ x ∈ cands, x.instr < instrs.length) : Sound (attempt c instrs e cands) (fun r => r.1.length ≤ 32 ∧ ∀ x ∈ r.1, x.instr < instrs.length) := by
  have loop : ∀ (f : Cand → List Cand → Res (List Cand)), (∀ x j xs, x ∈ cands → j < 32 → xs.length ≤ j → (∀ x ∈ xs, x.instr < instrs.length) →
      Sound (f x xs) (fun ys => ys.length ≤ j + 1 ∧ ∀ x ∈ ys, x.instr < instrs.length)) →
      Sound (each f cands []) (fun ys => ys.length ≤ 32 ∧ ∀ x ∈ ys, x.instr < instrs.length) := by
    intro f hf
    refine (sound_eachN (I := fun k (xs : List Cand) => xs.length ≤ k ∧ ∀ x ∈ xs, x.instr < instrs.length) (n := 0)
      (fun x hx j xs _ hj hxs => hf x j xs hx (by omega) hxs.1 hxs.2) ⟨by simp, by simp⟩).mono fun ys hys => ⟨by omega, hys.2⟩
  have step : ∀ {x : Cand} {j : Nat} {xs : List Cand}, x ∈ cands → j < 32 → xs.length ≤ j → (∀ x ∈ xs, x.instr < instrs.length) →
      Sound (push candMax xs x) (fun ys => ys.length ≤ j + 1 ∧ ∀ x ∈ ys, x.instr < instrs.length) := fun hx hj hl hall =>
    sound_push (by unfold candMax; omega) ⟨by simp; omega, snoc_all hall (hi _ hx)⟩
  unfold attempt
  refine Sound.ite (fun _ => Sound.err) fun _ => ?_
  refine Sound.bind (Q := fun ys => ys.length ≤ 32 ∧ ∀ x ∈ ys, x.instr < instrs.length) ?_ fun ys hys => Sound.ok ?_
  · refine Sound.ite (fun _ => loop _ fun x j xs hx hj hl hall => ?_) fun _ => loop _ fun x j xs hx hj hl hall => ?_
    · refine Sound.bind (sound_at (hi x hx)) fun o _ => ?_
      exact Sound.ite (fun _ => Sound.ok ⟨by omega, hall⟩) fun _ => step hx hj hl hall
    · refine Sound.bind (sound_at (hi x hx)) fun o _ => ?_
      refine Sound.ite (fun _ => ?_) fun _ => ?_
      · exact Sound.ite (fun _ => step hx hj hl hall) fun _ => Sound.ok ⟨by omega, hall⟩
      · refine Sound.bind (dependent_sound c instrs o) fun t _ => ?_
        exact Sound.ite (fun _ => step hx hj hl hall) fun _ => Sound.ok ⟨by omega, hall⟩
  · split
    · exact ⟨hc, hi⟩
    · exact hys

theorem matchEffects_sound {c : Config} {instrs : List Instr} {p : Request} {cands : List Cand} (hc : cands.length ≤ 32)
    (hi : ∀ x ∈ cands, x.instr < instrs.length) : Sound (matchEffects c instrs p cands) (fun r => r.length ≤ 32 ∧ ∀ x ∈ r, x.instr < instrs.length) := by
  have first : ∀ (es : List Nat) (s : List Cand × Bool × Bool), (s.1.length ≤ 32 ∧ ∀ x ∈ s.1, x.instr < instrs.length) →
      Sound (desiredLoop c instrs es s) (fun r => r.1.length ≤ 32 ∧ ∀ x ∈ r.1, x.instr < instrs.length) := by
    intro es
    induction es with
    | nil => exact fun s hs => Sound.ok hs
    | cons e es ih =>
      intro s hs
      unfold desiredLoop
      exact Sound.bind (attempt_sound hs.1 hs.2) fun r hr => ih _ hr
  have second : ∀ (es : List Nat) (s : List Cand × Bool), (s.1.length ≤ 32 ∧ ∀ x ∈ s.1, x.instr < instrs.length) →
      Sound (otherLoop c instrs es s) (fun r => r.length ≤ 32 ∧ ∀ x ∈ r, x.instr < instrs.length) := by
    intro es
    induction es with
    | nil => exact fun s hs => Sound.ok hs
    | cons e es ih =>
      intro s hs
      unfold otherLoop
      exact Sound.ite (fun _ => Sound.ok hs) fun _ => Sound.bind (attempt_sound hs.1 hs.2) fun r hr => ih _ hr
  unfold matchEffects
  refine Sound.bind (first _ _ ⟨hc, hi⟩) fun r hr => ?_
  exact Sound.ite (fun _ => Sound.ok hr) fun _ => second _ _ hr

theorem looked_sound {instrs : List Instr} : ∀ (cands : List Cand), (∀ x ∈ cands, x.instr < instrs.length) → Sound (looked instrs cands) (fun _ => True)
  | [], _ => Sound.ok trivial
  | x :: xs, h => by
    unfold looked
    refine Sound.bind (sound_at (h x (by simp))) fun o _ => ?_
    exact Sound.bind (looked_sound xs fun y hy => h y (by simp [hy])) fun _ _ => Sound.ok trivial

theorem byDmx_sound {dmx : Int} {xs : List (Cand × Instr)} : Sound (byDmx dmx xs) (fun _ => True) := by
  unfold byDmx
  refine Sound.bind (sound_each (I := fun s : List (Cand × Instr) × Nat => xs.length ≤ s.1.length) (fun i hi s hs => ?_) (Nat.le_refl _)) fun s _ => Sound.ok trivial
  have hi := List.mem_range.mp hi
  unfold dmxStep
  refine Sound.bind (sound_at (by omega)) fun x _ => ?_
  refine sound_each (I := fun s : List (Cand × Instr) × Nat => xs.length ≤ s.1.length) (fun d _ s hs => ?_) hs
  refine Sound.ite (fun _ => ?_) fun _ => Sound.ok hs
  refine Sound.ite (fun _ => Sound.err) fun hc => ?_
  refine Sound.bind (sound_at (by omega)) fun x _ => ?_
  refine Sound.bind (Q := fun ys => xs.length ≤ ys.length) ?_ fun ys hys => Sound.ok hys
  unfold put
  refine Sound.ite (fun _ => Sound.ok (by simpa using hs)) fun _ => ?_
  rw [if_pos (by omega)]
  exact Sound.ok (by simp; omega)

theorem finalSelect_sound {p : Request} {c : Config} {instrs : List Instr} {cands : List Cand} (hi : ∀ x ∈ cands, x.instr < instrs.length) :
    Sound (finalSelect p c instrs cands) (fun _ => True) := by
  unfold finalSelect
  refine Sound.bind (looked_sound cands hi) fun all _ => ?_
  dsimp only
  refine Sound.bind (Q := fun _ => True) ?_ fun xs _ => ?_
  · refine Sound.ite (fun _ => ?_) fun _ => Sound.ok trivial
    refine Sound.bind byDmx_sound fun xs _ => ?_
    refine Sound.bind (sound_each (I := fun _ => True) (fun x _ s _ => ?_) trivial) fun s _ => ?_
    · unfold fewestStep
      refine Sound.bind (Q := fun _ => True) ?_ fun n _ => Sound.ok trivial
      unfold effectCount
      refine Sound.ite (fun _ => Sound.ok trivial) fun _ => Sound.ite (fun _ => ?_) fun _ => Sound.ok trivial
      exact Sound.bind (dependent_sound c instrs x.2) fun _ _ => Sound.ok trivial
    · refine Sound.bind (Q := fun _ => True) ?_ fun ys _ => Sound.ok trivial
      unfold byTarget
      refine Sound.ite (fun _ => Sound.ok trivial) fun _ => Sound.ite (fun _ => ?_) fun _ => Sound.ok trivial
      refine Sound.bind (sound_each (I := fun _ => True) (fun x _ s _ => ?_) trivial) fun s _ => Sound.ok trivial
      exact Sound.ite (fun _ => Sound.err) fun _ => Sound.ok trivial
  · split <;> exact Sound.ok trivial

/-! ## The active sets -/

theorem firstWith_sound (c : Config) (instrs : List Instr) (id : Int) : Sound (firstWith c instrs id) (fun i => i < instrs.length) := by
  unfold firstWith
  dsimp only
  refine Sound.ite (fun h => Sound.ok ?_) fun _ => Sound.err
  rw [List.length_take] at h
  omega

theorem Tame.noted {p : Request} {c c' : Config} {infos : List Info} {slots : List Peak} (ht : Tame p c infos slots)
    (h : noteDmx p c = .ok c') (hco : c'.coeffs = c.coeffs ∧ c'.coeffCount = c.coeffCount) (hid : ∀ o ∈ c'.instrs, o.dmxIds.length ≤ 15) :
    Tame p c' infos slots := by
  have hn := noteDmx_gives p c c' h
  have back : ∀ o ∈ c'.instrs, ∃ u ∈ c.instrs, o.groups = u.groups ∧ o.groupSet = u.groupSet := by
    intro o ho
    obtain ⟨i, hi⟩ := List.mem_iff_getElem?.mp ho
    obtain ⟨u, hu, h1⟩ := hn.2.2.2.2 i o hi
    refine ⟨u, List.mem_of_getElem? hu, ?_⟩
    rcases h1 with ⟨_, rfl⟩ | ⟨_, ids, rfl⟩ <;> exact ⟨rfl, rfl⟩
  have hp := ht.plus
  refine ⟨ht.entries, ht.systems, ht.arrays, ht.groups, ht.presets, by rw [hn.1, hn.2.1, hn.2.2.1]; exact hp, hid, ?_⟩
  rw [hco.1, hco.2]
  intro cf hcf o ho t htt
  obtain ⟨u, hu, e1, _⟩ := back o ho
  obtain ⟨v, hv, _, e2⟩ := back t htt
  rw [e1, e2]
  exact ht.sets cf hcf u hu v hv

theorem fading_sound (p : Request) : ∀ (os : List Instr) (n : Nat) (r : Option Nat), Sound (getFading p os n r) (fun _ => True)
  | [], _, _ => Sound.ok trivial
  | o :: os, n, r => by
    unfold getFading
    exact Sound.ite (fun _ => Sound.ite (fun _ => fading_sound p os _ _) fun _ => Sound.err) fun _ => fading_sound p os _ _

/-- The selection stays inside its tables for up to sixteen entries of loudness information with known
measurement systems. -/
theorem bounds_partial {p : Request} {c : Config} {infos : List Info} {slots : List Peak} (ht : Tame p c infos slots)
    (hm : Moderate p c infos) (hg : ∀ g ∈ p.presets, 0 ≤ g.2) : select p c infos slots ≠ .ub := by
  have : Sound (select p c infos slots) (fun _ => True) := by
    unfold select
    refine Sound.bind (Q := fun c' => Tame p c' infos slots ∧ Moderate p c' infos ∧ c'.instrs.length = c.instrs.length) ?_ fun c' ⟨ht', hm', hl'⟩ => ?_
    · have hp := ht.plus
      have hcore : Sound (noteDmx p c) (fun c' => (c'.coeffs = c.coeffs ∧ c'.coeffCount = c.coeffCount) ∧ ∀ o ∈ c'.instrs, o.dmxIds.length ≤ 15) := by
        unfold noteDmx
        rw [if_neg (by omega)]
        refine Sound.bind (sound_at (by omega)) fun o ho => Sound.ok ⟨⟨rfl, rfl⟩, ?_⟩
        intro t htm
        rcases List.mem_or_eq_of_mem_set htm with h | rfl
        · exact ht.ids t h
        · simpa using ht.ids o (List.mem_of_getElem? ho)
      refine ⟨hcore.1, fun c' hc' => ?_⟩
      have h2 := hcore.2 c' hc'
      exact ⟨ht.noted hc' h2.1 h2.2, hm.noted hc', (noteDmx_gives p c c' hc').2.2.1⟩
    refine Sound.bind (Q := fun r => Kept c' r.1.instrs ∧ r.2.instr < c'.plus) ?_ fun r ⟨hk, hx⟩ => ?_
    · refine (sound_of_gives (Q := fun _ => True) (R := fun r => PreOk p c' infos r.1 ∧ CandOk p c' infos r.2 ∧ r.2 ∈ r.1.cands) ?_
        (selectSet_gives hm' hg slots)).mono fun r hr => ⟨hr.2.1.kept, hr.2.2.1.instr⟩
      unfold selectSet
      refine Sound.bind (preSelect_sound ht') fun s hs => ?_
      have hinstr : ∀ x ∈ s.cands, x.instr < s.instrs.length := fun x hx => by rw [hs.kept.1]; exact hs.instr x hx
      cases hc : s.cands with
      | nil => exact Sound.err
      | cons x xs =>
        dsimp only
        refine Sound.ite (fun _ => Sound.err) fun _ => Sound.ite (fun _ => ?_) fun _ => Sound.ok trivial
        rw [← hc]
        refine Sound.bind (matchEffects_sound hs.count hinstr) fun ys hys => ?_
        refine Sound.ite (fun _ => Sound.err) fun _ => ?_
        exact Sound.bind (finalSelect_sound hys.2) fun _ _ => Sound.ok trivial
    have hp := ht'.plus
    have hlen := hk.1
    refine Sound.bind (sound_at (by omega)) fun o _ => ?_
    refine Sound.bind (firstWith_sound c' _ _) fun sel hsel => ?_
    refine Sound.bind (sound_at hsel) fun so _ => ?_
    refine Sound.bind (Q := fun d => ∀ i, d = some i → i < r.1.instrs.length) ?_ fun dep hdep => ?_
    · unfold getDependent
      refine Sound.ite (fun _ => ?_) fun _ => Sound.ok (by simp)
      exact Sound.bind (firstWith_sound c' _ _) fun i hi => Sound.ok fun j hj => by cases hj; exact hi
    have within : ∀ k t, (r.1.instrs.take c'.instrCount)[k]? = some t → k < r.1.instrs.length := by
      intro k t hk
      have := (List.getElem?_eq_some_iff.mp hk).1
      rw [List.length_take] at this
      omega
    refine Sound.bind (Q := fun d => ∀ i, d = some i → i < r.1.instrs.length) ?_ fun fade hfade => ?_
    · refine (sound_of_gives (fading_sound p _ 0 none) (getFading_gives p _ 0 none)).mono fun q hq i hi => ?_
      rcases hq.2 with ⟨h, _⟩ | ⟨k, t, h, hk, _⟩
      · rw [hi] at h; cases h
      · rw [hi] at h
        have : i = k := by simpa using h
        rw [this]; exact within k t hk
    have hduck : ∀ i, getDucking p (r.1.instrs.take c'.instrCount) 0 none = some i → i < r.1.instrs.length := by
      intro i hi
      rcases getDucking_spec p (r.1.instrs.take c'.instrCount) 0 none with ⟨h, _⟩ | ⟨k, t, h, hk, _⟩
      · rw [hi] at h; cases h
      · rw [hi] at h
        have : i = k := by simpa using h
        rw [this]; exact within k t hk
    dsimp only
    refine Sound.bind (Q := fun _ => True) ?_ fun sets _ => Sound.ite (fun _ => Sound.err) fun _ => Sound.ok trivial
    refine (sound_eachN (I := fun k (s : List (Int × Int)) => s.length ≤ k) (n := 0) (fun x hx k s _ hk2 hs => ?_) (by simp)).mono fun _ _ => trivial
    have hx' : ∀ i, x.2 = some i → i < r.1.instrs.length := by
      intro i hi
      simp only [List.mem_cons, List.not_mem_nil, or_false] at hx
      rcases hx with rfl | rfl | rfl | rfl
      · exact hduck i hi
      · dsimp only at hi
        split at hi
        · cases hi
        · exact hfade i hi
      · exact hdep i hi
      · cases hi; exact hsel
    have hk3 : k < 4 := by simpa using hk2
    unfold activeStep
    cases hx2 : x.2 with
    | none => exact Sound.ok (by omega)
    | some i =>
      refine Sound.bind (sound_at (hx' i hx2)) fun o _ => ?_
      exact Sound.ite (fun _ => sound_push (by omega) (by simp; omega)) fun _ => Sound.ok (by omega)
  exact this.1

end Verif.DrcSel
