import Verif.Props.ExtRend
import Verif.Props.Speaker

/-! # C267 to C270: channel metadata and samples for an external renderer -/

namespace Verif.ExtRend

open Prog

theorem escape_eq (v b1 b2 b3 : Nat) (hv : v ≤ escapeMax b1 b2 b3) : escape v b1 b2 b3 = escapeFields v b1 b2 b3 := by
  unfold escapeMax at hv
  unfold escape escapeFields
  have p1 : 0 < 2 ^ b1 := Nat.two_pow_pos _
  have p2 : 0 < 2 ^ b2 := Nat.two_pow_pos _
  by_cases c1 : v < 2 ^ b1 - 1
  · rw [if_pos c1]
    simp only
    rw [if_neg (by omega), show min v (2 ^ b1 - 1) = v by omega]
  · rw [if_neg c1]
    simp only
    rw [show min v (2 ^ b1 - 1) = 2 ^ b1 - 1 by omega, if_pos rfl]
    by_cases c2 : v < (2 ^ b1 - 1) + (2 ^ b2 - 1)
    · rw [if_pos c2, if_neg (by omega), show min (v - (2 ^ b1 - 1)) (2 ^ b2 - 1) = v - (2 ^ b1 - 1) by omega]
    · rw [if_neg c2, show min (v - (2 ^ b1 - 1)) (2 ^ b2 - 1) = 2 ^ b2 - 1 by omega, if_pos rfl,
        show min (v - (2 ^ b1 - 1) - (2 ^ b2 - 1)) (2 ^ b3 - 1) = v - (2 ^ b1 - 1) - (2 ^ b2 - 1) by omega]

theorem escape_wide (v b1 b2 b3 : Nat) (h1 : 1 ≤ b1 ∧ b1 ≤ 24) (h2 : 1 ≤ b2 ∧ b2 ≤ 24)
    (h3 : (1 ≤ b3 ∧ b3 ≤ 24) ∨ v < (2 ^ b1 - 1) + (2 ^ b2 - 1)) (hv : v ≤ escapeMax b1 b2 b3) :
    Wide (escape v b1 b2 b3) := by
  rw [escape_eq _ _ _ _ hv]
  unfold escapeFields
  split
  · exact Wide.cons h1.1 (by omega) Wide.nil
  · split
    · exact Wide.cons h1.1 (by omega) (Wide.cons h2.1 (by omega) Wide.nil)
    · rcases h3 with h3 | h3
      · exact Wide.cons h1.1 (by omega) (Wide.cons h2.1 (by omega) (Wide.cons h3.1 (by omega) Wide.nil))
      · omega

theorem run_escape {β : Type} (v b1 b2 b3 : Nat) (h1 : b1 ≤ 24) (h2 : b2 ≤ 24) (h3 : b3 ≤ 24)
    (hv : v ≤ escapeMax b1 b2 b3) (f : Nat → Prog β) (l : List Bool) :
    run (readEscape b1 b2 b3 >>= f) (fieldBits (escape v b1 b2 b3) ++ l) = run (f v) l := by
  rw [escape_eq _ _ _ _ hv, run_bind, C05_reader v b1 b2 b3 h1 h2 h3 hv]; rfl

/-! ### Layouts -/

/-- Layouts given by number or as a list of loudspeakers. -/
inductive LayoutOk (l : Layout) : Prop
  | number (h : l.type = 0) (h0 : 0 ≤ l.layout) (h1 : l.layout < 64)
  | list (h : l.type = 1) (h0 : 1 ≤ l.num) (h1 : l.num ≤ l.cicpIdx.length) (h2 : l.num ≤ 65536)
      (hk : ∀ k ∈ l.cicpIdx, 0 ≤ k ∧ k < 128)

/-- What the receiver should see. -/
def layoutOf (l : Layout) : Spec.Layout :=
  if l.type = 0 then .number l.layout.toNat else .list ((l.cicpIdx.take l.num.toNat).map Int.toNat)

/-- **C268** (partial) Layouts given by number or as a list of loudspeakers are read back. -/
theorem C268_layouts_partial (l : Layout) (h : LayoutOk l) : Writes (speakers l) Spec.layout (layoutOf l) := by
  unfold Writes speakers layoutOf
  cases h with
  | number h h0 h1 =>
    rw [if_pos h, if_pos h]
    refine ⟨_, rfl, by wide, fun t => ?_⟩
    rw [fieldBits_cons, fieldBits_word, fieldBits_nil, List.append_assoc, List.append_nil]
    unfold Spec.layout
    rw [run_bits_mod _ _ _ _ (by omega), h]
    simp only [Nat.zero_mod, if_true]
    rw [run_word _ _ _ _ (by omega), low_nonneg _ _ h0 (by norm_num; omega)]
    rfl
  | list h h0 h1 h2 hk =>
    rw [if_neg (by omega), if_pos h, if_neg (by omega)]
    obtain ⟨ks, k1, k2, k3⟩ := rep_writes (fun i => do
        let k ← at_ l.cicpIdx i
        .ok [word k 7]) (bits 7) (fun i => (l.cicpIdx.getD i 0).toNat) l.num.toNat 0 0 (fun m _ hm => by
      have hl : m < l.cicpIdx.length := by omega
      have hb := hk _ (getD_mem' l.cicpIdx 0 m hl)
      rw [at_getD 0 hl]
      refine ⟨_, rfl, by wide, fun t => ?_⟩
      rw [fieldBits_word, fieldBits_nil, List.append_nil]
      have := run_word (l.cicpIdx.getD m 0) 7 pure t (by omega)
      rw [bind_pure] at this
      rw [this, low_nonneg _ _ hb.1 (lt_of_lt_of_le hb.2 (by norm_num))]
      rfl)
    rw [k1]
    have en : ((l.num - 1) % 2 ^ 32).toNat = l.num.toNat - 1 := by omega
    have hv : l.num.toNat - 1 ≤ escapeMax 5 8 16 := by
      have : escapeMax 5 8 16 = 65821 := by decide
      omega
    rw [en]
    simp only [Res.ok_bind]
    refine ⟨_, rfl, Wide.cons (by omega) (by omega) (Wide.append (escape_wide _ _ _ _ (by omega) (by omega) (by omega) hv) k2),
      fun t => ?_⟩
    rw [fieldBits_cons, fieldBits_append, List.append_assoc, List.append_assoc]
    unfold Spec.layout
    rw [run_bits_mod _ _ _ _ (by omega), h]
    simp only [Nat.reducePow, Nat.reduceMod, Nat.one_ne_zero, if_false, if_true]
    rw [run_escape _ _ _ _ (by omega) (by omega) (by omega) hv, show l.num.toNat - 1 + 1 = l.num.toNat by omega,
      Writes.bind_run k3]
    have : ∀ (xs : List Int) (n : Nat), n ≤ xs.length →
        (List.range' 0 n).map (fun i => (xs.getD i 0).toNat) = (xs.take n).map Int.toNat := by
      intro xs n hn
      apply List.ext_getElem
      · simp; omega
      · intro i h1 h2
        have : i < xs.length := by simp at h1; omega
        simp [List.getElem?_eq_getElem this]
    rw [this _ _ (by omega)]
    rfl

example : LayoutOk ⟨1, -1, 3, [0, 1, 2], 0, 0, []⟩ := .list rfl (by decide) (by decide) (by decide) (by decide)
example : (speakers ⟨1, -1, 3, [0, 1, 2], 0, 0, []⟩).map fieldBits =
    .ok (natBits 2 1 ++ natBits 5 2 ++ natBits 7 0 ++ natBits 7 1 ++ natBits 7 2) := by decide +kernel

/-- One loudspeaker at 30 degrees, in steps of 5 degrees. -/
def flex30 : List Bool := [false] ++ [false] ++ natBits 2 0 ++ natBits 6 6 ++ [false] ++ [false] ++ [false]

/-- **C268** (refuted) A loudspeaker that is coded at 30 degrees, in steps of 5, reaches the external
renderer at 150 degrees: the decoder has replaced the code by degrees and sends these as the code. -/
theorem C268_refuted : ∃ ds fs, run (Speaker.flexConfig (List.replicate 32 .zero) 1) flex30 = .ok ((0, ds), []) ∧
    (ds[0]?.map (·.azIdx)) = some 30 ∧
    flex ⟨2, -1, 1, [], 0, 0, ds⟩ 1 = .ok fs ∧
    (run (Speaker.flexConfig (List.replicate 32 .zero) 1) (fieldBits fs)).map
      (fun r => (r.1.1, r.1.2[0]?.map (·.azIdx))) = .ok (0, some 150) := by
  refine ⟨⟨0, 0, 0, 0, 0, 30, 0, 0⟩ :: List.replicate 31 .zero,
    [(0, 1), (0, 1), (0, 2), (30, 6), (0, 1), (0, 1), (0, 1)], ?_, ?_, ?_, ?_⟩ <;> decide +kernel

/-! ### Groups of channels -/

/-- Groups of channels come first, their numbers are within the fields. -/
structure ChannelsOk (sg : Signals) : Prop where
  groups : sg.chGroups ≤ 28
  ltype : sg.type.length = 32
  lnum : sg.numSig.length = 32
  lfixed : sg.fixed.length = 32
  lprio : sg.prio.length = 32
  lay : sg.chGroups ≤ sg.layouts.length
  type : ∀ g < sg.chGroups, sg.type.getD g 0 = 0
  num : ∀ x ∈ sg.numSig, x ≤ 32
  fixed : ∀ x ∈ sg.fixed, x < 2
  prio : ∀ x ∈ sg.prio, x < 8
  layouts : ∀ l ∈ sg.layouts, LayoutOk l

def noLayout : Layout := ⟨0, 0, 0, [], 0, 0, []⟩

/-- What a group is for the receiver. -/
def groupFor (sg : Signals) (g : Nat) : Spec.Group :=
  ⟨sg.numSig.getD g 0, layoutOf (sg.layouts.getD g noLayout), List.replicate (sg.numSig.getD g 0) 0, sg.fixed.getD g 0,
    sg.prio.getD g 0, 96, none, []⟩

theorem chGroup_writes (sg : Signals) (h : ChannelsOk sg) (target : Int) (p : ProdMeta) (hp : p.present ≠ 1)
    (g : Nat) (hg : g < sg.chGroups) :
    ∃ fs, chGroup sg none target p g g = .ok (fs, g + 1) ∧ Wide fs ∧
      ∀ l, run Spec.group (fieldBits fs ++ l) = .ok (groupFor sg g, l) := by
  have hgs := h.groups
  have hl := h.lay
  have hn := h.num _ (getD_mem' sg.numSig 0 g (by rw [h.lnum]; omega))
  have hf := h.fixed _ (getD_mem' sg.fixed 0 g (by rw [h.lfixed]; omega))
  have hr := h.prio _ (getD_mem' sg.prio 0 g (by rw [h.lprio]; omega))
  obtain ⟨ls, l1, l2, l3⟩ := C268_layouts_partial _ (h.layouts _ (getD_mem' sg.layouts noLayout g (by omega)))
  have hs : skipTo sg.type 0 (sg.type.length + 1) g = .ok g := by
    unfold skipTo
    rw [at_getD 0 (by rw [h.ltype]; omega)]
    simp only [Res.ok_bind]
    rw [if_pos (h.type g hg)]
  obtain ⟨is, i1, i2, i3⟩ := rep_writes (fun ch => if g < 32 ∧ ch < 32 then Res.ok [(0, 9)] else .ub) (bits 9)
    (fun _ => 0) (sg.numSig.getD g 0) 0 0 (fun m _ hm => by
      rw [if_pos (by omega)]
      refine ⟨_, rfl, by wide, fun t => ?_⟩
      rw [fieldBits_cons, fieldBits_nil, List.append_nil]
      have := run_bits_mod 9 0 pure t (by omega)
      rw [bind_pure] at this
      rw [this]; rfl)
  unfold chGroup
  rw [at_getD 0 (by rw [h.lnum]; omega), at_getD noLayout (by omega)]
  simp only [Res.ok_bind]
  rw [l1]
  simp only [Res.ok_bind]
  rw [hs]
  simp only [Res.ok_bind]
  rw [at_getD 0 (by rw [h.lnum]; omega), at_getD 0 (by rw [h.lfixed]; omega), at_getD 0 (by rw [h.lprio]; omega)]
  simp only [Res.ok_bind]
  rw [i1, if_pos hp]
  simp only [Res.ok_bind]
  refine ⟨_, rfl, by wide, fun l => ?_⟩
  simp only [fieldBits_cons, fieldBits_append, fieldBits_nil, List.append_assoc, List.nil_append]
  unfold Spec.group
  rw [run_bits_bind _ _ _ _ (by omega) (lt_of_le_of_lt hn (by norm_num)), Writes.bind_run l3, Writes.bind_run i3,
    run_bits_bind _ _ _ _ (by omega) (lt_of_lt_of_le hf (by norm_num)),
    run_bits_bind _ _ _ _ (by omega) (lt_of_lt_of_le hr (by norm_num)),
    run_bits_mod _ _ _ _ (by omega), run_bits_mod _ _ _ _ (by omega)]
  simp only [Nat.zero_mod, Nat.zero_ne_one, if_false, pure_bind]
  rw [run_bits_mod _ _ _ _ (by omega)]
  simp only [Nat.zero_mod, forN, pure_bind, List.map_const', List.length_range']
  rfl

theorem chLoop_writes (sg : Signals) (h : ChannelsOk sg) (target : Int) (p : ProdMeta) (hp : p.present ≠ 1)
    (k g j : Nat) (hg : g + k = sg.chGroups) :
    Writes (chLoop sg none target p k g g) (forN (fun _ => Spec.group) k j) ((List.range' g k).map (groupFor sg)) := by
  induction k generalizing g j with
  | zero => exact ⟨[], rfl, Wide.nil, fun l => rfl⟩
  | succ k ih =>
    obtain ⟨a, ha, wa, ra⟩ := chGroup_writes sg h target p hp g (by omega)
    obtain ⟨b, hb, wb, rb⟩ := ih (g + 1) (j + 1) (by omega)
    refine ⟨a ++ b, ?_, wa.append wb, fun l => ?_⟩
    · unfold chLoop
      rw [ha]
      simp only [Res.ok_bind]
      rw [hb]
      simp only [Res.ok_bind]
    · rw [fieldBits_append, List.append_assoc]
      simp only [forN]
      rw [run_bind, ra]
      simp only [Res.ok_bind]
      rw [run_bind, rb]
      simp only [Res.ok_bind, run_pure, List.range'_succ, List.map_cons]

/-- **C267** (partial) When the groups of channels come first, without downmix and production metadata, the
receiver reads for every group the number of its signals, its layout, fixed position and priority. -/
theorem C267_groups_partial (sg : Signals) (h : ChannelsOk sg) (target : Int) (p : ProdMeta) (hp : p.present ≠ 1) :
    Writes (channels sg none target p) Spec.channels (1024, (List.range' 0 sg.chGroups).map (groupFor sg)) := by
  have hgs := h.groups
  obtain ⟨gs, g1, g2, g3⟩ := chLoop_writes sg h target p hp sg.chGroups 0 0 (by omega)
  unfold Writes channels
  rw [g1]
  simp only [Res.ok_bind]
  refine ⟨_, rfl, by wide, fun l => ?_⟩
  simp only [List.cons_append, List.nil_append, fieldBits_cons, List.append_assoc]
  unfold Spec.channels
  rw [run_bits_mod _ _ _ _ (by omega), run_bits_mod _ _ _ _ (by omega)]
  simp only [Nat.zero_mod, bne_self_eq_false, optBits, Bool.false_eq_true, if_false, pure_bind]
  rw [run_bits_bind _ _ _ _ (by omega) (by norm_num; omega), Writes.bind_run g3]
  rfl

def noProd : ProdMeta := ⟨0, 0, 0, 0, 0, [], []⟩

/-- A stereo group and a group of objects. -/
def stereoFirst : Signals :=
  ⟨2, 0 :: 1 :: List.replicate 30 0, 2 :: 3 :: List.replicate 30 0, List.replicate 32 0, 4 :: 7 :: List.replicate 30 0,
   1, 0, [⟨0, 2, 0, [], 0, 0, []⟩, noLayout]⟩

example : ChannelsOk stereoFirst :=
  ⟨by decide, by decide, by decide, by decide, by decide, by decide, by decide, by decide, by decide, by decide, by
    intro l hl
    simp [stereoFirst] at hl
    rcases hl with rfl | rfl
    · exact .number rfl (by decide) (by decide)
    · exact .number rfl (by decide) (by decide)⟩

example : (channels stereoFirst none 2 noProd).map (fun fs => (run Spec.channels (fieldBits fs)).map (·.1)) =
    .ok (.ok (1024, [⟨2, .number 2, [0, 0], 0, 4, 96, none, []⟩])) := by decide +kernel

/-- The same groups in the other order. -/
def objectsFirst : Signals :=
  ⟨2, 1 :: 0 :: List.replicate 30 0, 3 :: 2 :: List.replicate 30 0, List.replicate 32 0, 7 :: 4 :: List.replicate 30 0,
   1, 0, [⟨0, 2, 0, [], 0, 0, []⟩, noLayout]⟩

/-- **C267** (refuted) Behind a group of three objects a stereo group is sent as one of three signals: a
reader takes the flags that follow for a signal number and runs out of bits. -/
theorem C267_refuted : ∃ fs, channels objectsFirst none 2 noProd = .ok fs ∧ fs[3]? = some (3, 16) ∧
    run Spec.channels (fieldBits fs) = .jump := by
  refine ⟨[(16, 6), (0, 2), (1, 9), (3, 16), (0, 2), (2, 6), (0, 9), (0, 9), (0, 1), (4, 3), (96, 8), (0, 1), (0, 3)], ?_, ?_, ?_⟩ <;>
    decide +kernel

/-! ### Downmix -/

theorem run_bits1 (xs : List Bool) (j : Nat) (l : List Bool) :
    run (forN (fun _ => bits 1) xs.length j) (xs ++ l) = .ok (xs.map Bool.toNat, l) := by
  induction xs generalizing j with
  | nil => rfl
  | cons x xs ih =>
    simp only [List.length_cons, forN, List.cons_append]
    have : run (bits 1) (x :: (xs ++ l)) = .ok (x.toNat, xs ++ l) := by cases x <;> rfl
    rw [run_bind, this]
    simp only [Res.ok_bind]
    rw [run_bind, ih]
    rfl

/-- The bits of a list of bytes. -/
def byteBits (bs : List Nat) : List Bool := bs.flatMap (natBits 8)

/-- A matrix within the limits of its fields. -/
structure MatOk (m : Mat) : Prop where
  g0 : 1 ≤ m.groups.length
  g1 : m.groups.length ≤ 32
  gs : ∀ g ∈ m.groups, g < 32
  len : m.len ≤ 4605
  bytes : m.len ≤ 8 * m.bytes.length
  byte : ∀ b ∈ m.bytes, b < 256

def matOf (m : Mat) : List Nat × List Nat := (m.groups, ((byteBits m.bytes).take m.len).map Bool.toNat)

theorem natBits_eight (b : Nat) (r : Nat) (hr : r ≤ 8) (hb : b < 256) :
    natBits r (b / 2 ^ (8 - r)) = (natBits 8 b).take r := by
  have key : ∀ r, r ≤ 8 → ∀ b, b < 256 → natBits r (b / 2 ^ (8 - r)) = (natBits 8 b).take r := by decide +kernel
  exact key r hr b hb

theorem byteBits_take (bs : List Nat) (k r : Nat) (hr : r ≤ 8) (hk : k < bs.length) :
    (byteBits bs).take (8 * k + r) = byteBits (bs.take k) ++ (natBits 8 (bs.getD k 0)).take r := by
  induction k generalizing bs with
  | zero =>
    cases bs with
    | nil => simp at hk
    | cons b bs =>
      have : (natBits 8 b).length = 8 := natBits_length 8 b
      simp only [byteBits, List.flatMap_cons, Nat.mul_zero, Nat.zero_add, List.take_zero, List.flatMap_nil, List.nil_append,
        List.getD_cons_zero]
      rw [List.take_append_of_le_length (by omega)]
  | succ k ih =>
    cases bs with
    | nil => simp at hk
    | cons b bs =>
      have hb : (natBits 8 b).length = 8 := natBits_length 8 b
      have := ih bs (by simp at hk; omega)
      simp only [byteBits, List.flatMap_cons, List.take_succ_cons, List.getD_cons_succ] at this ⊢
      rw [show 8 * (k + 1) + r = (natBits 8 b).length + (8 * k + r) by omega, List.take_length_add_append, this,
        List.append_assoc]

theorem byteBits_length (bs : List Nat) : (byteBits bs).length = 8 * bs.length := by
  induction bs with
  | nil => rfl
  | cons b bs ih =>
    have : (natBits 8 b).length = 8 := natBits_length 8 b
    simp only [byteBits, List.flatMap_cons, List.length_append, List.length_cons] at ih ⊢
    omega

theorem bytes_rep (bs : List Nat) (k i : Nat) (h : i + k ≤ bs.length) :
    ∃ fs, rep (fun i => do
      let b ← at_ bs i
      Res.ok [(b, 8)]) k i = .ok fs ∧ Wide fs ∧ fieldBits fs = byteBits ((bs.drop i).take k) := by
  induction k generalizing i with
  | zero => exact ⟨[], rfl, Wide.nil, by simp [byteBits, fieldBits_nil]⟩
  | succ k ih =>
    obtain ⟨fs, f1, f2, f3⟩ := ih (i + 1) (by omega)
    have hi : i < bs.length := by omega
    refine ⟨(bs[i], 8) :: fs, ?_, by wide, ?_⟩
    · simp only [rep]
      rw [at_some (List.getElem?_eq_getElem hi), f1]
      rfl
    · rw [fieldBits_cons, f3, List.drop_eq_getElem_cons hi, List.take_succ_cons]
      rfl

theorem mat_writes (m : Mat) (h : MatOk m) : Writes (mat m) Spec.mat (matOf m) := by
  obtain ⟨bs, b1, b2, b3⟩ := bytes_rep m.bytes (m.len / 8) 0 (by have := h.bytes; omega)
  rw [List.drop_zero] at b3
  have hg0 := h.g0
  have hg1 := h.g1
  have en : (((m.groups.length : Int) - 1) % 2 ^ 32).toNat = m.groups.length - 1 := by omega
  have hv : m.groups.length - 1 ≤ escapeMax 1 4 4 := by
    have : escapeMax 1 4 4 = 31 := by decide
    omega
  have hlen : m.len ≤ escapeMax 8 8 12 := by
    have : escapeMax 8 8 12 = 4605 := by decide
    rw [this]; exact h.len
  have hgr : ∀ (gs : List Nat) (j : Nat) (l : List Bool), (∀ g ∈ gs, g < 32) →
      run (forN (fun _ => bits 5) gs.length j) (fieldBits (gs.map fun g => (g, 5)) ++ l) = .ok (gs, l) := by
    intro gs
    induction gs with
    | nil => intro j l _; rfl
    | cons g gs ih =>
      intro j l hgs
      simp only [List.length_cons, forN, List.map_cons, fieldBits_cons, List.append_assoc]
      rw [run_bits_bind _ _ _ _ (by omega) (lt_of_lt_of_le (hgs g (by simp)) (by norm_num)), run_bind,
        ih (j + 1) l (fun x hx => hgs x (by simp [hx]))]
      rfl
  have hgw : Wide (m.groups.map fun g => (g, 5)) := by
    intro f hf
    obtain ⟨g, _, rfl⟩ := List.mem_map.mp hf
    exact ⟨by norm_num, by norm_num⟩
  obtain ⟨rs, r1, r2, r3⟩ : ∃ rs, (if m.len % 8 ≠ 0 then do
      let b ← at_ m.bytes (m.len / 8)
      Res.ok [(b / 2 ^ (8 - m.len % 8), m.len % 8)]
    else .ok []) = .ok rs ∧ Wide rs ∧
      byteBits (m.bytes.take (m.len / 8)) ++ fieldBits rs = (byteBits m.bytes).take m.len := by
    by_cases hr : m.len % 8 = 0
    · refine ⟨[], by rw [if_neg (by simp [hr])], Wide.nil, ?_⟩
      rw [fieldBits_nil, List.append_nil]
      by_cases hk : m.len / 8 < m.bytes.length
      · have := byteBits_take m.bytes (m.len / 8) 0 (by omega) hk
        rw [show 8 * (m.len / 8) + 0 = m.len by omega, List.take_zero, List.append_nil] at this
        exact this.symm
      · have := h.bytes
        rw [List.take_of_length_le (by omega), List.take_of_length_le (by rw [byteBits_length]; omega)]
    · have hk : m.len / 8 < m.bytes.length := by have := h.bytes; omega
      refine ⟨[(m.bytes.getD (m.len / 8) 0 / 2 ^ (8 - m.len % 8), m.len % 8)], ?_,
        Wide.cons (by omega) (by omega) Wide.nil, ?_⟩
      · rw [if_pos hr, at_getD 0 hk]; rfl
      · rw [fieldBits_cons, fieldBits_nil, List.append_nil,
          natBits_eight _ _ (by omega) (h.byte _ (getD_mem' _ _ _ hk)),
          ← byteBits_take m.bytes (m.len / 8) (m.len % 8) (by omega) hk, show 8 * (m.len / 8) + m.len % 8 = m.len by omega]
  unfold Writes mat matOf
  rw [b1]
  simp only [Res.ok_bind]
  rw [r1, en]
  simp only [Res.ok_bind]
  refine ⟨_, rfl, ?_, fun l => ?_⟩
  · exact (((escape_wide _ _ _ _ (by omega) (by omega) (by omega) hv).append hgw).append
      (escape_wide _ _ _ _ (by omega) (by omega) (by omega) hlen)).append b2 |>.append r2
  · simp only [fieldBits_append, List.append_assoc]
    unfold Spec.mat
    rw [run_escape _ _ _ _ (by omega) (by omega) (by omega) hv, show m.groups.length - 1 + 1 = m.groups.length by omega,
      run_bind, hgr _ _ _ h.gs]
    simp only [Res.ok_bind]
    rw [run_escape _ _ _ _ (by omega) (by omega) (by omega) hlen, ← List.append_assoc, b3, r3]
    have hl : ((byteBits m.bytes).take m.len).length = m.len := by
      rw [List.length_take, byteBits_length]; have := h.bytes; omega
    have := run_bits1 ((byteBits m.bytes).take m.len) 0 l
    rw [hl] at this
    rw [run_bind, this]
    rfl

/-- A downmix for the layout of the output within the limits of its fields. -/
structure DmxOk (target : Int) (d : Dmx) : Prop where
  id : d.id < 128
  type : d.type < 4
  layout : d.layout = target
  mats : d.type = 1 → 1 ≤ d.mats.length ∧ d.mats.length ≤ 8 ∧ ∀ m ∈ d.mats, MatOk m

def dmxOf (d : Dmx) : Spec.Dmx :=
  ⟨d.id, d.type, if d.type < 2 then d.layout.toNat else 0, if d.type = 1 then d.mats.map matOf else []⟩

theorem list_range {α β : Type} (xs : List α) (d : α) (f : α → β) :
    (List.range' 0 xs.length).map (fun i => f (xs.getD i d)) = xs.map f := by
  apply List.ext_getElem
  · simp
  · intro i h1 h2
    have : i < xs.length := by simpa using h1
    simp [List.getElem?_eq_getElem this]

theorem dmx_writes (target : Int) (ht0 : 0 ≤ target) (ht1 : target < 64) (d : Dmx) (h : DmxOk target d) :
    Writes (dmx target d) Spec.dmx (dmxOf d) := by
  have hid := h.id
  have hty := h.type
  unfold Writes dmx dmxOf
  rw [if_pos h.layout]
  by_cases h1 : d.type = 1
  · obtain ⟨m0, m1, m2⟩ := h.mats h1
    rw [if_pos h1, if_pos (by omega), if_pos h1]
    obtain ⟨ms, s1, s2, s3⟩ := rep_writes (fun i => do
        let m ← at_ d.mats i
        mat m) Spec.mat (fun i => matOf (d.mats.getD i ⟨[], 0, []⟩)) d.mats.length 0 0 (fun m _ hm => by
      rw [at_getD ⟨[], 0, []⟩ (by omega)]
      exact mat_writes _ (m2 _ (getD_mem' _ _ _ (by omega))))
    rw [list_range] at s3
    rw [s1]
    have en : (((d.mats.length : Int) - 1) % 2 ^ 32).toNat = d.mats.length - 1 := by omega
    have hv : d.mats.length - 1 ≤ escapeMax 1 3 0 := by
      have : escapeMax 1 3 0 = 8 := by decide
      omega
    rw [en]
    simp only [Res.ok_bind]
    refine ⟨_, rfl, ?_, fun l => ?_⟩
    · refine Wide.append (Wide.append (by wide) (escape_wide _ _ _ _ (by omega) (by omega) (Or.inr ?_) hv)) s2
      norm_num; omega
    · simp only [List.cons_append, List.nil_append, fieldBits_cons, fieldBits_word, fieldBits_append, List.append_assoc]
      unfold Spec.dmx
      rw [run_bits_bind _ _ _ _ (by omega) (by norm_num; omega), run_bits_bind _ _ _ _ (by omega) (by norm_num; omega), h1]
      simp only [optBits, Nat.one_lt_ofNat, decide_true, if_true]
      rw [run_word _ _ _ _ (by omega), run_escape _ _ _ _ (by omega) (by omega) (by omega) hv,
        show d.mats.length - 1 + 1 = d.mats.length by omega, Writes.bind_run s3,
        low_nonneg _ _ (by rw [h.layout]; exact ht0) (by rw [h.layout]; norm_num; omega)]
      rfl
  · rw [if_neg h1, if_neg h1]
    by_cases h0 : d.type = 0
    · rw [if_pos h0, if_pos (by omega)]
      refine ⟨_, rfl, by wide, fun l => ?_⟩
      simp only [fieldBits_cons, fieldBits_word, fieldBits_nil, List.append_assoc, List.nil_append]
      unfold Spec.dmx
      rw [run_bits_bind _ _ _ _ (by omega) (by norm_num; omega), run_bits_bind _ _ _ _ (by omega) (by norm_num; omega), h0]
      simp only [optBits, Nat.ofNat_pos, decide_true, if_true]
      rw [run_word _ _ _ _ (by omega),
        low_nonneg _ _ (by rw [h.layout]; exact ht0) (by rw [h.layout]; norm_num; omega)]
      rfl
    · rw [if_neg h0, if_neg (by omega)]
      refine ⟨_, rfl, by wide, fun l => ?_⟩
      simp only [fieldBits_cons, fieldBits_nil, List.append_assoc, List.nil_append]
      unfold Spec.dmx
      rw [run_bits_bind _ _ _ _ (by omega) (by norm_num; omega), run_bits_bind _ _ _ _ (by omega) (by norm_num; omega)]
      rw [show decide (d.type < 2) = false by simp; omega]
      simp only [optBits, Bool.false_eq_true, if_false, pure_bind]
      rw [if_neg h1]
      rfl

/-- A downmix configuration within the limits of its fields, all of it for the layout of the output. -/
structure DmxCfgOk (target : Int) (c : DmxCfg) : Prop where
  type : c.type ≤ 2
  passive : c.passive < 2
  phase : c.phase < 8
  immersive : c.immersive < 2
  num : c.ids.length < 32
  ids : ∀ d ∈ c.ids, DmxOk target d

def downmixOf (c : DmxCfg) : Spec.DmxCfg :=
  ⟨c.type, if c.type = 1 then 0 else c.passive, if c.type ≠ 1 ∧ c.passive = 0 then c.phase else 0,
    if c.type = 1 then 0 else c.immersive, if c.type = 0 then [] else c.ids.map dmxOf⟩

/-- **C269** (partial) When all downmixes are for the layout of the output, the receiver reads the
configuration with all downmixes and matrices. -/
theorem C269_downmix_partial (target : Int) (ht0 : 0 ≤ target) (ht1 : target < 64) (c : DmxCfg)
    (h : DmxCfgOk target c) : Writes (downmix c target) Spec.downmix (downmixOf c) := by
  have hp := h.passive
  have hph := h.phase
  have him := h.immersive
  have hn := h.num
  obtain ⟨ds, d1, d2, d3⟩ := rep_writes (fun i => do
      let d ← at_ c.ids i
      dmx target d) Spec.dmx (fun i => dmxOf (c.ids.getD i ⟨0, 0, 0, []⟩)) c.ids.length 0 0 (fun m _ hm => by
    rw [at_getD ⟨0, 0, 0, []⟩ (by omega)]
    exact dmx_writes target ht0 ht1 _ (h.ids _ (getD_mem' _ _ _ (by omega))))
  rw [list_range] at d3
  unfold Writes downmix downmixOf
  rw [d1]
  have hc : c.type = 0 ∨ c.type = 1 ∨ c.type = 2 := by have := h.type; omega
  rcases hc with e | e | e <;> rw [e] <;> (try simp only [true_or, or_true, if_true, Nat.reduceEqDiff, or_self, if_false,
    Res.ok_bind, Nat.zero_ne_one, Nat.one_ne_zero, or_false, false_or, ne_eq, not_true_eq_false, not_false_eq_true, true_and, false_and])
  · refine ⟨_, rfl, ?_, fun l => ?_⟩
    · split <;> wide
    · unfold Spec.downmix
      rw [fieldBits_cons, List.append_assoc, run_bits_mod _ _ _ _ (by omega)]
      rw [List.append_nil, fieldBits_cons, List.append_assoc]
      simp only [Nat.zero_mod, beq_self_eq_true, Bool.true_or, Bool.true_and, optBits, if_true]
      rw [run_bits_bind _ _ _ _ (by omega) (by norm_num; omega)]
      by_cases hq : c.passive = 0
      · rw [if_pos hq, if_pos hq, hq]
        simp only [beq_self_eq_true, if_true, List.cons_append, List.nil_append, fieldBits_cons, fieldBits_nil, List.append_assoc]
        rw [run_bits_bind _ _ _ _ (by omega) (by norm_num; omega), run_bits_bind _ _ _ _ (by omega) (by norm_num; omega)]
        rfl
      · rw [if_neg hq, if_neg hq]
        have : (c.passive == 0) = false := by simp [hq]
        simp only [this, Bool.false_eq_true, if_false, pure_bind, List.nil_append, fieldBits_cons, fieldBits_nil, List.append_assoc]
        rw [run_bits_bind _ _ _ _ (by omega) (by norm_num; omega)]
        rfl
  · refine ⟨_, rfl, ?_, fun l => ?_⟩
    · wide
    · unfold Spec.downmix
      rw [fieldBits_cons, List.append_assoc, run_bits_mod _ _ _ _ (by omega)]
      rw [List.nil_append, fieldBits_cons, List.append_assoc]
      simp only [Nat.reducePow, Nat.reduceMod, optBits, Nat.reduceBEq, Bool.or_self, Bool.false_and, Bool.false_eq_true, if_false, pure_bind,
        Bool.true_or, if_true]
      rw [run_bits_bind _ _ _ _ (by omega) (by norm_num; omega), Writes.bind_run d3]
      rfl
  · refine ⟨_, rfl, ?_, fun l => ?_⟩
    · split <;> wide
    · unfold Spec.downmix
      rw [fieldBits_cons, List.append_assoc, run_bits_mod _ _ _ _ (by omega)]
      rw [List.cons_append, fieldBits_cons, List.append_assoc]
      simp only [Nat.reducePow, Nat.reduceMod, optBits, Nat.reduceBEq, Bool.or_true, Bool.true_and, if_true]
      rw [run_bits_bind _ _ _ _ (by omega) (by norm_num; omega)]
      by_cases hq : c.passive = 0
      · rw [if_pos hq, if_pos hq, hq]
        simp only [beq_self_eq_true, if_true, List.cons_append, List.nil_append, fieldBits_cons, List.append_assoc]
        rw [run_bits_bind _ _ _ _ (by omega) (by norm_num; omega), run_bits_bind _ _ _ _ (by omega) (by norm_num; omega),
          run_bits_bind _ _ _ _ (by omega) (by norm_num; omega), Writes.bind_run d3]
        rfl
      · rw [if_neg hq, if_neg hq]
        have : (c.passive == 0) = false := by simp [hq]
        simp only [this, Bool.false_eq_true, if_false, pure_bind, List.cons_append, List.nil_append, fieldBits_cons, List.append_assoc]
        rw [run_bits_bind _ _ _ _ (by omega) (by norm_num; omega), run_bits_bind _ _ _ _ (by omega) (by norm_num; omega),
          Writes.bind_run d3]
        rfl

/-- Two downmixes, one of them with a matrix of 11 bits for two groups. -/
def dmxCase (second : Int) : DmxCfg :=
  ⟨1, 0, 0, 0, [⟨3, 1, 2, [⟨[0, 1], 11, [0xA5, 0xE0]⟩]⟩, ⟨4, 0, second, []⟩]⟩

example : DmxCfgOk 2 (dmxCase 2) := by
  refine ⟨by decide, by decide, by decide, by decide, by decide, ?_⟩
  intro d hd
  simp [dmxCase] at hd
  rcases hd with rfl | rfl
  · exact ⟨by decide, by decide, rfl, fun _ => ⟨by decide, by decide, fun m hm => by
      simp at hm; subst hm
      exact ⟨by decide, by decide, by decide, by decide, by decide, by decide⟩⟩⟩
  · exact ⟨by decide, by decide, rfl, fun h => by simp at h⟩

example : (downmix (dmxCase 2) 2).map (fun fs => (run Spec.downmix (fieldBits fs)).map (·.1)) =
    .ok (.ok ⟨1, 0, 0, 0, [⟨3, 1, 2, [([0, 1], [1, 0, 1, 0, 0, 1, 0, 1, 1, 1, 1])]⟩, ⟨4, 0, 2, []⟩]⟩) := by decide +kernel

/-- **C269** (refuted) When one of two downmixes is for another layout, two are announced and one is written. -/
theorem C269_refuted : ∃ fs, downmix (dmxCase 6) 2 = .ok fs ∧ fs[1]? = some (2, 5) ∧
    run Spec.downmix (fieldBits fs) = .jump := by
  refine ⟨[(1, 2), (2, 5), (3, 7), (1, 2), (2, 6), (0, 1), (1, 1), (0, 4), (0, 5), (1, 5), (11, 8), (165, 8), (7, 3)], ?_, ?_, ?_⟩ <;>
    decide +kernel

/-! ### Samples -/

/-- The nearest number of 24 bits to `256 x`, rounding towards 0. -/
def sampleOf (x : Rat) : Int := max (min (Pcm.truncZ (x * 256)) 8388607) (-8388608)

theorem trunc_bounds (y : Rat) (m : Int) (hm : 0 ≤ m) (h0 : -(m : Rat) - 1 < y) (h1 : y < m + 1) :
    -m ≤ Pcm.truncZ y ∧ Pcm.truncZ y ≤ m := by
  unfold Pcm.truncZ
  split
  · rename_i h
    have a : 0 ≤ ⌊y⌋ := Int.floor_nonneg.mpr h
    have b : ⌊y⌋ < m + 1 := Int.floor_lt.mpr (by push_cast; linarith)
    omega
  · rename_i h
    have a : ⌈y⌉ ≤ 0 := Int.ceil_le.mpr (by push_cast; linarith)
    have b : -m - 1 < ⌈y⌉ := Int.lt_ceil.mpr (by push_cast; linarith)
    omega

theorem bytes24 (v : Int) (h0 : -8388608 ≤ v) (h1 : v ≤ 8388607) :
    Spec.sample24 [(v % 256).toNat, (v / 256 % 256).toNat, (v / 65536 % 256).toNat] = v := by
  have a0 : 0 ≤ v % 256 ∧ v % 256 < 256 := by omega
  have a1 : 0 ≤ v / 256 % 256 ∧ v / 256 % 256 < 256 := by omega
  have a2 : 0 ≤ v / 65536 % 256 ∧ v / 65536 % 256 < 256 := by omega
  unfold Spec.sample24 Spec.signed
  have e : (((v % 256).toNat + 256 * (v / 256 % 256).toNat + 65536 * (v / 65536 % 256).toNat : Nat) : Int) = v % 16777216 := by
    push_cast
    rw [Int.toNat_of_nonneg a0.1, Int.toNat_of_nonneg a1.1, Int.toNat_of_nonneg a2.1]
    omega
  norm_num
  rw [max_eq_left a0.1, max_eq_left a1.1, max_eq_left a2.1]
  split <;> omega

theorem pcm_ok (x : Rat) (h0 : -8388608 < x) (h1 : x < 8388608) :
    ∃ bs, pcm x = .ok bs ∧ bs.length = 3 ∧ (∀ b ∈ bs, b < 256) ∧ Spec.sample24 bs = sampleOf x := by
  have hb := trunc_bounds (x * 256) 2147483647 (by norm_num) (by push_cast; linarith) (by push_cast; linarith)
  unfold pcm
  have hc : Pcm.castInt 32 (x * 256) = .ok (Pcm.truncZ (x * 256)) := by
    unfold Pcm.castInt
    rw [if_pos]
    constructor <;> norm_num <;> omega
  rw [hc]
  simp only [Res.ok_bind]
  refine ⟨_, rfl, rfl, ?_, ?_⟩
  · intro b hb'
    simp only [List.mem_cons, List.not_mem_nil, or_false] at hb'
    rcases hb' with rfl | rfl | rfl <;> omega
  · rw [bytes24 _ (by unfold max24 min24; omega) (by unfold max24 min24; omega)]
    rfl

/-- Three bytes at a time. -/
def split3 : List Nat → List Int
  | a :: b :: c :: r => Spec.sample24 [a, b, c] :: split3 r
  | _ => []

theorem split3_append (bs r : List Nat) (h : bs.length = 3) : split3 (bs ++ r) = Spec.sample24 bs :: split3 r := by
  obtain ⟨a, b, c, rfl⟩ : ∃ a b c, bs = [a, b, c] := by
    match bs, h with
    | [a, b, c], _ => exact ⟨a, b, c, rfl⟩
  rfl

theorem pcmTime_ok (rows : List (List Rat)) (t : Nat) (hx : ∀ r ∈ rows, ∀ x ∈ r, -8388608 < x ∧ x < 8388608)
    (hl : ∀ r ∈ rows, t < r.length) (k ch : Nat) (hk : ch + k ≤ rows.length) :
    ∃ bs, pcmTime rows t k ch = .ok bs ∧ (∀ b ∈ bs, b < 256) ∧ ∀ r, split3 (bs ++ r) =
      (((rows.drop ch).take k).map fun row => sampleOf (row.getD t 0)) ++ split3 r := by
  induction k generalizing ch with
  | zero => exact ⟨[], rfl, by simp, fun r => by simp⟩
  | succ k ih =>
    obtain ⟨bs, b1, bb, b2⟩ := ih (ch + 1) (by omega)
    have hc : ch < rows.length := by omega
    have hm := List.getElem_mem hc
    have ht := hl _ hm
    obtain ⟨h0, h1⟩ := hx _ hm _ (getD_mem' rows[ch] 0 t ht)
    obtain ⟨a, a1, a2, aa, a3⟩ := pcm_ok _ h0 h1
    refine ⟨a ++ bs, ?_, ?_, fun r => ?_⟩
    · unfold pcmTime
      rw [at_some (List.getElem?_eq_getElem hc)]
      simp only [Res.ok_bind]
      rw [at_getD 0 ht]
      simp only [Res.ok_bind]
      rw [a1, b1]
      rfl
    · intro b hb
      rcases List.mem_append.mp hb with h | h
      · exact aa b h
      · exact bb b h
    · rw [List.append_assoc, split3_append _ _ a2, b2, a3, List.drop_eq_getElem_cons hc, List.take_succ_cons]
      rfl

/-- **C270** (partial) For samples below 2^23 in size, the bytes of the interface hold for every time, and
within it for every channel, the sample in 24 bits, limited to their range. -/
theorem C270_samples_partial (rows : List (List Rat)) (k t : Nat)
    (hx : ∀ r ∈ rows, ∀ x ∈ r, -8388608 < x ∧ x < 8388608) (hl : ∀ r ∈ rows, t + k ≤ r.length) :
    ∃ bs, pcmLoop rows rows.length k t = .ok bs ∧ (∀ b ∈ bs, b < 256) ∧ split3 bs =
      (List.range' t k).flatMap fun s => rows.map fun row => sampleOf (row.getD s 0) := by
  induction k generalizing t with
  | zero => exact ⟨[], rfl, by simp, rfl⟩
  | succ k ih =>
    obtain ⟨bs, b1, bb, b2⟩ := ih (t + 1) (fun r hr => by have := hl r hr; omega)
    obtain ⟨a, a1, aa, a2⟩ := pcmTime_ok rows t hx (fun r hr => by have := hl r hr; omega) rows.length 0 (by omega)
    refine ⟨a ++ bs, ?_, ?_, ?_⟩
    · unfold pcmLoop
      rw [a1, b1]
      rfl
    · intro b hb
      rcases List.mem_append.mp hb with h | h
      · exact aa b h
      · exact bb b h
    · rw [a2, b2, List.drop_zero, List.take_length, List.range'_succ, List.flatMap_cons]

example : pcmLoop [[1, -1], [2, 40000]] 2 2 0 =
    .ok [0, 1, 0, 0, 2, 0, 0, 255, 255, 255, 255, 127] := by decide +kernel
example : split3 [0, 1, 0, 0, 2, 0, 0, 255, 255, 255, 255, 127] = [256, 512, -256, 8388607] := by decide

/-- **C270** (refuted) A sample of 2^23 or more is converted to a number of 32 bits before it is limited. -/
theorem C270_refuted (x : Rat) (h : 8388608 ≤ x) : pcm x = .ub := by
  unfold pcm Pcm.castInt
  rw [if_neg]
  · rfl
  · intro hc
    have h1 := hc.2
    unfold Pcm.truncZ at h1
    rw [if_pos (by linarith)] at h1
    have : (2147483648 : Int) ≤ ⌊x * 256⌋ := Int.le_floor.mpr (by push_cast; linarith)
    norm_num at h1
    omega

end Verif.ExtRend
