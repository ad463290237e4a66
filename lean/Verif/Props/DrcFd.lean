import Verif.Props.DrcTd
import Verif.Props.DrcWeights

/-! # C147: gains are applied to subbands -/

namespace Verif.DrcApply

open DrcConfig DrcSel Res

section

variable {q : Par} {x : Inst} {gains : List (Nat → Rat)} (h : Shape q x gains)

include h

theorem Shape.slotGain_ok {g b t : Nat} (hg : g < x.o.groups) (hb : b < bands x.o g) (ht : t < q.frame / 256) :
    slotGain q gains (firstGain x.o g + b) t = .ok (gainAt q x.o gains g b (256 * t + 127)) := by
  have h1 := firstGain_mono x.o (show g + 1 ≤ x.o.groups by omega)
  rw [firstGain_succ] at h1
  have h2 := h.gains
  have hw := h.window
  unfold origin at hw
  unfold slotGain at_
  rw [List.getElem?_eq_getElem (by omega), ok_bind]
  simp only
  rw [if_neg (by omega)]
  unfold gainAt origin
  rw [List.getElem?_eq_getElem (by omega), Nat.mul_comm t 256]
  rfl

theorem Shape.bandGain_ok {ws : List (List (Nat → Rat))} {w : List (Nat → Rat)} {g t : Nat} (hg : g < x.o.groups)
    (hw : ws[g]? = some w) (hl : bands x.o g ≤ w.length) (ht : t < q.frame / 256) :
    Does (bandGain q gains ws g (firstGain x.o g) (bands x.o g) t) fun v => ∀ k, v k =
      ((List.range (bands x.o g)).map fun b => ((w[b]?).getD fun _ => 0) k * gainAt q x.o gains g b (256 * t + 127)).sum := by
  unfold bandGain
  refine does_range (I := fun n (v : Nat → Rat) => ∀ k, v k =
    ((List.range n).map fun b => ((w[b]?).getD fun _ => 0) k * gainAt q x.o gains g b (256 * t + 127)).sum) ?_ (fun k => rfl)
  intro b hb v hv
  rw [h.slotGain_ok hg hb ht, ok_bind]
  refine Does.bind (does_at' hw) fun y hy => ?_
  subst hy
  refine Does.bind (does_at (show b < y.length by omega)) fun r hr => Does.ok fun k => ?_
  rw [hv k, List.range_succ, List.map_append, List.sum_append, List.map_singleton, List.sum_singleton, hr]
  simp

theorem Shape.subbandStep_ok {ws : List (List (Nat → Rat))} (hws : HasWeights x.o ws) {gi : List Nat}
    (hgi : ∀ g < x.o.groups, gi[g]? = some (firstGain x.o g)) {ch : Nat} (hch : ch < q.chans) (s : Buf × Buf) :
    Does (subbandStep q x.o gains gi ws ch s) fun r => ∀ c j,
      r.1 c j = (if c = ch then realOut q x.o gains ws s.1 c j else s.1 c j) ∧
      r.2 c j = (if c = ch then imagOut q x.o gains ws s.2 c j else s.2 c j) := by
  have hcs := h.chans
  have hlen := h.length
  have hgr := h.groups.1
  unfold subbandStep
  rw [at_group (by omega), ok_bind]
  by_cases hg : group x.o ch < 0
  · rw [if_pos hg]
    refine Does.ok fun c j => ?_
    unfold realOut imagOut
    by_cases hc : c = ch
    · subst hc
      rw [if_pos rfl, if_pos rfl, if_neg (by omega), if_neg (by omega)]
      exact ⟨rfl, rfl⟩
    · rw [if_neg hc, if_neg hc]
      exact ⟨rfl, rfl⟩
  · rw [if_neg hg]
    have hlt := h.group_lt (by omega) hg
    have hcnt := h.count _ hlt
    refine (does_eachAll (I := fun (pre : List Nat) (r : Buf × Buf) => ∀ c j,
      (r.1 c j = if c = ch ∧ j / 256 ∈ pre then s.1 c j * subGain q x.o gains ws (group x.o ch).toNat (j / 256) (j % 256) else s.1 c j) ∧
      (r.2 c j = if c = ch ∧ j / 256 ∈ pre then
        s.2 c j * subGain q x.o gains ws (group x.o ch).toNat (j / 256) (if j % 256 = 0 then 255 else j % 256) else s.2 c j)) ?_ ?_).mono ?_
    · intro pre t post he r hr
      have hnd : (List.range (q.frame / 256)).reverse.Nodup := List.nodup_reverse.mpr List.nodup_range
      rw [he] at hnd
      have hnot : t ∉ pre := by
        intro hm
        have := (List.nodup_append.mp hnd).2.2
        exact this t hm t (by simp) rfl
      have ht : t < q.frame / 256 := by
        have : t ∈ (List.range (q.frame / 256)).reverse := by rw [he]; simp
        simpa using this
      rw [at_bands (by omega), ok_bind]
      refine Does.bind (does_at' (hgi _ hlt)) fun e he' => ?_
      subst he'
      have hstep : ∀ (v : Nat → Rat) (packed : Bool), (∀ k, v k = subGain q x.o gains ws (group x.o ch).toNat t k) →
          (packed = false → ∀ k k', v k = v k') → ∀ c j,
          ((mulSlot packed ch t v r).1 c j = if c = ch ∧ j / 256 ∈ pre ++ [t] then
            s.1 c j * subGain q x.o gains ws (group x.o ch).toNat (j / 256) (j % 256) else s.1 c j) ∧
          ((mulSlot packed ch t v r).2 c j = if c = ch ∧ j / 256 ∈ pre ++ [t] then
            s.2 c j * subGain q x.o gains ws (group x.o ch).toNat (j / 256) (if j % 256 = 0 then 255 else j % 256) else s.2 c j) := by
        intro v packed hv hp c j
        obtain ⟨e1, e2⟩ := hr c j
        unfold mulSlot
        simp only
        by_cases hc : c = ch
        · by_cases hj : j / 256 = t
          · have hin : c = ch ∧ j / 256 ∈ pre ++ [t] := ⟨hc, by simp [hj]⟩
            have hout : ¬ (c = ch ∧ j / 256 ∈ pre) := by rw [hj]; exact fun x => hnot x.2
            rw [if_neg hout] at e1 e2
            constructor
            · rw [if_pos ⟨hc, hj⟩, if_pos hin, e1, hj, hv]
            · rw [if_pos ⟨hc, hj⟩, if_pos hin, e2, hj]
              cases packed with
              | true => simp only [true_and]; rw [hv]
              | false =>
                rw [hp rfl (if false = true ∧ j % 256 = 0 then 255 else j % 256) (if j % 256 = 0 then 255 else j % 256), hv]
          · rw [if_neg (show ¬ (c = ch ∧ j / 256 = t) by simp [hj]), if_neg (show ¬ (c = ch ∧ j / 256 = t) by simp [hj]), e1, e2]
            simp [hj]
        · rw [if_neg (show ¬ (c = ch ∧ j / 256 = t) by simp [hc]), if_neg (show ¬ (c = ch ∧ j / 256 = t) by simp [hc]), e1, e2]
          simp [hc]
      by_cases hn : bands x.o (group x.o ch).toNat ≤ 1
      · rw [if_pos hn]
        have hs := h.slotGain_ok (t := t) hlt (show 0 < bands x.o (group x.o ch).toNat by omega) ht
        rw [Nat.add_zero] at hs
        rw [hs, ok_bind]
        refine Does.ok (hstep _ false ?_ fun _ _ _ => rfl)
        intro k
        unfold subGain
        rw [if_pos (by omega)]
      · rw [if_neg hn]
        obtain ⟨w, hw, hl⟩ := hws _ hlt (by omega)
        refine Does.bind (h.bandGain_ok hlt hw hl ht) fun v hv => Does.ok (hstep v true ?_ (by simp))
        intro k
        unfold subGain
        rw [hv k, if_neg (by omega), hw]
        rfl
    · intro c j
      simp
    · intro r hr c j
      obtain ⟨e1, e2⟩ := hr c j
      rw [e1, e2]
      unfold realOut imagOut
      by_cases hc : c = ch
      · subst hc
        rw [if_pos rfl, if_pos rfl]
        by_cases hj : j / 256 < q.frame / 256
        · have hin : c = c ∧ j / 256 ∈ (List.range (q.frame / 256)).reverse := ⟨rfl, by simpa using hj⟩
          have hin' : c < q.chans ∧ 0 ≤ group x.o c ∧ j / 256 < q.frame / 256 := ⟨hch, by omega, hj⟩
          constructor
          · rw [if_pos hin, if_pos hin']
          · rw [if_pos hin, if_pos hin']
        · have hout : ¬ (c = c ∧ j / 256 ∈ (List.range (q.frame / 256)).reverse) := by simpa using hj
          constructor
          · rw [if_neg hout, if_neg (by simp [hj])]
          · rw [if_neg hout, if_neg (by simp [hj])]
      · have hout : ¬ (c = ch ∧ j / 256 ∈ (List.range (q.frame / 256)).reverse) := by simp [hc]
        rw [if_neg hout, if_neg hout, if_neg hc, if_neg hc]
        exact ⟨rfl, rfl⟩

theorem Shape.fdSet_ok {ws : List (List (Nat → Rat))} (hws : HasWeights x.o ws) (s : Buf × Buf) :
    Does (fdSet q true ws x gains s) fun r => r = (realOut q x.o gains ws s.1, imagOut q x.o gains ws s.2) := by
  have hcs := h.chans
  unfold fdSet
  rw [if_neg (by simp), if_pos h.id]
  obtain ⟨gi, hgi, hgi'⟩ := h.gainIdx_ok
  rw [hgi, ok_bind, if_neg (by omega)]
  refine (does_range (I := fun n (r : Buf × Buf) => ∀ c j,
    r.1 c j = (if c < n then realOut q x.o gains ws s.1 c j else s.1 c j) ∧
    r.2 c j = (if c < n then imagOut q x.o gains ws s.2 c j else s.2 c j)) ?_ ?_).mono ?_
  · intro n hn r hr
    refine (h.subbandStep_ok hws hgi' hn r).mono fun r' hr' c j => ?_
    obtain ⟨e1, e2⟩ := hr' c j
    rw [e1, e2]
    by_cases hc : c = n
    · subst hc
      rw [if_pos rfl, if_pos rfl, if_pos (by omega), if_pos (by omega)]
      have h1 : r.1 c j = s.1 c j := by rw [(hr c j).1, if_neg (by omega)]
      have h2 : r.2 c j = s.2 c j := by rw [(hr c j).2, if_neg (by omega)]
      unfold realOut imagOut
      rw [h1, h2]
      exact ⟨rfl, rfl⟩
    · rw [if_neg hc, if_neg hc, (hr c j).1, (hr c j).2]
      by_cases hlt : c < n
      · rw [if_pos hlt, if_pos hlt, if_pos (by omega), if_pos (by omega)]
        exact ⟨rfl, rfl⟩
      · rw [if_neg hlt, if_neg hlt, if_neg (by omega), if_neg (by omega)]
        exact ⟨rfl, rfl⟩
  · intro c j
    simp
  · intro r hr
    refine Prod.ext ?_ ?_
    · funext c j
      rw [(hr c j).1]
      by_cases hc : c < q.chans
      · rw [if_pos hc]
      · rw [if_neg hc]
        simp only [realOut]
        rw [if_neg (by simp [hc])]
    · funext c j
      rw [(hr c j).2]
      by_cases hc : c < q.chans
      · rw [if_pos hc]
      · rw [if_neg hc]
        simp only [imagOut]
        rw [if_neg (by simp [hc])]

end

/-- **C147**: subband domain: active sets are applied one after the other, from last to first, and nothing is read or
written outside its buffer.  Each multiplies every subband of a slot of a channel with the gains of its group, which
are those of the middle of the slot, summed with the weights. -/
theorem C147_subbands (q : Par) (ws : List (List (Nat → Rat))) (sets : List (Inst × List (Nat → Rat)))
    (h : ∀ y ∈ sets, Shape q y.1 y.2 ∧ HasWeights y.1.o ws) (s : Buf × Buf) :
    fdProcess q true ws sets s = .ok
      (sets.foldr (fun y a => realOut q y.1.o y.2 ws a) s.1, sets.foldr (fun y a => imagOut q y.1.o y.2 ws a) s.2) := by
  unfold fdProcess
  have : ∀ l : List (Inst × List (Nat → Rat)), (∀ y ∈ l, y ∈ sets) → ∀ s : Buf × Buf,
      each (fun (x : Inst × List (Nat → Rat)) s => fdSet q true ws x.1 x.2 s) l s =
        .ok (l.foldl (fun a y => realOut q y.1.o y.2 ws a) s.1, l.foldl (fun a y => imagOut q y.1.o y.2 ws a) s.2) := by
    intro l
    induction l with
    | nil => intro _ s; rfl
    | cons y l ih =>
      intro hl s
      unfold each
      obtain ⟨h1, h2⟩ := h y (hl y (by simp))
      obtain ⟨r, hr, hq⟩ := h1.fdSet_ok h2 s
      rw [hr, ok_bind, hq, ih fun z hz => hl z (by simp [hz])]
      rfl
  rw [this sets.reverse (by simp) s, List.foldl_reverse, List.foldl_reverse]

theorem sum_const (rows : List (Nat → Rat)) (k : Nat) (v : Rat) (f : Nat → Rat) (hf : ∀ b < rows.length, f b = v) :
    ((List.range rows.length).map fun b => ((rows[b]?).getD fun _ => 0) k * f b).sum = (rows.map (· k)).sum * v := by
  induction rows using List.reverseRecOn with
  | nil => simp
  | append_singleton rows r ih =>
    rw [List.length_append, List.length_singleton, List.range_succ, List.map_append, List.sum_append, List.map_append,
      List.sum_append, add_mul, ← ih fun b hb => hf b (by simp; omega)]
    congr 1
    · refine congrArg List.sum (List.map_congr_left fun b hb => ?_)
      rw [List.mem_range] at hb
      rw [List.getElem?_append_left hb]
    · simp [hf rows.length (by simp)]

/-- With weights that are a partition and the same gain in all bands, subbands are multiplied with this gain. -/
theorem C147_flat (q : Par) (o : Instr) (gains : List (Nat → Rat)) (ws : List (List (Nat → Rat))) {g t k : Nat} {v : Rat}
    {w : List (Nat → Rat)} (hw : ws[g]? = some w) (hl : w.length = bands o g) (hp : Partition w) (hk : k < 256)
    (hv : ∀ b < bands o g, gainAt q o gains g b (256 * t + 127) = v) : subGain q o gains ws g t k = v := by
  unfold subGain
  split
  · rename_i h1
    exact hv 0 (by omega)
  · rw [hw, ← hl]
    simp only [Option.getD_some]
    rw [sum_const w k v _ (by rw [hl]; exact hv), (hp k hk).1, one_mul]

example : Shape ⟨256, false, 1024, 2, 0, 3⟩ twoBands [fun _ => 1 / 2, fun _ => 1 / 4] ∧
    HasWeights twoBands.o [[fun k => if k < 100 then 1 else 0, fun k => if k < 100 then 0 else 1]] := by
  refine ⟨twoBands_fits.toShape, fun g hg _ => ?_⟩
  match g with
  | 0 => exact ⟨_, rfl, by decide⟩
  | g + 1 => simp [twoBands] at hg

/-- Subbands from 100 on have the gain of the second band. -/
example : subGain ⟨256, false, 1024, 2, 0, 3⟩ twoBands.o [fun _ => 1 / 2, fun _ => 1 / 4]
    [[fun k => if k < 100 then 1 else 0, fun k => if k < 100 then 0 else 1]] 0 2 100 = 1 / 4 := by
  simp [subGain, bands, twoBands, gainAt, firstGain, List.range_succ]

end Verif.DrcApply
