import Mathlib.Tactic.Positivity
import Mathlib.Order.Monotone.Defs
import Verif.Props.DrcCurve
import Verif.Props.DrcSafe

/-! # C106-C110: DRC gains in all frames -/

namespace Verif.DrcGain

open Prog

/-! ## No access outside the gain buffers -/

/-- The decoder state is in order: arrays have their sizes, once gains are applied all nodes are usable,
the gain elements refer to bands that exist, the node carried over lies in the frame before the next
one. -/
structure Good (sets : List GainSet) (st : St) : Prop where
  dims : Dims st.seqs
  fine : st.apply = true → AllFine sets st.seqs sets.length
  elem : ∀ q ∈ st.sets, ∀ x ∈ q, ∃ g, sets[x.1.set]? = some g ∧ x.1.band < g.live
  str : ∀ q ∈ st.sets, ∀ x ∈ q, -1024 ≤ x.2.str.time ∧ x.2.str.time < 1024

theorem interpolate_ne (gains : Int → Rat) (base dur : Int) (a b : Rat) (h : 0 ≤ base) (h2 : base + dur < 3584) :
    interpolate gains base dur a b ≠ .ub := by
  unfold interpolate
  split
  · simp
  · rw [if_neg (by unfold bufSize; omega)]
    simp

theorem segments_safe (lin : Int → Rat) (cs : List Node) (prev : Node) (gains : Int → Rat)
    (hp : -2560 ≤ prev.time) (hc : ∀ c ∈ cs, -1024 ≤ c.time ∧ c.time < 1024) :
    segments lin cs prev gains ≠ .ub := by
  induction cs generalizing prev gains with
  | nil => simp [segments]
  | cons c cs ih =>
    have h1 := hc c (by simp)
    rw [segments]
    intro h
    rw [Res.bind_eq_ub] at h
    rcases h with h | ⟨r, hr, h⟩
    · exact interpolate_ne _ _ _ _ _ (by omega) (by omega) h
    · cases r with
      | none => simp at h
      | some g => exact ih c g (by omega) (fun x hx => hc x (by simp [hx])) h

theorem lastPt_mem (p : Node) (lin : Int → Rat) (cs : List Node) (h : cs ≠ []) :
    ∃ c, cs.getLast? = some c ∧ lastPt (pt lin p) (cs.map (pt lin)) = pt lin c := by
  induction cs generalizing p with
  | nil => exact absurd rfl h
  | cons c cs ih =>
    cases cs with
    | nil => exact ⟨c, rfl, rfl⟩
    | cons c2 cs =>
      obtain ⟨d, h1, h2⟩ := ih c (by simp)
      exact ⟨d, by rw [List.getLast?_cons_cons]; exact h1, h2⟩

theorem Fine.ne_nil {s : Spline} (h : Fine s) : s.nodes.take s.n.toNat ≠ [] := by
  have h1 := h.pos
  have h2 := h.len
  intro he
  rcases List.take_eq_nil_iff.mp he with h0 | h0
  · omega
  · rw [h0] at h2
    simp at h2

theorem concat_safe (lin : Int → Rat) (s : Spline) (hs : Fine s) (b : Buf) (hb : -1024 ≤ b.str.time) :
    concat lin s (advance b) ≠ .ub ∧ ∀ ok b', concat lin s (advance b) = .ok (ok, b') →
      (ok = true → 0 ≤ b'.str.time ∧ b'.str.time < 1024) ∧ (ok = false → b'.str = b.str) := by
  have hl := hs.len
  have h32 := hs.le
  have h1 := hs.pos
  have hsafe := segments_safe lin (s.nodes.take s.n.toNat) (advance b).prev (advance b).gains
    (by simp only [advance]; omega) hs.time
  unfold concat
  rw [if_neg (by omega)]
  refine ⟨fun h => ?_, fun ok b' h => ?_⟩
  · rw [Res.bind_eq_ub] at h
    rcases h with h | ⟨r, _, h⟩
    · exact hsafe h
    · split at h <;> simp at h
  · rw [Res.bind_eq_ok] at h
    obtain ⟨⟨o, last, g⟩, hseg, h⟩ := h
    dsimp only at h
    cases o with
    | false =>
      rw [if_neg (by simp)] at h
      simp only [Res.ok.injEq, Prod.mk.injEq] at h
      obtain ⟨rfl, rfl⟩ := h
      exact ⟨by simp, fun _ => rfl⟩
    | true =>
      rw [if_pos rfl, if_neg (by omega)] at h
      simp only [Res.ok.injEq, Prod.mk.injEq] at h
      obtain ⟨rfl, rfl⟩ := h
      refine ⟨fun _ => ?_, by simp⟩
      obtain ⟨_, hlast, hlt, _⟩ := segments_ok lin _ _ _ _ _ hseg
      obtain ⟨c, hc, hl2⟩ := lastPt_mem (advance b).prev lin _ hs.ne_nil
      rw [hl2] at hlast
      simp only [pt, Prod.mk.injEq] at hlast
      have := hs.last c hc
      have := hlt hs.ne_nil
      dsimp only
      omega

/-- A relation between the gain elements before and after a frame. -/
def Stepped (seqs : List (List Spline)) (es es' : List (Elem × Buf)) : Prop :=
  ∀ y ∈ es', ∃ x ∈ es, y.1 = x.1 ∧ (y.2.str = x.2.str ∨ (0 ≤ y.2.str.time ∧ y.2.str.time < 1024))

theorem elemLoop_safe (seqs : List (List Spline)) (es : List (Elem × Buf))
    (h : ∀ x ∈ es, (∃ s, splineAt seqs x.1 = .ok s ∧ Fine s) ∧ -1024 ≤ x.2.str.time) :
    getGain seqs es ≠ .ub ∧ ∀ ok es', getGain seqs es = .ok (ok, es') → Stepped seqs es es' := by
  unfold getGain
  induction es with
  | nil => exact ⟨by simp [elemLoop], fun ok es' h => by simp [elemLoop] at h; simp [h.2, Stepped]⟩
  | cons x es ih =>
    obtain ⟨e, b⟩ := x
    obtain ⟨⟨s, hsp, hs⟩, hb⟩ := h (e, b) (by simp)
    obtain ⟨ih1, ih2⟩ := ih fun x hx => h x (by simp [hx])
    obtain ⟨c1, c2⟩ := concat_safe e.lin s hs b hb
    dsimp only at hsp
    rw [List.map_cons, elemLoop]
    dsimp only
    rw [hsp, Res.ok_bind]
    refine ⟨fun hu => ?_, fun ok es' ho => ?_⟩
    · rw [Res.bind_eq_ub] at hu
      rcases hu with hu | ⟨r, _, hu⟩
      · exact c1 hu
      · split at hu
        · rw [Res.bind_eq_ub] at hu
          rcases hu with hu | ⟨t, _, hu⟩
          · exact ih1 hu
          · simp at hu
        · simp at hu
    · rw [Res.bind_eq_ok] at ho
      obtain ⟨⟨o, b'⟩, hc, ho⟩ := ho
      obtain ⟨hc1, hc2⟩ := c2 o b' hc
      cases o with
      | false =>
        rw [if_neg (by simp)] at ho
        simp only [Res.ok.injEq, Prod.mk.injEq] at ho
        intro y hy
        rw [← ho.2] at hy
        rcases List.mem_cons.mp hy with rfl | hy
        · exact ⟨(e, b), by simp, rfl, Or.inl (hc2 rfl)⟩
        · obtain ⟨x, hx, rfl⟩ := List.mem_map.mp hy
          exact ⟨x, by simp [hx], rfl, Or.inl rfl⟩
      | true =>
        rw [if_pos rfl, Res.bind_eq_ok] at ho
        obtain ⟨t, ht, ho⟩ := ho
        simp only [Res.ok.injEq, Prod.mk.injEq] at ho
        intro y hy
        rw [← ho.2] at hy
        rcases List.mem_cons.mp hy with rfl | hy
        · exact ⟨(e, b), by simp, rfl, Or.inr (hc1 rfl)⟩
        · obtain ⟨x, hx, hxy⟩ := ih2 t.1 t.2 ht y hy
          exact ⟨x, by simp [hx], hxy⟩

theorem setLoop_safe (seqs : List (List Spline)) (ss : List (List (Elem × Buf)))
    (h : ∀ q ∈ ss, ∀ x ∈ q, (∃ s, splineAt seqs x.1 = .ok s ∧ Fine s) ∧ -1024 ≤ x.2.str.time) :
    setLoop seqs ss ≠ .ub ∧ ∀ ok ss', setLoop seqs ss = .ok (ok, ss') → ∀ q' ∈ ss', ∃ q ∈ ss, Stepped seqs q q' := by
  induction ss with
  | nil => exact ⟨by simp [setLoop], fun ok es' h => by simp [setLoop] at h; simp [h.2]⟩
  | cons q ss ih =>
    obtain ⟨ih1, ih2⟩ := ih fun x hx => h x (by simp [hx])
    obtain ⟨c1, c2⟩ := elemLoop_safe seqs q (h q (by simp))
    rw [setLoop]
    refine ⟨fun hu => ?_, fun ok ss' ho => ?_⟩
    · rw [Res.bind_eq_ub] at hu
      rcases hu with hu | ⟨r, _, hu⟩
      · exact c1 hu
      · split at hu
        · rw [Res.bind_eq_ub] at hu
          rcases hu with hu | ⟨t, _, hu⟩
          · exact ih1 hu
          · simp at hu
        · simp at hu
    · rw [Res.bind_eq_ok] at ho
      obtain ⟨⟨o, q1⟩, hc, ho⟩ := ho
      have hst := c2 o q1 hc
      have same : ∀ q, Stepped seqs q q := fun q y hy => ⟨y, hy, rfl, Or.inl rfl⟩
      cases o with
      | false =>
        rw [if_neg (by simp)] at ho
        simp only [Res.ok.injEq, Prod.mk.injEq] at ho
        intro y hy
        rw [← ho.2] at hy
        rcases List.mem_cons.mp hy with rfl | hy
        · exact ⟨q, by simp, hst⟩
        · exact ⟨y, by simp [hy], same y⟩
      | true =>
        rw [if_pos rfl, Res.bind_eq_ok] at ho
        obtain ⟨t, ht, ho⟩ := ho
        simp only [Res.ok.injEq, Prod.mk.injEq] at ho
        intro y hy
        rw [← ho.2] at hy
        rcases List.mem_cons.mp hy with rfl | hy
        · exact ⟨q, by simp, hst⟩
        · obtain ⟨x, hx, hxy⟩ := ih2 t.1 t.2 ht y hy
          exact ⟨x, by simp [hx], hxy⟩

theorem spline_fine {sets : List GainSet} {seqs : List (List Spline)} (h : AllFine sets seqs sets.length) {e : Elem}
    (he : ∃ g, sets[e.set]? = some g ∧ e.band < g.live) : ∃ s, splineAt seqs e = .ok s ∧ Fine s := by
  obtain ⟨g, hg, hb⟩ := he
  have hlt : e.set < sets.length := by
    by_contra hc
    rw [List.getElem?_eq_none (by omega)] at hg
    simp at hg
  obtain ⟨q, s, h1, h2, h3⟩ := h e.set g hlt hg e.band hb
  exact ⟨s, by simp [splineAt, h1, h2], h3⟩

/-- One frame from a state in order: nothing undefined happens, and unless the payload was refused the
state is in order again. -/
theorem frame_safe (p : Par) (hp : Timed p) (sets : List GainSet) (hS : Sets sets) (payload : List Bool) (st : St)
    (h : Good sets st) : frame p sets payload st ≠ .ub ∧
      ∀ o st', frame p sets payload st = .ok (o, st') → o ≠ .badPayload →
        Good sets st' ∧ (st'.apply = true → AllFine sets st'.seqs sets.length) ∧
          (st'.apply = (st.apply || !payload.isEmpty)) := by
  have key : ∀ r : Parsed × List Bool, (if payload = [] then Res.ok (Parsed.mk false st.seqs, [])
      else run (readGain p sets st.seqs) payload) = .ok r → Dims r.1.seqs ∧
        (r.1.bad = false → (st.apply || !payload.isEmpty) = true → AllFine sets r.1.seqs sets.length) := by
    intro r hr
    split at hr
    · rename_i he
      simp only [Res.ok.injEq] at hr
      subst hr
      exact ⟨h.dims, fun _ ha => h.fine (by simpa [he] using ha)⟩
    · obtain ⟨h1, h2⟩ := (readGain_safe p hp sets hS st.seqs h.dims payload).2 r.1 r.2 hr
      exact ⟨h1, fun hb _ => h2 hb⟩
  unfold frame
  refine ⟨fun hu => ?_, fun o st' ho hne => ?_⟩
  · rw [Res.bind_eq_ub] at hu
    rcases hu with hu | ⟨r, hr, hu⟩
    · split at hu
      · simp at hu
      · exact (readGain_safe p hp sets hS st.seqs h.dims payload).1 hu
    · obtain ⟨_, hf⟩ := key r hr
      split at hu
      · simp at hu
      rename_i hb
      dsimp only at hu
      split at hu
      · rename_i ha
        have hfine := hf (by simpa using hb) ha
        rw [Res.bind_eq_ub] at hu
        rcases hu with hu | ⟨t, _, hu⟩
        · exact (setLoop_safe r.1.seqs st.sets fun q hq x hx =>
            ⟨spline_fine hfine (h.elem q hq x hx), (h.str q hq x hx).1⟩).1 hu
        · simp at hu
      · simp at hu
  · rw [Res.bind_eq_ok] at ho
    obtain ⟨r, hr, ho⟩ := ho
    obtain ⟨hd, hf⟩ := key r hr
    split at ho
    · simp only [Res.ok.injEq, Prod.mk.injEq] at ho
      exact absurd ho.1.symm hne
    rename_i hb
    dsimp only at ho
    split at ho
    · rename_i ha
      have hfine := hf (by simpa using hb) ha
      rw [Res.bind_eq_ok] at ho
      obtain ⟨t, ht, ho⟩ := ho
      simp only [Res.ok.injEq, Prod.mk.injEq] at ho
      obtain ⟨_, rfl⟩ := ho
      have hst := (setLoop_safe r.1.seqs st.sets fun q hq x hx =>
        ⟨spline_fine hfine (h.elem q hq x hx), (h.str q hq x hx).1⟩).2 t.1 t.2 ht
      refine ⟨⟨hd, fun _ => hfine, ?_, ?_⟩, fun _ => hfine, rfl⟩
      · intro q' hq' y hy
        obtain ⟨q, hq, hs⟩ := hst q' hq'
        obtain ⟨x, hx, hxy, _⟩ := hs y hy
        rw [hxy]
        exact h.elem q hq x hx
      · intro q' hq' y hy
        obtain ⟨q, hq, hs⟩ := hst q' hq'
        obtain ⟨x, hx, _, hxy⟩ := hs y hy
        rcases hxy with hxy | hxy
        · rw [hxy]
          exact h.str q hq x hx
        · omega
    · rename_i ha
      simp only [Res.ok.injEq, Prod.mk.injEq] at ho
      obtain ⟨_, rfl⟩ := ho
      exact ⟨⟨hd, fun hc => hf (by simpa using hb) hc, h.elem, h.str⟩, fun hc => hf (by simpa using hb) hc, rfl⟩

/-- States reached by frames whose payloads the parser accepts; the gains of a frame may still be
impossible to apply. -/
inductive Reach (p : Par) (sets : List GainSet) (st0 : St) : St → Prop
  | start : Reach p sets st0 st0
  | step {st st' : St} {payload : List Bool} {o : Out} (h : Reach p sets st0 st)
    (hf : frame p sets payload st = .ok (o, st')) (ho : o ≠ .badPayload) : Reach p sets st0 st'

theorem Reach.good {p : Par} {sets : List GainSet} {st0 st : St} (hp : Timed p) (hS : Sets sets)
    (h0 : Good sets st0) (h : Reach p sets st0 st) : Good sets st := by
  induction h with
  | start => exact h0
  | step _ hf ho ih => exact ((frame_safe p hp sets hS _ _ ih).2 _ _ hf ho).1

/-- **C107 (partial)** As long as no payload was refused before, no frame makes the decoder access memory
outside the node arrays and the gain buffers, whatever the payload is. -/
theorem C107_partial (p : Par) (hp : Timed p) (sets : List GainSet) (hS : Sets sets) (st0 st : St)
    (h0 : Good sets st0) (h : Reach p sets st0 st) (payload : List Bool) : frame p sets payload st ≠ .ub :=
  (frame_safe p hp sets hS payload st (h.good hp hS h0)).1

/-! A state of a decoder that has just been set up. -/

/-- Cleared memory for the nodes. -/
def clear : List (List Spline) := List.replicate 24 (List.replicate 4 ⟨0, List.replicate 128 ⟨0, 0⟩⟩)

/-- A decoder just set up, with the gain elements of the selected DRC sets. -/
def fresh (sets : List (List Elem)) : St := ⟨false, clear, sets.map fun q => q.map fun e => (e, newBuf)⟩

theorem clear_dims : Dims clear := by
  refine ⟨by simp [clear], ?_⟩
  intro q hq
  rw [clear, List.mem_replicate] at hq
  rw [hq.2]
  refine ⟨by simp, ?_⟩
  intro s hs
  rw [List.mem_replicate] at hs
  rw [hs.2]
  exact List.length_replicate

theorem fresh_good (sets : List GainSet) (es : List (List Elem))
    (h : ∀ q ∈ es, ∀ e ∈ q, ∃ g, sets[e.set]? = some g ∧ e.band < g.live) : Good sets (fresh es) := by
  refine ⟨clear_dims, by simp [fresh], ?_, ?_⟩
  · intro q hq x hx
    simp only [fresh] at hq
    obtain ⟨q0, hq0, rfl⟩ := List.mem_map.mp hq
    obtain ⟨e, he, rfl⟩ := List.mem_map.mp hx
    exact h q0 hq0 e he
  · intro q hq x hx
    simp only [fresh] at hq
    obtain ⟨q0, hq0, rfl⟩ := List.mem_map.mp hq
    obtain ⟨e, he, rfl⟩ := List.mem_map.mp hx
    simp [newBuf]

/-- One gain set with one band, every frame ends with a node, and one DRC set that uses it. -/
def oneSet : List GainSet := [⟨0, true, false, 1⟩]
def oneElem (lin : Int → Rat) : List (List Elem) := [[⟨0, 0, lin⟩]]

theorem oneSet_sets : Sets oneSet := ⟨by decide, by decide⟩
theorem oneElem_ok (lin : Int → Rat) : ∀ q ∈ oneElem lin, ∀ e ∈ q, ∃ g, oneSet[e.set]? = some g ∧ e.band < g.live := by
  intro q hq e he
  simp only [oneElem, List.mem_singleton] at hq
  subst hq
  simp only [List.mem_singleton] at he
  subst he
  exact ⟨⟨0, true, false, 1⟩, rfl, by simp [GainSet.live]⟩

/-- A payload with the single gain 0 dB. -/
def zeroDb : List Bool := List.replicate 11 false

/-- A payload with four nodes at the differences 1, 64 and 64: two of them come after the frame, the last
one more than two frames after it. -/
def farNode : List Bool :=
  [true, false, false, false, true] ++ TimeCode.timeWord 32 1 ++ TimeCode.timeWord 32 64 ++ TimeCode.timeWord 32 64 ++
    List.replicate 9 false ++ [false, true, false, false, true, false, false, true, false] ++ [false]

/-- Conversion to linear gain does not matter here. -/
def unit : Int → Rat := fun _ => 1

/-- **C107 (refuted)** At 48 kHz: the first frame has the gain 0 dB, the payload of the second one is
refused, the third one has no payload, and the third frame is undefined. -/
theorem C107_refuted : ∃ p st1 st2, parAt 48000 = .ok p ∧
    frame p oneSet zeroDb (fresh (oneElem unit)) = .ok (.fine, st1) ∧
    frame p oneSet farNode st1 = .ok (.badPayload, st2) ∧ frame p oneSet [] st2 = .ub := by
  have h : (do
    let p ← parAt 48000
    let r1 ← frame p oneSet zeroDb (fresh (oneElem unit))
    let r2 ← frame p oneSet farNode r1.2
    Res.ok (decide (r1.1 = Out.fine) && decide (r2.1 = Out.badPayload) &&
      match frame p oneSet [] r2.2 with
      | .ub => true
      | _ => false)) = .ok true := by decide +kernel
  rw [Res.bind_eq_ok] at h
  obtain ⟨p, hp, h⟩ := h
  rw [Res.bind_eq_ok] at h
  obtain ⟨⟨o1, st1⟩, h1, h⟩ := h
  rw [Res.bind_eq_ok] at h
  obtain ⟨⟨o2, st2⟩, h2, h⟩ := h
  simp only [Res.ok.injEq, Bool.and_eq_true, decide_eq_true_eq] at h
  obtain ⟨⟨rfl, rfl⟩, h3⟩ := h
  refine ⟨p, st1, st2, hp, h1, h2, ?_⟩
  split at h3
  · assumption
  · simp at h3

/-- The hypotheses of `C107_partial` are met at 48 kHz after one frame. -/
example : ∃ p st1, parAt 48000 = .ok p ∧ Timed p ∧ Sets oneSet ∧ Good oneSet (fresh (oneElem unit)) ∧
    Reach p oneSet (fresh (oneElem unit)) st1 ∧ frame p oneSet zeroDb (fresh (oneElem unit)) = .ok (.fine, st1) := by
  obtain ⟨p, st1, _, hp, h1, _⟩ := C107_refuted
  exact ⟨p, st1, hp, (parAt_timed 48000 (by omega) p hp).1, oneSet_sets, fresh_good _ _ (oneElem_ok unit),
    .step .start h1 (by simp), h1⟩

/-! ## C106: the gain curve -/

/-- The nodes of an element. -/
def nodesOf (seqs : List (List Spline)) (e : Elem) : Spline :=
  match splineAt seqs e with
  | .ok s => s
  | _ => ⟨0, []⟩

/-- Executions in which all frames succeed; the nodes of the frames in which gains are applied are
listed, the latest first. -/
inductive Exec (p : Par) (sets : List GainSet) (st0 : St) : List (List (List Spline)) → St → Prop
  | start : Exec p sets st0 [] st0
  | idle {hist st st' payload} (h : Exec p sets st0 hist st) (hf : frame p sets payload st = .ok (.fine, st'))
    (ha : st'.apply = false) : Exec p sets st0 hist st'
  | step {hist st st' payload} (h : Exec p sets st0 hist st) (hf : frame p sets payload st = .ok (.fine, st'))
    (ha : st'.apply = true) : Exec p sets st0 (st'.seqs :: hist) st'

/-- All points of the curve of an element: node times count from the first frame with gains. -/
def points (e : Elem) : List (List (List Spline)) → List (Int × Rat)
  | [] => []
  | h :: hist => points e hist ++ framePts e.lin hist.length (nodesOf h e)

/-- The gain of an element at a time: 1 until one frame before the first frame with gains, then the
polygon that starts there at 0 dB. -/
def gainAt (e : Elem) (hist : List (List (List Spline))) (t : Int) : Rat :=
  if t < -1024 then 1 else curve (start e.lin) (points e hist) t

theorem elemLoop_fine (seqs : List (List Spline)) (es es' : List (Elem × Buf)) (h : getGain seqs es = .ok (true, es')) :
    ∀ y ∈ es', ∃ x ∈ es, y.1 = x.1 ∧ ∃ s, splineAt seqs x.1 = .ok s ∧ concat x.1.lin s (advance x.2) = .ok (true, y.2) := by
  unfold getGain at h
  induction es generalizing es' with
  | nil =>
    simp [elemLoop] at h
    simp [h]
  | cons x es ih =>
    obtain ⟨e, b⟩ := x
    rw [List.map_cons, elemLoop, Res.bind_eq_ok] at h
    obtain ⟨s, hs, h⟩ := h
    rw [Res.bind_eq_ok] at h
    obtain ⟨⟨o, b'⟩, hc, h⟩ := h
    dsimp only at h hs hc
    split at h
    · rename_i ho
      subst ho
      rw [Res.bind_eq_ok] at h
      obtain ⟨⟨o2, t⟩, ht, h⟩ := h
      simp only [Res.ok.injEq, Prod.mk.injEq] at h
      obtain ⟨rfl, rfl⟩ := h
      intro y hy
      rcases List.mem_cons.mp hy with rfl | hy
      · exact ⟨(e, b), by simp, rfl, s, hs, hc⟩
      · obtain ⟨x, hx, hxy⟩ := ih t ht y hy
        exact ⟨x, by simp [hx], hxy⟩
    · simp at h

theorem setLoop_fine (seqs : List (List Spline)) (ss ss' : List (List (Elem × Buf))) (h : setLoop seqs ss = .ok (true, ss')) :
    ∀ q' ∈ ss', ∃ q ∈ ss, getGain seqs q = .ok (true, q') := by
  induction ss generalizing ss' with
  | nil =>
    simp [setLoop] at h
    simp [h]
  | cons q ss ih =>
    rw [setLoop, Res.bind_eq_ok] at h
    obtain ⟨⟨o, q1⟩, hq, h⟩ := h
    dsimp only at h
    split at h
    · rename_i ho
      subst ho
      rw [Res.bind_eq_ok] at h
      obtain ⟨⟨o2, t⟩, ht, h⟩ := h
      simp only [Res.ok.injEq, Prod.mk.injEq] at h
      obtain ⟨rfl, rfl⟩ := h
      intro y hy
      rcases List.mem_cons.mp hy with rfl | hy
      · exact ⟨q, by simp, hq⟩
      · obtain ⟨x, hx, hxy⟩ := ih t ht y hy
        exact ⟨x, by simp [hx], hxy⟩
    · simp at h

/-- A frame that succeeds: either gains are not applied yet and the buffers stay, or every element
continues its curve. -/
theorem frame_fine {p : Par} {sets : List GainSet} {payload : List Bool} {st st' : St}
    (h : frame p sets payload st = .ok (.fine, st')) :
    (st'.apply = false ∧ st'.sets = st.sets) ∨ (st'.apply = true ∧ setLoop st'.seqs st.sets = .ok (true, st'.sets)) := by
  unfold frame at h
  rw [Res.bind_eq_ok] at h
  obtain ⟨r, _, h⟩ := h
  split at h
  · simp at h
  dsimp only at h
  split at h
  · rename_i ha
    rw [Res.bind_eq_ok] at h
    obtain ⟨⟨o, t⟩, ht, h⟩ := h
    simp only [Res.ok.injEq, Prod.mk.injEq] at h
    obtain ⟨ho, rfl⟩ := h
    cases o with
    | false => simp at ho
    | true => exact Or.inr ⟨ha, ht⟩
  · rename_i ha
    simp only [Res.ok.injEq, Prod.mk.injEq] at h
    obtain ⟨_, rfl⟩ := h
    exact Or.inl ⟨by simpa using ha, rfl⟩

theorem exec_holds {p : Par} (hp : Timed p) {sets : List GainSet} (hS : Sets sets) {es : List (List Elem)}
    (hes : ∀ q ∈ es, ∀ e ∈ q, ∃ g, sets[e.set]? = some g ∧ e.band < g.live) {hist : List (List (List Spline))} {st : St}
    (h : Exec p sets (fresh es) hist st) : Good sets st ∧
      ∀ q ∈ st.sets, ∀ x ∈ q, Holds x.1.lin ((hist.length : Int) - 1) (points x.1 hist) x.2 ∧
        (hist ≠ [] → 0 ≤ x.2.str.time) := by
  induction h with
  | start =>
    refine ⟨fresh_good sets es hes, ?_⟩
    intro q hq x hx
    simp only [fresh] at hq
    obtain ⟨q0, hq0, rfl⟩ := List.mem_map.mp hq
    obtain ⟨e, he, rfl⟩ := List.mem_map.mp hx
    exact ⟨by simpa [points] using holds_new e.lin, by simp⟩
  | idle h hf ha ih =>
    refine ⟨((frame_safe p hp sets hS _ _ ih.1).2 _ _ hf (by simp)).1, ?_⟩
    rcases frame_fine hf with ⟨_, hs⟩ | ⟨ha', _⟩
    · rw [hs]
      exact ih.2
    · rw [ha] at ha'
      simp at ha'
  | @step hist st st' payload h hf ha ih =>
    obtain ⟨hg, hfine, _⟩ := (frame_safe p hp sets hS _ _ ih.1).2 _ _ hf (by simp)
    refine ⟨hg, ?_⟩
    rcases frame_fine hf with ⟨ha', _⟩ | ⟨_, hs⟩
    · rw [ha] at ha'
      simp at ha'
    intro q' hq' y hy
    obtain ⟨q, hq, hgq⟩ := setLoop_fine _ _ _ hs q' hq'
    obtain ⟨x, hx, hxy, s, hsp, hc⟩ := elemLoop_fine _ _ _ hgq y hy
    obtain ⟨s', hsp', hsf⟩ := spline_fine (hfine ha) (ih.1.elem q hq x hx)
    rw [hsp] at hsp'
    simp only [Res.ok.injEq] at hsp'
    subst hsp'
    have hn : nodesOf st'.seqs x.1 = s := by simp [nodesOf, hsp]
    have hstep := holds_step x.1.lin _ _ _ _ s hsf.pos (ih.2 q hq x hx).1 hc
    rw [hxy]
    refine ⟨?_, fun _ => ?_⟩
    · rw [points, hn, List.length_cons]
      have e1 : ((hist.length : Int) - 1 + 1) = hist.length := by omega
      have e2 : (((hist.length + 1 : Nat) : Int) - 1) = hist.length := by omega
      rw [e1] at hstep
      rw [e2]
      exact hstep
    · have hb := (ih.1.str q hq x hx).1
      exact (((concat_safe x.1.lin s hsf x.2 hb).2 true y.2 hc).1 rfl).1

/-- **C106** Whatever the payloads of the frames are, as long as all frames succeed: sample `i` of the
latest frame (number `hist.length - 1` since gains are applied) of a channel with a single-band gain is
multiplied by the value that the polygon through all coded nodes has `1024 + delay` samples earlier. -/
theorem C106_gain_curve (p : Par) (hp : Timed p) (sets : List GainSet) (hS : Sets sets) (es : List (List Elem))
    (hes : ∀ q ∈ es, ∀ e ∈ q, ∃ g, sets[e.set]? = some g ∧ e.band < g.live) (hist : List (List (List Spline))) (st : St)
    (h : Exec p sets (fresh es) hist st) (h0 : hist ≠ []) (q : List (Elem × Buf)) (hq : q ∈ st.sets)
    (x : Elem × Buf) (hx : x ∈ q) (delay : Int) (hd0 : 0 ≤ delay) (hd : delay ≤ 1536) (audio : Int → Rat) (i : Int)
    (hi0 : 0 ≤ i) (hi : i < 1024) :
    applyGain x.2 delay audio i =
      audio i * gainAt x.1 hist (1024 * ((hist.length : Int) - 1) + i - (1024 + delay)) := by
  obtain ⟨hh, hlast⟩ := (exec_holds hp hS hes h).2 q hq x hx
  have h1 := hlast h0
  unfold applyGain gainAt
  rw [hh.gains (1536 - delay + i) (by omega) (by omega) (by omega)]
  have e : 1024 * ((hist.length : Int) - 1) + (1536 - delay + i - 2560) =
      1024 * ((hist.length : Int) - 1) + i - (1024 + delay) := by omega
  rw [e]

/-- **C106** The nodes follow one another in time over all frames. -/
theorem C106_ordered (p : Par) (hp : Timed p) (sets : List GainSet) (hS : Sets sets) (es : List (List Elem))
    (hes : ∀ q ∈ es, ∀ e ∈ q, ∃ g, sets[e.set]? = some g ∧ e.band < g.live) (hist : List (List (List Spline))) (st : St)
    (h : Exec p sets (fresh es) hist st) (q : List (Elem × Buf)) (hq : q ∈ st.sets)
    (x : Elem × Buf) (hx : x ∈ q) : Ordered (start x.1.lin) (points x.1 hist) :=
  ((exec_holds hp hS hes h).2 q hq x hx).1.ordered

theorem mem_points (e : Elem) (hist : List (List (List Spline))) (a : Int × Rat) (h : a ∈ points e hist) :
    ∃ f ∈ hist, ∃ c ∈ (nodesOf f e).nodes.take (nodesOf f e).n.toNat, a.2 = e.lin c.gain := by
  induction hist with
  | nil => simp [points] at h
  | cons f hist ih =>
    rw [points] at h
    rcases List.mem_append.mp h with h | h
    · obtain ⟨g, hg, hc⟩ := ih h
      exact ⟨g, by simp [hg], hc⟩
    · obtain ⟨c, hc, rfl⟩ := List.mem_map.mp h
      exact ⟨f, by simp, c, hc, rfl⟩

/-- **C108** The factor of every sample lies between the least and the greatest of 1, the factor for 0 dB
and the factors of the coded gains. -/
theorem C108_gain_range (p : Par) (hp : Timed p) (sets : List GainSet) (hS : Sets sets) (es : List (List Elem))
    (hes : ∀ q ∈ es, ∀ e ∈ q, ∃ g, sets[e.set]? = some g ∧ e.band < g.live) (hist : List (List (List Spline))) (st : St)
    (h : Exec p sets (fresh es) hist st) (h0 : hist ≠ []) (q : List (Elem × Buf)) (hq : q ∈ st.sets)
    (x : Elem × Buf) (hx : x ∈ q) (delay : Int) (hd0 : 0 ≤ delay) (hd : delay ≤ 1536) (audio : Int → Rat) (i : Int)
    (hi0 : 0 ≤ i) (hi : i < 1024) (lo hi' : Rat) (h1 : lo ≤ 1 ∧ 1 ≤ hi') (h2 : lo ≤ x.1.lin 0 ∧ x.1.lin 0 ≤ hi')
    (hb : ∀ f ∈ hist, ∀ c ∈ (nodesOf f x.1).nodes.take (nodesOf f x.1).n.toNat,
      lo ≤ x.1.lin c.gain ∧ x.1.lin c.gain ≤ hi') :
    ∃ g, lo ≤ g ∧ g ≤ hi' ∧ applyGain x.2 delay audio i = audio i * g := by
  refine ⟨gainAt x.1 hist (1024 * ((hist.length : Int) - 1) + i - (1024 + delay)), ?_⟩
  rw [← and_assoc]
  refine ⟨?_, C106_gain_curve p hp sets hS es hes hist st h h0 q hq x hx delay hd0 hd audio i hi0 hi⟩
  unfold gainAt
  split
  · exact h1
  · rename_i hlt
    refine curve_bounded _ _ _ lo hi' (C106_ordered p hp sets hS es hes hist st h q hq x hx)
      (by simp only [start]; omega) ?_
    intro a ha
    rcases List.mem_cons.mp ha with rfl | ha
    · exact h2
    · obtain ⟨f, hf, c, hc, he⟩ := mem_points _ _ _ ha
      rw [he]
      exact hb f hf c hc

/-- **C108** Gains of a set against clipping, with a peak target, never exceed 1. -/
theorem C108_clipping (pow2 : Rat → Rat) (m : Mod) (hc : m.clipping = true) (db : Rat) : toLinear pow2 m db ≤ 1 := by
  unfold toLinear
  dsimp only
  rw [if_pos hc]
  generalize (if m.offset = true then _ else _) * pow2 (max 0 (-m.peakTarget - m.loudNorm) / 6) = o
  split
  · exact le_refl _
  · rename_i h
    exact le_of_lt (not_le.mp h)

/-- **C108** With exact powers of two, a positive boost and compression only reduce the gain: what is coded
as attenuation stays attenuation and what is coded as amplification stays amplification. -/
theorem C108_sign (pow2 : Rat → Rat) (h0 : pow2 0 = 1) (hm : Monotone pow2) (m : Mod) (ho : m.offset = false)
    (hc : m.clipping = false) (hd : m.ducking = false) (hb : 0 ≤ m.boost) (hcm : 0 ≤ m.compress) (ha : 0 ≤ m.ampl)
    (hat : 0 ≤ m.attn) (db : Rat) : (0 ≤ db → 1 ≤ toLinear pow2 m db) ∧ (db ≤ 0 → toLinear pow2 m db ≤ 1) := by
  have e : toLinear pow2 m db = pow2 ((if m.scaling then (if db ≥ 0 then
      (if m.modify then (if db ≥ 0 then 1 * m.boost else 1 * m.compress) else 1) * m.ampl else
      (if m.modify then (if db ≥ 0 then 1 * m.boost else 1 * m.compress) else 1) * m.attn) else
      (if m.modify then (if db ≥ 0 then 1 * m.boost else 1 * m.compress) else 1)) * (db / 6)) := by
    unfold toLinear
    simp [ho, hc, hd]
  rw [e]
  generalize hr : (if m.scaling then (if db ≥ 0 then
      (if m.modify then (if db ≥ 0 then 1 * m.boost else 1 * m.compress) else 1) * m.ampl else
      (if m.modify then (if db ≥ 0 then 1 * m.boost else 1 * m.compress) else 1) * m.attn) else
      (if m.modify then (if db ≥ 0 then 1 * m.boost else 1 * m.compress) else 1)) = r
  have hr0 : 0 ≤ r := by
    rw [← hr]
    split_ifs <;> simp <;> positivity
  refine ⟨fun h => ?_, fun h => ?_⟩
  · rw [← h0]
    exact hm (mul_nonneg hr0 (by linarith))
  · rw [← h0]
    exact hm (mul_nonpos_of_nonneg_of_nonpos hr0 (by linarith))

/-! ## C109: frames without a payload -/

theorem frame_empty {p : Par} {sets : List GainSet} {st st' : St} {o : Out} (h : frame p sets [] st = .ok (o, st')) :
    st'.seqs = st.seqs ∧ st'.apply = st.apply := by
  unfold frame at h
  simp only [if_true, Res.ok_bind, List.isEmpty_nil, Bool.not_true, Bool.or_false, Bool.false_eq_true, if_false] at h
  split at h
  · rename_i ha
    rw [Res.bind_eq_ok] at h
    obtain ⟨t, _, h⟩ := h
    simp only [Res.ok.injEq, Prod.mk.injEq] at h
    obtain ⟨_, rfl⟩ := h
    exact ⟨rfl, by simp⟩
  · simp only [Res.ok.injEq, Prod.mk.injEq] at h
    obtain ⟨_, rfl⟩ := h
    exact ⟨rfl, by simp⟩

theorem framePts_ne {s : Spline} (h : Fine s) (lin : Int → Rat) (k : Int) : framePts lin k s ≠ [] := by
  unfold framePts
  simpa using h.ne_nil

theorem ordered_split (p : Int × Rat) (r s : List (Int × Rat)) (h : Ordered p (r ++ s)) :
    Ordered p r ∧ Ordered (lastPt p r) s := by
  induction r generalizing p with
  | nil => exact ⟨trivial, h⟩
  | cons q r ih => exact ⟨⟨h.1, (ih q h.2).1⟩, (ih q h.2).2⟩

theorem lastPt_map {α : Type} (f : α → Int × Rat) (p : Int × Rat) (cs : List α) (h : cs ≠ []) :
    ∃ c ∈ cs, lastPt p (cs.map f) = f c := by
  induction cs generalizing p with
  | nil => exact absurd rfl h
  | cons c cs ih =>
    cases cs with
    | nil => exact ⟨c, by simp, rfl⟩
    | cons d cs =>
      obtain ⟨e, he, h2⟩ := ih (f c) (by simp)
      exact ⟨e, by simp [he], h2⟩

/-- **C109 (partial)** If all nodes of the frame before have the gain `g`, a frame without a payload keeps
`g` until its end and after it. -/
theorem C109_partial (p : Par) (hp : Timed p) (sets : List GainSet) (hS : Sets sets) (es : List (List Elem))
    (hes : ∀ q ∈ es, ∀ e ∈ q, ∃ g, sets[e.set]? = some g ∧ e.band < g.live) (f : List (List Spline))
    (hist : List (List (List Spline))) (st st' : St) (h : Exec p sets (fresh es) (f :: hist) st)
    (hseq : st.seqs = f) (hap : st.apply = true) (hf : frame p sets [] st = .ok (.fine, st')) (q : List (Elem × Buf))
    (hq : q ∈ st'.sets) (x : Elem × Buf) (hx : x ∈ q) (g : Int)
    (hg : ∀ c ∈ (nodesOf f x.1).nodes.take (nodesOf f x.1).n.toNat, c.gain = g) (t : Int)
    (ht : ∀ c ∈ (nodesOf f x.1).nodes.take (nodesOf f x.1).n.toNat, 1024 * (hist.length : Int) + c.time ≤ t) :
    gainAt x.1 (st'.seqs :: f :: hist) t = x.1.lin g := by
  obtain ⟨hs, ha⟩ := frame_empty hf
  have hex : Exec p sets (fresh es) (st'.seqs :: f :: hist) st' := .step h hf (by rw [ha, hap])
  have hgood := (exec_holds hp hS hes hex).1
  have hord := C106_ordered p hp sets hS es hes _ _ hex q hq x hx
  obtain ⟨s, hsp, hsf⟩ := spline_fine (hgood.fine (by rw [ha, hap])) (hgood.elem q hq x hx)
  rw [hs, hseq] at hsp
  have hn : nodesOf f x.1 = s := by simp [nodesOf, hsp]
  rw [hs, hseq] at hord ⊢
  rw [hn] at hg ht
  simp only [points, hn, List.length_cons] at hord
  rw [List.append_assoc] at hord
  obtain ⟨h1, h2⟩ := ordered_split _ _ _ hord
  obtain ⟨h2, h3⟩ := ordered_split _ _ _ h2
  obtain ⟨c, hc, hl⟩ := lastPt_map (fun c : Node => (1024 * (hist.length : Int) + c.time, x.1.lin c.gain))
    (lastPt (start x.1.lin) (points x.1 hist)) _ hsf.ne_nil
  have hct := ht c hc
  have hcb := (hsf.time c hc).1
  change lastPt _ (framePts x.1.lin (hist.length : Int) s) = _ at hl
  unfold gainAt
  rw [if_neg (by omega)]
  simp only [points, hn, List.length_cons]
  rw [curve_append_ge _ _ _ _ (ordered_append _ _ _ h1 h2) (by rw [lastPt_append, hl]; exact hct), lastPt_append]
  have hb := curve_bounded _ _ t (x.1.lin g) (x.1.lin g) h3 (by rw [hl]; exact hct) (by
    intro a ha
    rcases List.mem_cons.mp ha with rfl | ha
    · rw [hl, hg c hc]
      exact ⟨le_refl _, le_refl _⟩
    · obtain ⟨d, hd, rfl⟩ := List.mem_map.mp ha
      rw [hg d hd]
      exact ⟨le_refl _, le_refl _⟩)
  exact le_antisymm hb.2 hb.1

/-- Two nodes: 0 dB at sample 31, -2 dB at the end of the frame. -/
def drop2 : List Bool :=
  [true, false, true] ++ TimeCode.timeWord 32 1 ++ List.replicate 9 false ++ List.replicate 4 false ++ [false]

/-- A conversion that shows the gain. -/
def shown : Int → Rat := fun g => (g : Rat) + 30000

/-- The factor of sample `i` in the first gain element. -/
def factor (st : St) (i : Int) : Rat :=
  match st.sets with
  | ((_, b) :: _) :: _ => applyGain b 0 (fun _ => 1) i
  | _ => 0

/-- **C109 (refuted)** At 48 kHz: a frame with the nodes 0 dB at sample 31 and -2 dB at sample 1023, then
two frames without a payload.  At the end of the first frame (sample 1023 of the second one, one frame
later) the gain is -2 dB; 32 samples later it is back at 0 dB. -/
theorem C109_refuted : ∃ p st1 st2 st3, parAt 48000 = .ok p ∧
    frame p oneSet drop2 (fresh (oneElem shown)) = .ok (.fine, st1) ∧
    frame p oneSet [] st1 = .ok (.fine, st2) ∧ frame p oneSet [] st2 = .ok (.fine, st3) ∧
    factor st2 1023 = shown (-20000) ∧ factor st3 31 = shown 0 := by
  have h : (do
    let p ← parAt 48000
    let r1 ← frame p oneSet drop2 (fresh (oneElem shown))
    let r2 ← frame p oneSet [] r1.2
    let r3 ← frame p oneSet [] r2.2
    Res.ok (decide (r1.1 = Out.fine) && decide (r2.1 = Out.fine) && decide (r3.1 = Out.fine) &&
      decide (factor r2.2 1023 = shown (-20000)) && decide (factor r3.2 31 = shown 0))) = .ok true := by decide +kernel
  rw [Res.bind_eq_ok] at h
  obtain ⟨p, hp, h⟩ := h
  rw [Res.bind_eq_ok] at h
  obtain ⟨⟨o1, st1⟩, h1, h⟩ := h
  rw [Res.bind_eq_ok] at h
  obtain ⟨⟨o2, st2⟩, h2, h⟩ := h
  rw [Res.bind_eq_ok] at h
  obtain ⟨⟨o3, st3⟩, h3, h⟩ := h
  simp only [Res.ok.injEq, Bool.and_eq_true, decide_eq_true_eq] at h
  obtain ⟨⟨⟨⟨rfl, rfl⟩, rfl⟩, h4⟩, h5⟩ := h
  exact ⟨p, st1, st2, st3, hp, h1, h2, h3, h4, h5⟩

/-- Hypotheses of `C106_gain_curve` and `C108_gain_range`: an execution with two frames. -/
example : ∃ p hist st, parAt 48000 = .ok p ∧ Exec p oneSet (fresh (oneElem shown)) hist st ∧ hist.length = 3 := by
  obtain ⟨p, st1, st2, st3, hp, h1, h2, h3, _, _⟩ := C109_refuted
  have hg1 := ((frame_safe p (parAt_timed 48000 (by omega) p hp).1 oneSet oneSet_sets _ _
    (fresh_good _ _ (oneElem_ok shown))).2 _ _ h1 (by simp)).2.2
  have e1 : st1.apply = true := by rw [hg1]; rfl
  have e2 : st2.apply = true := by rw [(frame_empty h2).2, e1]
  have e3 : st3.apply = true := by rw [(frame_empty h3).2, e2]
  exact ⟨p, _, st3, hp, .step (.step (.step .start h1 e1) h2 e2) h3 e3, rfl⟩

/-- Hypotheses of `C109_partial`: after a frame with the gain 0 dB one without a payload. -/
example : ∃ p st st', parAt 48000 = .ok p ∧ Exec p oneSet (fresh (oneElem unit)) [st.seqs] st ∧ st.apply = true ∧
    frame p oneSet [] st = .ok (.fine, st') ∧
    ∀ c ∈ (nodesOf st.seqs ⟨0, 0, unit⟩).nodes.take (nodesOf st.seqs ⟨0, 0, unit⟩).n.toNat, c.gain = 0 := by
  have h : (do
    let p ← parAt 48000
    let r1 ← frame p oneSet zeroDb (fresh (oneElem unit))
    let r2 ← frame p oneSet [] r1.2
    Res.ok (decide (r1.1 = Out.fine) && decide (r2.1 = Out.fine) && r1.2.apply &&
      decide (∀ c ∈ (nodesOf r1.2.seqs ⟨0, 0, unit⟩).nodes.take (nodesOf r1.2.seqs ⟨0, 0, unit⟩).n.toNat,
        c.gain = 0))) = .ok true := by decide +kernel
  rw [Res.bind_eq_ok] at h
  obtain ⟨p, hp, h⟩ := h
  rw [Res.bind_eq_ok] at h
  obtain ⟨⟨o1, st1⟩, h1, h⟩ := h
  rw [Res.bind_eq_ok] at h
  obtain ⟨⟨o2, st2⟩, h2, h⟩ := h
  simp only [Res.ok.injEq, Bool.and_eq_true, decide_eq_true_eq] at h
  obtain ⟨⟨⟨rfl, rfl⟩, h3⟩, h4⟩ := h
  exact ⟨p, st1, st2, hp, .step .start h1 h3, h3, h2, h4⟩

/-! ## C110: payloads whose gains can be applied -/

/-- The times rise from `t0` on. -/
def Rising (t0 : Int) (s : Spline) : Prop := (t0 :: (s.nodes.take s.n.toNat).map (·.time)).IsChain (· < ·)

theorem segments_iff (lin : Int → Rat) (cs : List Node) (prev : Node) (gains : Int → Rat) (hp : -2560 ≤ prev.time)
    (hc : ∀ c ∈ cs, -1024 ≤ c.time ∧ c.time < 1024) :
    ∃ o last g, segments lin cs prev gains = .ok (o, last, g) ∧
      (o = true ↔ (prev.time :: cs.map (·.time)).IsChain (· < ·)) := by
  induction cs generalizing prev gains with
  | nil => exact ⟨true, prev, gains, rfl, by simp⟩
  | cons c cs ih =>
    have h1 := hc c (by simp)
    rw [segments, List.map_cons, List.isChain_cons_cons]
    by_cases hlt : prev.time < c.time
    · unfold interpolate
      rw [if_neg (by omega), if_neg (by unfold bufSize; omega), Res.ok_bind]
      obtain ⟨o, last, g, h, ho⟩ := ih c _ (by omega) fun x hx => hc x (by simp [hx])
      exact ⟨o, last, g, h, by rw [ho]; simp [hlt]⟩
    · unfold interpolate
      rw [if_pos (by omega), Res.ok_bind]
      exact ⟨false, prev, gains, rfl, by simp [hlt]⟩

theorem concat_iff (lin : Int → Rat) (s : Spline) (hs : Fine s) (b : Buf) (hb : -1024 ≤ b.str.time) :
    ∃ o b', concat lin s (advance b) = .ok (o, b') ∧ (o = true ↔ Rising (b.str.time - 1024) s) := by
  have hl := hs.len
  have h32 := hs.le
  obtain ⟨o, last, g, h, ho⟩ := segments_iff lin (s.nodes.take s.n.toNat) (advance b).prev (advance b).gains
    (by simp only [advance]; omega) hs.time
  unfold concat
  rw [if_neg (by omega), h, Res.ok_bind]
  dsimp only
  cases o with
  | true => exact ⟨true, _, by rw [if_pos rfl], ho⟩
  | false => exact ⟨false, _, by rw [if_neg (by simp)], ho⟩

theorem elemLoop_iff (seqs : List (List Spline)) (es : List (Elem × Buf))
    (h : ∀ x ∈ es, (∃ s, splineAt seqs x.1 = .ok s ∧ Fine s) ∧ -1024 ≤ x.2.str.time) :
    ∃ o es', getGain seqs es = .ok (o, es') ∧
      (o = true ↔ ∀ x ∈ es, Rising (x.2.str.time - 1024) (nodesOf seqs x.1)) := by
  unfold getGain
  induction es with
  | nil => exact ⟨true, [], rfl, by simp⟩
  | cons x es ih =>
    obtain ⟨e, b⟩ := x
    obtain ⟨⟨s, hsp, hs⟩, hb⟩ := h (e, b) (by simp)
    obtain ⟨o2, es', h2, ho2⟩ := ih fun x hx => h x (by simp [hx])
    obtain ⟨o, b', hc, ho⟩ := concat_iff e.lin s hs b hb
    dsimp only at hsp
    have hn : nodesOf seqs e = s := by simp [nodesOf, hsp]
    rw [List.map_cons, elemLoop]
    dsimp only
    rw [hsp, Res.ok_bind, hc, Res.ok_bind]
    cases o with
    | true =>
      rw [if_pos rfl, h2, Res.ok_bind]
      refine ⟨_, _, rfl, ?_⟩
      rw [ho2]
      simp only [List.mem_cons, forall_eq_or_imp, hn]
      exact ⟨fun hx => ⟨ho.mp rfl, hx⟩, fun hx => hx.2⟩
    | false =>
      rw [if_neg (by simp)]
      refine ⟨_, _, rfl, ?_⟩
      simp only [List.mem_cons, forall_eq_or_imp, hn]
      exact ⟨fun hx => absurd hx (by simp), fun hx => absurd (ho.mpr hx.1) (by simp)⟩

theorem setLoop_iff (seqs : List (List Spline)) (ss : List (List (Elem × Buf)))
    (h : ∀ q ∈ ss, ∀ x ∈ q, (∃ s, splineAt seqs x.1 = .ok s ∧ Fine s) ∧ -1024 ≤ x.2.str.time) :
    ∃ o ss', setLoop seqs ss = .ok (o, ss') ∧
      (o = true ↔ ∀ q ∈ ss, ∀ x ∈ q, Rising (x.2.str.time - 1024) (nodesOf seqs x.1)) := by
  induction ss with
  | nil => exact ⟨true, [], rfl, by simp⟩
  | cons q ss ih =>
    obtain ⟨o2, ss', h2, ho2⟩ := ih fun x hx => h x (by simp [hx])
    obtain ⟨o, q', hc, ho⟩ := elemLoop_iff seqs q (h q (by simp))
    rw [setLoop, hc, Res.ok_bind]
    cases o with
    | true =>
      rw [if_pos rfl, h2, Res.ok_bind]
      refine ⟨_, _, rfl, ?_⟩
      rw [ho2]
      simp only [List.mem_cons, forall_eq_or_imp]
      exact ⟨fun hx => ⟨ho.mp rfl, hx⟩, fun hx => hx.2⟩
    | false =>
      rw [if_neg (by simp)]
      refine ⟨_, _, rfl, ?_⟩
      simp only [List.mem_cons, forall_eq_or_imp]
      exact ⟨fun hx => absurd hx (by simp), fun hx => absurd (ho.mpr hx.1) (by simp)⟩

/-- **C110 (partial)** A payload that the parser accepts can be applied if and only if in every gain
element the node times rise strictly from the last node of the frame before on. -/
theorem C110_partial (p : Par) (hp : Timed p) (sets : List GainSet) (hS : Sets sets) (st0 st : St)
    (h0 : Good sets st0) (h : Reach p sets st0 st) (payload : List Bool) (hne : payload ≠ []) (r : Parsed)
    (rest : List Bool) (hr : run (readGain p sets st.seqs) payload = .ok (r, rest)) (hb : r.bad = false) :
    ∃ o st', frame p sets payload st = .ok (o, st') ∧ st'.seqs = r.seqs ∧
      (o = .fine ↔ ∀ q ∈ st.sets, ∀ x ∈ q, Rising (x.2.str.time - 1024) (nodesOf r.seqs x.1)) := by
  have hg := h.good hp hS h0
  have hf := ((readGain_safe p hp sets hS st.seqs hg.dims payload).2 r rest hr).2 hb
  obtain ⟨o, ss', hs, ho⟩ := setLoop_iff r.seqs st.sets fun q hq x hx =>
    ⟨spline_fine hf (hg.elem q hq x hx), (hg.str q hq x hx).1⟩
  unfold frame
  rw [if_neg hne, hr, Res.ok_bind]
  dsimp only
  rw [hb, if_neg (by simp), if_pos (by simp [hne]), hs, Res.ok_bind]
  refine ⟨_, _, rfl, rfl, ?_⟩
  rw [← ho]
  cases o <;> simp

/-- **C110 (refuted)** After a frame with a node at its end, a payload with nodes after the end of its frame
(the node reservoir) can never be applied. -/
theorem C110_reservoir (p : Par) (hp : Timed p) (sets : List GainSet) (hS : Sets sets) (st0 st : St)
    (h0 : Good sets st0) (h : Reach p sets st0 st) (payload : List Bool) (hne : payload ≠ []) (r : Parsed)
    (rest : List Bool) (hr : run (readGain p sets st.seqs) payload = .ok (r, rest)) (hb : r.bad = false)
    (q : List (Elem × Buf)) (hq : q ∈ st.sets) (x : Elem × Buf) (hx : x ∈ q) (hend : x.2.str.time = 1023)
    (c : Node) (hc : (nodesOf r.seqs x.1).nodes.head? = some c) (hn : 1 ≤ (nodesOf r.seqs x.1).n) (hres : c.time < 0) :
    ∃ st', frame p sets payload st = .ok (.badProcess, st') := by
  obtain ⟨o, st', hf, hs, ho⟩ := C110_partial p hp sets hS st0 st h0 h payload hne r rest hr hb
  have hnot : o ≠ .fine := by
    intro he
    have := ho.mp he q hq x hx
    unfold Rising at this
    generalize nodesOf r.seqs x.1 = s at *
    obtain ⟨n, nodes⟩ := s
    cases nodes with
    | nil => simp at hc
    | cons d ds =>
      simp only [List.head?_cons, Option.some.injEq] at hc
      subst hc
      obtain ⟨m, hm⟩ : ∃ m, n.toNat = m + 1 := ⟨n.toNat - 1, by dsimp only at hn; omega⟩
      simp only [hm, List.take_succ_cons, List.map_cons, List.isChain_cons_cons] at this
      omega
  have hnb : o ≠ .badPayload := by
    intro he
    subst he
    unfold frame at hf
    rw [if_neg hne, hr, Res.ok_bind] at hf
    dsimp only at hf
    rw [hb, if_neg (by simp), if_pos (by simp [hne]), Res.bind_eq_ok] at hf
    obtain ⟨t, _, hf⟩ := hf
    simp only [Res.ok.injEq, Prod.mk.injEq] at hf
    split at hf <;> simp at hf
  cases o with
  | fine => exact absurd rfl hnot
  | badPayload => exact absurd rfl hnb
  | badProcess => exact ⟨st', hf⟩

/-- Two nodes, one of them 32 samples after the end of the frame. -/
def lateNode : List Bool :=
  [true, false, true] ++ TimeCode.timeWord 32 33 ++ List.replicate 9 false ++ List.replicate 4 false ++ [false]

/-- **C110 (refuted)** At 48 kHz: a frame with the gain 0 dB, then one with a node 32 samples after its end;
the parser accepts it, the gains are not applied. -/
theorem C110_refuted : ∃ p st1 st2 r, parAt 48000 = .ok p ∧
    frame p oneSet zeroDb (fresh (oneElem unit)) = .ok (.fine, st1) ∧
    run (readGain p oneSet st1.seqs) lateNode = .ok (r, []) ∧ r.bad = false ∧
    frame p oneSet lateNode st1 = .ok (.badProcess, st2) := by
  have h : (do
    let p ← parAt 48000
    let r1 ← frame p oneSet zeroDb (fresh (oneElem unit))
    let r ← run (readGain p oneSet r1.2.seqs) lateNode
    let r2 ← frame p oneSet lateNode r1.2
    Res.ok (decide (r1.1 = Out.fine) && decide (r.2 = []) && decide (r.1.bad = false) &&
      decide (r2.1 = Out.badProcess))) = .ok true := by decide +kernel
  rw [Res.bind_eq_ok] at h
  obtain ⟨p, hp, h⟩ := h
  rw [Res.bind_eq_ok] at h
  obtain ⟨⟨o1, st1⟩, h1, h⟩ := h
  rw [Res.bind_eq_ok] at h
  obtain ⟨⟨r, rest⟩, h2, h⟩ := h
  rw [Res.bind_eq_ok] at h
  obtain ⟨⟨o3, st3⟩, h3, h⟩ := h
  simp only [Res.ok.injEq, Bool.and_eq_true, decide_eq_true_eq] at h
  obtain ⟨⟨⟨rfl, rfl⟩, h4⟩, rfl⟩ := h
  exact ⟨p, st1, st3, r, hp, h1, h2, h4, h3⟩

/-- Hypotheses of `C110_partial`. -/
example : ∃ p st1 r rest, parAt 48000 = .ok p ∧ Reach p oneSet (fresh (oneElem unit)) st1 ∧
    run (readGain p oneSet st1.seqs) lateNode = .ok (r, rest) ∧ r.bad = false := by
  obtain ⟨p, st1, st2, r, hp, h1, h2, h3, _⟩ := C110_refuted
  exact ⟨p, st1, r, [], hp, .step .start h1 (by simp), h2, h3⟩

end Verif.DrcGain
