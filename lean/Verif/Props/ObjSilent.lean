import Verif.Props.ObjDmx
import Verif.Props.ObjLayout

/-! # C295: objects are heard

Refuted for loudspeakers in all six directions, for which no imaginary loudspeaker is needed; proved
when a real loudspeaker takes part and there is an imaginary one. -/

namespace Verif.ObjRen

open Finset (range)

/-- Positions of loudspeakers, impeghd_obj_ren_dec.c 1178-1185. -/
noncomputable def places (l : List ObjLayout.Spk) (i : Nat) : Displace.Cart :=
  cartDeg ⟨((l.getD i ⟨0, 0⟩).az : ℝ), ((l.getD i ⟨0, 0⟩).el : ℝ), 1⟩

/-- The eight triangles of `ObjLayout.six`. -/
def octahedron : List Tri :=
  [⟨0, 1, 4⟩, ⟨1, 2, 4⟩, ⟨2, 3, 4⟩, ⟨3, 0, 4⟩, ⟨1, 0, 5⟩, ⟨2, 1, 5⟩, ⟨3, 2, 5⟩, ⟨0, 3, 5⟩]

theorem six_places : places ObjLayout.six 0 = ⟨1, 0, 0⟩ ∧ places ObjLayout.six 1 = ⟨0, 1, 0⟩ ∧
    places ObjLayout.six 2 = ⟨-1, 0, 0⟩ ∧ places ObjLayout.six 3 = ⟨0, -1, 0⟩ ∧
    places ObjLayout.six 4 = ⟨0, 0, 1⟩ ∧ places ObjLayout.six 5 = ⟨0, 0, -1⟩ := by
  have e1 : Real.pi / 180 * 90 = Real.pi / 2 := by ring
  refine ⟨?_, ?_, ?_, ?_, ?_, ?_⟩ <;>
    simp [places, ObjLayout.six, cartDeg, Displace.polCart, Displace.rad, e1]

/-- C295, refuted: that an object with gain one at the place of a loudspeaker is heard. -/
theorem C295_refuted : ¬ ∀ (l : List ObjLayout.Spk) (L : ObjLayout.Layout), ObjLayout.imaginary l = some L →
    ∀ (old : Geo), Clear old.dmx → ∀ (ts : List Tri) (o : Obj) (g : Nat → ℝ), o.gain = 1 →
      o.width ≤ 0 → o.tall ≤ 0 → (∃ i < l.length, cartDeg ⟨o.az, o.el, o.radius⟩ = places l i) →
      finalGains (finish old l.length L.nImag ts (places L.spks) L.height) o = some g →
      ∃ i < l.length, g i ≠ 0 := by
  intro h
  let old : Geo := ⟨0, 0, 0, fun _ => ⟨0, 0, 0⟩, fun _ => ⟨⟨0, 0, 0⟩, ⟨0, 0, 0⟩, ⟨0, 0, 0⟩⟩, fun _ => ⟨0, 0, 0⟩,
    fun _ _ => 0, false⟩
  let o : Obj := ⟨0, 0, 1, 1, 0, 0, 0⟩
  obtain ⟨p0, p1, p2, p3, p4, p5⟩ := six_places
  have hc : cartDeg ⟨o.az, o.el, o.radius⟩ = ⟨1, 0, 0⟩ := by
    simp [o, cartDeg, Displace.polCart, Displace.rad]
  have hs : (finalGains (finish old 6 0 octahedron (places ObjLayout.six) true) o).isSome := by
    refine C290_number _ (fun i hi => ?_) o le_rfl le_rfl ?_
    · change i < 8 at hi
      rcases (by omega : i = 0 ∨ i = 1 ∨ i = 2 ∨ i = 3 ∨ i = 4 ∨ i = 5 ∨ i = 6 ∨ i = 7) with
        rfl | rfl | rfl | rfl | rfl | rfl | rfl | rfl <;>
        simp [octahedron, det, p0, p1, p2, p3, p4, p5]
    · simp only [hc]
      refine ⟨Or.inl one_ne_zero, 0, by decide, 1, 0, 0, ?_⟩
      simp [octahedron, p0, p1, p4]
  obtain ⟨g, hg⟩ := Option.isSome_iff_exists.mp hs
  obtain ⟨i, -, hi⟩ := h ObjLayout.six _ ObjLayout.six_none old (fun _ _ => rfl) octahedron o g rfl le_rfl le_rfl
    ⟨0, by decide, by rw [hc, p0]⟩ hg
  exact hi (C295_silent old (fun _ _ => rfl) 6 octahedron _ true o g hg i)

/-- C295, what holds: with an imaginary loudspeaker, an object that gives a gain to a real loudspeaker
is heard with its own energy. -/
theorem C295_heard_partial (old : Geo) (ho : Clear old.dmx) (nReal nImag : Nat) (hi : 0 < nImag) (ts : List Tri)
    (pos : Nat → Displace.Cart) (height : Bool) (o : Obj) (ls g : Nat → ℝ)
    (hv : vbap (finish old nReal nImag ts pos height) o = some ls)
    (hg : finalGains (finish old nReal nImag ts pos height) o = some g)
    (hpos : ∀ j < nReal + nImag, 0 ≤ ls j) (k : Nat) (hk : k < nReal) (hls : 0 < ls k) :
    ∑ i ∈ range nReal, g i * g i = o.gain * o.gain := by
  rcases C290_energy _ o g hg with e | e
  · exact e
  · have e : ∀ i < nReal, g i = 0 := e
    have hgk := e k hk
    simp only [finalGains, hv, Option.map_some, Option.some.injEq] at hg
    have hm : 0 < mixed (finish old nReal nImag ts pos height) ls k := by
      have hd : ∀ j, (finish old nReal nImag ts pos height).dmx k j
          = remap nReal (nReal + nImag) ts old.dmx k j := by
        intro j
        simp only [finish, coreInit, if_pos hi]
      have hnn : ∀ j ∈ range (nReal + nImag), 0 ≤ (finish old nReal nImag ts pos height).dmx k j * ls j := by
        intro j hj
        have hj := Finset.mem_range.mp hj
        refine mul_nonneg ?_ (hpos j hj)
        rw [hd]
        simp only [remap, if_pos (show k < nReal + nImag ∧ j < nReal + nImag from ⟨by omega, hj⟩)]
        exact Real.sqrt_nonneg _
      refine lt_of_lt_of_le ?_ (Finset.single_le_sum hnn (Finset.mem_range.mpr (by omega : k < nReal + nImag)))
      rw [hd, C294_real (by omega) ts ho (by omega) hk, if_pos rfl, one_mul]
      exact hls
    have hsum : gainSum (finish old nReal nImag ts pos height) ls ≠ 0 := by
      have hp : 0 < ∑ i ∈ range nReal, mixed (finish old nReal nImag ts pos height) ls i
          * mixed (finish old nReal nImag ts pos height) ls i :=
        lt_of_lt_of_le (mul_pos hm hm) (Finset.single_le_sum (f := fun i =>
          mixed (finish old nReal nImag ts pos height) ls i * mixed (finish old nReal nImag ts pos height) ls i)
          (fun i _ => mul_self_nonneg _) (Finset.mem_range.mpr hk))
      exact (Real.sqrt_pos.mpr hp).ne'
    have hz : o.gain = 0 := by
      rw [← hg] at hgk
      simp only [if_pos hsum] at hgk
      rcases div_eq_zero_iff.mp hgk with q | q
      · exact (mul_eq_zero.mp q).resolve_left hm.ne'
      · exact absurd q hsum
    rw [Finset.sum_eq_zero fun i hi => by rw [e i (Finset.mem_range.mp hi), mul_zero], hz, mul_zero]

/-- An imaginary loudspeaker above two real ones (hypotheses of C295). -/
example : Clear (fun _ _ => 0) ∧ (finish ⟨0, 0, 0, fun _ => ⟨0, 0, 0⟩, fun _ => ⟨⟨0, 0, 0⟩, ⟨0, 0, 0⟩, ⟨0, 0, 0⟩⟩,
    fun _ => ⟨0, 0, 0⟩, fun _ _ => 0, false⟩ 2 1 [⟨0, 1, 2⟩] axes.pos false).dmx 0 0 = 1 := by
  refine ⟨fun _ _ => rfl, ?_⟩
  have h : remap 2 3 [⟨0, 1, 2⟩] (fun _ _ => 0) 0 0 = 1 := by
    rw [C294_real (by decide) _ (fun _ _ => rfl) (by decide) (by decide), if_pos rfl]
  simpa only [finish, coreInit, if_pos Nat.one_pos] using h

end Verif.ObjRen
