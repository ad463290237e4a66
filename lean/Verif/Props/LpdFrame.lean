import Verif.Props.LpdLpc
import Verif.Spec.LpdFrame

/-! # C163, C164: frames are decoded as coded -/

namespace Verif.Lpd

open Prog
open Avq (IsCode extension baseNumber)
open DrcSel (at_)

/-! ## Lists -/

theorem each_mono {α : Type} {R S : Nat → α → List Bool → Prop} {i : Nat} {xs : List α} {b : List Bool} (h : Each R i xs b)
    (e : ∀ j x b, i ≤ j → j < i + xs.length → R j x b → S j x b) : Each S i xs b := by
  induction xs generalizing i b with
  | nil => exact h
  | cons x xs ih =>
    obtain ⟨b1, b2, h1, h2, rfl⟩ := h
    exact ⟨b1, b2, e i x b1 (by omega) (by simp) h1, ih h2 fun j y b hj hl => e j y b (by omega) (by simp; omega), rfl⟩

theorem each_shift {α : Type} {R : Nat → α → List Bool → Prop} (k : Nat) {i : Nat} {xs : List α} {b : List Bool} :
    Each (fun j => R (j + k)) i xs b ↔ Each R (i + k) xs b := by
  induction xs generalizing i b with
  | nil => exact Iff.rfl
  | cons x xs ih =>
    simp only [Each]
    refine exists_congr fun b1 => exists_congr fun b2 => ?_
    rw [ih, show i + 1 + k = i + k + 1 by omega]

theorem each_append {α : Type} {R : Nat → α → List Bool → Prop} {i : Nat} {xs ys : List α} {b : List Bool} :
    Each R i (xs ++ ys) b ↔ ∃ b1 b2, Each R i xs b1 ∧ Each R (i + xs.length) ys b2 ∧ b = b1 ++ b2 := by
  induction xs generalizing i b with
  | nil =>
    constructor
    · intro h
      exact ⟨[], b, rfl, h, rfl⟩
    · rintro ⟨b1, b2, rfl, h, rfl⟩
      exact h
  | cons x xs ih =>
    constructor
    · rintro ⟨b1, b2, h1, h2, rfl⟩
      obtain ⟨b3, b4, h3, h4, rfl⟩ := ih.mp h2
      exact ⟨b1 ++ b3, b4, ⟨b1, b3, h1, h3, rfl⟩, by rw [List.length_cons, ← Nat.add_assoc, Nat.add_right_comm]; exact h4, by simp⟩
    · rintro ⟨_, b4, ⟨b1, b3, h1, h3, rfl⟩, h4, rfl⟩
      refine ⟨b1, b3 ++ b4, h1, ih.mpr ⟨b3, b4, h3, ?_, rfl⟩, by simp⟩
      rw [List.length_cons, ← Nat.add_assoc, Nat.add_right_comm] at h4
      exact h4

theorem forN_reads {α : Type} {f : Nat → Prog α} {R : Nat → α → List Bool → Prop} (n i : Nat)
    (h : ∀ j, i ≤ j → j < i + n → Reads (f j) (R j)) : Reads (forN f n i) (fun vs b => vs.length = n ∧ Each R i vs b) := by
  induction n generalizing i with
  | zero =>
    refine (Reads.pure []).congr fun vs b => ?_
    constructor
    · rintro ⟨rfl, rfl⟩
      exact ⟨rfl, rfl⟩
    · rintro ⟨hl, h⟩
      obtain rfl := List.length_eq_zero_iff.mp hl
      exact ⟨rfl, h⟩
  | succ n ih =>
    unfold forN
    refine ((h i (by omega) (by omega)).bind fun v _ _ => (ih (i + 1) fun j h1 h2 => h j (by omega) (by omega)).bind
      fun vs _ _ => Reads.pure (v :: vs)).congr fun vs b => ?_
    constructor
    · rintro ⟨v, b1, _, h1, ⟨vs, b2, _, ⟨hl, h2⟩, ⟨rfl, rfl⟩, rfl⟩, rfl⟩
      exact ⟨by simp [hl], b1, b2, h1, h2, by simp⟩
    · rintro ⟨hl, h⟩
      cases vs with
      | nil => simp at hl
      | cons v vs =>
        obtain ⟨b1, b2, h1, h2, rfl⟩ := h
        exact ⟨v, b1, b2, h1, ⟨vs, b2, [], ⟨by simpa using hl, h2⟩, ⟨rfl, rfl⟩, by simp⟩, rfl⟩

theorem field_reads {w : Nat} (h : w ≤ 24) : Reads (bits w) (Field w) :=
  (Reads.bits w).congr fun v b => by simp [Field, h]

theorem each_field {w i : Nat} {vs : List Nat} {b : List Bool} :
    Each (fun _ => Field w) i vs b ↔ (∀ v ∈ vs, v < 2 ^ w) ∧ b = vs.flatMap (natBits w) := by
  induction vs generalizing i b with
  | nil => simp [Each]
  | cons v vs ih =>
    simp only [Each, Field, ih]
    constructor
    · rintro ⟨b1, b2, ⟨h1, rfl⟩, ⟨h2, rfl⟩, rfl⟩
      refine ⟨?_, by simp⟩
      intro u hu
      rcases List.mem_cons.mp hu with rfl | hu
      · exact h1
      · exact h2 u hu
    · rintro ⟨h, rfl⟩
      exact ⟨_, _, ⟨h v (by simp), rfl⟩, ⟨fun u hu => h u (by simp [hu]), rfl⟩, by simp⟩

theorem lift_reads {α : Type} (r : Res α) : Reads (lift r) (fun a b => r = .ok a ∧ b = []) := by
  cases r with
  | ok x => exact (Reads.pure x).congr fun a b => by simp [eq_comm]
  | jump => exact Reads.undef.congr fun a b => by simp
  | err c => exact (Reads.fail c).congr fun a b => by simp
  | ub => exact Reads.undef.congr fun a b => by simp

theorem wide_reads {w : Nat} (h : 24 < w) : Reads (bits w) (fun _ _ => False) :=
  (Reads.bits w).congr fun v b => ⟨fun h' => absurd h'.1 (by omega), False.elim⟩

/-! ## Aliasing cancellation -/

theorem block_reads : Reads block PointCode := by
  unfold block
  refine (plain_reads.bind (S := fun q x b => ∃ c : Code, c.q = q ∧ c.Valid ∧
    Avq.decode c.q c.index (c.voronoi.map Int.ofNat) = .ok x ∧ b = c.bits) fun q b hq => ?_).congr fun x b => ?_
  · obtain ⟨hq1, -⟩ := hq
    rw [extra_eq, units_eq]
    have hb := base_le (q := q)
    by_cases hw : extension q ≤ 24
    · refine ((field_reads (w := 4 * baseNumber q) (by omega)).bind fun c _ _ => (forN_reads 8 0 fun j _ _ => field_reads hw).bind
        fun kv _ _ => lift_reads _).congr fun x b => ?_
      constructor
      · rintro ⟨c, b1, _, ⟨h1, rfl⟩, ⟨kv, b2, _, ⟨hl, h2⟩, ⟨hd, rfl⟩, rfl⟩, rfl⟩
        obtain ⟨h3, rfl⟩ := each_field.mp h2
        refine ⟨⟨q, c, kv⟩, rfl, ⟨⟨?_, by simpa using hl, ?_⟩, hq1, ?_⟩, hd, by simp [Code.bits]⟩
        · rw [Nat.pow_mul] at h1
          exact h1
        · intro k hk
          obtain ⟨w, hw', rfl⟩ := List.mem_map.mp hk
          have := h3 w hw'
          refine ⟨Int.natCast_nonneg w, ?_⟩
          show (w : Int) < 2 ^ extension q
          exact_mod_cast this
        · show q ≤ 52
          unfold extension at hw
          split at hw <;> omega
      · rintro ⟨c, rfl, hv, hd, rfl⟩
        have hi := hv.1.index
        have hl := hv.1.length
        have hr := hv.1.range
        simp only [List.length_map] at hl
        refine ⟨c.index, _, _, ⟨by rw [Nat.pow_mul]; exact hi, rfl⟩, ⟨c.voronoi, _, [], ⟨hl, each_field.mpr ⟨?_, rfl⟩⟩, ⟨hd, rfl⟩, rfl⟩,
          by simp [Code.bits]⟩
        intro v hv
        have := (hr (Int.ofNat v) (List.mem_map.mpr ⟨v, hv, rfl⟩)).2
        have : (v : Int) < 2 ^ extension c.q := this
        exact_mod_cast this
    · refine ((field_reads (w := 4 * baseNumber q) (by omega)).bind fun c _ _ => (forN_reads 8 0 fun j _ _ => wide_reads (by omega)).bind
        (S := fun kv x b => Avq.decode q c (kv.map Int.ofNat) = .ok x ∧ b = []) fun kv _ _ => lift_reads _).congr fun x b => ?_
      constructor
      · rintro ⟨c, b1, _, _, ⟨kv, b2, _, ⟨hl, h2⟩, _⟩, _⟩
        cases kv with
        | nil => simp at hl
        | cons v vs =>
          obtain ⟨_, _, h, _⟩ := h2
          exact h.elim
      · rintro ⟨c, rfl, hv, _⟩
        exfalso
        have := hv.2.2
        apply hw
        unfold extension
        split <;> omega
  · constructor
    · rintro ⟨q, b1, b2, ⟨_, rfl⟩, ⟨c, rfl, hv, hd, rfl⟩, rfl⟩
      exact ⟨c, hv, hd, rfl⟩
    · rintro ⟨c, hv, hd, rfl⟩
      exact ⟨c.q, _, _, ⟨hv.2.1, rfl⟩, ⟨c, rfl, hv, hd, rfl⟩, rfl⟩

theorem point_length {x : List Int} {b : List Bool} (h : PointCode x b) : x.length = 8 := by
  obtain ⟨c, hv, hd, _⟩ := h
  obtain ⟨y, hy, hl⟩ := code_point hv
  rw [hd] at hy
  cases hy
  exact hl

theorem cancel_reads {length pos cap : Nat} (h : pos + length ≤ cap) : Reads (cancel length pos cap) (FacCode (length / 8)) := by
  unfold cancel
  refine ((forN_reads (R := fun _ => PointCode) (length / 8) 0 fun j _ hj => ?_).bind fun xs _ _ => Reads.pure xs.flatten).congr fun x b => ?_
  · refine (block_reads.bind (S := fun x y b => y = x ∧ b = []) fun x b hx => ?_).congr fun x b => ?_
    · have := point_length hx
      rw [if_pos (by omega)]
      exact Reads.pure x
    · constructor
      · rintro ⟨y, b1, _, h, ⟨rfl, rfl⟩, rfl⟩
        simpa using h
      · intro h
        exact ⟨x, b, [], h, ⟨rfl, rfl⟩, by simp⟩
  · constructor
    · rintro ⟨xs, b1, _, ⟨hl, h⟩, ⟨rfl, rfl⟩, rfl⟩
      exact ⟨xs, hl, rfl, by simpa using h⟩
    · rintro ⟨xs, hl, rfl, h⟩
      exact ⟨xs, b, [], ⟨hl, h⟩, ⟨rfl, rfl⟩, by simp⟩

/-! ## Excitation -/

theorem pulses_reads {core : Nat} (h : core < 8) : Reads (do
    let row ← lift (at_ pulseBits core)
    (if core ≠ 5 then forN (fun i => bits (row.getD i 0)) 4 0
    else do
      let as ← forN (fun _ => bits 2) 4 0
      let bs ← forN (fun _ => bits 14) 4 0
      pure (as ++ bs))) (fun ps b => ps.length = (pulseWidths core).length ∧ Each (fun i => Field ((pulseWidths core).getD i 0)) 0 ps b) := by
  by_cases h5 : core = 5
  · subst h5
    show Reads (do
      let as ← forN (fun _ => bits 2) 4 0
      let bs ← forN (fun _ => bits 14) 4 0
      pure (as ++ bs)) _
    refine ((forN_reads 4 0 fun j _ _ => field_reads (w := 2) (by omega)).bind fun as _ _ =>
      (forN_reads 4 0 fun j _ _ => field_reads (w := 14) (by omega)).bind fun bs _ _ => Reads.pure (as ++ bs)).congr fun ps b => ?_
    constructor
    · rintro ⟨as, b1, _, ⟨l1, h1⟩, ⟨bs, b2, _, ⟨l2, h2⟩, ⟨rfl, rfl⟩, rfl⟩, rfl⟩
      refine ⟨by simp [l1, l2, pulseWidths], each_append.mpr ⟨b1, b2, ?_, ?_, by simp⟩⟩
      · refine each_mono h1 fun j x b _ hj hx => ?_
        have : j = 0 ∨ j = 1 ∨ j = 2 ∨ j = 3 := by omega
        rcases this with rfl | rfl | rfl | rfl <;> exact hx
      · rw [← each_shift]
        refine each_mono h2 fun j x b _ hj hx => ?_
        have : j = 0 ∨ j = 1 ∨ j = 2 ∨ j = 3 := by omega
        rw [l1]
        rcases this with rfl | rfl | rfl | rfl <;> exact hx
    · rintro ⟨hl, hp⟩
      rw [← List.take_append_drop 4 ps] at hp
      obtain ⟨b1, b2, h1, h2, rfl⟩ := each_append.mp hp
      simp only [pulseWidths, List.length_cons, List.length_nil] at hl
      have l1 : (ps.take 4).length = 4 := by simp; omega
      have l2 : (ps.drop 4).length = 4 := by simp; omega
      rw [← each_shift, l1] at h2
      refine ⟨ps.take 4, b1, b2, ⟨l1, each_mono h1 fun j x b _ hj hx => ?_⟩, ⟨ps.drop 4, b2, [], ⟨l2, each_mono h2 fun j x b _ hj hx => ?_⟩,
        ⟨(List.take_append_drop 4 ps).symm, rfl⟩, by simp⟩, rfl⟩
      · have : j = 0 ∨ j = 1 ∨ j = 2 ∨ j = 3 := by omega
        rcases this with rfl | rfl | rfl | rfl <;> exact hx
      · have : j = 0 ∨ j = 1 ∨ j = 2 ∨ j = 3 := by omega
        rcases this with rfl | rfl | rfl | rfl <;> exact hx
  · have e : ∀ core < 8, core ≠ 5 → at_ pulseBits core = .ok (pulseWidths core) ∧ (pulseWidths core).length = 4 ∧
        ∀ j < 4, (pulseWidths core).getD j 0 ≤ 24 := by decide
    obtain ⟨e1, e2, e3⟩ := e core h h5
    rw [e1]
    show Reads (if core ≠ 5 then forN (fun i => bits ((pulseWidths core).getD i 0)) 4 0 else _) _
    rw [if_pos h5, e2]
    exact forN_reads 4 0 fun j _ hj => field_reads (e3 j (by omega))

theorem subframe_reads {core k sfr : Nat} (h : core < 8) (hk : k < 4) (hs : sfr < 4) : Reads (subframe core k sfr) (SubCode core sfr) := by
  have hw : (if sfr = 2 ∨ sfr = 0 then 9 else 6) = pitchWidth sfr := by
    unfold pitchWidth
    split_ifs <;> omega
  have hw' : pitchWidth sfr ≤ 24 := by
    unfold pitchWidth
    split <;> omega
  have e : subframe core k sfr = (do
      let p ← bits (pitchWidth sfr)
      let f ← bits 1
      let ps ← (do
        let row ← lift (at_ pulseBits core)
        (if core ≠ 5 then forN (fun i => bits (row.getD i 0)) 4 0
        else do
          let as ← forN (fun _ => bits 2) 4 0
          let bs ← forN (fun _ => bits 14) 4 0
          pure (as ++ bs)))
      let g ← bits 7
      pure { pitch := p, filtered := f, pulses := ps, gain := g }) := by
    unfold subframe
    have hi : k * 4 + sfr < 16 := by omega
    rw [hw]
    simp only [if_pos hi, bind_assoc]
  rw [e]
  refine ((field_reads hw').bind fun p _ _ => (field_reads (w := 1) (by omega)).bind fun f _ _ => (pulses_reads h).bind fun ps _ _ =>
    (field_reads (w := 7) (by omega)).bind fun g _ _ => Reads.pure (Sub.mk p f ps g)).congr fun s b => ?_
  constructor
  · rintro ⟨p, _, _, ⟨h1, rfl⟩, ⟨f, _, _, ⟨h2, rfl⟩, ⟨ps, pb, _, ⟨hl, h3⟩, ⟨g, _, _, ⟨h4, rfl⟩, ⟨rfl, rfl⟩, rfl⟩, rfl⟩, rfl⟩, rfl⟩
    exact ⟨pb, h1, h2, h4, hl, h3, by simp⟩
  · rintro ⟨pb, h1, h2, h4, hl, h3, rfl⟩
    exact ⟨s.pitch, _, _, ⟨h1, rfl⟩, ⟨s.filtered, _, _, ⟨h2, rfl⟩, ⟨s.pulses, pb, _, ⟨hl, h3⟩, ⟨s.gain, _, _, ⟨h4, rfl⟩, ⟨rfl, rfl⟩, rfl⟩, rfl⟩,
      rfl⟩, by simp⟩

theorem acelp_reads {τ : Type} {tbe : Nat → Prog τ} {R : Nat → τ → List Bool → Prop} (ht : ∀ i, Reads (tbe i) (R i)) (full : Bool)
    {core k : Nat} (h : core < 8) (hk : k < 4) :
    Reads (acelp tbe full core k) (AcelpCode (R (if k = 0 then 0 else 1)) full core) := by
  unfold acelp
  refine ((field_reads (w := 2) (by omega)).bind fun e _ _ => (forN_reads 4 0 fun j _ hj => subframe_reads h hk (by omega)).bind fun ss _ _ =>
    Reads.bind (R := fun x b => if full then ∃ t, x = some t ∧ R (if k = 0 then 0 else 1) t b else x = none ∧ b = []) ?_
      fun x _ _ => Reads.pure (Acelp.mk e ss x)).congr fun a b => ?_
  · cases full
    · exact (Reads.pure none).congr fun a b => by simp
    · refine ((ht _).bind fun t _ _ => Reads.pure (some t)).congr fun x b => ?_
      simp only [if_true]
      constructor
      · rintro ⟨t, b1, _, h1, ⟨rfl, rfl⟩, rfl⟩
        exact ⟨t, rfl, by simpa using h1⟩
      · rintro ⟨t, rfl, h1⟩
        exact ⟨t, b, [], h1, ⟨rfl, rfl⟩, by simp⟩
  · constructor
    · rintro ⟨e, _, _, ⟨h1, rfl⟩, ⟨ss, sb, _, ⟨hl, h2⟩, ⟨x, xb, _, h3, ⟨rfl, rfl⟩, rfl⟩, rfl⟩, rfl⟩
      exact ⟨sb, xb, h1, hl, h2, h3, by simp⟩
    · rintro ⟨sb, xb, h1, hl, h2, h3, rfl⟩
      exact ⟨a.energy, _, _, ⟨h1, rfl⟩, ⟨a.subs, sb, _, ⟨hl, h2⟩, ⟨a.ext, xb, _, h3, ⟨rfl, rfl⟩, rfl⟩, rfl⟩, by simp⟩

theorem option_code_reads {α : Type} {p : Prog (Option α)} {R : α → List Bool → Prop} (h : Reads p (fun x b => ∃ v, x = some v ∧ R v b)) :
    Reads (do
      let f ← bits 1
      if f = 1 then p else pure none) (OptionCode R) := by
  refine ((field_reads (w := 1) (by omega)).bind fun f _ _ => Reads.ite (c := f = 1) (fun _ => h) fun _ => Reads.pure none).congr fun x b => ?_
  constructor
  · rintro ⟨f, _, b2, ⟨h1, rfl⟩, h2, rfl⟩
    split at h2
    · obtain ⟨v, rfl, hv⟩ := h2
      subst f
      exact ⟨b2, hv, rfl⟩
    · obtain ⟨rfl, rfl⟩ := h2
      obtain rfl : f = 0 := by omega
      rfl
  · intro h
    cases x with
    | none =>
      obtain rfl := h
      exact ⟨0, [false], [], ⟨by decide, rfl⟩, by simp, rfl⟩
    | some v =>
      obtain ⟨b', hv, rfl⟩ := h
      exact ⟨1, [true], b', ⟨by decide, rfl⟩, by simpa using hv, rfl⟩

theorem guard_reads {α : Type} {p : Prog α} {R : α → List Bool → Prop} (h : Reads p R) (base : Bool) (e : ErrCode) :
    Reads (if base then fail e else p) (fun x b => base = false ∧ R x b) := by
  cases base
  · simp only [Bool.false_eq_true, if_false]
    exact h.congr fun a b => by simp
  · simp only [if_true]
    exact (Reads.fail e).congr fun a b => by simp

theorem lines_eq (full : Bool) {m : Nat} (h : 1 ≤ m) (h3 : m ≤ 3) : lines full m = lineCount full m := by
  unfold lines lineCount span
  have : m = 1 ∨ m = 2 ∨ m = 3 := by omega
  rcases this with rfl | rfl | rfl <;> rfl

theorem tcx_reads {ρ : Type} {rest : Nat → Nat → Bool → Nat → Prog ρ} {R : Nat → Nat → Bool → Nat → ρ → List Bool → Prop}
    (hr : ∀ k m f p, Reads (rest k m f p) (R k m f p)) (c : Config) {k m : Nat} (h1 : 1 ≤ m) (h3 : m ≤ 3) (first : Bool) {pos : Nat}
    (hp : pos + lineCount c.full m ≤ 1024) : Reads (tcx rest c k m first pos) (TcxCode (R k m first pos) c m) := by
  have hlong : decide ((m = 3 ∧ (!c.full) = true) ∨ (m = 2 ∧ c.full = true)) = decide (m = if c.full then 2 else 3) := by
    cases c.full <;> simp
  unfold tcx
  rw [lines_eq c.full h1 h3]
  simp only [hlong, if_pos hp]
  refine (Reads.bind (R := fun v b => (if c.noiseFilling then v < 8 else v = 8) ∧ b = if c.noiseFilling then natBits 3 v else []) ?_ fun noise _ _ =>
    (field_reads (w := 7) (by omega)).bind fun gain _ _ =>
    Reads.bind (R := fun x b => if m = (if c.full then 2 else 3) then
        OptionCode (fun (x : Nat × Nat) b => c.baseline = false ∧ x.1 < 512 ∧ x.2 < 4 ∧ b = natBits 9 x.1 ++ natBits 2 x.2) x b
      else x = none ∧ b = []) ?_ fun pitch _ _ =>
    Reads.bind (R := fun x b => if m = (if c.full then 2 else 3) ∧ c.independent = false then
        OptionCode (fun x b => c.baseline = false ∧ x < 256 ∧ b = natBits 8 x) x b
      else x = none ∧ b = []) ?_ fun spacing _ _ =>
    (hr k m first pos).bind fun r _ _ => Reads.pure (Tcx.mk noise gain (lineCount c.full m) pitch spacing r)).congr fun t b => ?_
  · cases c.noiseFilling
    · exact (Reads.pure 8).congr fun a b => by simp
    · exact (field_reads (w := 3) (by omega)).congr fun a b => by simp [Field]
  · by_cases hm : m = if c.full then 2 else 3
    · simp only [decide_eq_true hm, if_true, if_pos hm]
      refine option_code_reads (((guard_reads ((field_reads (w := 9) (by omega)).bind fun lag _ _ => (field_reads (w := 2) (by omega)).bind
        fun g _ _ => Reads.pure (some (lag, g))) c.baseline _)).congr fun x b => ?_)
      constructor
      · rintro ⟨hb, lag, _, _, ⟨h1, rfl⟩, ⟨g, _, _, ⟨h2, rfl⟩, ⟨rfl, rfl⟩, rfl⟩, rfl⟩
        exact ⟨(lag, g), rfl, hb, h1, h2, by simp⟩
      · rintro ⟨⟨lag, g⟩, rfl, hb, h1, h2, rfl⟩
        exact ⟨hb, lag, _, _, ⟨h1, rfl⟩, ⟨g, _, [], ⟨h2, rfl⟩, ⟨rfl, rfl⟩, rfl⟩, by simp⟩
    · simp only [decide_eq_false hm, Bool.false_eq_true, if_false, if_neg hm]
      exact Reads.pure none
  · by_cases hm : m = (if c.full then 2 else 3) ∧ c.independent = false
    · rw [if_pos ⟨by simpa using hm.1, by simp [hm.2]⟩]
      simp only [if_pos hm]
      refine option_code_reads ((guard_reads ((field_reads (w := 8) (by omega)).bind fun s _ _ => Reads.pure (some s)) c.baseline _).congr
        fun x b => ?_)
      constructor
      · rintro ⟨hb, s, _, _, ⟨h1, rfl⟩, ⟨rfl, rfl⟩, rfl⟩
        exact ⟨s, rfl, hb, h1, by simp⟩
      · rintro ⟨s, rfl, hb, h1, rfl⟩
        exact ⟨hb, s, _, [], ⟨h1, rfl⟩, ⟨rfl, rfl⟩, by simp⟩
    · rw [if_neg (by
        rintro ⟨h1, h2⟩
        exact hm ⟨by simpa using h1, by simpa using h2⟩)]
      simp only [if_neg hm]
      exact Reads.pure none
  · constructor
    · rintro ⟨noise, _, _, ⟨hn, rfl⟩, ⟨gain, _, _, ⟨hg, rfl⟩, ⟨pitch, pb, _, hpb, ⟨spacing, sb, _, hsb, ⟨r, rb, _, hrb, ⟨rfl, rfl⟩, rfl⟩, rfl⟩, rfl⟩, rfl⟩, rfl⟩
      exact ⟨pb, sb, rb, hn, hg, rfl, hpb, hsb, hrb, by simp⟩
    · rintro ⟨pb, sb, rb, hn, hg, hl, hpb, hsb, hrb, rfl⟩
      exact ⟨t.noise, _, _, ⟨hn, rfl⟩, ⟨t.gain, _, _, ⟨hg, rfl⟩, ⟨t.pitch, pb, _, hpb, ⟨t.spacing, sb, _, hsb, ⟨t.rest, rb, [], hrb,
        ⟨by rw [← hl], rfl⟩, rfl⟩, rfl⟩, rfl⟩, rfl⟩, by simp⟩

/-! ## Parts -/

/-- The number of lines of the transform coded parts. -/
def lineSum (full : Bool) (ms : List Nat) : Nat := (ms.map fun m => if m = 0 then 0 else lineCount full m).sum

theorem fac_reads {P : Prop} [Decidable P] {B : Bool} (hB : P ↔ B = true) {k : Nat} (hk : k < 4) :
    Reads (if P then do
        let x ← cancel (256 / 2) (k * 128) 512
        pure (some x)
      else pure none) (fun o b => if B then ∃ x, o = some x ∧ FacCode 16 x b else o = none ∧ b = []) := by
  by_cases h : P
  · rw [if_pos h, hB.mp h]
    simp only [if_true]
    refine ((cancel_reads (by omega)).bind fun x _ _ => Reads.pure (some x)).congr fun o b => ?_
    constructor
    · rintro ⟨x, b1, _, h1, ⟨rfl, rfl⟩, rfl⟩
      exact ⟨x, rfl, by simpa using h1⟩
    · rintro ⟨x, rfl, h1⟩
      exact ⟨x, b, [], h1, ⟨rfl, rfl⟩, by simp⟩
  · rw [if_neg h]
    have : B = false := by
      cases B
      · rfl
      · exact absurd (hB.mpr rfl) h
    rw [this]
    simp only [Bool.false_eq_true, if_false]
    exact Reads.pure none

theorem parts_reads {τ ρ : Type} {tbe : Nat → Prog τ} {R : Nat → τ → List Bool → Prop} (ht : ∀ i, Reads (tbe i) (R i))
    {rest : Nat → Nat → Bool → Nat → Prog ρ} {S : Nat → Nat → Bool → Nat → ρ → List Bool → Prop} (hr : ∀ k m f p, Reads (rest k m f p) (S k m f p))
    (c : Config) {core : Nat} (hc : core < 8) (mod : Nat → Nat) (send : Bool) (ms : List Nat) :
    ∀ (n k : Nat) (last : Int) (pos : Nat) (first : Bool), ms.length < n → (∀ m ∈ ms, m ≤ 3) → (∀ p ∈ pieces k ms, mod p.1 = p.2) →
      k + (ms.map span).sum = (if c.full then 2 else 4) → pos + lineSum c.full ms ≤ 1024 → (0 < k → 0 ≤ last) →
      Reads (parts tbe rest c core mod send n k last pos first)
        (fun ps b => ps.map (fun p => (p.start, p.mode)) = pieces k ms ∧ PartsCode R S c core send last pos first ps b) := by
  induction ms with
  | nil =>
    intro n k last pos first hn _ _ hk _ _
    obtain ⟨n, rfl⟩ : ∃ n', n = n' + 1 := ⟨n - 1, by simp at hn; omega⟩
    simp only [List.map_nil, List.sum_nil, Nat.add_zero] at hk
    rw [parts, if_neg (by omega)]
    refine (Reads.pure []).congr fun ps b => ?_
    constructor
    · rintro ⟨rfl, rfl⟩
      exact ⟨rfl, rfl⟩
    · rintro ⟨h1, h2⟩
      obtain rfl := List.map_eq_nil_iff.mp h1
      exact ⟨rfl, h2⟩
  | cons m ms ih =>
    intro n k last pos first hn hm hp hk hpos hlast
    obtain ⟨n, rfl⟩ : ∃ n', n = n' + 1 := ⟨n - 1, by simp at hn; omega⟩
    simp only [List.map_cons, List.sum_cons] at hk
    have hmod : mod k = m := hp (k, m) (by simp [pieces])
    have hm3 : m ≤ 3 := hm m (by simp)
    have hspan : 1 ≤ span m := by unfold span; split_ifs <;> omega
    have hklim : k < if c.full then 2 else 4 := by omega
    have hk4 : k < 4 := by split at hklim <;> omega
    have hB : (if k ≠ 0 then (0 < last ∧ mod k = 0) ∨ (last = 0 ∧ 0 < mod k) else send = true) ↔ cancelled send last k m = true := by
      unfold cancelled
      rw [hmod]
      by_cases h0 : k = 0
      · simp [h0]
      · have := hlast (by omega)
        rw [if_pos h0, if_neg h0]
        by_cases h1 : 0 < last <;> by_cases h2 : 0 < m <;> simp [h1, h2] <;> omega
    have hp' : ∀ p ∈ pieces (k + span m) ms, mod p.1 = p.2 := fun p h => hp p (by simp [pieces, h])
    have hm' : ∀ m ∈ ms, m ≤ 3 := fun x h => hm x (by simp [h])
    have hn' : ms.length < n := by simp at hn; omega
    simp only [lineSum, List.map_cons, List.sum_cons] at hpos
    rw [parts, if_pos hklim]
    by_cases h0 : m = 0
    · have hs : span m = 1 := by rw [h0]; rfl
      rw [hs] at hp' hk
      have h0' : mod k = 0 := by omega
      have ihr := ih n (k + 1) 0 pos first hn' hm' hp' (by omega) (by rw [if_pos h0] at hpos; unfold lineSum; omega) (by omega)
      refine ((fac_reads hB hk4).bind (S := fun fac ps b => ∃ a ps' db b', AcelpCode (R (if k = 0 then 0 else 1)) c.full core a db ∧
        (ps'.map (fun p => (p.start, p.mode)) = pieces (k + 1) ms ∧ PartsCode R S c core send 0 pos first ps' b') ∧
        ps = { start := k, mode := 0, fac := fac, data := .inl a } :: ps' ∧ b = db ++ b') fun fac _ _ => ?_).congr fun ps b => ?_
      · rw [if_neg (by omega)]
        refine ((acelp_reads ht c.full hc hk4).bind fun a _ _ => ihr.bind fun ps' _ _ => Reads.pure (_ :: ps')).congr fun ps b => ?_
        constructor
        · rintro ⟨a, db, _, h1, ⟨ps', b', _, h2, ⟨rfl, rfl⟩, rfl⟩, rfl⟩
          exact ⟨a, ps', db, b', h1, h2, rfl, by simp⟩
        · rintro ⟨a, ps', db, b', h1, h2, rfl, rfl⟩
          exact ⟨a, db, _, h1, ⟨ps', b', [], h2, ⟨rfl, rfl⟩, rfl⟩, by simp⟩
      · subst h0
        constructor
        · rintro ⟨fac, fb, _, hf, ⟨a, ps', db, b', h1, ⟨h2, h3⟩, rfl, rfl⟩, rfl⟩
          refine ⟨by simp [pieces, hs, h2], fb, db, b', hf, ⟨rfl, h1, h3⟩, by simp⟩
        · rintro ⟨h1, h2⟩
          cases ps with
          | nil => simp [pieces] at h1
          | cons p ps =>
            obtain ⟨fb, db, b', hf, hd, rfl⟩ := h2
            obtain ⟨st, md, fac, data⟩ := p
            simp only [pieces, List.map_cons, List.cons.injEq, Prod.mk.injEq, hs] at h1
            obtain ⟨⟨rfl, rfl⟩, h1⟩ := h1
            cases data with
            | inl a => exact ⟨fac, fb, _, hf, ⟨a, ps, db, b', hd.2.1, ⟨h1, hd.2.2⟩, rfl, rfl⟩, by simp⟩
            | inr t => exact absurd rfl hd.1
    · have hcnt : 2 ^ (m - 1) = span m := by
        have : m = 1 ∨ m = 2 ∨ m = 3 := by omega
        rcases this with rfl | rfl | rfl <;> rfl
      have h0' : mod k ≠ 0 := by omega
      rw [if_neg h0] at hpos
      have ihr := ih n (k + span m) m (pos + lineCount c.full m) false hn' hm' hp' (by omega) (by unfold lineSum; omega) (by omega)
      refine ((fac_reads hB hk4).bind (S := fun fac ps b => ∃ t ps' db b', TcxCode (S k m first pos) c m t db ∧
        (ps'.map (fun p => (p.start, p.mode)) = pieces (k + span m) ms ∧ PartsCode R S c core send m (pos + lineCount c.full m) false ps' b') ∧
        ps = { start := k, mode := m, fac := fac, data := .inr (pos, t) } :: ps' ∧ b = db ++ b') fun fac _ _ => ?_).congr fun ps b => ?_
      · rw [if_pos h0', hmod, hcnt]
        have hle : k + span m ≤ 16 := by split at hk <;> omega
        simp only [if_pos hle]
        refine ((tcx_reads hr c (k := k) (by omega) hm3 first (by omega)).bind (S := fun t ps b => ∃ ps', (ps'.map (fun p => (p.start, p.mode)) = pieces (k + span m) ms ∧
          PartsCode R S c core send m (pos + lineCount c.full m) false ps' b) ∧
          ps = { start := k, mode := m, fac := fac, data := .inr (pos, t) } :: ps') fun t db ht => ?_).congr fun ps b => ?_
        · have hl : t.lines = lineCount c.full m := by
            obtain ⟨_, _, _, _, _, h, _⟩ := ht
            exact h
          rw [hl]
          refine (ihr.bind fun ps' _ _ => Reads.pure (_ :: ps')).congr fun ps b => ?_
          constructor
          · rintro ⟨ps', b', _, h2, ⟨rfl, rfl⟩, rfl⟩
            exact ⟨ps', by simpa using h2, rfl⟩
          · rintro ⟨ps', h2, rfl⟩
            exact ⟨ps', b, [], h2, ⟨rfl, rfl⟩, by simp⟩
        · constructor
          · rintro ⟨t, db, b', h1, ⟨ps', h2, rfl⟩, rfl⟩
            exact ⟨t, ps', db, b', h1, h2, rfl, rfl⟩
          · rintro ⟨t, ps', db, b', h1, h2, rfl, rfl⟩
            exact ⟨t, db, b', h1, ⟨ps', h2, rfl⟩, rfl⟩
      · constructor
        · rintro ⟨fac, fb, _, hf, ⟨t, ps', db, b', h1, ⟨h2, h3⟩, rfl, rfl⟩, rfl⟩
          refine ⟨by simp [pieces, h2], fb, db, b', hf, ⟨h0, rfl, h1, h3⟩, by simp⟩
        · rintro ⟨h1, h2⟩
          cases ps with
          | nil => simp [pieces] at h1
          | cons p ps =>
            obtain ⟨fb, db, b', hf, hd, rfl⟩ := h2
            obtain ⟨st, md, fac, data⟩ := p
            simp only [pieces, List.map_cons, List.cons.injEq, Prod.mk.injEq] at h1
            obtain ⟨⟨rfl, rfl⟩, h1⟩ := h1
            cases data with
            | inl a => exact absurd hd.1 h0
            | inr t =>
              obtain ⟨q, t⟩ := t
              obtain ⟨_, rfl, h2, h3⟩ := hd
              exact ⟨fac, fb, _, hf, ⟨t, ps, db, b', h2, ⟨h1, h3⟩, rfl, rfl⟩, by simp⟩

/-! ## The frame -/

theorem head_reads (c : Config) (shape maxSfb : Nat) : Reads (do
    let tns ← (if c.full then bits 1 else pure 0)
    let (shape, maxSfb) ← (if c.full then
        if tns = 1 ∨ c.noiseFilling then do
          let w ← bits 1
          let s ← bits 4
          pure (w, s)
        else pure (0, 0)
      else pure (shape, maxSfb))
    pure (tns, shape, maxSfb)) (fun x hb =>
      if c.full then
        x.1 < 2 ∧ (if x.1 = 1 ∨ c.noiseFilling then
            x.2.1 < 2 ∧ x.2.2 < 16 ∧ hb = natBits 1 x.1 ++ natBits 1 x.2.1 ++ natBits 4 x.2.2
          else x.2.1 = 0 ∧ x.2.2 = 0 ∧ hb = natBits 1 x.1)
      else x.1 = 0 ∧ x.2.1 = shape ∧ x.2.2 = maxSfb ∧ hb = []) := by
  cases c.full
  · simp only [Bool.false_eq_true, if_false, pure_bind]
    refine (Reads.pure (0, shape, maxSfb)).congr fun x b => ?_
    obtain ⟨x, y, z⟩ := x
    simp [and_assoc]
  · simp only [if_true]
    refine ((field_reads (w := 1) (by omega)).bind fun tns _ _ => (Reads.ite (c := tns = 1 ∨ c.noiseFilling = true)
      (fun _ => (field_reads (w := 1) (by omega)).bind fun w _ _ => (field_reads (w := 4) (by omega)).bind fun s _ _ => Reads.pure (w, s))
      fun _ => Reads.pure (0, 0)).bind fun y _ _ => Reads.pure (tns, y.1, y.2)).congr fun x b => ?_
    constructor
    · rintro ⟨tns, _, _, ⟨h1, rfl⟩, ⟨⟨w, s⟩, yb, _, h2, ⟨rfl, rfl⟩, rfl⟩, rfl⟩
      refine ⟨h1, ?_⟩
      split at h2
      · obtain ⟨w, _, _, ⟨hw, rfl⟩, ⟨s, _, _, ⟨hs, rfl⟩, ⟨h3, rfl⟩, rfl⟩, rfl⟩ := h2
        cases h3
        rename_i hc
        rw [if_pos hc]
        exact ⟨hw, hs, by simp⟩
      · obtain ⟨h3, rfl⟩ := h2
        cases h3
        rename_i hc
        rw [if_neg hc]
        exact ⟨rfl, rfl, by simp⟩
    · obtain ⟨tns, w, s⟩ := x
      rintro ⟨h1, h2⟩
      refine ⟨tns, natBits 1 tns, b.drop 1, ⟨h1, rfl⟩, ⟨(w, s), b.drop 1, [], ?_, ⟨rfl, rfl⟩, by simp⟩, ?_⟩
      · simp only at h2
        split at h2
        · rename_i hc
          rw [if_pos hc]
          obtain ⟨hw, hs, rfl⟩ := h2
          exact ⟨w, _, natBits 4 s, ⟨hw, rfl⟩, ⟨s, _, [], ⟨hs, rfl⟩, ⟨rfl, rfl⟩, by simp⟩, rfl⟩
        · rename_i hc
          rw [if_neg hc]
          obtain ⟨rfl, rfl, rfl⟩ := h2
          exact ⟨rfl, rfl⟩
      · simp only at h2
        split at h2
        · obtain ⟨hw, hs, rfl⟩ := h2
          rfl
        · obtain ⟨rfl, rfl, rfl⟩ := h2
          rfl

/-- The numbers for the cancellation after a frame of the other kind. -/
def FdCode (full eight : Bool) (p : Nat × Option (Nat × List Int)) (xb : List Bool) : Prop :=
  p.1 = (if eight then 1 else 0) ∧ ∃ g x fb, p.2 = some (g, x) ∧ g < 128 ∧
    FacCode ((if full then 512 else 1024) / (if eight then 128 else 64)) x fb ∧ xb = natBits 1 p.1 ++ natBits 7 g ++ fb

theorem fd_reads (full eight : Bool) : Reads (do
    let short ← bits 1
    if short ≠ (if eight then 1 else 0) then fail (.other 0xFFFF9023)
    else do
      let len := if full then 512 else 1024
      let g ← bits 7
      let x ← cancel (if short = 1 then len / 16 else len / 8) 1 129
      pure (short, some (g, x))) (FdCode full eight) := by
  refine ((field_reads (w := 1) (by omega)).bind (S := fun short p b => short = (if eight then 1 else 0) ∧ p.1 = short ∧ ∃ g x fb,
    p.2 = some (g, x) ∧ g < 128 ∧ FacCode ((if full then 512 else 1024) / (if eight then 128 else 64)) x fb ∧ b = natBits 7 g ++ fb)
    fun short _ _ => ?_).congr fun p b => ?_
  · by_cases h : short = if eight then 1 else 0
    · rw [if_neg (by simpa using h)]
      have hlen : (if short = 1 then (if full then 512 else 1024) / 16 else (if full then 512 else 1024) / 8) / 8 =
          (if full then 512 else 1024) / (if eight then 128 else 64) := by
        rw [h]
        cases full <;> cases eight <;> rfl
      have hle : 1 + (if short = 1 then (if full then 512 else 1024) / 16 else (if full then 512 else 1024) / 8) ≤ 129 := by
        split_ifs <;> omega
      refine ((field_reads (w := 7) (by omega)).bind fun g _ _ => (cancel_reads hle).bind fun x _ _ => Reads.pure (short, some (g, x))).congr
        fun p b => ?_
      rw [hlen]
      constructor
      · rintro ⟨g, _, _, ⟨hg, rfl⟩, ⟨x, fb, _, hx, ⟨rfl, rfl⟩, rfl⟩, rfl⟩
        exact ⟨h, rfl, g, x, fb, rfl, hg, hx, by simp⟩
      · obtain ⟨p, q⟩ := p
        rintro ⟨-, rfl, g, x, fb, rfl, hg, hx, rfl⟩
        exact ⟨g, _, _, ⟨hg, rfl⟩, ⟨x, fb, [], hx, ⟨rfl, rfl⟩, rfl⟩, by simp⟩
    · rw [if_pos h]
      exact (Reads.fail _).congr fun p b => ⟨False.elim, fun h' => absurd h'.1 h⟩
  · constructor
    · rintro ⟨short, _, _, ⟨h1, rfl⟩, ⟨h2, h3, g, x, fb, h4, hg, hx, rfl⟩, rfl⟩
      subst h3
      exact ⟨h2, g, x, fb, h4, hg, hx, by simp⟩
    · rintro ⟨h2, g, x, fb, h4, hg, hx, rfl⟩
      refine ⟨p.1, _, _, ⟨?_, rfl⟩, ⟨h2, rfl, g, x, fb, h4, hg, hx, rfl⟩, by simp⟩
      rw [h2]
      split <;> omega

/-- What follows the division. -/
def tail {τ ρ : Type} (tbe : Nat → Prog τ) (rest : Nat → Nat → Nat → Nat → Bool → Nat → Prog ρ) (c : Config)
    (last : Int) (eight : Bool) (x : Nat × Nat × Nat) (core : Nat) (mod : Nat → Nat) : Prog (Frame τ ρ) := do
  let bpf ← (if c.full then pure 1 else bits 1)
  let lastCore ← bits 1
  let present ← bits 1
  if 0 < mod 0 ∧ lastCore = 0 ∧ present ≠ 0 then fail (.other 0xFFFF9022)
  else do
    let ps ← parts tbe (rest x.1 x.2.2) c core mod (lastCore = 1 ∧ present = 1) 5 0 last 0 true
    let fs ← filters (lastCore = 0) c.full mod
    let y ← (if lastCore = 0 ∧ present = 1 then do
        let short ← bits 1
        if short ≠ (if eight then 1 else 0) then fail (.other 0xFFFF9023)
        else do
          let len := if c.full then 512 else 1024
          let g ← bits 7
          let x ← cancel (if short = 1 then len / 16 else len / 8) 1 129
          pure (short, some (g, x))
      else pure (0, none))
    pure { tns := x.1, shape := x.2.1, maxSfb := x.2.2, core := core, mod := mod, bpf := bpf, lastCore := lastCore,
           parts := ps, filters := fs, short := y.1, fdFac := y.2 }

theorem stream_eq {τ ρ : Type} (tbe : Nat → Prog τ) (rest : Nat → Nat → Nat → Nat → Bool → Nat → Prog ρ) (c : Config) (old : Nat → Nat)
    (last : Int) (eight : Bool) (shape maxSfb : Nat) : stream tbe rest c old last eight shape maxSfb = (do
      let x ← (do
        let tns ← (if c.full then bits 1 else pure 0)
        let (shape, maxSfb) ← (if c.full then
            if tns = 1 ∨ c.noiseFilling then do
              let w ← bits 1
              let s ← bits 4
              pure (w, s)
            else pure (0, 0)
          else pure (shape, maxSfb))
        pure (tns, shape, maxSfb))
      let core ← bits 3
      let m ← bits (if c.full then 3 else 5)
      match modes c.full m old with
      | none => fail (.other 0xFFFF901E)
      | some mod => tail tbe rest c last eight x core mod) := by
  unfold stream tail
  simp only [bind_assoc, pure_bind]
  rfl

/-- What is delivered and coded after the division. -/
def TailCode {τ ρ : Type} (R : Nat → τ → List Bool → Prop) (S : Nat → Nat → Nat → Nat → Bool → Nat → ρ → List Bool → Prop) (c : Config)
    (d : Division) (last : Int) (eight : Bool) (x : Nat × Nat × Nat) (core : Nat) (mod : Nat → Nat) (f : Frame τ ρ) (b : List Bool) : Prop :=
  ∃ (bpf lastCore present : Nat) (ps : List (Part τ ρ)) (fs : Nat → Coded) (y : Nat × Option (Nat × List Int)) (pb xb : List Bool),
    (if c.full then bpf = 1 else bpf < 2) ∧ lastCore < 2 ∧ present < 2 ∧ ¬ (0 < mod 0 ∧ lastCore = 0 ∧ present ≠ 0) ∧
    (ps.map (fun p => (p.start, p.mode)) = pieces 0 d.modes ∧
      PartsCode R (S x.1 x.2.2) c core (lastCore = 1 ∧ present = 1) last 0 true ps pb) ∧
    (∀ i, sent (lastCore = 0) c.full mod i = true → (fs i).Valid i) ∧
    (if lastCore = 0 ∧ present = 1 then FdCode c.full eight y xb else y = (0, none) ∧ xb = []) ∧
    f = { tns := x.1, shape := x.2.1, maxSfb := x.2.2, core := core, mod := mod, bpf := bpf, lastCore := lastCore,
          parts := ps, filters := wordsOf (lastCore = 0) c.full mod fs [4, 0, 2, 1, 3], short := y.1, fdFac := y.2 } ∧
    b = (if c.full then [] else natBits 1 bpf) ++ natBits 1 lastCore ++ natBits 1 present ++ pb ++ filterBits (lastCore = 0) c.full mod fs ++ xb

theorem tail_reads {τ ρ : Type} {tbe : Nat → Prog τ} {R : Nat → τ → List Bool → Prop} (ht : ∀ i, Reads (tbe i) (R i))
    {rest : Nat → Nat → Nat → Nat → Bool → Nat → Prog ρ} {S : Nat → Nat → Nat → Nat → Bool → Nat → ρ → List Bool → Prop}
    (hr : ∀ t s k m f p, Reads (rest t s k m f p) (S t s k m f p)) (c : Config) {d : Division} (hd : d.isFull = c.full)
    {mod : Nat → Nat} (ha : Agrees mod d) (last : Int) (eight : Bool) (x : Nat × Nat × Nat) {core : Nat} (hc : core < 8) :
    Reads (tail tbe rest c last eight x core mod) (TailCode R S c d last eight x core mod) := by
  have e1 : ∀ d ∈ divisions, d.modes.length < 5 ∧ (∀ m ∈ d.modes, m ≤ 3) ∧ lineSum d.isFull d.modes ≤ 1024 := by decide
  obtain ⟨l1, l2, l3⟩ := e1 d (mem_divisions d)
  have hspan := C162_fill d
  rw [hd] at l3 hspan
  have hmod : ∀ p ∈ pieces 0 d.modes, mod p.1 = p.2 := fun p hp => ha p hp p.1 (Nat.le_refl _) (by
    unfold span; split_ifs <;> omega)
  have hparts := fun send => parts_reads ht (hr x.1 x.2.2) c hc mod send d.modes 5 0 last 0 true l1 l2 hmod (by omega) (by omega) (by omega)
  unfold tail
  refine (Reads.bind (R := fun v b => (if c.full then v = 1 else v < 2) ∧ b = if c.full then [] else natBits 1 v) ?_ fun bpf _ _ =>
    (field_reads (w := 1) (by omega)).bind fun lastCore _ _ => (field_reads (w := 1) (by omega)).bind fun present _ _ =>
    Reads.ite (c := 0 < mod 0 ∧ lastCore = 0 ∧ present ≠ 0) (fun _ => Reads.fail _) fun _ =>
    (hparts (lastCore = 1 ∧ present = 1)).bind fun ps _ _ => (filters_reads (lastCore = 0) c.full mod).bind fun fs _ _ =>
    (Reads.ite (c := lastCore = 0 ∧ present = 1) (fun _ => fd_reads c.full eight) fun _ => Reads.pure (0, none)).bind fun y _ _ =>
    Reads.pure (Frame.mk x.1 x.2.1 x.2.2 core mod bpf lastCore ps fs y.1 y.2)).congr fun f b => ?_
  · cases c.full
    · exact (field_reads (w := 1) (by omega)).congr fun a b => by simp [Field]
    · exact (Reads.pure 1).congr fun a b => by simp
  · constructor
    · rintro ⟨bpf, _, _, ⟨h1, rfl⟩, ⟨lc, _, _, ⟨h2, rfl⟩, ⟨pr, _, _, ⟨h3, rfl⟩, h4, rfl⟩, rfl⟩, rfl⟩
      split at h4
      · exact h4.elim
      · rename_i hn
        obtain ⟨ps, pb, _, h5, ⟨_, _, _, ⟨fs, h6, rfl, rfl⟩, ⟨y, xb, _, h7, ⟨rfl, rfl⟩, rfl⟩, rfl⟩, rfl⟩ := h4
        exact ⟨bpf, lc, pr, ps, fs, y, pb, xb, h1, h2, h3, hn, h5, h6, h7, rfl, by simp⟩
    · rintro ⟨bpf, lc, pr, ps, fs, y, pb, xb, h1, h2, h3, hn, h5, h6, h7, rfl, rfl⟩
      refine ⟨bpf, _, _, ⟨h1, rfl⟩, ⟨lc, _, _, ⟨h2, rfl⟩, ⟨pr, _, pb ++ (filterBits (lc = 0) c.full mod fs ++ xb), ⟨h3, rfl⟩, ?_, rfl⟩, rfl⟩, by simp⟩
      rw [if_neg hn]
      exact ⟨ps, pb, _, h5, ⟨_, _, _, ⟨fs, h6, rfl, rfl⟩, ⟨y, xb, [], h7, ⟨rfl, rfl⟩, by simp⟩, rfl⟩, rfl⟩

/-- A frame is accepted exactly if it is the code of a frame, and that is what is delivered. -/
theorem C164_frame {τ ρ : Type} {tbe : Nat → Prog τ} {R : Nat → τ → List Bool → Prop} (ht : ∀ i, Reads (tbe i) (R i))
    {rest : Nat → Nat → Nat → Nat → Bool → Nat → Prog ρ} {S : Nat → Nat → Nat → Nat → Bool → Nat → ρ → List Bool → Prop}
    (hr : ∀ t s k m f p, Reads (rest t s k m f p) (S t s k m f p)) (c : Config) (old : Nat → Nat) (last : Int) (eight : Bool)
    (shape maxSfb : Nat) (l l' : List Bool) (f : Frame τ ρ) :
    run (stream tbe rest c old last eight shape maxSfb) l = .ok (f, l') ↔
      ∃ b, FrameCode R S c old last eight shape maxSfb f b ∧ l = b ++ l' := by
  rw [stream_eq]
  have hw : (if c.full then 3 else 5) ≤ 24 := by split <;> omega
  refine ((head_reads c shape maxSfb).bind fun x _ _ => (field_reads (w := 3) (by omega)).bind (S := fun core f b => ∃ d mod b2, core < 8 ∧
    d.isFull = c.full ∧ modes c.full d.number old = some mod ∧ TailCode R S c d last eight x core mod f b2 ∧
    b = natBits (if c.full then 3 else 5) d.number ++ b2) fun core _ hcore => ?_).congr (fun f b => ?_) l f l'
  · have hc : core < 8 := hcore.1
    refine ((field_reads hw).bind (S := fun m f b => ∃ d mod, d.isFull = c.full ∧ d.number = m ∧ modes c.full d.number old = some mod ∧
      TailCode R S c d last eight x core mod f b) fun m _ _ => ?_).congr fun f b => ?_
    · cases hm : modes c.full m old with
      | none =>
        refine (Reads.fail _).congr fun f b => ⟨False.elim, ?_⟩
        rintro ⟨d, mod, _, rfl, h, _⟩
        rw [hm] at h
        cases h
      | some mod =>
        obtain ⟨d, hd, rfl⟩ := (C162_numbers c.full m old).mp ⟨mod, hm⟩
        have ha : Agrees mod d := C162_modes (old := old) (by rw [hd]; exact hm)
        refine (tail_reads ht hr c hd ha last eight x hc).congr fun f b => ?_
        constructor
        · intro h
          exact ⟨d, mod, hd, rfl, hm, h⟩
        · rintro ⟨d', mod', hd', hn, hm', h⟩
          obtain rfl := C162_injective (hd'.trans hd.symm) hn
          rw [hm] at hm'
          cases hm'
          exact h
    · constructor
      · rintro ⟨m, _, b2, ⟨_, rfl⟩, ⟨d, mod, hd, rfl, hm, h⟩, rfl⟩
        exact ⟨d, mod, b2, hc, hd, hm, h, rfl⟩
      · rintro ⟨d, mod, b2, _, hd, hm, h, rfl⟩
        refine ⟨d.number, _, b2, ⟨?_, rfl⟩, ⟨d, mod, hd, rfl, hm, h⟩, rfl⟩
        have : ∀ d ∈ divisions, d.number < 2 ^ (if d.isFull then 3 else 5) := by decide
        have := this d (mem_divisions d)
        rw [hd] at this
        exact this
  · constructor
    · rintro ⟨x, hb, _, hx, ⟨core, _, _, ⟨_, rfl⟩, ⟨d, mod, b2, hc, hd, hm, ⟨bpf, lc, pr, ps, fs, y, pb, xb, h1, h2, h3, hn, ⟨h5, h5'⟩, h6, h7, rfl, rfl⟩, rfl⟩, rfl⟩, rfl⟩
      have hpr : pr = 1 ↔ decide (pr = 1) = true := by simp
      have hbit : natBits 1 pr = [decide (pr = 1)] := by
        have : pr = 0 ∨ pr = 1 := by omega
        rcases this with rfl | rfl <;> rfl
      refine ⟨d, decide (pr = 1), hb, pb, xb, fs, hd, hm, hx, hc, h1, h2, ?_, h5, ?_, h6, rfl, ?_, ?_⟩
      · rintro ⟨ha, hb', hp⟩
        exact hn ⟨ha, hb', by have := hpr.mpr hp; omega⟩
      · simp only [← hpr]
        exact h5'
      · simp only [← hpr]
        by_cases h0 : lc = 0 ∧ pr = 1
        · rw [if_pos h0] at h7 ⊢
          exact h7
        · rw [if_neg h0] at h7 ⊢
          obtain ⟨rfl, rfl⟩ := h7
          exact ⟨rfl, rfl, rfl⟩
      · rw [hbit]
        simp
    · rintro ⟨d, pr, hb, pb, xb, fs, hd, hm, hx, hc, h1, h2, hn, h5, h5', h6, h6', h7, rfl⟩
      have hpr : pr = true ↔ pr.toNat = 1 := by cases pr <;> simp
      have hbit : natBits 1 pr.toNat = [pr] := by cases pr <;> rfl
      refine ⟨(f.tns, f.shape, f.maxSfb), hb, _, hx, ⟨f.core, natBits 3 f.core, _, ⟨hc, rfl⟩, ⟨d, f.mod, _, hc, hd, hm, ⟨f.bpf, f.lastCore, pr.toNat, f.parts, fs,
        (f.short, f.fdFac), pb, xb, h1, h2, by cases pr <;> simp, ?_, ⟨h5, ?_⟩, h6, ?_, ?_, rfl⟩, rfl⟩, rfl⟩, ?_⟩
      · rintro ⟨ha, hb', hp⟩
        exact hn ⟨ha, hb', by cases pr <;> simp_all⟩
      · simp only [hpr] at h5'
        exact h5'
      · simp only [hpr] at h7
        by_cases h0 : f.lastCore = 0 ∧ pr.toNat = 1
        · rw [if_pos h0] at h7 ⊢
          exact h7
        · rw [if_neg h0] at h7 ⊢
          exact ⟨by rw [h7.1, h7.2.1], h7.2.2⟩
      · rw [wordsOf, ← h6']
      · rw [hbit]
        simp

/-- No frame starts with another. -/
theorem C164_unique {τ ρ : Type} {tbe : Nat → Prog τ} {R : Nat → τ → List Bool → Prop} (ht : ∀ i, Reads (tbe i) (R i))
    {rest : Nat → Nat → Nat → Nat → Bool → Nat → Prog ρ} {S : Nat → Nat → Nat → Nat → Bool → Nat → ρ → List Bool → Prop}
    (hr : ∀ t s k m f p, Reads (rest t s k m f p) (S t s k m f p)) {c : Config} {old : Nat → Nat} {last : Int} {eight : Bool}
    {shape maxSfb : Nat} {b b' l l' : List Bool} {f f' : Frame τ ρ} (h : FrameCode R S c old last eight shape maxSfb f b)
    (h' : FrameCode R S c old last eight shape maxSfb f' b') (e : b ++ l = b' ++ l') : f = f' ∧ b = b' := by
  have e1 := (C164_frame ht hr c old last eight shape maxSfb (b ++ l) l f).mpr ⟨b, h, rfl⟩
  have e2 := (C164_frame ht hr c old last eight shape maxSfb (b ++ l) l' f').mpr ⟨b', h', e⟩
  rw [e1] at e2
  cases e2
  exact ⟨rfl, List.append_cancel_right e⟩

/-- A frame: one transform coded part whose gain is 5, after a frame of the same kind, and one filter.  What `C164_frame` asks of the
programs for the other parts holds for programs that read nothing. -/
example : ∃ f : Frame Unit Unit, run (stream (fun _ => pure ()) (fun _ _ _ _ _ _ => pure ())
    { full := false, noiseFilling := false, independent := true, baseline := false } (fun _ => 0) 1 false 0 0)
    (natBits 3 2 ++ natBits 5 25 ++ [true, true, false] ++ natBits 7 5 ++ [false] ++ natBits 8 17 ++ natBits 4 0 ++ natBits 8 3 ++ natBits 8 4)
    = .ok (f, []) ∧ f.core = 2 ∧ f.filters = [17, 2, 2, 3, 0, 0, 0, 0, 0, 0, 0, 0, 4, 0, 0, 0, 0, 0, 0, 0, 0] ∧
      f.parts.map (fun p => (p.start, p.mode)) = [(0, 3)] :=
  ⟨_, rfl, rfl, rfl, rfl⟩

example : (∀ _ : Nat, Reads (pure () : Prog Unit) (fun a b => a = () ∧ b = [])) := fun _ => Reads.pure ()

/-! ## C163: numbers for the aliasing cancellation -/

theorem each_mem {α : Type} {R : Nat → α → List Bool → Prop} {i : Nat} {xs : List α} {b : List Bool} (h : Each R i xs b) {x : α} (hx : x ∈ xs) :
    ∃ j b', R j x b' := by
  induction xs generalizing i b with
  | nil => simp at hx
  | cons y ys ih =>
    obtain ⟨b1, b2, h1, h2, rfl⟩ := h
    rcases List.mem_cons.mp hx with rfl | hx
    · exact ⟨i, b1, h1⟩
    · exact ih h2 hx

/-- Numbers for the cancellation are accepted exactly if they are codes of points, as many as fit, and the numbers of these points are
delivered. -/
theorem C163_numbers {length pos cap : Nat} (h : pos + length ≤ cap) (l l' : List Bool) (x : List Int) :
    run (cancel length pos cap) l = .ok (x, l') ↔ ∃ b, FacCode (length / 8) x b ∧ l = b ++ l' := cancel_reads h l x l'

/-- They are points of the lattice. -/
theorem C163_lattice {n : Nat} {x : List Int} {b : List Bool} (h : FacCode n x b) :
    ∃ xs : List (List Int), xs.length = n ∧ x = xs.flatten ∧ x.length = 8 * n ∧ ∀ y ∈ xs, Avq.Lattice y := by
  obtain ⟨xs, hl, rfl, he⟩ := h
  have hall : ∀ y ∈ xs, Avq.Lattice y := fun y hy => by
    obtain ⟨_, _, c, hv, hd, _⟩ := each_mem he hy
    obtain ⟨z, hz, hL⟩ := Avq.C154_lattice_partial hv.1 hv.2.2
    rw [hd] at hz
    cases hz
    exact hL
  refine ⟨xs, hl, rfl, ?_, hall⟩
  rw [← hl]
  clear he hl
  induction xs with
  | nil => rfl
  | cons y ys ih =>
    have h1 := (hall y (by simp)).1
    have h2 := ih fun z hz => hall z (by simp [hz])
    simp only [List.flatten_cons, List.length_append, List.length_cons]
    omega

theorem parts_fac {τ ρ : Type} {R : Nat → τ → List Bool → Prop} {S : Nat → Nat → Bool → Nat → ρ → List Bool → Prop} {c : Config} {core : Nat} {send : Bool}
    {ps : List (Part τ ρ)} : ∀ {last : Int} {pos : Nat} {first : Bool} {b : List Bool}, PartsCode R S c core send last pos first ps b →
      ∀ p ∈ ps, ∀ x, p.fac = some x → ∃ fb, FacCode 16 x fb := by
  induction ps with
  | nil => intro last pos first b _ p hp; simp at hp
  | cons q qs ih =>
    rintro last pos first b ⟨fb, db, b', hf, hd, rfl⟩ p hp x hx
    rcases List.mem_cons.mp hp with rfl | hp
    · split at hf
      · obtain ⟨y, hy, h⟩ := hf
        rw [hx] at hy
        cases hy
        exact ⟨fb, h⟩
      · rw [hf.1] at hx
        cases hx
    · split at hd
      · exact ih hd.2.2 p hp x hx
      · exact ih hd.2.2.2 p hp x hx

/-- In an accepted frame the numbers of a part are 128 and fill the quarter of the array of 512 that belongs to where it starts, and
those of the frame before fit in the array of 129 behind the gain. -/
theorem C163_inside {τ ρ : Type} {tbe : Nat → Prog τ} {R : Nat → τ → List Bool → Prop} (ht : ∀ i, Reads (tbe i) (R i))
    {rest : Nat → Nat → Nat → Nat → Bool → Nat → Prog ρ} {S : Nat → Nat → Nat → Nat → Bool → Nat → ρ → List Bool → Prop}
    (hr : ∀ t s k m f p, Reads (rest t s k m f p) (S t s k m f p)) {c : Config} {old : Nat → Nat} {last : Int} {eight : Bool}
    {shape maxSfb : Nat} {l l' : List Bool} {f : Frame τ ρ} (h : run (stream tbe rest c old last eight shape maxSfb) l = .ok (f, l')) :
    (∀ p ∈ f.parts, ∀ x, p.fac = some x → x.length = 128 ∧ p.start * 128 + x.length ≤ 512) ∧
      ∀ g x, f.fdFac = some (g, x) → 1 + x.length ≤ 129 ∧ x.length = (if c.full then 512 else 1024) / (if eight then 16 else 8) := by
  obtain ⟨b, ⟨d, pr, hb, pb, xb, fs, hd, hm, hx, hc, h1, h2, hn, h5, h5', h6, h6', h7, rfl⟩, -⟩ := (C164_frame ht hr c old last eight shape maxSfb l l' f).mp h
  refine ⟨fun p hp x hx => ?_, fun g x hx => ?_⟩
  · obtain ⟨fb, hfac⟩ := parts_fac h5' p hp x hx
    obtain ⟨_, _, _, hlen, _⟩ := C163_lattice hfac
    have e : ∀ d ∈ divisions, ∀ p ∈ pieces 0 d.modes, p.1 < 4 := by decide
    have : (p.start, p.mode) ∈ pieces 0 d.modes := by
      rw [← h5]
      exact List.mem_map.mpr ⟨p, hp, rfl⟩
    have := e d (mem_divisions d) _ this
    simp only at this
    omega
  · split at h7
    · obtain ⟨_, g', x', fb, hf, _, hfac, _⟩ := h7
      rw [hx] at hf
      cases hf
      obtain ⟨_, _, _, hlen, _⟩ := C163_lattice hfac
      rw [hlen]
      cases c.full <;> cases eight <;> simp
    · rw [h7.2.1] at hx
      cases hx

/-- Refuted: the numbers are read without undefined behaviour.  With codebook number 69 there are fields of 33 bits. -/
theorem C163_refuted : (cancel 128 0 512).runC (BitBuf.create [255, 255, 255, 255, 255, 255, 255, 255, 240, 0, 0, 0, 0, 0, 0, 0, 0, 0, 0, 0]) = .ub := by
  decide +kernel

/-! ## C165: the size of an excitation -/

theorem each_length {i : Nat} {ws vs : List Nat} {b : List Bool} (hl : vs.length + i = ws.length) (h : Each (fun i => Field (ws.getD i 0)) i vs b) :
    b.length = (ws.drop i).sum := by
  induction vs generalizing i b with
  | nil =>
    simp only [List.length_nil, Nat.zero_add] at hl
    rw [show b = [] from h, List.drop_eq_nil_of_le (by omega)]
    rfl
  | cons v vs ih =>
    obtain ⟨b1, b2, ⟨_, rfl⟩, h2, rfl⟩ := h
    simp only [List.length_cons] at hl
    have hi : i < ws.length := by omega
    rw [List.length_append, ih (by omega) h2, List.drop_eq_getElem_cons hi, List.sum_cons, natBits_length]
    simp [List.getD_eq_getElem?_getD, hi]

theorem sub_length {core sfr : Nat} {s : Sub} {b : List Bool} (h : SubCode core sfr s b) :
    b.length = pitchWidth sfr + 8 + (pulseWidths core).sum := by
  obtain ⟨pb, _, _, _, hl, h, rfl⟩ := h
  have := each_length (by simpa using hl) h
  simp only [List.drop_zero] at this
  simp only [List.length_append, natBits_length, this]
  omega

/-- Without bandwidth extension a part has 64 bits and four times those of the pulses of a subframe. -/
theorem C165_size {τ : Type} {R : τ → List Bool → Prop} {core : Nat} {a : Acelp τ} {b : List Bool} (h : AcelpCode R false core a b) :
    b.length = 64 + 4 * (pulseWidths core).sum := by
  obtain ⟨sb, xb, _, hl, hs, hx, rfl⟩ := h
  simp only [Bool.false_eq_true, if_false] at hx
  obtain ⟨_, rfl⟩ := hx
  match hsub : a.subs, hl with
  | [s0, s1, s2, s3], _ =>
    rw [hsub] at hs
    obtain ⟨b0, _, h0, ⟨b1, _, h1, ⟨b2, _, h2, ⟨b3, _, h3, h4, rfl⟩, rfl⟩, rfl⟩, rfl⟩ := hs
    rw [show _ = [] from h4]
    simp only [List.length_append, natBits_length, sub_length h0, sub_length h1, sub_length h2, sub_length h3, List.length_nil]
    have e0 : pitchWidth 0 = 9 := rfl
    have e1 : pitchWidth (0 + 1) = 6 := rfl
    have e2 : pitchWidth (0 + 1 + 1) = 9 := rfl
    have e3 : pitchWidth (0 + 1 + 1 + 1) = 6 := rfl
    omega

/-- These are 144, 176, 208, 240, 272, 320, 112 and 128 bits. -/
theorem C165_sizes : ((List.range 8).map fun core => 64 + 4 * (pulseWidths core).sum) = [144, 176, 208, 240, 272, 320, 112, 128] := by decide

/-! ## C166: where the lines of transform coded parts are stored -/

theorem parts_lines {τ ρ : Type} {R : Nat → τ → List Bool → Prop} {S : Nat → Nat → Bool → Nat → ρ → List Bool → Prop} {c : Config} {core : Nat} {send : Bool}
    {pre : List (Part τ ρ)} {p : Part τ ρ} {post : List (Part τ ρ)} {q : Nat} {t : Tcx ρ} (hp : p.data = .inr (q, t)) :
    ∀ {last : Int} {pos : Nat} {first : Bool} {b : List Bool}, PartsCode R S c core send last pos first (pre ++ p :: post) b →
      q = pos + lineSum c.full (pre.map (·.mode)) ∧ p.mode ≠ 0 ∧ t.lines = lineCount c.full p.mode := by
  induction pre with
  | nil =>
    rintro last pos first b ⟨fb, db, b', hf, hd, rfl⟩
    rw [hp] at hd
    obtain ⟨h1, h2, ⟨_, _, _, _, _, h3, _⟩, _⟩ := hd
    exact ⟨by simp [h2, lineSum], h1, h3⟩
  | cons r pre ih =>
    rintro last pos first b ⟨fb, db, b', hf, hd, rfl⟩
    split at hd
    · obtain ⟨h1, _, h3⟩ := hd
      obtain ⟨h4, h5⟩ := ih h3
      exact ⟨by simp [h4, lineSum, h1], h5⟩
    · obtain ⟨h1, _, _, h3⟩ := hd
      obtain ⟨h4, h5⟩ := ih h3
      refine ⟨?_, h5⟩
      rw [h4]
      simp only [lineSum, List.map_cons, List.sum_cons, if_neg h1]
      omega

theorem lineSum_append (full : Bool) (xs ys : List Nat) : lineSum full (xs ++ ys) = lineSum full xs + lineSum full ys := by
  simp [lineSum]

/-- The lines of each transform coded part are stored behind those of the transform coded parts before it, and all are inside the
array of 1024. -/
theorem C166_lines {τ ρ : Type} {tbe : Nat → Prog τ} {R : Nat → τ → List Bool → Prop} (ht : ∀ i, Reads (tbe i) (R i))
    {rest : Nat → Nat → Nat → Nat → Bool → Nat → Prog ρ} {S : Nat → Nat → Nat → Nat → Bool → Nat → ρ → List Bool → Prop}
    (hr : ∀ t s k m f p, Reads (rest t s k m f p) (S t s k m f p)) {c : Config} {old : Nat → Nat} {last : Int} {eight : Bool}
    {shape maxSfb : Nat} {l l' : List Bool} {f : Frame τ ρ} (h : run (stream tbe rest c old last eight shape maxSfb) l = .ok (f, l'))
    {pre post : List (Part τ ρ)} {p : Part τ ρ} (hp : f.parts = pre ++ p :: post) {q : Nat} {t : Tcx ρ} (hd : p.data = .inr (q, t)) :
    q = ((pre.filter fun r => r.mode ≠ 0).map fun r => lineCount c.full r.mode).sum ∧ t.lines = lineCount c.full p.mode ∧
      q + t.lines ≤ 1024 := by
  obtain ⟨b, ⟨d, pr, hb, pb, xb, fs, hd', hm, hx, hc, h1, h2, hn, h5, h5', h6, h6', h7, rfl⟩, -⟩ := (C164_frame ht hr c old last eight shape maxSfb l l' f).mp h
  rw [hp] at h5' h5
  obtain ⟨h3, h4, h8⟩ := parts_lines hd h5'
  have hms : d.modes = (pre ++ p :: post).map (·.mode) := by
    have e : ∀ d ∈ divisions, (pieces 0 d.modes).map (·.2) = d.modes := by decide
    rw [← e d (mem_divisions d), ← h5, List.map_map]
    rfl
  have e1 : ∀ d ∈ divisions, lineSum d.isFull d.modes ≤ 1024 := by decide
  have hle := e1 d (mem_divisions d)
  rw [hd', hms, List.map_append, List.map_cons, lineSum_append] at hle
  refine ⟨?_, h8, ?_⟩
  · rw [h3, Nat.zero_add]
    clear * -
    induction pre with
    | nil => rfl
    | cons r pre ih =>
      simp only [lineSum, List.map_cons, List.sum_cons, List.filter_cons] at ih ⊢
      by_cases h0 : r.mode = 0
      · simp [h0] at ih ⊢
        exact ih
      · simp [h0] at ih ⊢
        exact ih
  · rw [h8, h3]
    simp only [lineSum, List.map_cons, List.sum_cons, if_neg h4] at hle ⊢
    omega

end Verif.Lpd
