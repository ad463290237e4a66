import Mathlib.Tactic.Ring
import Mathlib.Tactic.Linarith
import Mathlib.Tactic.FieldSimp
import Mathlib.Algebra.Order.Field.Basic
import Verif.Model.Mct
import Verif.Props.MctAngle

/-! # Rotation, downmix and kept spectra of the multichannel tool (C69, C70, C71) -/

namespace Verif.Mct

/-- Energy of a pair of samples. -/
def energy (x : Rat × Rat) : Rat := x.1 ^ 2 + x.2 ^ 2

/-- The relative accuracy of the tables of sines and cosines (rounded to six decimals). -/
def tol : Rat := 2 / 1000000

theorem tables_unit : ∀ i : Nat, i < 65 → ∀ c s : Int, cosTab[i]? = some c → sinTab[i]? = some s →
    c ^ 2 + s ^ 2 ≤ 1000000 ^ 2 + 2000000 ∧ 1000000 ^ 2 ≤ c ^ 2 + s ^ 2 + 2000000 := by
  have h : ∀ i : Fin 65, ∀ c ∈ cosTab[i.1]?, ∀ s ∈ sinTab[i.1]?,
    c ^ 2 + s ^ 2 ≤ 1000000 ^ 2 + 2000000 ∧ 1000000 ^ 2 ≤ c ^ 2 + s ^ 2 + 2000000 := by decide +kernel
  exact fun i hi c s hc hs => h ⟨i, hi⟩ c hc s hs

theorem cosAt_ok {q : Int} {c : Rat} (h : cosAt q = .ok c) :
    0 ≤ q ∧ ∃ n : Int, cosTab[q.toNat]? = some n ∧ c = n / 1000000 := by
  unfold cosAt at h
  split at h
  · cases h
  · split at h
    · injection h with h
      exact ⟨by omega, _, ‹_›, h.symm⟩
    · cases h

theorem sinAt_ok {q : Int} {c : Rat} (h : sinAt q = .ok c) :
    0 ≤ q ∧ ∃ n : Int, sinTab[q.toNat]? = some n ∧ c = n / 1000000 := by
  unfold sinAt at h
  split at h
  · cases h
  · split at h
    · injection h with h
      exact ⟨by omega, _, ‹_›, h.symm⟩
    · cases h

theorem unit_circle {q : Int} {c s : Rat} (hc : cosAt q = .ok c) (hs : sinAt q = .ok s) :
    |c ^ 2 + s ^ 2 - 1| ≤ tol := by
  obtain ⟨_, a, ha, rfl⟩ := cosAt_ok hc
  obtain ⟨_, b, hb, rfl⟩ := sinAt_ok hs
  have hlt : q.toNat < 65 := by
    have := (List.getElem?_eq_some_iff.mp ha).1
    simpa [cosTab] using this
  obtain ⟨h1, h2⟩ := tables_unit _ hlt a b ha hb
  have h1' : (a : Rat) ^ 2 + b ^ 2 ≤ 1000000 ^ 2 + 2000000 := by exact_mod_cast h1
  have h2' : (1000000 : Rat) ^ 2 ≤ a ^ 2 + b ^ 2 + 2000000 := by exact_mod_cast h2
  rw [abs_le]
  unfold tol
  constructor
  · rw [div_pow, div_pow]; linarith
  · rw [div_pow, div_pow]; linarith

theorem angle_ok {q : Int} (h : InR q) : ∃ c s, cosAt q = .ok c ∧ sinAt q = .ok s := by
  unfold InR at h
  have hl : q.toNat < 65 := by omega
  have h1 : q.toNat < cosTab.length := by simpa [cosTab] using hl
  have h2 : q.toNat < sinTab.length := by simpa [sinTab] using hl
  unfold cosAt sinAt
  rw [if_neg (by omega), if_neg (by omega), List.getElem?_eq_getElem h1, List.getElem?_eq_getElem h2]
  exact ⟨_, _, rfl, rfl⟩

theorem boxFun_rotation {dir : Bool} {q : Int} {f : Rat × Rat → Rat × Rat} (h : boxFun 1 dir q = .ok f) :
    ∃ c s, cosAt q = .ok c ∧ sinAt q = .ok s ∧ f = rotate c s := by
  unfold boxFun at h
  rw [if_neg (by decide)] at h
  obtain ⟨c, hc, h⟩ := Res.bind_eq_ok.mp h
  obtain ⟨s, hs, h⟩ := Res.bind_eq_ok.mp h
  injection h with h
  exact ⟨c, s, hc, hs, h.symm⟩

/-- Within the accuracy of the tables the energies agree. -/
def SameEnergy (x y : Rat × Rat) : Prop := |energy y - energy x| ≤ tol * energy x

theorem SameEnergy.refl (x : Rat × Rat) : SameEnergy x x := by
  unfold SameEnergy energy tol
  rw [sub_self, abs_zero]
  positivity

theorem rotate_energy {dir : Bool} {q : Int} {f : Rat × Rat → Rat × Rat} (h : boxFun 1 dir q = .ok f)
    (x : Rat × Rat) : SameEnergy x (f x) := by
  obtain ⟨c, s, hc, hs, rfl⟩ := boxFun_rotation h
  have hu := unit_circle hc hs
  have he : energy (rotate c s x) - energy x = (c ^ 2 + s ^ 2 - 1) * energy x := by
    unfold energy rotate; ring
  have hp : 0 ≤ energy x := by unfold energy; positivity
  unfold SameEnergy
  rw [he, abs_mul, abs_of_nonneg hp]
  exact mul_le_mul_of_nonneg_right hu hp

/-! ## The loop over the bands -/

/-- First line of the band that begins at scale factor band `k`. -/
def startOf (offs : List Nat) (k : Nat) : Nat := if k = 0 then 0 else offs.getD (k - 1) 0

/-- First line after the band that begins at scale factor band `k`. -/
def stopOf (offs : List Nat) (total k : Nat) : Nat := if k + 1 < total then offs.getD (k + 1) 0 else offs.getD k 0

theorem offAt_ok {offs : List Nat} {i v : Nat} (h : offAt offs i = .ok v) : v = offs.getD i 0 := by
  unfold offAt at h
  split at h
  · injection h with h
    rw [List.getD_eq_getElem?_getD, ‹offs[i]? = _›, ← h]; rfl
  · cases h

theorem lines_ok {offs : List Nat} {total k : Nat} {v : Nat × Nat} (h : lines offs total k = .ok v) :
    v = (startOf offs k, stopOf offs total k) := by
  unfold lines at h
  obtain ⟨a, ha, h⟩ := Res.bind_eq_ok.mp h
  obtain ⟨b, hb, h⟩ := Res.bind_eq_ok.mp h
  injection h with h
  rw [← h]
  unfold startOf stopOf
  congr 1
  · split at ha
    · injection ha with ha; simp [*]
    · simp only [*, if_false]; exact offAt_ok ha
  · split at hb
    · simp only [*, if_true]; exact offAt_ok hb
    · simp only [*, if_false]; exact offAt_ok hb

theorem lines_total {offs : List Nat} {total k : Nat} (hk : k < total) (ht : total ≤ offs.length) :
    lines offs total k = .ok (startOf offs k, stopOf offs total k) := by
  have hget : ∀ i, i < offs.length → offAt offs i = .ok (offs.getD i 0) := by
    intro i hi
    unfold offAt
    rw [List.getD_eq_getElem?_getD, List.getElem?_eq_getElem hi]; rfl
  unfold lines startOf stopOf
  by_cases h0 : k = 0
  · subst h0
    simp only [if_true, Nat.zero_add]
    split
    · rw [hget 1 (by omega)]; rfl
    · rw [hget 0 (by omega)]; rfl
  · simp only [h0, if_false]
    rw [hget (k - 1) (by omega)]
    split
    · rw [hget (k + 1) (by omega)]; rfl
    · rw [hget k (by omega)]; rfl

theorem sorted_getD {offs : List Nat} (hs : offs.Pairwise (· ≤ ·)) {i j : Nat} (hij : i ≤ j) (hj : j < offs.length) :
    offs.getD i 0 ≤ offs.getD j 0 := by
  rw [List.getD_eq_getElem?_getD, List.getD_eq_getElem?_getD, List.getElem?_eq_getElem hj,
    List.getElem?_eq_getElem (by omega : i < offs.length)]
  simp only [Option.getD_some]
  rcases Nat.lt_or_eq_of_le hij with h | h
  · exact (List.pairwise_iff_getElem.mp hs) i j (by omega) hj h
  · subst h; exact Nat.le_refl _

theorem start_next (offs : List Nat) (total k : Nat) (h : k + 2 < total) :
    startOf offs (k + 2) = stopOf offs total k := by
  unfold startOf stopOf
  rw [if_neg (by omega), if_pos (by omega)]
  rfl

theorem start_mono {offs : List Nat} (hs : offs.Pairwise (· ≤ ·)) {total k : Nat} (ht : total ≤ offs.length)
    (h : k + 2 < total) : startOf offs k ≤ startOf offs (k + 2) := by
  unfold startOf
  rw [if_neg (by omega : ¬ k + 2 = 0)]
  split
  · omega
  · exact sorted_getD hs (by omega) (by omega)

/-- What the loop does with one band. -/
def bandRes (sig : Nat) (dir : Bool) (offs : List Nat) (total k : Nat) (m : Bool) (q : Int) (x : List (Rat × Rat)) :
    Res (List (Rat × Rat)) :=
  if m then do
    let (start, stop) ← lines offs total k
    if x.length < stop then .ub
    else do
      let f ← boxFun sig dir q
      pure (onLines f (fun v => v) start stop x)
  else .ok x

theorem procBands_cons (sig : Nat) (dir : Bool) (offs : List Nat) (total k : Nat) (m : Bool) (q : Int)
    (rest : List (Bool × Int)) (x : List (Rat × Rat)) :
    procBands sig dir offs total k ((m, q) :: rest) x =
      (bandRes sig dir offs total k m q x).bind fun x1 =>
        if k + 2 ≥ total then .ok x1 else procBands sig dir offs total (k + 2) rest x1 := rfl

theorem bandRes_ok {sig : Nat} {dir : Bool} {offs : List Nat} {total k : Nat} {m : Bool} {q : Int}
    {x x1 : List (Rat × Rat)} (h : bandRes sig dir offs total k m q x = .ok x1) :
    x1.length = x.length ∧
    (∀ i, ¬ (startOf offs k ≤ i ∧ i < stopOf offs total k) → x1[i]? = x[i]?) ∧
    (m = false → x1 = x) ∧
    (m = true → ∃ f, boxFun sig dir q = .ok f ∧
      ∀ i, startOf offs k ≤ i → i < stopOf offs total k → x1[i]? = (x[i]?).map f) := by
  unfold bandRes at h
  split at h
  · obtain ⟨⟨a, b⟩, hl, h⟩ := Res.bind_eq_ok.mp h
    have hab := lines_ok hl
    simp only [Prod.mk.injEq] at hab
    obtain ⟨rfl, rfl⟩ := hab
    simp only at h
    split at h
    · cases h
    · obtain ⟨f, hf, h⟩ := Res.bind_eq_ok.mp h
      injection h with h
      subst h
      refine ⟨by simp [onLines], ?_, by simp [*], fun _ => ⟨f, hf, ?_⟩⟩
      · intro i hi
        simp only [onLines, List.getElem?_mapIdx, if_neg hi]
        simp
      · intro i h1 h2
        simp only [onLines, List.getElem?_mapIdx, if_pos (⟨h1, h2⟩ : _ ∧ _)]
  · injection h with h
    subst h
    exact ⟨rfl, fun _ _ => rfl, fun _ => rfl, by simp [*]⟩

/-- Lines before the band are left alone. -/
theorem procBands_local {sig : Nat} {dir : Bool} {offs : List Nat} {total : Nat} (hs : offs.Pairwise (· ≤ ·))
    (ht : total ≤ offs.length) : ∀ (bands : List (Bool × Int)) (k : Nat) (x y : List (Rat × Rat)), 
    procBands sig dir offs total k bands x = .ok y →
    y.length = x.length ∧ ∀ i, i < startOf offs k → y[i]? = x[i]? := by
  intro bands
  induction bands with
  | nil => intro k x y h; injection h with h; subst h; exact ⟨rfl, fun _ _ => rfl⟩
  | cons b rest ih =>
    obtain ⟨m, q⟩ := b
    intro k x y h
    rw [procBands_cons] at h
    obtain ⟨x1, h1, h⟩ := Res.bind_eq_ok.mp h
    obtain ⟨hl1, hout, _⟩ := bandRes_ok h1
    split at h
    · injection h with h
      subst h
      exact ⟨hl1, fun i hi => hout i (by omega)⟩
    · obtain ⟨hl2, hloc⟩ := ih _ _ _ h
      refine ⟨by rw [hl2, hl1], fun i hi => ?_⟩
      have := start_mono hs ht (by omega : k + 2 < total)
      rw [hloc i (by omega), hout i (by omega)]

theorem procBands_energy {dir : Bool} {offs : List Nat} {total : Nat} (hs : offs.Pairwise (· ≤ ·))
    (ht : total ≤ offs.length) : ∀ (bands : List (Bool × Int)) (k : Nat) (x y : List (Rat × Rat)), 
    procBands 1 dir offs total k bands x = .ok y →
    ∀ (i : Nat) (a b : Rat × Rat), x[i]? = some a → y[i]? = some b → SameEnergy a b := by
  intro bands
  induction bands with
  | nil =>
    intro k x y h i a b ha hb
    injection h with h
    subst h
    rw [ha] at hb
    injection hb with hb
    subst hb
    exact SameEnergy.refl a
  | cons bd rest ih =>
    obtain ⟨m, q⟩ := bd
    intro k x y h i a b ha hb
    rw [procBands_cons] at h
    obtain ⟨x1, h1, h⟩ := Res.bind_eq_ok.mp h
    obtain ⟨hl1, hout, hm0, hm1⟩ := bandRes_ok h1
    -- after this band alone
    have hone : ∀ c, x1[i]? = some c → SameEnergy a c := by
      intro c hc
      cases m with
      | false =>
        rw [hm0 rfl, ha] at hc
        injection hc with hc
        subst hc
        exact SameEnergy.refl a
      | true =>
        obtain ⟨f, hf, hin⟩ := hm1 rfl
        by_cases hi : startOf offs k ≤ i ∧ i < stopOf offs total k
        · rw [hin i hi.1 hi.2, ha] at hc
          injection hc with hc
          subst hc
          exact rotate_energy hf a
        · rw [hout i hi, ha] at hc
          injection hc with hc
          subst hc
          exact SameEnergy.refl a
    split at h
    · injection h with h
      subst h
      exact hone b hb
    · have hnext := start_next offs total k (by omega)
      by_cases hi : i < startOf offs (k + 2)
      · rw [(procBands_local hs ht rest (k + 2) x1 y h).2 i hi] at hb
        exact hone b hb
      · refine ih _ _ _ h i a b ?_ hb
        rw [hout i (by omega), ha]

/-- **C69** Rotating keeps the energy of every pair of spectral lines, within the accuracy of the tables: every
line is rotated at most once, and by an angle of the tables. -/
theorem C69_energy (dir fullBand : Bool) (offs : List Nat) (total : Nat) (bands : List (Bool × Int))
    (x y : List (Rat × Rat)) (hs : offs.Pairwise (· ≤ ·)) (ht : total ≤ offs.length)
    (h : mcProcess 1 dir fullBand offs total bands x = .ok y) :
    y.length = x.length ∧ ∀ (i : Nat) (a b : Rat × Rat), x[i]? = some a → y[i]? = some b → SameEnergy a b := by
  unfold mcProcess at h
  split at h
  · split at h
    · cases h
    · obtain ⟨f, hf, h⟩ := Res.bind_eq_ok.mp h
      injection h with h
      subst h
      refine ⟨by simp, fun i a b ha hb => ?_⟩
      rw [List.getElem?_map, ha] at hb
      injection hb with hb
      subst hb
      exact rotate_energy hf a
  · exact ⟨(procBands_local hs ht _ _ _ _ h).1, procBands_energy hs ht _ _ _ _ h⟩

theorem procBands_total {dir : Bool} {offs : List Nat} {total : Nat} (ht : total ≤ offs.length)
    (n : Nat) (hn : ∀ o ∈ offs, o ≤ n) : ∀ (bands : List (Bool × Int)) (k : Nat) (x : List (Rat × Rat)),
    k < total → x.length = n → (∀ b ∈ bands, b.1 = true → InR b.2) →
    ∃ y, procBands 1 dir offs total k bands x = .ok y := by
  have hget : ∀ i, offs.getD i 0 ≤ n := by
    intro i
    rw [List.getD_eq_getElem?_getD]
    cases h : offs[i]? with
    | none => simp
    | some v => exact hn v (List.mem_of_getElem? h)
  intro bands
  induction bands with
  | nil => intro k x _ _ _; exact ⟨x, rfl⟩
  | cons b rest ih =>
    obtain ⟨m, q⟩ := b
    intro k x hk hx hb
    have hone : ∃ x1, bandRes 1 dir offs total k m q x = .ok x1 := by
      unfold bandRes
      cases m with
      | false => exact ⟨x, rfl⟩
      | true =>
        obtain ⟨c, s, hc, hs⟩ := angle_ok (hb (true, q) (by simp) rfl)
        have hstop : ¬ x.length < stopOf offs total k := by
          rw [hx]; unfold stopOf
          split
          · exact Nat.not_lt.mpr (hget _)
          · exact Nat.not_lt.mpr (hget _)
        refine ⟨onLines (rotate c s) (fun v => v) (startOf offs k) (stopOf offs total k) x, ?_⟩
        rw [if_pos rfl, lines_total hk ht]
        show (if x.length < stopOf offs total k then Res.ub else _) = _
        rw [if_neg hstop]
        unfold boxFun
        rw [if_neg (by decide), hc, hs]
        rfl
    obtain ⟨x1, h1⟩ := hone
    rw [procBands_cons, h1]
    show ∃ y, (if k + 2 ≥ total then Res.ok x1 else _) = _
    split
    · exact ⟨x1, rfl⟩
    · exact ih (k + 2) x1 (by omega) (by rw [(bandRes_ok h1).1, hx]) fun b hb' => hb b (List.mem_cons_of_mem _ hb')

/-- **C69** … and with angles from the tables and band offsets inside the spectrum nothing outside the tables and
the spectrum is read. -/
theorem C69_total (dir fullBand : Bool) (offs : List Nat) (total : Nat) (bands : List (Bool × Int))
    (x : List (Rat × Rat)) (h0 : 0 < total) (ht : total ≤ offs.length) (hx : ∀ o ∈ offs, o ≤ x.length)
    (hb : ∀ b ∈ bands, b.1 = true → InR b.2) (hf : fullBand = true → ∃ q rest, bands = (true, q) :: rest) :
    ∃ y, mcProcess 1 dir fullBand offs total bands x = .ok y := by
  unfold mcProcess
  cases fullBand with
  | true =>
    obtain ⟨q, rest, rfl⟩ := hf rfl
    obtain ⟨c, s, hc, hs⟩ := angle_ok (hb (true, q) (by simp) rfl)
    refine ⟨x.map (rotate c s), ?_⟩
    simp only [if_true]
    unfold boxFun
    rw [if_neg (by decide), hc, hs]
    rfl
  | false => exact procBands_total ht x.length hx bands 0 x h0 rfl hb

/-- A rotation by 45 degrees of the first band and none of the second. -/
example : [4, 8, 12].Pairwise (· ≤ ·) ∧
    (mcProcess 1 false false [1, 2, 3] 3 [(true, 48), (false, 0)] [(1, 0), (1, 1), (5, 3)]) =
      .ok [(707107 / 1000000, 707107 / 1000000), (0, 1414214 / 1000000), (5, 3)] := by decide +kernel

/-! ## C70: recovering the downmix -/

theorem unbox_rotation {dir : Bool} {q : Int} {f : Rat × Rat → Rat} (h : unbox 1 dir q = .ok f) :
    ∃ c s, cosAt q = .ok c ∧ sinAt q = .ok s ∧ f = fun x => x.1 * c + x.2 * s := by
  unfold unbox at h
  rw [if_neg (by decide)] at h
  obtain ⟨c, hc, h⟩ := Res.bind_eq_ok.mp h
  obtain ⟨s, hs, h⟩ := Res.bind_eq_ok.mp h
  injection h with h
  exact ⟨c, s, hc, hs, h.symm⟩

/-- `d` is the downmix `a` within the accuracy of the tables. -/
def Near (a d : Rat) : Prop := |d - a| ≤ tol * |a|

theorem Near.refl (a : Rat) : Near a a := by
  unfold Near tol
  rw [sub_self, abs_zero]
  positivity

theorem unbox_box {dir dir' : Bool} {q : Int} {f : Rat × Rat → Rat × Rat} {g : Rat × Rat → Rat}
    (hf : boxFun 1 dir q = .ok f) (hg : unbox 1 dir' q = .ok g) (x : Rat × Rat) : Near x.1 (g (f x)) := by
  obtain ⟨c, s, hc, hs, rfl⟩ := boxFun_rotation hf
  obtain ⟨c', s', hc', hs', rfl⟩ := unbox_rotation hg
  rw [hc] at hc'
  rw [hs] at hs'
  injection hc' with hc'
  injection hs' with hs'
  subst hc' hs'
  have hu := unit_circle hc hs
  have he : (rotate c s x).1 * c + (rotate c s x).2 * s - x.1 = (c ^ 2 + s ^ 2 - 1) * x.1 := by
    unfold rotate; ring
  unfold Near
  rw [he, abs_mul]
  exact mul_le_mul_of_nonneg_right hu (abs_nonneg _)

theorem unbox_32 {dir : Bool} {g : Rat × Rat → Rat} (hg : unbox 1 dir 32 = .ok g) (x : Rat × Rat) : g x = x.1 := by
  obtain ⟨c, s, hc, hs, rfl⟩ := unbox_rotation hg
  have h1 : cosAt 32 = .ok 1 := by decide +kernel
  have h2 : sinAt 32 = .ok 0 := by decide +kernel
  rw [h1] at hc
  rw [h2] at hs
  injection hc with hc
  injection hs with hs
  subst hc hs
  simp

/-- What the loop of the downmix does with one band. -/
def dmxOne (offs : List Nat) (total k : Nat) (b : Bool × Int) (x : List (Rat × Rat)) (d : List Rat) : Res (List Rat) := do
  let (start, stop) ← lines offs total k
  if x.length < stop then .ub
  else do
    let f ← unbox 1 false (if b.1 then b.2 else 32)
    pure ((d.zip x).mapIdx fun i v => if start ≤ i ∧ i < stop then f v.2 else v.1)

theorem dmxBands_succ (offs : List Nat) (total : Nat) (bands : List (Bool × Int)) (x : List (Rat × Rat)) (n band k : Nat)
    (d : List Rat) (hk : k < total) :
    dmxBands offs total bands x (n + 1) band k d = (dmxOne offs total k (bandAt bands band) x d).bind fun d1 =>
      if k + 1 ≥ total then .ok d1 else dmxBands offs total bands x n (band + 1) (k + 2) d1 := by
  rw [dmxBands, if_neg (by omega)]
  unfold dmxOne
  cases h : lines offs total k with
  | ok v =>
    obtain ⟨a, b⟩ := v
    show (if x.length < b then Res.ub else _) = Res.bind (if x.length < b then Res.ub else _) _
    split
    · rfl
    · show Res.bind (unbox _ _ _) _ = Res.bind (Res.bind (unbox _ _ _) _) _
      cases unbox 1 false (if (bandAt bands band).1 then (bandAt bands band).2 else 32) <;> rfl
  | jump => rfl
  | err _ => rfl
  | ub => rfl

theorem dmxOne_ok {offs : List Nat} {total k : Nat} {b : Bool × Int} {x : List (Rat × Rat)} {d d1 : List Rat}
    (h : dmxOne offs total k b x d = .ok d1) (hd : d.length = x.length) :
    d1.length = x.length ∧
    (∀ i, ¬ (startOf offs k ≤ i ∧ i < stopOf offs total k) → d1[i]? = d[i]?) ∧
    ∃ f, unbox 1 false (if b.1 then b.2 else 32) = .ok f ∧
      ∀ i, startOf offs k ≤ i → i < stopOf offs total k → d1[i]? = (x[i]?).map f := by
  unfold dmxOne at h
  obtain ⟨⟨a, c⟩, hl, h⟩ := Res.bind_eq_ok.mp h
  have hab := lines_ok hl
  simp only [Prod.mk.injEq] at hab
  obtain ⟨rfl, rfl⟩ := hab
  simp only at h
  split at h
  · cases h
  · obtain ⟨f, hf, h⟩ := Res.bind_eq_ok.mp h
    injection h with h
    subst h
    have hz : ∀ i, (d.zip x)[i]? = if h : i < x.length then some (d[i]'(by omega), x[i]) else none := by
      intro i
      split
      · rw [List.getElem?_eq_getElem (by simp; omega)]; simp
      · rw [List.getElem?_eq_none (by simp; omega)]
    refine ⟨by simp; omega, ?_, f, hf, ?_⟩
    · intro i hi
      simp only [List.getElem?_mapIdx, if_neg hi, hz]
      split
      · rw [List.getElem?_eq_getElem (by omega)]; rfl
      · rw [List.getElem?_eq_none (by omega)]; rfl
    · intro i h1 h2
      simp only [List.getElem?_mapIdx, if_pos (⟨h1, h2⟩ : _ ∧ _), hz]
      split
      · rw [List.getElem?_eq_getElem (by omega)]; rfl
      · rw [List.getElem?_eq_none (by omega)]; rfl

theorem dmxBands_local {offs : List Nat} {total : Nat} (hs : offs.Pairwise (· ≤ ·)) (ht : total ≤ offs.length)
    (hodd : total % 2 = 1) (bands : List (Bool × Int)) (x : List (Rat × Rat)) : ∀ (n band k : Nat) (d d' : List Rat),
    k < total → k % 2 = 0 → d.length = x.length → dmxBands offs total bands x n band k d = .ok d' →
    d'.length = x.length ∧ ∀ i, i < startOf offs k → d'[i]? = d[i]? := by
  intro n
  induction n with
  | zero => intro band k d d' _ _ hd h; injection h with h; subst h; exact ⟨hd, fun _ _ => rfl⟩
  | succ n ih =>
    intro band k d d' hk he hd h
    rw [dmxBands_succ _ _ _ _ _ _ _ _ hk] at h
    obtain ⟨d1, h1, h⟩ := Res.bind_eq_ok.mp h
    obtain ⟨hl1, hout, _⟩ := dmxOne_ok h1 hd
    split at h
    · injection h with h
      subst h
      exact ⟨hl1, fun i hi => hout i (by omega)⟩
    · obtain ⟨hl2, hloc⟩ := ih _ _ _ _ (by omega) (by omega) hl1 h
      refine ⟨hl2, fun i hi => ?_⟩
      have := start_mono hs ht (by omega : k + 2 < total)
      rw [hloc i (by omega), hout i (by omega)]

/-- One band of the box, or nothing if the bands of the window are exhausted. -/
theorem procBands_step {dir : Bool} {offs : List Nat} {total k : Nat} {bands : List (Bool × Int)} {band : Nat}
    {x y : List (Rat × Rat)} (h : procBands 1 dir offs total k (bands.drop band) x = .ok y) :
    ∃ x1, bandRes 1 dir offs total k (bandAt bands band).1 (bandAt bands band).2 x = .ok x1 ∧
      (if k + 2 ≥ total then y = x1 else procBands 1 dir offs total (k + 2) (bands.drop (band + 1)) x1 = .ok y) := by
  by_cases hb : band < bands.length
  · rw [List.drop_eq_getElem_cons hb] at h
    obtain ⟨x1, h1, h2⟩ := Res.bind_eq_ok.mp ((procBands_cons ..).symm.trans h)
    have hat : bandAt bands band = bands[band] := by
      unfold bandAt
      rw [List.getD_eq_getElem?_getD, List.getElem?_eq_getElem hb]; rfl
    refine ⟨x1, by rw [hat]; exact h1, ?_⟩
    split
    · rw [if_pos ‹_›] at h2; injection h2 with h2; exact h2.symm
    · rw [if_neg ‹_›] at h2; exact h2
  · rw [List.drop_eq_nil_of_le (by omega)] at h
    injection h with h
    subst h
    have hat : bandAt bands band = (false, 0) := by
      unfold bandAt
      rw [List.getD_eq_getElem?_getD, List.getElem?_eq_none (by omega)]; rfl
    refine ⟨x, by rw [hat]; rfl, ?_⟩
    split
    · rfl
    · rw [List.drop_eq_nil_of_le (by omega)]; rfl

theorem dmx_proc {dir : Bool} {offs : List Nat} {total : Nat} (hs : offs.Pairwise (· ≤ ·)) (ht : total ≤ offs.length)
    (hodd : total % 2 = 1) (bands : List (Bool × Int)) (y : List (Rat × Rat)) :
    ∀ (n band k : Nat) (x : List (Rat × Rat)) (d d' : List Rat),
    k < total → k % 2 = 0 → total ≤ k + 2 * n → d.length = y.length →
    procBands 1 dir offs total k (bands.drop band) x = .ok y →
    dmxBands offs total bands y n band k d = .ok d' →
    ∀ (i : Nat) (a : Rat × Rat) (b : Rat), startOf offs k ≤ i → i < offs.getD (total - 1) 0 → x[i]? = some a → d'[i]? = some b → Near a.1 b := by
  intro n
  induction n with
  | zero => intros; omega
  | succ n ih =>
    intro band k x d d' hk he hn hd hp h i a b hi1 hi2 ha hb
    obtain ⟨x1, hx1, hrest⟩ := procBands_step hp
    rw [dmxBands_succ _ _ _ _ _ _ _ _ hk] at h
    obtain ⟨d1, h1, h⟩ := Res.bind_eq_ok.mp h
    obtain ⟨hl1, hout, f, hf, hin⟩ := dmxOne_ok h1 hd
    obtain ⟨hxl1, hxout, hm0, hm1⟩ := bandRes_ok hx1
    -- a line of this band, if later bands leave it alone
    have hone : i < stopOf offs total k → y[i]? = x1[i]? → d1[i]? = some b → Near a.1 b := by
      intro hlt hy hd1
      rw [hin i hi1 hlt, hy] at hd1
      cases hm : (bandAt bands band).1 with
      | false =>
        rw [hm0 hm, ha] at hd1
        injection hd1 with hd1
        rw [hm] at hf
        rw [← hd1, unbox_32 hf]
        exact Near.refl _
      | true =>
        obtain ⟨g, hg, hgin⟩ := hm1 hm
        rw [hgin i hi1 hlt, ha] at hd1
        injection hd1 with hd1
        rw [hm] at hf
        rw [← hd1]
        exact unbox_box hg hf a
    by_cases hlast : k + 1 ≥ total
    · rw [if_pos hlast] at h
      rw [if_pos (by omega)] at hrest
      injection h with h
      subst h hrest
      refine hone ?_ rfl hb
      unfold stopOf
      rw [if_neg (by omega), show k = total - 1 by omega]
      exact hi2
    · rw [if_neg hlast] at h
      rw [if_neg (by omega)] at hrest
      have hnext := start_next offs total k (by omega)
      by_cases hi : i < startOf offs (k + 2)
      · refine hone (by omega) ((procBands_local hs ht _ _ _ _ hrest).2 i hi) ?_
        rw [← (dmxBands_local hs ht hodd _ _ _ _ _ _ _ (by omega) (by omega) hl1 h).2 i hi]
        exact hb
      · refine ih (band + 1) (k + 2) x1 d1 d' (by omega) (by omega) (by omega) hl1 hrest h i a b (by omega) hi2 ?_ hb
        rw [hxout i (by omega)]
        exact ha

theorem dmxBands_total {offs : List Nat} {total : Nat} (ht : total ≤ offs.length) (hodd : total % 2 = 1)
    (bands : List (Bool × Int)) (hb : ∀ b ∈ bands, b.1 = true → InR b.2) (x : List (Rat × Rat))
    (hx : ∀ o ∈ offs, o ≤ x.length) : ∀ (n band k : Nat) (d : List Rat), k < total → k % 2 = 0 → 
    ∃ d', dmxBands offs total bands x n band k d = .ok d' := by
  have hget : ∀ i, offs.getD i 0 ≤ x.length := by
    intro i
    rw [List.getD_eq_getElem?_getD]
    cases h : offs[i]? with
    | none => simp
    | some v => exact hx v (List.mem_of_getElem? h)
  intro n
  induction n with
  | zero => intro band k d _ _; exact ⟨d, rfl⟩
  | succ n ih =>
    intro band k d hk he
    have hr : InR (if (bandAt bands band).1 then (bandAt bands band).2 else 32) := by
      by_cases hm : (bandAt bands band).1 = true
      · rw [if_pos hm]
        unfold bandAt at hm ⊢
        rw [List.getD_eq_getElem?_getD] at hm ⊢
        cases hg : bands[band]? with
        | none => rw [hg] at hm; simp at hm
        | some v => rw [hg] at hm; exact hb v (List.mem_of_getElem? hg) hm
      · rw [if_neg hm]; unfold InR; omega
    obtain ⟨c, s, hc, hs⟩ := angle_ok hr
    have hstop : ¬ x.length < stopOf offs total k := by
      unfold stopOf
      split
      · exact Nat.not_lt.mpr (hget _)
      · exact Nat.not_lt.mpr (hget _)
    have hone : ∃ d1, dmxOne offs total k (bandAt bands band) x d = .ok d1 := by
      unfold dmxOne
      rw [lines_total hk ht]
      show ∃ d1, (if x.length < stopOf offs total k then Res.ub else _) = _
      rw [if_neg hstop]
      unfold unbox
      rw [if_neg (by decide), hc, hs]
      exact ⟨_, rfl⟩
    obtain ⟨d1, h1⟩ := hone
    rw [dmxBands_succ _ _ _ _ _ _ _ _ hk, h1]
    show ∃ d', (if k + 1 ≥ total then Res.ok d1 else _) = _
    split
    · exact ⟨d1, rfl⟩
    · exact ih _ _ _ (by omega) (by omega)

/-- **C70**, the part that holds for rotation in bands: with an odd number of scale factor bands the downmix of
what a box has made is, within the accuracy of the tables, the downmix the box was given.  Missing: even numbers of
scale factor bands. -/
theorem C70_rotation_partial (dir : Bool) (offs : List Nat) (total : Nat) (bands : List (Bool × Int))
    (x y : List (Rat × Rat)) (hs : offs.Pairwise (· ≤ ·)) (ht : total ≤ offs.length) (hodd : total % 2 = 1)
    (h128 : total ≤ 128) (hx : ∀ o ∈ offs, o ≤ x.length) (hb : ∀ b ∈ bands, b.1 = true → InR b.2)
    (h : mcProcess 1 dir false offs total bands x = .ok y) :
    ∃ d, mcPrevDmx 1 dir false offs total bands y = .ok d ∧
      ∀ (i : Nat) (a : Rat × Rat) (b : Rat), i < offs.getD (total - 1) 0 → x[i]? = some a → d[i]? = some b → Near a.1 b := by
  have hl := (procBands_local hs ht _ _ _ _ h).1
  have h0 : (if (1 : Nat) = 0 then true else false) = false := rfl
  unfold mcPrevDmx
  rw [if_neg (by decide)]
  simp only [Bool.false_eq_true, if_false]
  obtain ⟨d, hd⟩ := dmxBands_total ht hodd bands hb y (by rw [hl]; exact hx) maxBands 0 0
    (List.replicate y.length 0) (by omega) rfl
  refine ⟨d, hd, fun i a b hi ha hbb => ?_⟩
  exact dmx_proc hs ht hodd bands y maxBands 0 0 x _ d (by omega) rfl (by unfold maxBands; omega) (by simp) h hd i a b
    (by simp [startOf]) hi ha hbb

/-- **C70**, the part that holds for one coefficient for the whole spectrum. -/
theorem C70_full_band_partial (sig : Nat) (hsig : sig ≤ 1) (dir : Bool) (offs : List Nat) (total : Nat)
    (bands : List (Bool × Int)) (x y : List (Rat × Rat)) (h : mcProcess sig dir true offs total bands x = .ok y) :
    ∃ d, mcPrevDmx sig dir true offs total bands y = .ok d ∧ d.length = x.length ∧
      ∀ (i : Nat) (a : Rat × Rat) (b : Rat), x[i]? = some a → d[i]? = some b → Near a.1 b := by
  unfold mcProcess at h
  rw [if_pos rfl] at h
  cases bands with
  | nil => cases h
  | cons b0 rest =>
    obtain ⟨f, hf, h⟩ := Res.bind_eq_ok.mp h
    injection h with h
    subst h
    have hcase : sig = 0 ∨ sig = 1 := by omega
    rcases hcase with rfl | rfl
    · unfold boxFun at hf
      rw [if_pos rfl] at hf
      injection hf with hf
      subst hf
      refine ⟨(x.map (predict b0.2 dir)).map fun x => if dir then (x.1 - x.2) / 2 else (x.1 + x.2) / 2, rfl,
        by simp, fun i a b ha hb => ?_⟩
      rw [List.map_map, List.getElem?_map, ha] at hb
      injection hb with hb
      have : b = a.1 := by
        rw [← hb]
        cases dir <;> simp [predict] <;> ring
      rw [this]
      exact Near.refl _
    · obtain ⟨c, s, hc, hs, hfe⟩ := boxFun_rotation hf
      have hg : unbox 1 dir b0.2 = .ok fun x => x.1 * c + x.2 * s := by
        unfold unbox
        rw [if_neg (by decide), hc, hs]
        rfl
      refine ⟨(x.map f).map fun x => x.1 * c + x.2 * s, ?_, by simp, fun i a b ha hb => ?_⟩
      · unfold mcPrevDmx
        rw [if_neg (by decide)]
        simp only [if_true]
        rw [hg]
        rfl
      · rw [List.map_map, List.getElem?_map, ha] at hb
        injection hb with hb
        rw [← hb]
        exact unbox_box hf hg a

/-- **C70** is false: with an even number of scale factor bands (here two), and a coefficient per band, the
computation of the downmix of the previous spectra ends in an error, although the box itself can be applied. -/
theorem C70_refuted : ∃ (offs : List Nat) (bands : List (Bool × Int)) (x y : List (Rat × Rat)),
    offs.Pairwise (· < ·) ∧ offs.length = 2 ∧ (∀ o ∈ offs, o ≤ x.length) ∧
    mcProcess 1 false false offs 2 bands x = .ok y ∧
    mcPrevDmx 1 false false offs 2 bands y = .err (.other 1) :=
  ⟨[1, 2], [(true, 32)], [(1, 0), (1, 1)], [(1, 0), (1, 1)], by decide, rfl, by decide, by decide +kernel,
    by decide +kernel⟩

/-- Even numbers always fail. -/
theorem C70_even_fails (offs : List Nat) (total : Nat) (ht : total ≤ offs.length) (heven : total % 2 = 0)
    (h126 : total ≤ 126) (bands : List (Bool × Int)) (hb : ∀ b ∈ bands, b.1 = true → InR b.2) (x : List (Rat × Rat))
    (hx : ∀ o ∈ offs, o ≤ x.length) (dir : Bool) :
    mcPrevDmx 1 dir false offs total bands x = .err (.other 1) := by
  have hget : ∀ i, offs.getD i 0 ≤ x.length := by
    intro i
    rw [List.getD_eq_getElem?_getD]
    cases h : offs[i]? with
    | none => simp
    | some v => exact hx v (List.mem_of_getElem? h)
  suffices h : ∀ (n band k : Nat) (d : List Rat), k % 2 = 0 → k ≤ total → total < k + 2 * n →
      dmxBands offs total bands x n band k d = .err (.other 1) by
    unfold mcPrevDmx
    rw [if_neg (by decide)]
    simp only [Bool.false_eq_true, if_false]
    exact h maxBands 0 0 _ rfl (by omega) (by unfold maxBands; omega)
  intro n
  induction n with
  | zero => intros; omega
  | succ n ih =>
    intro band k d he hk hn
    by_cases hkt : k = total
    · rw [dmxBands, if_pos (by omega)]
    · have hr : InR (if (bandAt bands band).1 then (bandAt bands band).2 else 32) := by
        by_cases hm : (bandAt bands band).1 = true
        · rw [if_pos hm]
          unfold bandAt at hm ⊢
          rw [List.getD_eq_getElem?_getD] at hm ⊢
          cases hg : bands[band]? with
          | none => rw [hg] at hm; simp at hm
          | some v => rw [hg] at hm; exact hb v (List.mem_of_getElem? hg) hm
        · rw [if_neg hm]; unfold InR; omega
      obtain ⟨c, s, hc, hs⟩ := angle_ok hr
      have hstop : ¬ x.length < stopOf offs total k := by
        unfold stopOf
        split
        · exact Nat.not_lt.mpr (hget _)
        · exact Nat.not_lt.mpr (hget _)
      have hone : ∃ d1, dmxOne offs total k (bandAt bands band) x d = .ok d1 := by
        unfold dmxOne
        rw [lines_total (by omega) ht]
        show ∃ d1, (if x.length < stopOf offs total k then Res.ub else _) = _
        rw [if_neg hstop]
        unfold unbox
        rw [if_neg (by decide), hc, hs]
        exact ⟨_, rfl⟩
      obtain ⟨d1, h1⟩ := hone
      rw [dmxBands_succ _ _ _ _ _ _ _ _ (by omega), h1]
      show (if k + 1 ≥ total then Res.ok d1 else _) = _
      rw [if_neg (by omega)]
      exact ih _ _ _ (by omega) (by omega) (by omega)

/-- Three scale factor bands, the first two rotated by 45 degrees. -/
example : [1, 2, 3].Pairwise (· ≤ ·) ∧
    (mcProcess 1 false false [1, 2, 3] 3 [(true, 48)] [(1, 0), (1, 1), (5, 3)]) =
      .ok [(707107 / 1000000, 707107 / 1000000), (0, 1414214 / 1000000), (5, 3)] ∧
    mcPrevDmx 1 false false [1, 2, 3] 3 [(true, 48)]
      [(707107 / 1000000, 707107 / 1000000), (0, 1414214 / 1000000), (5, 3)] =
      .ok [500000309449 / 500000000000, 500000309449 / 500000000000, 5] := by decide +kernel

/-! ## C71: the spectra kept for stereo filling -/

/-- **C71**, the part that holds: with a single signal group that begins at channel 0 the previous spectrum used for
a channel of the group is the one of that channel.  Missing: several groups, or a group that begins later. -/
theorem C71_single_partial {σ : Type} (spec : Nat → σ) (store : Nat → σ) (g : Group) (hg : g.start = 0) (i ch : Nat)
    (h : g.chans[i]? = some ch) : prevOf (saveAll spec [g] store) g i = spec ch := by
  simp [prevOf, saveAll, saveGroup, hg, h]

/-- **C71** is false: with groups of channels 0, 1 and 2, 3 the first group gets the spectra of the second one, and
the second one never gets any. -/
theorem C71_refuted : ∃ (gs : List Group), gs = [⟨0, [0, 1]⟩, ⟨2, [2, 3]⟩] ∧
    ∀ {σ : Type} (spec store : Nat → σ),
      prevOf (saveAll spec gs store) ⟨0, [0, 1]⟩ 0 = spec 2 ∧
      prevOf (saveAll spec gs store) ⟨2, [2, 3]⟩ 0 = store 2 :=
  ⟨_, rfl, fun _ _ => ⟨rfl, rfl⟩⟩

example : prevOf (saveAll (fun ch => 10 * ch) [⟨0, [0, 3]⟩] (fun _ => 7)) ⟨0, [0, 3]⟩ 1 = 30 := rfl

end Verif.Mct
