import Verif.Model.Oam
import Verif.Proofs.Asi
import Mathlib.Tactic.NormNum
import Mathlib.Tactic.Positivity
import Mathlib.Algebra.Order.Ring.Rat
import Mathlib.Tactic.Linarith
import Mathlib.Tactic.Ring

/-! # Properties of object metadata decoding (C39, C40, C59) -/

namespace Verif.Oam

open Prog

/-- An array of the decoder state whose entries are between `-b` and `b`. -/
def Bnd (b : Int) (t : List Int) : Prop := t.length = 96 ∧ ∀ v ∈ t, -b ≤ v ∧ v ≤ b

/-- The same, with the larger bound `b + 256` for the entries before `k`. -/
def BndAt (k : Nat) (b : Int) (t : List Int) : Prop :=
  t.length = 96 ∧ ∀ j v, t[j]? = some v → (-(b + 256) ≤ v ∧ v ≤ b + 256) ∧ (k ≤ j → -b ≤ v ∧ v ≤ b)

theorem Bnd.at {b : Int} {t : List Int} (h : Bnd b t) (k : Nat) : BndAt k b t := by
  refine ⟨h.1, fun j v hv => ?_⟩
  have := h.2 v (List.mem_of_getElem? hv)
  exact ⟨by omega, fun _ => this⟩

theorem BndAt.all {k : Nat} {b : Int} {t : List Int} (h : BndAt k b t) : Bnd (b + 256) t := by
  refine ⟨h.1, fun v hv => ?_⟩
  obtain ⟨j, hj⟩ := List.getElem?_of_mem hv
  exact (h.2 j v hj).1

theorem BndAt.succ {k : Nat} {b : Int} {t : List Int} (h : BndAt k b t) : BndAt (k + 1) b t :=
  ⟨h.1, fun j v hv => ⟨(h.2 j v hv).1, fun hk => (h.2 j v hv).2 (by omega)⟩⟩

theorem BndAt.set {k : Nat} {b v : Int} {t : List Int} (h : BndAt k b t) (h0 : -(b + 256) ≤ v)
    (h1 : v ≤ b + 256) : BndAt (k + 1) b (t.set k v) := by
  refine ⟨by simp [h.1], fun j x hx => ?_⟩
  rw [List.getElem?_set] at hx
  by_cases hjk : k = j
  · subst hjk
    rw [if_pos rfl] at hx
    split at hx
    · simp at hx; subst hx; exact ⟨⟨h0, h1⟩, by omega⟩
    · simp at hx
  · rw [if_neg hjk] at hx
    exact ⟨(h.2 j x hx).1, fun hk => (h.2 j x hx).2 (by omega)⟩

theorem Bnd.set {b v : Int} {t : List Int} (h : Bnd b t) (i : Nat) (h0 : -b ≤ v)
    (h1 : v ≤ b) : Bnd b (t.set i v) := by
  refine ⟨by simp [h.1], fun x hx => ?_⟩
  rcases List.mem_or_eq_of_mem_set hx with hx | rfl
  · exact h.2 x hx
  · exact ⟨h0, h1⟩

theorem Safe.flag : Safe flag (fun _ => True) := by
  intro l
  refine ⟨?_, fun _ _ _ => trivial⟩
  rw [run_flag]
  cases l <;> simp

theorem readSigned_safe (n : Nat) (h0 : 1 ≤ n) (h : n ≤ 24) :
    Safe (readSigned n) (fun v => -2 ^ (n - 1) ≤ v ∧ v < 2 ^ (n - 1)) := by
  unfold readSigned
  refine Safe.bits_bind h fun v hv => ?_
  obtain ⟨k, rfl⟩ : ∃ k, n = k + 1 := ⟨n - 1, by omega⟩
  simp only [Nat.add_sub_cancel]
  have h2 : (2 : Int) ^ (k + 1) = 2 * 2 ^ k := by rw [pow_succ]; ring
  have h3 : ((2 ^ k : Nat) : Int) = 2 ^ k := by push_cast; ring
  have h4 : ((2 ^ (k + 1) : Nat) : Int) = 2 ^ (k + 1) := by push_cast; ring
  refine Safe.pure ?_
  generalize hp : (2 : Int) ^ k = p at *
  split <;> omega

/-- The widths used: at most nine bits. -/
theorem readSigned_safe256 (n : Nat) (h0 : 1 ≤ n) (h : n ≤ 9) :
    Safe (readSigned n) (fun v => -256 ≤ v ∧ v ≤ 255) := by
  refine (readSigned_safe n h0 (by omega)).mono fun v hv => ?_
  have : (2 : Int) ^ (n - 1) ≤ 2 ^ 8 := pow_le_pow_right₀ (by norm_num) (by omega)
  norm_num at this
  omega

theorem readUnsigned_safe256 (n : Nat) (h : n ≤ 8) :
    Safe (readUnsigned n) (fun v => -256 ≤ v ∧ v ≤ 255) := by
  unfold readUnsigned
  refine Safe.bits_bind (by omega) fun v hv => Safe.pure ?_
  have : 2 ^ n ≤ 2 ^ 8 := Nat.pow_le_pow_right (by norm_num) h
  norm_num at this
  omega

theorem word_safe {x : Int} (h0 : -2147483648 ≤ x) (h1 : x ≤ 2147483647) :
    Safe (word x) (fun y => y = x) := by
  unfold word Ops.i32 Ops.MIN_32 Ops.MAX_32
  rw [if_pos ⟨h0, h1⟩]
  exact Safe.pure rfl

theorem addDiff_safe {k : Nat} {b : Int} {t : List Int} (nb : Nat) (h : BndAt k b t) (hk : k < 96)
    (h0 : 1 ≤ nb) (h9 : nb ≤ 9) (hb : b + 256 ≤ 2147483647) :
    Safe (addDiff t k nb) (BndAt (k + 1) b) := by
  unfold addDiff
  refine Safe.bind Safe.flag fun f _ => Safe.ite (fun _ => ?_) (fun _ => Safe.pure h.succ)
  refine Safe.bind (readSigned_safe256 nb h0 h9) fun v hv => ?_
  refine Safe.bind (Safe.getAt (by rw [h.1]; exact hk)) fun x hx => ?_
  have := (h.2 k x hx).2 (le_refl _)
  refine Safe.bind (word_safe (by omega) (by omega)) fun y hy => ?_
  refine (Safe.setAt (by rw [h.1]; exact hk)).mono fun t' ht' => ?_
  subst ht'
  exact h.set (by omega) (by omega)

theorem setAt_safe {k : Nat} {b v : Int} {t : List Int} (h : BndAt k b t) (hk : k < 96)
    (hb : 0 ≤ b) (h0 : -256 ≤ v) (h1 : v ≤ 255) : Safe (setAt t k v) (BndAt (k + 1) b) :=
  (Safe.setAt (by rw [h.1]; exact hk)).mono fun t' ht' => by
    subst ht'; exact h.set (by omega) (by omega)

theorem setAll_safe {i : Nat} {b v : Int} {t : List Int} (h : Bnd b t) (hk : i < 96)
    (h0 : -b ≤ v) (h1 : v ≤ b) : Safe (setAt t i v) (Bnd b) :=
  (Safe.setAt (by rw [h.1]; exact hk)).mono fun t' ht' => by
    subst ht'; exact h.set i h0 h1

/-- All coded values within bounds. -/
structure CodedOk (P : List Int → Prop) (c : Coded) : Prop where
  az : P c.az
  el : P c.el
  rad : P c.rad
  gain : P c.gain
  sw : P c.sw
  sh : P c.sh
  sd : P c.sd
  pri : P c.pri

theorem CodedOk.mono {P Q : List Int → Prop} {c : Coded} (h : CodedOk P c) (hPQ : ∀ t, P t → Q t) :
    CodedOk Q c :=
  ⟨hPQ _ h.az, hPQ _ h.el, hPQ _ h.rad, hPQ _ h.gain, hPQ _ h.sw, hPQ _ h.sh, hPQ _ h.sd, hPQ _ h.pri⟩

theorem singleDiff_safe (cfg : Cfg) (fx : Fixed) (k : Nat) (c : Coded) (b : Int) (hk : k < 96)
    (hb0 : 0 ≤ b) (hb : b + 256 ≤ 2147483647) (h : CodedOk (BndAt k b) c) :
    Safe (singleDiff cfg fx k c) (CodedOk (BndAt (k + 1) b)) := by
  unfold singleDiff
  refine Safe.bits_bind (by decide) fun nb hnb => ?_
  norm_num at hnb
  simp only
  have fld : ∀ (f : Bool) (t : List Int) (w : Nat), BndAt k b t → 1 ≤ w → w ≤ 9 →
      Safe (if f = true then pure t else addDiff t k w) (BndAt (k + 1) b) := by
    intro f t w ht h1 h9
    exact Safe.ite (fun _ => Safe.pure ht.succ) (fun _ => addDiff_safe w ht hk h1 h9 hb)
  refine Safe.bind (fld fx.az c.az (nb + 2) h.az (by omega) (by omega)) fun az haz => ?_
  refine Safe.bind (fld fx.el c.el (min 7 (nb + 2)) h.el (by omega) (by omega)) fun el hel => ?_
  refine Safe.bind (fld fx.rad c.rad (min 5 (nb + 2)) h.rad (by omega) (by omega)) fun rad hrad => ?_
  refine Safe.bind (fld fx.gain c.gain (min 8 (nb + 2)) h.gain (by omega) (by omega)) fun gain hgain => ?_
  refine Safe.bind (R := fun x => BndAt (k + 1) b x.1 ∧ BndAt (k + 1) b x.2.1 ∧ BndAt (k + 1) b x.2.2)
    ?_ fun x hx => ?_
  · refine Safe.ite (fun _ => ?_) (fun _ => Safe.ite (fun _ => ?_) (fun _ => ?_))
    · refine Safe.bind (setAt_safe h.sw hk hb0 (by omega) (by omega)) fun sw hsw => ?_
      refine Safe.bind (setAt_safe h.sh hk hb0 (by omega) (by omega)) fun sh hsh => ?_
      refine Safe.bind (setAt_safe h.sd hk hb0 (by omega) (by omega)) fun sd hsd => ?_
      exact Safe.pure ⟨hsw, hsh, hsd⟩
    · refine Safe.bind (addDiff_safe _ h.sw hk (by omega) (by omega) hb) fun sw hsw => ?_
      exact Safe.pure ⟨hsw, h.sh.succ, h.sd.succ⟩
    · refine Safe.bind (addDiff_safe _ h.sw hk (by omega) (by omega) hb) fun sw hsw => ?_
      refine Safe.bind (addDiff_safe _ h.sh hk (by omega) (by omega) hb) fun sh hsh => ?_
      refine Safe.bind (addDiff_safe _ h.sd hk (by omega) (by omega) hb) fun sd hsd => ?_
      exact Safe.pure ⟨hsw, hsh, hsd⟩
  · refine Safe.bind (R := BndAt (k + 1) b)
      (Safe.ite (fun _ => addDiff_safe _ h.pri hk (by omega) (by omega) hb)
        (fun _ => Safe.pure h.pri.succ)) fun pri hpri => ?_
    exact Safe.pure ⟨haz, hel, hrad, hgain, hx.1, hx.2.1, hx.2.2, hpri⟩

theorem singleAbs_safe (cfg : Cfg) (fx : Fixed) (k : Nat) (c : Coded) (b : Int) (hk : k < 96)
    (hb0 : 0 ≤ b) (h : CodedOk (BndAt k b) c) :
    Safe (singleAbs cfg fx k c) (CodedOk (BndAt (k + 1) b)) := by
  unfold singleAbs
  have sg : ∀ (t : List Int) (w : Nat), BndAt k b t → 1 ≤ w → w ≤ 9 →
      Safe (do let v ← readSigned w; setAt t k v) (BndAt (k + 1) b) := by
    intro t w ht h1 h9
    exact Safe.bind (readSigned_safe256 w h1 h9) fun v hv => setAt_safe ht hk hb0 hv.1 hv.2
  have us : ∀ (t : List Int) (w : Nat), BndAt k b t → w ≤ 8 →
      Safe (do let v ← readUnsigned w; setAt t k v) (BndAt (k + 1) b) := by
    intro t w ht h9
    exact Safe.bind (readUnsigned_safe256 w h9) fun v hv => setAt_safe ht hk hb0 hv.1 hv.2
  have z : ∀ (t : List Int), BndAt k b t → Safe (setAt t k 0) (BndAt (k + 1) b) := fun t ht =>
    setAt_safe ht hk hb0 (by omega) (by omega)
  refine Safe.bind (R := BndAt (k + 1) b)
    (Safe.ite (fun _ => z _ h.az) (fun _ => sg _ _ h.az (by omega) (by omega))) fun az haz => ?_
  refine Safe.bind (R := BndAt (k + 1) b)
    (Safe.ite (fun _ => z _ h.el) (fun _ => sg _ _ h.el (by omega) (by omega))) fun el hel => ?_
  refine Safe.bind (R := BndAt (k + 1) b)
    (Safe.ite (fun _ => z _ h.rad) (fun _ => us _ _ h.rad (by omega))) fun rad hrad => ?_
  refine Safe.bind (R := BndAt (k + 1) b)
    (Safe.ite (fun _ => z _ h.gain) (fun _ => sg _ _ h.gain (by omega) (by omega))) fun gain hgain => ?_
  refine Safe.bind (R := fun x => BndAt (k + 1) b x.1 ∧ BndAt (k + 1) b x.2.1 ∧ BndAt (k + 1) b x.2.2)
    ?_ fun x hx => ?_
  · refine Safe.ite (fun _ => ?_) (fun _ => Safe.ite (fun _ => ?_) (fun _ => ?_))
    · refine Safe.bind (z _ h.sw) fun sw hsw => ?_
      refine Safe.bind (z _ h.sh) fun sh hsh => ?_
      refine Safe.bind (z _ h.sd) fun sd hsd => ?_
      exact Safe.pure ⟨hsw, hsh, hsd⟩
    · refine Safe.bind (readUnsigned_safe256 7 (by omega)) fun v hv => ?_
      refine Safe.bind (setAt_safe h.sw hk hb0 hv.1 hv.2) fun sw hsw => ?_
      exact Safe.pure ⟨hsw, h.sh.succ, h.sd.succ⟩
    · refine Safe.bind (readUnsigned_safe256 7 (by omega)) fun v hv => ?_
      refine Safe.bind (setAt_safe h.sw hk hb0 hv.1 hv.2) fun sw hsw => ?_
      refine Safe.bind (readUnsigned_safe256 5 (by omega)) fun v hv => ?_
      refine Safe.bind (setAt_safe h.sh hk hb0 hv.1 hv.2) fun sh hsh => ?_
      refine Safe.bind (readUnsigned_safe256 5 (by omega)) fun v hv => ?_
      refine Safe.bind (setAt_safe h.sd hk hb0 hv.1 hv.2) fun sd hsd => ?_
      exact Safe.pure ⟨hsw, hsh, hsd⟩
  · refine Safe.bind (R := BndAt (k + 1) b)
      (Safe.ite (fun _ => Safe.ite (fun _ => us _ _ h.pri (by omega)) (fun _ => z _ h.pri))
        (fun _ => Safe.pure h.pri.succ)) fun pri hpri => ?_
    exact Safe.pure ⟨haz, hel, hrad, hgain, hx.1, hx.2.1, hx.2.2, hpri⟩

theorem fill_safe {b v : Int} {t : List Int} (start n : Nat) (h : Bnd b t) (hs : start + n ≤ 96)
    (h0 : -b ≤ v) (h1 : v ≤ b) : Safe (fill t start n v) (Bnd b) :=
  Safe.foldN (fun _ t => Bnd b t) n 0 t h fun _ _ _ hj ht => setAll_safe ht (by omega) h0 h1

theorem each_safe {b : Int} {t : List Int} (rd : Prog Int) (start n : Nat) (h : Bnd b t)
    (hs : start + n ≤ 96) (hrd : Safe rd (fun v => -b ≤ v ∧ v ≤ b)) :
    Safe (foldN (fun i t => do let v ← rd; setAt t (start + i) v) n 0 t) (Bnd b) :=
  Safe.foldN (fun _ t => Bnd b t) n 0 t h fun _ _ _ hj ht =>
    Safe.bind hrd fun _ hv => setAll_safe ht (by omega) hv.1 hv.2

theorem param_safe {b : Int} {t : List Int} (fix : Bool) (rd : Prog Int) (start n : Nat) (h : Bnd b t)
    (hs : start + n ≤ 96) (hrd : Safe rd (fun v => -b ≤ v ∧ v ≤ b)) :
    Safe (param fix rd t start n) (Bnd b) := by
  unfold param
  refine Safe.ite (fun _ => ?_) (fun _ => ?_)
  · exact Safe.bind hrd fun v hv => fill_safe start n h hs hv.1 hv.2
  · refine Safe.bind Safe.flag fun c _ => Safe.ite (fun _ => ?_) (fun _ => ?_)
    · exact Safe.bind hrd fun v hv => fill_safe start n h hs hv.1 hv.2
    · exact each_safe rd start n h hs hrd

theorem spread3_safe {b : Int} (n start : Nat) (c : List Int × List Int × List Int) (hb : 256 ≤ b)
    (hs : start + n ≤ 96) (h : Bnd b c.1 ∧ Bnd b c.2.1 ∧ Bnd b c.2.2) :
    Safe (spread3 n start c) (fun c => Bnd b c.1 ∧ Bnd b c.2.1 ∧ Bnd b c.2.2) := by
  unfold spread3
  refine Safe.bind (readUnsigned_safe256 7 (by omega)) fun w hw => ?_
  refine Safe.bind (readUnsigned_safe256 5 (by omega)) fun hh hhh => ?_
  refine Safe.bind (readUnsigned_safe256 4 (by omega)) fun d hd => ?_
  refine Safe.bind (fill_safe start n h.1 hs (by omega) (by omega)) fun sw hsw => ?_
  refine Safe.bind (fill_safe start n h.2.1 hs (by omega) (by omega)) fun sh hsh => ?_
  refine Safe.bind (fill_safe start n h.2.2 hs (by omega) (by omega)) fun sd hsd => ?_
  exact Safe.pure ⟨hsw, hsh, hsd⟩

theorem intra_safe (cfg : Cfg) (start n : Nat) (c : Coded) (fx : Fixed) (b : Int) (hb : 256 ≤ b)
    (hs : start + n ≤ 96) (hs' : start < 96) (h : CodedOk (Bnd b) c) :
    Safe (intra cfg start n c fx) (fun r => CodedOk (Bnd b) r.1) := by
  have sgn : ∀ w, 1 ≤ w → w ≤ 9 → Safe (readSigned w) (fun v => -b ≤ v ∧ v ≤ b) := fun w h1 h9 =>
    (readSigned_safe256 w h1 h9).mono fun v hv => by omega
  have uns : ∀ w, w ≤ 8 → Safe (readUnsigned w) (fun v => -b ≤ v ∧ v ≤ b) := fun w h9 =>
    (readUnsigned_safe256 w h9).mono fun v hv => by omega
  unfold intra
  refine Safe.ite (fun _ => ?_) (fun _ => ?_)
  · unfold intraOne
    refine Safe.bind (sgn 8 (by omega) (by omega)) fun v hv => ?_
    refine Safe.bind (setAll_safe h.az hs' hv.1 hv.2) fun az haz => ?_
    refine Safe.bind (sgn 6 (by omega) (by omega)) fun v hv => ?_
    refine Safe.bind (setAll_safe h.el hs' hv.1 hv.2) fun el hel => ?_
    refine Safe.bind (uns 4 (by omega)) fun v hv => ?_
    refine Safe.bind (setAll_safe h.rad hs' hv.1 hv.2) fun rad hrad => ?_
    refine Safe.bind (sgn 7 (by omega) (by omega)) fun v hv => ?_
    refine Safe.bind (setAll_safe h.gain hs' hv.1 hv.2) fun gain hgain => ?_
    refine Safe.bind (R := fun c => Bnd b c.1 ∧ Bnd b c.2.1 ∧ Bnd b c.2.2) ?_ fun x hx => ?_
    · refine Safe.ite (fun _ => ?_) (fun _ => ?_)
      · refine Safe.bind (uns 7 (by omega)) fun v hv => ?_
        refine Safe.bind (setAll_safe h.sw hs' hv.1 hv.2) fun sw hsw => ?_
        exact Safe.pure ⟨hsw, h.sh, h.sd⟩
      · exact spread3_safe 1 start _ hb (by omega) ⟨h.sw, h.sh, h.sd⟩
    · refine Safe.bind (R := Bnd b) (Safe.ite (fun _ => ?_) (fun _ => Safe.pure h.pri)) fun pri hpri => ?_
      · exact Safe.bind (uns 3 (by omega)) fun v hv => setAll_safe h.pri hs' hv.1 hv.2
      · exact Safe.pure ⟨haz, hel, hrad, hgain, hx.1, hx.2.1, hx.2.2, hpri⟩
  · unfold intraMany
    refine Safe.bind Safe.flag fun _ _ => ?_
    refine Safe.bind (param_safe _ _ start n h.az hs (sgn 8 (by omega) (by omega))) fun az haz => ?_
    refine Safe.bind Safe.flag fun _ _ => ?_
    refine Safe.bind (param_safe _ _ start n h.el hs (sgn 6 (by omega) (by omega))) fun el hel => ?_
    refine Safe.bind Safe.flag fun _ _ => ?_
    refine Safe.bind (param_safe _ _ start n h.rad hs (uns 4 (by omega))) fun rad hrad => ?_
    refine Safe.bind Safe.flag fun _ _ => ?_
    refine Safe.bind (param_safe _ _ start n h.gain hs (sgn 7 (by omega) (by omega))) fun gain hgain => ?_
    refine Safe.bind Safe.flag fun _ _ => ?_
    refine Safe.bind (R := fun c => Bnd b c.1 ∧ Bnd b c.2.1 ∧ Bnd b c.2.2) ?_ fun x hx => ?_
    · refine Safe.ite (fun _ => Safe.ite (fun _ => ?_) (fun _ => ?_)) (fun _ => ?_)
      · refine Safe.bind (uns 7 (by omega)) fun v hv => ?_
        refine Safe.bind (fill_safe 0 n h.sw (by omega) hv.1 hv.2) fun sw hsw => ?_
        exact Safe.pure ⟨hsw, h.sh, h.sd⟩
      · exact spread3_safe n start _ hb hs ⟨h.sw, h.sh, h.sd⟩
      · refine Safe.bind Safe.flag fun _ _ => ?_
        refine Safe.ite (fun _ => Safe.ite (fun _ => ?_) (fun _ => ?_))
          (fun _ => Safe.ite (fun _ => ?_) (fun _ => ?_))
        · refine Safe.bind (uns 7 (by omega)) fun v hv => ?_
          refine Safe.bind (fill_safe start n h.sw hs hv.1 hv.2) fun sw hsw => ?_
          exact Safe.pure ⟨hsw, h.sh, h.sd⟩
        · exact spread3_safe n start _ hb hs ⟨h.sw, h.sh, h.sd⟩
        · refine Safe.bind (each_safe _ start n h.sw hs (uns 7 (by omega))) fun sw hsw => ?_
          exact Safe.pure ⟨hsw, h.sh, h.sd⟩
        · exact Safe.foldN (fun _ c => Bnd b c.1 ∧ Bnd b c.2.1 ∧ Bnd b c.2.2) n 0 (c.sw, c.sh, c.sd)
            ⟨h.sw, h.sh, h.sd⟩ fun j t _ hj ht => spread3_safe 1 (start + j) t hb (by omega) ht
    · refine Safe.bind (R := fun p => Bnd b p.1) (Safe.ite (fun _ => ?_) (fun _ => Safe.pure h.pri))
        fun p hp => ?_
      · refine Safe.bind Safe.flag fun _ _ => ?_
        refine Safe.bind (param_safe _ _ start n h.pri hs (uns 3 (by omega))) fun pri hpri => ?_
        exact Safe.pure hpri
      · exact Safe.pure ⟨haz, hel, hrad, hgain, hx.1, hx.2.1, hx.2.2, hp⟩

/-- The state of the decoder is in order: array sizes, coded values up to `b`, sample counters between
0 and `sb`. -/
structure StateOk (b sb : Int) (s : State) : Prop where
  hasMd : s.hasMd.length = 96
  sample : s.sample.length = 96 ∧ ∀ v ∈ s.sample, 0 ≤ v ∧ v ≤ sb
  coded : CodedOk (Bnd b) s.coded
  az : s.desc.az.length = 96
  el : s.desc.el.length = 96
  rad : s.desc.rad.length = 96
  gain : s.desc.gain.length = 96
  sw : s.desc.sw.length = 96
  sh : s.desc.sh.length = 96
  sd : s.desc.sd.length = 96
  pri : s.desc.pri.length = 96

theorem overwrite_safe {α : Type} (t : List α) (a b : Nat) (f : Nat → α → α) (h : b ≤ t.length) :
    Safe (overwrite t a b f)
      (fun r => r = t.mapIdx fun i x => if a ≤ i ∧ i < b then f i x else x) := by
  unfold overwrite
  rw [if_pos h]
  exact Safe.pure rfl

theorem overwrite_len {α : Type} (t : List α) (a b : Nat) (f : Nat → α → α) (ht : t.length = 96)
    (h : b ≤ 96) : Safe (overwrite t a b f) (fun r => r.length = 96) :=
  (overwrite_safe t a b f (by omega)).mono fun r hr => by subst hr; simp [ht]

structure DescOk (d : Desc) : Prop where
  az : d.az.length = 96
  el : d.el.length = 96
  rad : d.rad.length = 96
  gain : d.gain.length = 96
  sw : d.sw.length = 96
  sh : d.sh.length = 96
  sd : d.sd.length = 96
  pri : d.pri.length = 96

theorem descale_safe (m : Libm) (cfg : Cfg) (a b : Nat) (c : Coded) (d : Desc) (h : DescOk d)
    (hb : b ≤ 96) : Safe (descale m cfg a b c d) DescOk := by
  unfold descale
  refine Safe.bind (overwrite_len _ _ _ _ h.pri hb) fun pri hpri => ?_
  refine Safe.bind (overwrite_len _ _ _ _ h.sw hb) fun sw hsw => ?_
  refine Safe.bind (R := fun x => x.1.length = 96 ∧ x.2.length = 96)
    (Safe.ite (fun _ => Safe.pure ⟨h.sh, h.sd⟩) (fun _ => ?_)) fun x hx => ?_
  · refine Safe.bind (overwrite_len _ _ _ _ h.sh hb) fun sh hsh => ?_
    refine Safe.bind (overwrite_len _ _ _ _ h.sd hb) fun sd hsd => ?_
    exact Safe.pure ⟨hsh, hsd⟩
  refine Safe.bind (overwrite_len _ _ _ _ h.rad hb) fun rad hrad => ?_
  refine Safe.bind (overwrite_len _ _ _ _ h.el hb) fun el hel => ?_
  refine Safe.bind (overwrite_len _ _ _ _ h.az hb) fun az haz => ?_
  refine Safe.bind (overwrite_len _ _ _ _ h.gain hb) fun gain hgain => ?_
  exact Safe.pure ⟨haz, hel, hrad, hgain, hsw, hx.1, hx.2, hpri⟩

/-- The first `n` entries exist and lie between `lo` and `hi`. -/
def InRange (n : Nat) (lo hi : Rat) (t : List Rat) : Prop :=
  ∀ i < n, ∃ v, t[i]? = some v ∧ lo ≤ v ∧ v ≤ hi

theorem limit_range {lo hi x : Rat} (h : lo ≤ hi) : lo ≤ limit lo hi x ∧ limit lo hi x ≤ hi := by
  unfold limit
  simp only
  split_ifs <;> constructor <;> linarith

theorem limit_id {lo hi x : Rat} (h0 : lo ≤ x) (h1 : x ≤ hi) : limit lo hi x = x := by
  unfold limit
  simp only
  split_ifs <;> linarith

theorem limit_safe (t : List Rat) (n : Nat) (lo hi : Rat) (h : lo ≤ hi) (ht : t.length = 96)
    (hn : n ≤ 96) :
    Safe (overwrite t 0 n fun _ x => limit lo hi x) (fun r => r.length = 96 ∧ InRange n lo hi r) := by
  refine (overwrite_safe t 0 n _ (by omega)).mono fun r hr => ?_
  subst hr
  refine ⟨by simp [ht], fun i hi' => ?_⟩
  refine ⟨limit lo hi (t[i]'(by omega)), ?_, limit_range h⟩
  rw [List.getElem?_mapIdx, List.getElem?_eq_getElem (by omega)]
  simp [hi']

/-- The ranges of the descaled values of objects `0 .. n - 1`. -/
structure Ranges (cfg : Cfg) (n : Nat) (d : Desc) : Prop where
  az : InRange n (-180) 180 d.az
  el : InRange n (-90) 90 d.el
  rad : InRange n (1 / 2) 16 d.rad
  gain : InRange n (4 / 1000) (5957 / 1000) d.gain
  sw : InRange n 0 180 d.sw
  sh : cfg.uniformSpread = false → InRange n 0 90 d.sh
  sd : cfg.uniformSpread = false → InRange n 0 (31 / 2) d.sd
  pri : InRange n 0 7 d.pri

theorem limitRange_safe (cfg : Cfg) (n : Nat) (d : Desc) (h : DescOk d) (hn : n ≤ 96) :
    Safe (limitRange cfg n d) (fun r => DescOk r ∧ Ranges cfg n r) := by
  unfold limitRange
  refine Safe.bind (limit_safe _ _ _ _ (by norm_num) h.rad hn) fun rad hrad => ?_
  refine Safe.bind (limit_safe _ _ _ _ (by norm_num) h.el hn) fun el hel => ?_
  refine Safe.bind (limit_safe _ _ _ _ (by norm_num) h.az hn) fun az haz => ?_
  refine Safe.bind (limit_safe _ _ _ _ (by norm_num) h.gain hn) fun gain hgain => ?_
  refine Safe.bind (limit_safe _ _ _ _ (by norm_num) h.sw hn) fun sw hsw => ?_
  refine Safe.bind (R := fun x => x.1.length = 96 ∧ x.2.length = 96 ∧
    (cfg.uniformSpread = false → InRange n 0 (31 / 2) x.1 ∧ InRange n 0 90 x.2))
    (Safe.ite (fun hc => Safe.pure ⟨h.sd, h.sh, fun hf => by rw [hc] at hf; cases hf⟩) (fun _ => ?_))
    fun x hx => ?_
  · refine Safe.bind (limit_safe _ _ _ _ (by norm_num) h.sd hn) fun sd hsd => ?_
    refine Safe.bind (limit_safe _ _ _ _ (by norm_num) h.sh hn) fun sh hsh => ?_
    exact Safe.pure ⟨hsd.1, hsh.1, fun _ => ⟨hsd.2, hsh.2⟩⟩
  refine Safe.bind (limit_safe _ _ _ _ (by norm_num) h.pri hn) fun pri hpri => ?_
  exact Safe.pure ⟨⟨haz.1, hel.1, hrad.1, hgain.1, hsw.1, hx.2.1, hx.1, hpri.1⟩,
    ⟨haz.2, hel.2, hrad.2, hgain.2, hsw.2, fun hf => (hx.2.2 hf).2, fun hf => (hx.2.2 hf).1, hpri.2⟩⟩

theorem advance_safe (fl : Int) (n : Nat) (t : List Int) (sb : Int) (hfl : 0 ≤ fl) (hn : n ≤ 96)
    (h : t.length = 96 ∧ ∀ v ∈ t, 0 ≤ v ∧ v ≤ sb) (hsb : sb + fl ≤ 2147483647) :
    Safe (advance fl n t) (fun t => t.length = 96 ∧ ∀ v ∈ t, 0 ≤ v ∧ v ≤ sb + fl) := by
  unfold advance
  refine (Safe.foldN (fun k t => t.length = 96 ∧ ∀ j v, t[j]? = some v →
    0 ≤ v ∧ v ≤ sb + fl ∧ (k ≤ j → v ≤ sb)) n 0 t ?_ ?_).mono ?_
  · refine ⟨h.1, fun j v hv => ?_⟩
    have := h.2 v (List.mem_of_getElem? hv)
    exact ⟨this.1, by omega, fun _ => this.2⟩
  · intro k t _ hk ht
    refine Safe.bind (Safe.getAt (by omega)) fun x hx => ?_
    have h1 := ht.2 k x hx
    have h2 := h1.2.2 (le_refl _)
    refine Safe.bind (word_safe (by omega) (by omega)) fun y hy => ?_
    subst hy
    refine (Safe.setAt (by omega)).mono fun t' ht' => ?_
    subst ht'
    refine ⟨by simp [ht.1], fun j v hv => ?_⟩
    rw [List.getElem?_set] at hv
    by_cases hjk : k = j
    · subst hjk
      rw [if_pos rfl] at hv
      split at hv
      · simp at hv; subst hv; exact ⟨by omega, by omega, by omega⟩
      · simp at hv
    · rw [if_neg hjk] at hv
      have := ht.2 j v hv
      exact ⟨this.1, this.2.1, fun hk => this.2.2 (by omega)⟩
  · intro t ht
    refine ⟨ht.1, fun v hv => ?_⟩
    obtain ⟨j, hj⟩ := List.getElem?_of_mem hv
    have := ht.2 j v hj
    exact ⟨this.1, this.2.1⟩

theorem StateOk.desc {b sb : Int} {s : State} (h : StateOk b sb s) : DescOk s.desc :=
  ⟨h.az, h.el, h.rad, h.gain, h.sw, h.sh, h.sd, h.pri⟩

theorem dynamic_safe (cfg : Cfg) (start n : Nat) (s : State) (b sb : Int) (h : StateOk b sb s)
    (hs : start + n ≤ 96) (hs' : start < 96) (hb0 : 0 ≤ b) (hb : b + 256 ≤ 2147483647) :
    Safe (dynamic cfg start n s) (StateOk (b + 256) sb) := by
  unfold dynamic
  refine Safe.bind Safe.flag fun ab _ => ?_
  refine (Safe.foldN (fun j (t : State) => t.hasMd.length = 96 ∧ t.sample = s.sample ∧
    t.desc = s.desc ∧ CodedOk (BndAt (start + j) b) t.coded) n 0 s ?_ ?_).mono ?_
  · exact ⟨h.hasMd, rfl, rfl, h.coded.mono fun t ht => ht.at _⟩
  · intro j t _ hj ht
    refine Safe.bits_bind (by decide) fun p _ => ?_
    refine Safe.bind (Safe.setAt (by omega)) fun hm hhm => ?_
    subst hhm
    simp only
    refine Safe.ite (fun _ => ?_) (fun _ => ?_)
    · refine Safe.bind (R := CodedOk (BndAt (start + (j + 1)) b)) ?_ fun c hc => ?_
      · exact Safe.ite (fun _ => singleAbs_safe cfg _ _ _ b (by omega) hb0 ht.2.2.2)
          (fun _ => singleDiff_safe cfg _ _ _ b (by omega) hb0 hb ht.2.2.2)
      · exact Safe.pure ⟨by simp [ht.1], ht.2.1, ht.2.2.1, hc⟩
    · exact Safe.pure ⟨by simp [ht.1], ht.2.1, ht.2.2.1, ht.2.2.2.mono fun t ht => ht.succ⟩
  · intro t ht
    obtain ⟨h1, h2, h3, h4⟩ := ht
    exact ⟨h1, by rw [h2]; exact h.sample, h4.mono fun t ht => ht.all, by rw [h3]; exact h.az,
      by rw [h3]; exact h.el, by rw [h3]; exact h.rad, by rw [h3]; exact h.gain,
      by rw [h3]; exact h.sw, by rw [h3]; exact h.sh, by rw [h3]; exact h.sd, by rw [h3]; exact h.pri⟩

theorem lowDelay_safe (m : Libm) (cfg : Cfg) (n sub : Nat) (s : State) (b sb : Int)
    (h : StateOk b sb s) (hs : sub * n + n ≤ 96) (hs' : sub * n < 96) (hb0 : 0 ≤ b)
    (hb : b + 256 ≤ 2147483647) (hfl : 0 ≤ cfg.frameLength) (hsb : sb + cfg.frameLength ≤ 2147483647) :
    Safe (lowDelay m cfg n sub s)
      (fun s' => StateOk (b + 256) (sb + cfg.frameLength) s' ∧ Ranges cfg n s'.desc) := by
  unfold lowDelay
  refine Safe.bind Safe.flag fun ip _ => ?_
  refine Safe.bind (R := StateOk (b + 256) sb) (Safe.ite (fun _ => ?_) (fun _ => ?_)) fun s1 h1 => ?_
  · refine Safe.bind (intra_safe cfg (sub * n) n s.coded s.fixed (b + 256) (by omega) hs hs'
      (h.coded.mono fun t ht => ⟨ht.1, fun v hv => by have := ht.2 v hv; omega⟩)) fun r hr => ?_
    exact Safe.pure ⟨h.hasMd, h.sample, hr, h.az, h.el, h.rad, h.gain, h.sw, h.sh, h.sd, h.pri⟩
  · exact dynamic_safe cfg (sub * n) n s b sb h hs hs' hb0 hb
  refine Safe.bind (descale_safe m cfg _ _ _ _ h1.desc hs) fun d hd => ?_
  refine Safe.bind (limitRange_safe cfg n d hd (by omega)) fun d' hd' => ?_
  refine Safe.bind (advance_safe cfg.frameLength n s1.sample sb hfl (by omega) h1.sample hsb) fun sm hsm => ?_
  exact Safe.pure ⟨⟨h1.hasMd, hsm, h1.coded, hd'.1.az, hd'.1.el, hd'.1.rad, hd'.1.gain, hd'.1.sw,
    hd'.1.sh, hd'.1.sd, hd'.1.pri⟩, hd'.2⟩

theorem payload_safe (m : Libm) (cfg : Cfg) (n : Nat) (s : State) (present : List Nat) (b sb : Int)
    (h : StateOk b sb s) (hn : n ≤ 24) (hp : present.length = 4) (hb0 : 0 ≤ b)
    (hb : b + 1024 ≤ 2147483647) (hsb : sb + 1024 ≤ 2147483647) (hsb0 : 0 ≤ sb) :
    Safe (payload m cfg 1024 n s present)
      (fun r => StateOk (b + 1024) (sb + 1024) r.1 ∧ r.2.length = 4) := by
  unfold payload
  refine Safe.ite (fun _ => Safe.fail) (fun hfl => ?_)
  have h3 : cfg.frameLength = 256 ∨ cfg.frameLength = 512 ∨ cfg.frameLength = 1024 := by omega
  have weak : ∀ {b1 s1 b2 s2 : Int} {t : State}, StateOk b1 s1 t → b1 ≤ b2 → s1 ≤ s2 → StateOk b2 s2 t := by
    intro b1 s1 b2 s2 t h hb hs
    exact ⟨h.hasMd, ⟨h.sample.1, fun v hv => by have := h.sample.2 v hv; omega⟩,
      h.coded.mono fun t ht => ⟨ht.1, fun v hv => by have := ht.2 v hv; omega⟩,
      h.az, h.el, h.rad, h.gain, h.sw, h.sh, h.sd, h.pri⟩
  refine Safe.ite (fun hlt => ?_) (fun hge => ?_)
  · have hk : (1024 / cfg.frameLength.toNat : Nat) * cfg.frameLength = 1024 ∧
        1024 / cfg.frameLength.toNat ≤ 4 := by
      rcases h3 with h | h | h <;> rw [h] <;> decide
    refine Safe.bind (Safe.foldN (fun j (t : State × List Nat × Nat) =>
      StateOk (b + 256 * j) (sb + cfg.frameLength * j) t.1 ∧ t.2.1.length = 4 ∧ t.2.2 ≤ j)
      (1024 / cfg.frameLength.toNat) 0 (s, present, 0) ?_ ?_) fun r hr => ?_
    · exact ⟨by simpa using h, hp, le_refl _⟩
    · intro j t _ hj ht
      obtain ⟨t1, t2, t3⟩ := ht
      refine Safe.bits_bind (by decide) fun p _ => ?_
      refine Safe.bind (Safe.setAt (by omega)) fun pr hpr => ?_
      subst hpr
      have hj4 : j < 4 := by omega
      have hfp : 0 ≤ cfg.frameLength := by omega
      have hmul : cfg.frameLength * j + cfg.frameLength ≤ 1024 := by
        have h1 : ((j + 1 : Nat) : Int) ≤ ((1024 / cfg.frameLength.toNat : Nat) : Int) := by omega
        have h2 := mul_le_mul_of_nonneg_right h1 hfp
        rw [hk.1] at h2
        push_cast at h2
        linarith
      refine Safe.ite (fun _ => ?_) (fun _ => ?_)
      · have hsub : t.2.2 * n ≤ 3 * 24 := Nat.mul_le_mul (by omega) hn
        refine Safe.bind (lowDelay_safe m cfg n t.2.2 t.1 (b + 256 * j) (sb + cfg.frameLength * j) t1
          (by omega) (by omega) (by omega) (by omega) hfp (by omega)) fun s' hs' => ?_
        refine Safe.pure ⟨weak hs'.1 (by push_cast; omega) (by push_cast; linarith), by simp [t2], ?_⟩
        simp only; omega
      · exact Safe.pure ⟨weak t1 (by push_cast; omega) (by push_cast; linarith), by simp [t2],
          by simp only; omega⟩
    · rw [Nat.zero_add] at hr
      refine Safe.pure ⟨weak hr.1 (by omega) ?_, hr.2.1⟩
      have : cfg.frameLength * ((1024 / cfg.frameLength.toNat : Nat) : Int) = 1024 := by
        rw [mul_comm]; exact hk.1
      omega
  · have hfl : cfg.frameLength = 1024 := by omega
    refine Safe.bind (lowDelay_safe m cfg n 0 s b sb h (by omega) (by omega) hb0 (by omega) (by omega)
      (by omega)) fun s' hs' => ?_
    exact Safe.pure ⟨weak hs'.1 (by omega) (by omega), hp⟩

/-- **C59** For every payload, up to 24 objects and every frame length, object metadata decoding
accesses only entries of its arrays, and no signed addition overflows, as long as the values
accumulated so far stay 1024 below the limit. -/
theorem C59_arrays (m : Libm) (cfg : Cfg) (n : Nat) (s : State) (present : List Nat) (b sb : Int)
    (h : StateOk b sb s) (hn : n ≤ 24) (hp : present.length = 4) (hb0 : 0 ≤ b)
    (hb : b ≤ 2147482623) (hsb0 : 0 ≤ sb) (hsb : sb ≤ 2147482623) (buf : BitBuf) (hw : buf.WF) :
    (payload m cfg 1024 n s present).runC buf ≠ .ub :=
  ((payload_safe m cfg n s present b sb h hn hp hb0 (by omega) (by omega) hsb0).runC buf hw).1

/-- The initial state. -/
def init : State :=
  ⟨List.replicate 96 0, List.replicate 96 0,
   ⟨List.replicate 96 0, List.replicate 96 0, List.replicate 96 0, List.replicate 96 0,
    List.replicate 96 0, List.replicate 96 0, List.replicate 96 0, List.replicate 96 0⟩,
   ⟨List.replicate 96 0, List.replicate 96 0, List.replicate 96 0, List.replicate 96 0,
    List.replicate 96 0, List.replicate 96 0, List.replicate 96 0, List.replicate 96 0⟩,
   ⟨false, false, false, false, false, false⟩⟩

theorem init_ok : StateOk 0 0 init := by
  have hb : Bnd 0 (List.replicate 96 0) :=
    ⟨by simp, fun v hv => by have := List.eq_of_mem_replicate hv; omega⟩
  have hl : (List.replicate 96 (0 : Rat)).length = 96 := by simp
  exact ⟨by simp [init], ⟨by simp [init], fun v hv => by have := List.eq_of_mem_replicate hv; omega⟩,
    ⟨hb, hb, hb, hb, hb, hb, hb, hb⟩, hl, hl, hl, hl, hl, hl, hl, hl⟩

/-- `pow` for examples. -/
def noPow : Libm := ⟨fun _ => 1, fun _ => 1, fun _ => 1⟩

example : (run (payload noPow ⟨true, false, 512⟩ 1024 1 init [0, 0, 0, 0])
    ([true] ++ [true, false, true, true, true, true, true, true, true] ++ List.replicate 24 false ++
      [false])).map (fun r => (r.1.1.coded.az[0]?, r.1.1.desc.az[0]?, r.1.2)) =
    .ok (some 127, some 180, [1, 0, 0, 0]) := by decide +kernel

/-- **C39** (partial) For frames with a single metadata sub-frame: whatever the bits and the history,
the descaled values of all objects are in range. -/
theorem C39_ranges_partial (m : Libm) (cfg : Cfg) (n : Nat) (s s' : State) (b sb : Int)
    (h : StateOk b sb s) (hn : n ≤ 24) (hb0 : 0 ≤ b) (hb : b ≤ 2147482623)
    (hfl : 0 ≤ cfg.frameLength) (hsb : sb + cfg.frameLength ≤ 2147483647) (l l' : List Bool)
    (hr : run (lowDelay m cfg n 0 s) l = .ok (s', l')) :
    ∀ o < n,
      (∃ v, s'.desc.az[o]? = some v ∧ -180 ≤ v ∧ v ≤ 180) ∧
      (∃ v, s'.desc.el[o]? = some v ∧ -90 ≤ v ∧ v ≤ 90) ∧
      (∃ v, s'.desc.sw[o]? = some v ∧ 0 ≤ v ∧ v ≤ 180) ∧
      (∃ v, s'.desc.rad[o]? = some v ∧ 1 / 2 ≤ v ∧ v ≤ 16) ∧
      (∃ v, s'.desc.gain[o]? = some v ∧ 4 / 1000 ≤ v ∧ v ≤ 5957 / 1000) ∧
      (∃ v, s'.desc.pri[o]? = some v ∧ 0 ≤ v ∧ v ≤ 7) := by
  have := ((lowDelay_safe m cfg n 0 s b sb h (by omega) (by omega) hb0 (by omega) hfl hsb) l).2 s' l' hr
  intro o ho
  exact ⟨this.2.az o ho, this.2.el o ho, this.2.sw o ho, this.2.rad o ho, this.2.gain o ho,
    this.2.pri o ho⟩

example : (run (lowDelay noPow ⟨true, false, 1024⟩ 1 0 init)
    ([true] ++ List.replicate 8 true ++ List.replicate 24 false)).map
      (fun r => (r.1.desc.az[0]?, r.1.desc.gain[0]?)) = .ok (some (-3 / 2 : Rat), some (1 : Rat)) := by
  decide +kernel

/-- **C39** (refuted) The limiter works on the entries of the first sub-frame only: in the second
sub-frame of a frame an azimuth of 190.5 degrees results. -/
theorem C39_refuted : ∃ (cfg : Cfg) (l : List Bool),
    (run (payload noPow cfg 1024 1 init [0, 0, 0, 0]) l).map
      (fun r => (r.1.1.desc.az[1]?, r.1.2, r.2)) = .ok (some (381 / 2), [1, 1, 0, 0], []) :=
  ⟨⟨true, false, 512⟩,
   [true, true] ++ List.replicate 32 false ++ [true] ++ [true] ++ [false] ++ List.replicate 7 true ++
      List.replicate 24 false, by decide +kernel⟩

/-- Object metadata of a sequence of frames. -/
def frames (m : Libm) (cfg : Cfg) (n : Nat) : List (List Bool) → State × List Nat → Res (State × List Nat)
  | [], s => .ok s
  | l :: ls, s => do
    let r ← run (payload m cfg 1024 n s.1 s.2) l
    frames m cfg n ls r.1

theorem frames_safe (m : Libm) (cfg : Cfg) (n : Nat) (ls : List (List Bool)) (s : State × List Nat)
    (b : Int) (h : StateOk b b s.1) (hp : s.2.length = 4) (hn : n ≤ 24) (hb0 : 0 ≤ b)
    (hb : b + 1024 * ls.length ≤ 2147483647) : frames m cfg n ls s ≠ .ub := by
  induction ls generalizing s b with
  | nil => simp [frames]
  | cons l ls ih =>
    simp only [List.length_cons] at hb
    push_cast at hb
    have hs := payload_safe m cfg n s.1 s.2 b b h hn hp hb0 (by omega) (by omega) hb0 l
    unfold frames
    cases hr : run (payload m cfg 1024 n s.1 s.2) l with
    | ok r =>
      rw [Res.ok_bind]
      obtain ⟨h1, h2⟩ := hs.2 r.1 r.2 hr
      exact ih r.1 (b + 1024) h1 h2 (by omega) (by omega)
    | jump => simp
    | err c => simp
    | ub => exact absurd hr hs.1

/-- **C40** (partial) Streams of up to two million frames (about twelve hours) never overflow the
accumulated object metadata. -/
theorem C40_no_overflow_partial (m : Libm) (cfg : Cfg) (n : Nat) (hn : n ≤ 24) (ls : List (List Bool))
    (hl : ls.length ≤ 2000000) : frames m cfg n ls (init, [0, 0, 0, 0]) ≠ .ub :=
  frames_safe m cfg n ls _ 0 init_ok rfl hn (le_refl _) (by omega)

example : (frames noPow ⟨true, false, 1024⟩ 1
    (List.replicate 3 [false, false, true, true, true, true, true, false, true, true, true, true, true,
      true, true, true, false, false, false, false]) (init, [0, 0, 0, 0])).map
      (fun s => (s.1.coded.az[0]?, s.1.desc.az[0]?)) = .ok (some 765, some 180) := by decide +kernel

/-- Differential metadata of one object, frame after frame. -/
def diffs (cfg : Cfg) (fx : Fixed) : List (List Bool) → Coded → Res Coded
  | [], c => .ok c
  | l :: ls, c => do
    let r ← run (singleDiff cfg fx 0 c) l
    diffs cfg fx ls r.1

/-- The azimuth grows by 255 and nothing else changes. -/
def plus255 : List Bool :=
  [true, true, true, true, false, true, true, true, true, true, true, true, true,
   false, false, false, false]

theorem run_addDiff_no (t : List Int) (i nb : Nat) (l : List Bool) :
    run (addDiff t i nb) (false :: l) = .ok (t, l) := by
  unfold addDiff
  rw [run_bind, run_flag]
  rfl

theorem run_addDiff_yes (x : Int) (r : List Int) (l : List Bool) :
    run (addDiff (x :: r) 0 9)
      (true :: false :: true :: true :: true :: true :: true :: true :: true :: true :: l) =
      (Ops.i32 (x + 255) >>= fun y => .ok (y :: r, l)) := by
  unfold addDiff
  rw [run_bind, run_flag]
  simp only [Res.ok_bind, if_true]
  rw [run_bind]
  have hs : run (readSigned 9)
      (false :: true :: true :: true :: true :: true :: true :: true :: true :: l) = .ok (255, l) := by
    unfold readSigned
    rw [run_bind, run_bits, if_neg (by simp), if_neg (by decide), Res.ok_bind]
    simp [bitsVal]
  rw [hs, Res.ok_bind]
  simp only [getAt, List.getElem?_cons_zero]
  rw [pure_bind]
  unfold word Ops.i32
  split
  · rw [run_bind]
    simp [lift, setAt]
  · rw [run_bind]
    simp [lift]

theorem run_plus255 (c : Coded) (x : Int) (r : List Int) (hc : c.az = x :: r) :
    run (singleDiff ⟨true, false, 1024⟩ ⟨false, false, false, false, false, false⟩ 0 c) plus255 =
      (Ops.i32 (x + 255) >>= fun y => .ok ({ c with az := y :: r }, [])) := by
  unfold singleDiff plus255
  rw [run_bind, run_bits, if_neg (by simp), if_neg (by decide), Res.ok_bind]
  simp only [List.take_succ_cons, List.take_zero, List.drop_succ_cons, List.drop_zero,
    Bool.false_eq_true, if_false, if_true]
  rw [show bitsVal [true, true, true] + 2 = 9 from rfl, run_bind, hc, run_addDiff_yes]
  cases Ops.i32 (x + 255) with
  | ok y =>
    simp only [Res.ok_bind]
    rw [run_bind, run_addDiff_no, Res.ok_bind]
    simp only
    rw [run_bind, run_addDiff_no, Res.ok_bind]
    simp only
    rw [run_bind, run_addDiff_no, Res.ok_bind]
    simp only
    rw [run_bind, run_bind, run_addDiff_no, Res.ok_bind]
    simp
  | jump => rfl
  | err c => rfl
  | ub => rfl

theorem diffs_plus255 (k : Nat) (c : Coded) (x : Int) (r : List Int) (hc : c.az = x :: r) (h0 : 0 ≤ x)
    (hx : x + 255 * k ≤ 2147483647) (ls : List (List Bool)) :
    diffs ⟨true, false, 1024⟩ ⟨false, false, false, false, false, false⟩
      (List.replicate k plus255 ++ ls) c =
    diffs ⟨true, false, 1024⟩ ⟨false, false, false, false, false, false⟩ ls
      { c with az := (x + 255 * k) :: r } := by
  induction k generalizing c x with
  | zero =>
    rw [List.replicate_zero, List.nil_append]
    congr 1
    cases c
    simp only at hc
    simp [hc]
  | succ k ih =>
    push_cast at hx
    rw [List.replicate_succ, List.cons_append, diffs, run_plus255 c x r hc]
    have : Ops.i32 (x + 255) = .ok (x + 255) := by
      unfold Ops.i32 Ops.MIN_32 Ops.MAX_32; rw [if_pos (by omega)]
    rw [this]
    simp only [Res.ok_bind]
    rw [ih { c with az := (x + 255) :: r } (x + 255) rfl (by omega) (by omega)]
    have e : x + 255 + 255 * (k : Int) = x + 255 * ((k + 1 : Nat) : Int) := by push_cast; omega
    rw [e]

/-- **C40** (refuted) Differences of +255 in 8421505 consecutive frames overflow the azimuth. -/
theorem C40_refuted : ∃ ls : List (List Bool), ls.length = 8421505 ∧
    diffs ⟨true, false, 1024⟩ ⟨false, false, false, false, false, false⟩ ls init.coded = .ub := by
  refine ⟨List.replicate 8421504 plus255 ++ [plus255], ?_, ?_⟩
  · rw [List.length_append, List.length_replicate]; rfl
  · rw [diffs_plus255 8421504 init.coded 0 (List.replicate 95 0) rfl (by omega) (by norm_num)]
    rw [diffs, run_plus255 _ (0 + 255 * (8421504 : Nat)) (List.replicate 95 0) rfl]
    rfl

end Verif.Oam
