import Verif.Spec.Hoa
import Verif.Proofs.Reads
import Verif.Props.LpdFrame
import Verif.Props.IgfData

/-! # C220, C221, C222: configuration of higher order ambisonics -/

namespace Verif.Hoa

open Prog

theorem ceilLog2_eq {n : Nat} (h : n ≤ 2147483648) : ceilLog2 n = Nat.clog 2 n := by
  have hc : Nat.clog 2 n ≤ 31 := (Nat.clog_le_iff_le_pow (by omega)).mpr (by omega)
  have hf : (List.range 32).find? (fun c => decide (n ≤ 2 ^ c)) = some (Nat.clog 2 n) := by
    rw [List.find?_range_eq_some]
    refine ⟨by simpa using Nat.le_pow_clog (by omega) n, by simp; omega, fun j hj => ?_⟩
    have := (Nat.lt_clog_iff_pow_lt (by omega)).mp hj
    simpa using this
  rw [ceilLog2, hf]
  rfl

theorem bits_then {α : Type} {w : Nat} {f : Nat → Prog α} {S : Nat → α → List Bool → Prop} (hw : w ≤ 24)
    (h : ∀ v, v < 2 ^ w → Reads (f v) (S v)) :
    Reads (bits w >>= f) (fun a b => ∃ v, v < 2 ^ w ∧ ∃ b2, S v a b2 ∧ b = natBits w v ++ b2) :=
  ((Reads.bits w).bind fun v _ hv => h v hv.2.1).congr fun a b =>
    ⟨fun ⟨v, b1, b2, ⟨_, hv, e⟩, hs, e2⟩ => ⟨v, hv, b2, hs, by rw [e2, e]⟩, fun ⟨v, hv, b2, hs, e⟩ => ⟨v, _, b2, ⟨hw, hv, rfl⟩, hs, e⟩⟩

theorem fail_if {α : Type} {c : Prop} [Decidable c] {e : ErrCode} {p : Prog α} {R : α → List Bool → Prop} (h : ¬ c → Reads p R) :
    Reads (if c then fail e else p) (fun a b => ¬ c ∧ R a b) :=
  (Reads.ite (fun _ => Reads.fail e) h).congr fun a b => by by_cases hc : c <;> simp [hc]

theorem escaped_reads : Reads escaped EscCode := by
  refine (bits_then (by omega) (fun v _ => Reads.ite (fun _ => bits_then (by omega) (fun w _ => Reads.pure (v + w))) fun _ => Reads.pure v)).congr
    fun a b => ?_
  constructor
  · rintro ⟨v, hv, b2, hs, rfl⟩
    split at hs
    · rename_i h
      obtain ⟨w, hw, b3, ⟨rfl, rfl⟩, rfl⟩ := hs
      subst h
      exact Or.inr ⟨by omega, by omega, by simp⟩
    · obtain ⟨rfl, rfl⟩ := hs
      exact Or.inl ⟨by omega, by simp⟩
  · rintro (⟨h, rfl⟩ | ⟨h1, h2, rfl⟩)
    · exact ⟨a, by omega, [], by rw [if_neg (by omega)]; exact ⟨rfl, rfl⟩, by simp⟩
    · exact ⟨7, by omega, natBits 5 (a - 7), by
        rw [if_pos rfl]; exact ⟨a - 7, by omega, [], ⟨by omega, rfl⟩, by simp⟩, rfl⟩

theorem clog_small {n : Nat} (h : n ≤ 16777216) : Nat.clog 2 n ≤ 24 := (Nat.clog_le_iff_le_pow (by omega)).mpr (by omega)

theorem maxOrder_reads {order amb1 : Nat} (ho : order ≤ 6) : Reads (maxOrder order amb1) (fun m b =>
    if amb1 < order + 1 then amb1 ≤ m ∧ m < amb1 + 2 ^ Nat.clog 2 (order + 2 - amb1) ∧ b = natBits (Nat.clog 2 (order + 2 - amb1)) (m - amb1)
    else m = order + 1 ∧ b = []) := by
  unfold maxOrder
  rw [ceilLog2_eq (by omega)]
  refine (Reads.ite (fun _ => Reads.pure _) fun _ => bits_then (clog_small (by omega)) (fun d _ => Reads.pure (d + amb1))).congr fun m b => ?_
  by_cases h : order + 1 ≤ amb1
  · rw [if_pos h, if_neg (by omega)]
  · rw [if_neg h, if_pos (by omega)]
    constructor
    · rintro ⟨d, hd, _, ⟨rfl, rfl⟩, rfl⟩
      exact ⟨by omega, by omega, by simp⟩
    · rintro ⟨h1, h2, rfl⟩
      exact ⟨m - amb1, by omega, [], ⟨by omega, rfl⟩, by simp⟩

theorem nfc_reads {n : Nat} : Reads (if n = 0 then pure [] else forN (fun _ => bits 8) 4 0 : Prog (List Nat)) (fun l b =>
    (n = 0 ∧ l = [] ∧ b = []) ∨ (n ≠ 0 ∧ l.length = 4 ∧ (∀ x ∈ l, x < 256) ∧ b = l.flatMap (natBits 8))) := by
  refine (Reads.ite (fun _ => Reads.pure []) fun _ => Lpd.forN_reads 4 0 fun i _ _ => Lpd.field_reads (w := 8) (by omega)).congr fun l b => ?_
  by_cases h : n = 0
  · simp [h]
  · rw [if_neg h, Lpd.each_field]
    simp [h]

theorem mem_times {x : Nat} (h : x ∈ codedTimes) : codedTimes.idxOf x < 8 ∧ interpTimes.getD (codedTimes.idxOf x) 0 = x := by
  simp only [codedTimes, List.mem_cons, List.not_mem_nil, or_false] at h
  rcases h with rfl | rfl | rfl | rfl | rfl | rfl | rfl | rfl <;> decide

theorem times_mem {k : Nat} (h : k < 8) : interpTimes.getD k 0 ∈ codedTimes ∧ codedTimes.idxOf (interpTimes.getD k 0) = k := by
  have : ∀ k < 8, interpTimes.getD k 0 ∈ codedTimes ∧ codedTimes.idxOf (interpTimes.getD k 0) = k := by decide
  exact this k h

theorem phase_reads {a : Nat} : Reads (if a = 2 then bits 1 else pure 0 : Prog Nat) (fun v b =>
    (a = 2 ∧ v < 2 ∧ b = natBits 1 v) ∨ (a ≠ 2 ∧ v = 0 ∧ b = [])) := by
  refine (Reads.ite (fun _ => Lpd.field_reads (w := 1) (by omega)) fun _ => Reads.pure 0).congr fun v b => ?_
  by_cases h : a = 2 <;> simp [h, Lpd.Field]

/-- The configuration is delivered if and only if the bits are a code of it. -/
theorem C220_config (t core : Nat) : Reads (config t core) (ConfigCode t core) := by
  unfold config
  refine (escaped_reads.bind fun order _ _ => fail_if fun ho => bits_then (by omega) fun screen hscreen => bits_then (by omega) fun n hn =>
    nfc_reads.bind fun nfc _ _ => escaped_reads.bind fun amb1 _ _ => fail_if fun ha => bits_then (by omega) fun single hsingle =>
    bits_then (by omega) fun time htime => bits_then (by omega) fun method hmethod => bits_then (by omega) fun kind hkind => fail_if fun hk =>
    bits_then (by omega) fun maxExp hme => bits_then (by omega) fun ind hind => fail_if fun hi => fail_if fun hc =>
    (maxOrder_reads (by omega)).bind fun max1 _ _ => bits_then (w := ceilLog2 (ceilLog2 ((order + 1) * (order + 1) + 1))) ?_ fun vq hvq =>
    fail_if fun hv => phase_reads.bind fun phase _ _ => fail_if fun hp => bits_then (by omega) fun sigs hsigs => bits_then (by omega)
    fun gain hgain => bits_then (by omega) fun sub hsub => fail_if fun hs => bits_then (by omega) fun par hpar => fail_if fun hpa =>
    Reads.pure _).congr fun c b => ?_
  · have h1 : order ≤ 6 := by omega
    have : ∀ o ≤ 6, ceilLog2 (ceilLog2 ((o + 1) * (o + 1) + 1)) ≤ 24 := by decide
    exact this order h1
  · have hlog : ∀ o ≤ 6, ceilLog2 (ceilLog2 ((o + 1) * (o + 1) + 1)) = Nat.clog 2 (Nat.clog 2 ((o + 1) ^ 2 + 1)) := by
      intro o ho
      have : (o + 1) * (o + 1) ≤ 7 * 7 := Nat.mul_le_mul (by omega) (by omega)
      rw [pow_two, ceilLog2_eq (n := (o + 1) * (o + 1) + 1) (by omega), ceilLog2_eq]
      exact le_trans (clog_small (by omega)) (by omega)
    constructor
    · rintro ⟨order, ob, _, hob, ⟨ho, screen, hscreen, _, ⟨n, hn, _, ⟨nfc, nb, _, hnb, ⟨amb1, ab, _, hab, ⟨ha, single, hsingle, _, ⟨time, htime, _,
        ⟨method, hmethod, _, ⟨kind, hkind, _, ⟨hk, maxExp, hme, _, ⟨ind, hind, _, ⟨hi, hc, max1, mb, _, hmb, ⟨vq, hvq, _, ⟨hv, phase, pb, _, hpb,
        ⟨hp, sigs, hsigs, _, ⟨gain, hgain, _, ⟨sub, hsub, _, ⟨hs, par, hpar, _, ⟨hpa, rfl, rfl⟩, rfl⟩, rfl⟩, rfl⟩, rfl⟩, rfl⟩, rfl⟩, rfl⟩, rfl⟩,
        rfl⟩, rfl⟩, rfl⟩, rfl⟩, rfl⟩, rfl⟩, rfl⟩, rfl⟩, rfl⟩, rfl⟩
      have ho6 : order ≤ 6 := by omega
      rw [hlog order ho6] at hvq ⊢
      have hamb : amb1 * amb1 ≤ t ∧ amb1 ≤ order + 1 := by omega
      obtain ⟨ht1, ht2⟩ := times_mem (k := time) (by omega)
      obtain rfl : phase = 0 := by omega
      obtain rfl : sub = 0 := by omega
      obtain rfl : par = 0 := by omega
      refine ⟨⟨by omega, rfl, ho6, by simpa using hscreen, ?_, hamb.1, hamb.2, by simpa using hsingle, ht1, by simpa using hmethod,
        by simp only; omega, by simp only; omega, by simp only; omega, ?_, ?_, hvq, ⟨by simp only; omega, by simp only; omega⟩,
        ⟨by simp only; omega, by simp only; omega⟩⟩, ob, ab, hob, hab, ?_⟩
      · rcases hnb with ⟨_, rfl, _⟩ | ⟨_, h1, h2, _⟩
        · exact Or.inl rfl
        · exact Or.inr ⟨h1, h2⟩
      · intro h
        simp only at h
        rw [if_neg (by omega)] at hmb
        exact hmb.1
      · intro h
        simp only at h
        rw [if_pos h] at hmb
        exact ⟨hmb.1, hmb.2.1⟩
      · have hn' : natBits 1 n ++ nb = (if nfc = [] then [false] else true :: nfc.flatMap (natBits 8)) := by
          rcases hnb with ⟨rfl, rfl, rfl⟩ | ⟨h0, h1, h2, rfl⟩
          · rfl
          · obtain rfl : n = 1 := by omega
            rw [if_neg (by rintro rfl; simp at h1)]
            rfl
        have hm' : mb = (if amb1 < order + 1 then natBits (Nat.clog 2 (order + 2 - amb1)) (max1 - amb1) else []) := by
          by_cases h : amb1 < order + 1
          · rw [if_pos h] at hmb ⊢
            exact hmb.2.2
          · rw [if_neg h] at hmb ⊢
            exact hmb.2
        have hp' : pb = (if amb1 = 2 then [false] else []) := by
          rcases hpb with ⟨h, _, rfl⟩ | ⟨h, _, rfl⟩
          · rw [if_pos h]; rfl
          · rw [if_neg h]
        simp only [configBits, ht2, ← hn', ← hm', ← hp', Nat.add_sub_cancel, List.append_assoc]
        rfl
    · rintro ⟨hr, o, a, ho, ha, rfl⟩
      obtain ⟨tr, order, screen, nfc, amb1, single, time, method, kind, maxExp, ind, max1, vq, sigs, gain⟩ := c
      obtain ⟨h1, h2, h3, h4, h5, h6, h7, h8, h9, h10, h11, h12, h13, h14, h15, h16, h17, h18⟩ := hr
      simp only at *
      subst h2
      obtain ⟨ht1, ht2⟩ := mem_times h9
      have hvq7 : ¬ 7 < vq := by
        have : ∀ o ≤ 6, 2 ^ ceilLog2 (ceilLog2 ((o + 1) * (o + 1) + 1)) ≤ 8 := by decide
        have := this order h3
        rw [hlog order h3] at this
        omega
      refine ⟨order, o, _, ho, ⟨by omega, screen, h4, _, ⟨if nfc = [] then 0 else 1, ?_, _, ⟨nfc, nfc.flatMap (natBits 8), _, ?_, ⟨amb1, a, _, ha, ⟨?_, single,
        h8, _, ⟨codedTimes.idxOf time, ht1, _, ⟨method, h10, _, ⟨kind, by omega, _, ⟨by omega, maxExp, h12, _, ⟨ind, by omega, _, ⟨by omega, by omega, max1,
        (if amb1 < order + 1 then natBits (Nat.clog 2 (order + 2 - amb1)) (max1 - amb1) else []), _, ?_, ⟨vq, ?_, _, ⟨hvq7, 0,
        (if amb1 = 2 then [false] else []), _, ?_, ⟨by simp, sigs - 1, by omega, _, ⟨gain - 1, by omega, _, ⟨0, by omega, _, ⟨by simp, 0, by omega, [],
        ⟨by simp, ?_, rfl⟩, rfl⟩, rfl⟩, rfl⟩, rfl⟩, rfl⟩, rfl⟩, rfl⟩, rfl⟩, rfl⟩, rfl⟩, rfl⟩, rfl⟩, rfl⟩, rfl⟩, rfl⟩, rfl⟩, rfl⟩, ?_⟩
      · split <;> omega
      · rcases h5 with rfl | ⟨h5, h5'⟩
        · exact Or.inl ⟨rfl, rfl, rfl⟩
        · exact Or.inr ⟨by rw [if_neg (by rintro rfl; simp at h5)]; omega, h5, h5', rfl⟩
      · omega
      · by_cases h : amb1 < order + 1
        · rw [if_pos h, if_pos h]
          exact ⟨(h15 h).1, (h15 h).2, rfl⟩
        · rw [if_neg h, if_neg h]
          exact ⟨h14 (by omega), rfl⟩
      · rw [hlog order h3]; exact h16
      · by_cases h : amb1 = 2
        · exact Or.inl ⟨h, by omega, by rw [if_pos h]; rfl⟩
        · exact Or.inr ⟨h, rfl, by rw [if_neg h]⟩
      · congr 1
        · exact ht2.symm
        · omega
        · omega
      · rw [hlog order h3]
        have hn' : (if nfc = [] then [false] else true :: nfc.flatMap (natBits 8)) = natBits 1 (if nfc = [] then 0 else 1) ++ nfc.flatMap (natBits 8) := by
          by_cases h : nfc = []
          · rw [if_pos h, if_pos h, h]; rfl
          · rw [if_neg h, if_neg h]; rfl
        simp only [configBits, hn', List.append_assoc]
        rfl

/-- A configuration of order 3 with 4 ambience channels of 6, coded in 34 bits; the bits behind it are left. -/
example : (config 6 1024).run (natBits 3 3 ++ [false] ++ [false] ++ natBits 3 2 ++ [true] ++ natBits 3 3 ++ [false] ++ natBits 2 1 ++ natBits 3 2 ++
    natBits 2 0 ++ natBits 2 2 ++ natBits 3 5 ++ [false] ++ natBits 2 1 ++ natBits 4 7 ++ [false, false, false, false] ++ [true, true]) =
    .ok (⟨6, 3, 0, [], 2, 1, 256, 0, 1, 2, 0, 4, 5, 2, 8⟩, [true, true]) := by decide

/-! ## Limits -/

theorem sq_le_49 {o : Nat} (h : o ≤ 6) : (o + 1) * (o + 1) ≤ 49 := by
  have : (o + 1) * (o + 1) ≤ 7 * 7 := Nat.mul_le_mul (by omega) (by omega)
  omega

theorem min_le_coeffs {c : Config} {t len : Nat} (h : ConfigRange t len c) : c.minCoeffs ≤ c.coeffs :=
  Nat.mul_le_mul h.ambOrder h.ambOrder

/-- The channels of an accepted configuration are those of the smallest ambience and the additional ones; there are as many coefficients as a vector
has elements, together with those of the smallest ambience unless vectors cover these. -/
theorem C221_split {t len : Nat} {l l' : List Bool} {c : Config} (h : (config t len).run l = .ok (c, l')) :
    c.order ≤ 6 ∧ c.coeffs = (c.order + 1) ^ 2 ∧ c.extra + c.amb1 ^ 2 = t ∧ c.amb1 ≤ c.order + 1 ∧
      c.vecLength + (if c.vecKind = 0 then 0 else c.amb1 ^ 2) = (c.order + 1) ^ 2 := by
  obtain ⟨b, ⟨hr, -⟩, -⟩ := (C220_config t len l c l').mp h
  have hm := min_le_coeffs hr
  have h1 := hr.amb
  have h2 := hr.transport
  have h3 := hr.kind
  simp only [pow_two]
  refine ⟨hr.order, rfl, ?_, hr.ambOrder, ?_⟩
  · rw [Config.extra, h2, Config.minCoeffs]
    exact Nat.sub_add_cancel h1
  · have hc : 1 ≤ c.coeffs := Nat.mul_pos (by omega) (by omega)
    have hx : (c.order + 1) * (c.order + 1) = c.coeffs := rfl
    have hy : c.amb1 * c.amb1 = c.minCoeffs := rfl
    rw [hx, hy, Config.vecLength, Config.offset]
    split_ifs <;> omega

/-- The number of bits of a coded index of an additional coefficient is the smallest for their number, and every gain exponent of the frame before that can be
coded stands for a power of 2 in the tables. -/
theorem C221_fields {t len : Nat} {l l' : List Bool} {c : Config} (h : (config t len).run l = .ok (c, l')) :
    c.vqBits ≤ 7 ∧ c.ambBits = Nat.clog 2 (c.max1 ^ 2 - c.amb1 ^ 2) ∧ c.idBits = Nat.clog 2 ((c.order + 1) ^ 2) ∧
      ∀ e : Nat, e < 2 ^ c.expBits → -64 < (e : Int) - c.expBias ∧ (e : Int) - c.expBias < 64 := by
  obtain ⟨b, ⟨hr, -⟩, -⟩ := (C220_config t len l c l').mp h
  have ho := hr.order
  have hq := hr.vq
  have hlog : Nat.clog 2 (Nat.clog 2 ((c.order + 1) ^ 2 + 1)) ≤ 3 := by
    have h1 := sq_le_49 ho
    rw [← pow_two] at h1
    have h2 : Nat.clog 2 ((c.order + 1) ^ 2 + 1) ≤ 6 := (Nat.clog_le_iff_le_pow (by omega)).mpr (by omega)
    exact (Nat.clog_le_iff_le_pow (by omega)).mpr (by omega)
  have hmax : c.max1 ≤ 16 := by
    by_cases h1 : c.amb1 < c.order + 1
    · have h2 := (hr.maxCoded h1).2
      have h3 : Nat.clog 2 (c.order + 2 - c.amb1) ≤ 3 := (Nat.clog_le_iff_le_pow (by omega)).mpr (by omega)
      have h4 : 2 ^ Nat.clog 2 (c.order + 2 - c.amb1) ≤ 2 ^ 3 := Nat.pow_le_pow_right (by omega) h3
      omega
    · have := hr.maxFull (by have := hr.ambOrder; omega)
      omega
  refine ⟨?_, ?_, ?_, ?_⟩
  · have : 2 ^ Nat.clog 2 (Nat.clog 2 ((c.order + 1) ^ 2 + 1)) ≤ 2 ^ 3 := Nat.pow_le_pow_right (by omega) hlog
    omega
  · have h1 : c.max1 * c.max1 ≤ 16 * 16 := Nat.mul_le_mul hmax hmax
    simp only [Config.ambBits, Config.maxAdd, Config.minCoeffs, pow_two]
    exact ceilLog2_eq (by omega)
  · have := sq_le_49 ho
    simp only [Config.idBits, Config.coeffs, pow_two]
    exact ceilLog2_eq (by omega)
  · have hall : ∀ o ≤ 6, ∀ m < 8, ceilLog2 (3 * ((o + 1) * (o + 1)) / 2) ≤ 7 ∧
        2 ^ ceilLog2 (ceilLog2 (3 * ((o + 1) * (o + 1)) / 2) + m + 1) ≤ 16 := by decide
    obtain ⟨h1, h2⟩ := hall c.order ho c.maxExp hr.maxExp
    intro e he
    simp only [Config.expBits, Config.expBias, Config.coeffs] at he ⊢
    have h3 : e < 16 := lt_of_lt_of_le he h2
    constructor <;> omega

/-- The same configuration meets the hypotheses. -/
example : ∃ l l', (config 6 1024).run l = .ok (⟨6, 3, 0, [], 2, 1, 256, 0, 1, 2, 0, 4, 5, 2, 8⟩, l') ∧
    (⟨6, 3, 0, [], 2, 1, 256, 0, 1, 2, 0, 4, 5, 2, 8⟩ : Config).extra = 2 ∧
    (⟨6, 3, 0, [], 2, 1, 256, 0, 1, 2, 0, 4, 5, 2, 8⟩ : Config).vecLength = 12 :=
  ⟨natBits 3 3 ++ [false] ++ [false] ++ natBits 3 2 ++ [true] ++ natBits 3 3 ++ [false] ++ natBits 2 1 ++ natBits 3 2 ++
    natBits 2 0 ++ natBits 2 2 ++ natBits 3 5 ++ [false] ++ natBits 2 1 ++ natBits 4 7 ++ [false, false, false, false], [], by decide, by decide, by decide⟩

/-- A configuration of order 6 whose ambience is sent up to order 7, with 64 coefficients of 49, is accepted. -/
theorem C222_refuted : ∃ l c, (config 6 1024).run l = .ok (c, []) ∧ c.order = 6 ∧ c.max1 = 8 ∧ c.coeffs < c.max1 ^ 2 :=
  ⟨natBits 3 6 ++ [false] ++ [false] ++ natBits 3 1 ++ [true] ++ natBits 3 3 ++ [false] ++ natBits 2 1 ++ natBits 3 2 ++
    natBits 2 0 ++ natBits 3 7 ++ natBits 3 5 ++ natBits 2 1 ++ natBits 4 7 ++ [false, false, false, false],
    ⟨6, 6, 0, [], 1, 1, 256, 0, 1, 2, 0, 8, 5, 2, 8⟩, by decide, by decide, by decide, by decide⟩

/-- If the orders that can be sent are as many as a power of 2, no larger one than that of the signal is. -/
theorem C222_order_partial {t len k : Nat} {l l' : List Bool} {c : Config} (h : (config t len).run l = .ok (c, l'))
    (hk : c.order + 2 - c.amb1 = 2 ^ k) : c.max1 ≤ c.order + 1 := by
  obtain ⟨b, ⟨hr, -⟩, -⟩ := (C220_config t len l c l').mp h
  by_cases h1 : c.amb1 < c.order + 1
  · have h2 := (hr.maxCoded h1).2
    rw [hk, Nat.clog_pow 2 k (by omega), ← hk] at h2
    omega
  · exact le_of_eq (hr.maxFull (by have := hr.ambOrder; omega))

/-- Order 3 with the ambience from order 0 on: 4 orders can be sent, and order 3 is the largest. -/
example : (config 6 1024).run (natBits 3 3 ++ [false] ++ [false] ++ natBits 3 1 ++ [true] ++ natBits 3 3 ++ [false] ++ natBits 2 1 ++ natBits 3 2 ++
    natBits 2 0 ++ natBits 2 3 ++ natBits 3 5 ++ natBits 2 1 ++ natBits 4 7 ++ [false, false, false, false]) =
    .ok (⟨6, 3, 0, [], 1, 1, 256, 0, 1, 2, 0, 4, 5, 2, 8⟩, []) ∧ 3 + 2 - 1 = 2 ^ 2 := by decide

end Verif.Hoa
