import Verif.Spec.HoaChannels
import Verif.Props.HoaVectors
import Verif.Props.HoaGain

/-! # C236, C237: channels of frames of higher order ambisonics -/

namespace Verif.Hoa

open Prog

/-- What a frame has about a channel from before. -/
def past (s : Frame) (i : Nat) : Past :=
  ⟨s.prevType i, s.trans i, s.ambIdx i, s.newVec i, ⟨s.nbits i, s.book i, s.num i, s.pFlag i, s.cbFlag i⟩,
    ⟨s.prevNbits i, s.prevBook i, s.prevNum i, s.prevP i, s.prevCb i⟩⟩

/-- The frame with a vector in channel `i`. -/
def setVector (i fresh : Nat) (v : VecHead) (s : Frame) : Frame :=
  { s with newVec := upd s.newVec i fresh, nbits := upd s.nbits i v.nbits, book := upd s.book i v.book, num := upd s.num i v.num,
           pFlag := upd s.pFlag i v.pred, cbFlag := upd s.cbFlag i v.sub }

/-- The frame with a coefficient of the ambience in channel `i`; coefficients that fade in or are sent are marked for vectors without them. -/
def setAmbience (c : Config) (i state coeff : Nat) (s : Frame) : Frame :=
  let s := { s with trans := upd s.trans i state, ambIdx := upd s.ambIdx i coeff }
  if c.vecKind = 1 ∧ state = 1 then { s with fadeIn := upd s.fadeIn coeff 1 }
  else if c.vecKind = 1 ∧ state = 0 then { s with nonTrans := upd s.nonTrans coeff 1 }
  else s

def setUse (c : Config) (i : Nat) (s : Frame) : Use → Frame
  | .direction id => { s with dirId := upd s.dirId i id }
  | .vector fresh v => setVector i fresh v s
  | .ambience t k => setAmbience c i t k s
  | .empty => s

def setGain (i : Nat) (g : GainHead) (s : Frame) : Frame :=
  { s with prevExp := upd s.prevExp i g.prevExp, coded := upd s.coded i g.coded, exc := upd s.exc i g.exc }

/-- The marks of a coefficient are in the arrays. -/
def Fits (c : Config) : Use → Prop
  | .ambience t k => c.vecKind = 1 → (t = 1 → k < 49) ∧ (t = 0 → k < 50)
  | _ => True

theorem upd_same {α : Type} (f : Nat → α) (i : Nat) : upd f i (f i) = f := by
  funext j
  unfold upd
  split
  · rename_i h; rw [h]
  · rfl

theorem inside_then {α : Type} {n i : Nat} {p : Prog α} {R : α → List Bool → Prop} (h : Reads p R) :
    Reads (inside n i >>= fun _ => p) (fun a b => i < n ∧ R a b) := by
  by_cases hi : i < n
  · rw [inside, if_pos hi]
    intro l a l'
    rw [run_bind, run_pure, Res.ok_bind]
    rw [h l a l']
    simp [hi]
  · rw [inside, if_neg hi]
    intro l a l'
    rw [run_bind]
    simp [hi]

theorem flag_bits (b : Bool) : natBits 1 b.toNat = [b] := by cases b <;> rfl

theorem one_bit {v : Nat} (h : v < 2) : natBits 1 v = [decide (v = 1)] := by
  have : v = 0 ∨ v = 1 := by omega
  rcases this with rfl | rfl <;> rfl

theorem max_le {t len : Nat} {l l' : List Bool} {c : Config} (h : (config t len).run l = .ok (c, l')) : c.max1 ≤ 16 := by
  obtain ⟨b, ⟨hr, -⟩, -⟩ := (C220_config t len l c l').mp h
  rcases Nat.lt_or_ge c.amb1 (c.order + 1) with h1 | h1
  · have h2 := (hr.maxCoded h1).2
    have h3 : Nat.clog 2 (c.order + 2 - c.amb1) ≤ 3 := (Nat.clog_le_iff_le_pow (by omega)).mpr (by have := hr.order; omega)
    have h4 : 2 ^ Nat.clog 2 (c.order + 2 - c.amb1) ≤ 2 ^ 3 := Nat.pow_le_pow_right (by omega) h3
    have := hr.order
    omega
  · have h2 := hr.maxFull (by have := hr.ambOrder; omega)
    have := hr.order
    omega

theorem exp_le {t len : Nat} {l l' : List Bool} {c : Config} (h : (config t len).run l = .ok (c, l')) : c.expBits ≤ 24 := by
  obtain ⟨b, ⟨hr, -⟩, -⟩ := (C220_config t len l c l').mp h
  have h1 : c.coeffs ≤ 49 := sq_le_49 hr.order
  have h2 : ∀ n ≤ 73, ceilLog2 n ≤ 7 := by decide
  have h3 : c.expBias ≤ 7 := h2 _ (by omega)
  have h4 := hr.maxExp
  exact le_trans (h2 _ (by omega)) (by omega)

/-- A channel of the ambience. -/
theorem ambience_reads {t len : Nat} {l l' : List Bool} {c : Config} (h : (config t len).run l = .ok (c, l')) (i : Nat) (s : Frame) :
    Reads (ambience c i s) (fun s' b => ∃ st k, AmbienceCode c s.indep (past s i) st k b ∧ Fits c (.ambience st k) ∧ s' = setAmbience c i st k s) := by
  obtain ⟨-, hamb, -, -⟩ := C221_fields h
  obtain ⟨ho, -, -, ha, -⟩ := C221_split h
  have hadd : c.maxAdd = c.max1 ^ 2 - c.amb1 ^ 2 := by unfold Config.maxAdd Config.minCoeffs; rw [pow_two, pow_two]
  have hmin : c.minCoeffs = c.amb1 ^ 2 := by unfold Config.minCoeffs; rw [pow_two]
  have hw : c.ambBits ≤ 24 := by
    rw [hamb]
    apply clog_small
    have h1 : c.max1 * c.max1 ≤ 16 * 16 := Nat.mul_le_mul (max_le h) (max_le h)
    rw [pow_two, pow_two]
    omega
  have hpos : c.maxAdd ≤ 2 ^ c.ambBits := by
    rw [hamb, hadd]
    exact Nat.le_pow_clog (by omega) _
  unfold ambience
  have marks : ∀ s1 : Frame, Reads (if c.vecKind = 1 then
      if s1.trans i = 1 then do
        inside 49 (s1.ambIdx i)
        pure { s1 with fadeIn := upd s1.fadeIn (s1.ambIdx i) 1 }
      else if s1.trans i = 0 then do
        inside 50 (s1.ambIdx i)
        pure { s1 with nonTrans := upd s1.nonTrans (s1.ambIdx i) 1 }
      else pure s1
    else pure s1) (fun s' b => b = [] ∧ Fits c (.ambience (s1.trans i) (s1.ambIdx i)) ∧ s' = (if c.vecKind = 1 ∧ s1.trans i = 1 then { s1 with fadeIn := upd s1.fadeIn (s1.ambIdx i) 1 }
      else if c.vecKind = 1 ∧ s1.trans i = 0 then { s1 with nonTrans := upd s1.nonTrans (s1.ambIdx i) 1 } else s1)) := by
    intro s1
    refine (Reads.ite (fun _ => Reads.ite (fun _ => inside_then (Reads.pure _)) fun _ => Reads.ite (fun _ => inside_then (Reads.pure _)) fun _ => Reads.pure _)
      fun _ => Reads.pure _).congr fun s' b => ?_
    unfold Fits
    by_cases h1 : c.vecKind = 1 <;> by_cases h2 : s1.trans i = 1 <;> by_cases h3 : s1.trans i = 0 <;> simp [h1, h2, h3] <;> tauto
  have readPart : Reads (if s.indep then do
      let t ← bits 2
      if t = 3 then fail (.other 0xFFFF920D)
      else do
        let k ← bits c.ambBits
        if c.maxAdd ≤ k then fail (.other 0xFFFF920E)
        else pure { s with trans := upd s.trans i t, ambIdx := upd s.ambIdx i (k + 1 + c.minCoeffs) }
    else do
      let m ← bits 1
      if m ≠ 1 then pure { s with trans := upd s.trans i 0 }
      else if s.trans i ≤ 1 then pure { s with trans := upd s.trans i 2 }
      else do
        let k ← bits c.ambBits
        pure { s with trans := upd s.trans i 1, ambIdx := upd s.ambIdx i (k + 1 + c.minCoeffs) })
      (fun s' b => ∃ st k, AmbienceCode c s.indep (past s i) st k b ∧ s' = { s with trans := upd s.trans i st, ambIdx := upd s.ambIdx i k }) := by
    refine (Reads.ite (fun _ => bits_then (by omega) fun t _ => fail_if fun _ => bits_then hw fun k _ => fail_if fun _ => Reads.pure _)
      fun _ => bits_then (by omega) fun m _ => Reads.ite (fun _ => Reads.pure _) fun _ => Reads.ite (fun _ => Reads.pure _) fun _ =>
        bits_then hw fun k _ => Reads.pure _).congr fun s' b => ?_
    unfold AmbienceCode
    simp only
    rw [← hamb, ← hadd, ← hmin]
    by_cases hi : s.indep = true
    · simp only [hi, if_true]
      constructor
      · rintro ⟨t, ht, b2, ⟨h3, k, hk, b3, ⟨hlim, rfl, rfl⟩, rfl⟩, rfl⟩
        exact ⟨t, k + 1 + c.minCoeffs, ⟨by omega, by omega, by omega, by rw [show k + 1 + c.minCoeffs - 1 - c.minCoeffs = k by omega]; simp⟩, rfl⟩
      · rintro ⟨t, k, ⟨h1, h2, h3, rfl⟩, rfl⟩
        refine ⟨t, by omega, _, ⟨by omega, k - 1 - c.minCoeffs, by omega, [], ⟨by omega, ?_, rfl⟩, by simp⟩, rfl⟩
        rw [show k - 1 - c.minCoeffs + 1 + c.minCoeffs = k by omega]
    · simp only [hi, if_false, Bool.false_eq_true]
      constructor
      · rintro ⟨m, hm, b2, hb, rfl⟩
        by_cases hm1 : m = 1
        · subst hm1
          rw [if_neg (by omega)] at hb
          by_cases ht : s.trans i ≤ 1
          · rw [if_pos ht] at hb
            obtain ⟨rfl, rfl⟩ := hb
            refine ⟨2, s.ambIdx i, Or.inr (Or.inl ⟨ht, rfl, rfl, rfl⟩), ?_⟩
            rw [upd_same]
          · rw [if_neg ht] at hb
            obtain ⟨k, hk, b3, ⟨rfl, rfl⟩, rfl⟩ := hb
            refine ⟨1, k + 1 + c.minCoeffs, Or.inr (Or.inr ⟨by show 2 ≤ s.trans i; omega, rfl, by omega, by omega, ?_⟩), rfl⟩
            rw [show k + 1 + c.minCoeffs - 1 - c.minCoeffs = k by omega]
            simp [natBits]
        · obtain rfl : m = 0 := by omega
          rw [if_pos (by omega)] at hb
          obtain ⟨rfl, rfl⟩ := hb
          refine ⟨0, s.ambIdx i, Or.inl ⟨rfl, rfl, rfl⟩, ?_⟩
          rw [upd_same]
      · rintro ⟨st, k, (⟨rfl, rfl, rfl⟩ | ⟨h1, rfl, rfl, rfl⟩ | ⟨h1, rfl, h2, h3, rfl⟩), rfl⟩
        · refine ⟨0, by omega, [], ?_, rfl⟩
          rw [if_pos (by omega)]
          exact ⟨by show _ = _; rw [show (past s i).coeff = s.ambIdx i from rfl, upd_same], rfl⟩
        · refine ⟨1, by omega, [], ?_, rfl⟩
          rw [if_neg (by omega), if_pos (show s.trans i ≤ 1 from h1)]
          exact ⟨by show _ = _; rw [show (past s i).coeff = s.ambIdx i from rfl, upd_same], rfl⟩
        · refine ⟨1, by omega, _, ?_, rfl⟩
          have h1' : 2 ≤ s.trans i := h1
          rw [if_neg (by omega), if_neg (by omega)]
          refine ⟨k - 1 - c.minCoeffs, by omega, [], ⟨?_, rfl⟩, by simp⟩
          rw [show k - 1 - c.minCoeffs + 1 + c.minCoeffs = k by omega]
  refine (readPart.bind fun s1 _ _ => marks s1).congr fun s' b => ?_
  constructor
  · rintro ⟨s1, b1, b2, ⟨st, k, hc, rfl⟩, ⟨rfl, hf, rfl⟩, rfl⟩
    have e1 : upd s.trans i st i = st := by simp [upd]
    have e2 : upd s.ambIdx i k i = k := by simp [upd]
    simp only [e1, e2] at hf ⊢
    exact ⟨st, k, by rw [List.append_nil]; exact hc, hf, rfl⟩
  · rintro ⟨st, k, hc, hf, rfl⟩
    have e1 : upd s.trans i st i = st := by simp [upd]
    have e2 : upd s.ambIdx i k i = k := by simp [upd]
    refine ⟨_, b, [], ⟨st, k, hc, rfl⟩, ⟨rfl, ?_, ?_⟩, by simp⟩
    · simp only [e1, e2]
      exact hf
    · simp only [e1, e2]
      rfl

/-- The bits behind the number of bits of the elements. -/
theorem quant_reads {c : Config} (hv : c.vqBits ≤ 24) (i n : Nat) (s : Frame) (hn : 4 ≤ n) : Reads (quant c i n s) (fun s' b => ∃ v : VecHead, v.nbits = n ∧
    HeadCode c s.indep (past s i).head v b ∧ s' = setVector i (s.newVec i) v s) := by
  unfold quant
  have flags : ∀ s1 : Frame, s1 = { s with nbits := upd s.nbits i n } → Reads (if s1.indep then pure 0 else bits 1 : Prog Nat) (fun v b => v < 2 ∧ if s.indep then v = 0 ∧ b = [] else b = natBits 1 v) := by
    rintro s1 rfl
    refine (Reads.ite (fun _ => Reads.pure 0) fun _ => Reads.bits 1).congr fun v b => ?_
    by_cases hi : s.indep = true
    · simp only [hi, if_true]
      constructor
      · rintro ⟨rfl, rfl⟩; exact ⟨by omega, rfl, rfl⟩
      · rintro ⟨-, h⟩; exact h
    · simp only [hi, Bool.false_eq_true, if_false]
      constructor
      · rintro ⟨-, h1, h2⟩; exact ⟨by omega, h2⟩
      · rintro ⟨h1, h2⟩; exact ⟨by omega, by omega, h2⟩
  refine (Reads.ite (fun _ => bits_then (by omega) fun k _ => bits_then hv fun m _ => Reads.pure _) fun _ =>
    Reads.ite (fun _ => (flags _ rfl).bind fun p _ _ => bits_then (by omega) fun b _ => Reads.pure _) fun _ => Reads.pure _).congr fun s' b => ?_
  have base : setVector i (s.newVec i) ⟨n, s.book i, s.num i, s.pFlag i, s.cbFlag i⟩ s = { s with nbits := upd s.nbits i n } := by
    unfold setVector
    simp only [upd_same]
  unfold HeadCode
  by_cases h4 : n = 4
  · subst h4
    rw [if_pos rfl]
    constructor
    · rintro ⟨k, hk, _, ⟨m, hm, _, ⟨rfl, rfl⟩, rfl⟩, rfl⟩
      refine ⟨⟨4, k, m + 1, s.pFlag i, s.cbFlag i⟩, rfl, ?_, ?_⟩
      · rw [if_pos rfl]
        exact ⟨by simp only; omega, by simp only; omega, by simp only; omega, rfl, rfl, by simp⟩
      · unfold setVector
        simp only [upd_same]
    · rintro ⟨v, hv4, hc, rfl⟩
      rw [if_pos hv4] at hc
      obtain ⟨h1, h2, h3, h5, h6, rfl⟩ := hc
      refine ⟨v.book, by omega, _, ⟨v.num - 1, by omega, [], ⟨?_, rfl⟩, by simp⟩, rfl⟩
      unfold setVector
      rw [h5, h6, hv4]
      simp only [past, upd_same]
      rw [show v.num - 1 + 1 = v.num by omega]
  · rw [if_neg h4]
    by_cases h6 : 6 ≤ n
    · rw [if_pos h6]
      constructor
      · rintro ⟨p, b1, _, ⟨hp, hp2⟩, ⟨q, hq, _, ⟨rfl, rfl⟩, rfl⟩, rfl⟩
        refine ⟨⟨n, s.book i, s.num i, p, q⟩, rfl, ?_, ?_⟩
        · rw [if_neg h4, if_neg (by simp only; omega)]
          refine ⟨rfl, rfl, by simpa using hq, ?_⟩
          by_cases hi : s.indep = true
          · rw [if_pos hi] at hp2 ⊢
            obtain ⟨rfl, rfl⟩ := hp2
            exact ⟨rfl, by simp⟩
          · rw [if_neg hi] at hp2 ⊢
            rw [hp2]
            exact ⟨hp, by simp⟩
        · unfold setVector
          simp only [upd_same]
      · rintro ⟨v, hvn, hc, rfl⟩
        rw [if_neg (by omega), if_neg (by omega)] at hc
        obtain ⟨e1, e2, e3, e4⟩ := hc
        have hfin : setVector i (s.newVec i) v s = { s with nbits := upd s.nbits i n, pFlag := upd s.pFlag i v.pred, cbFlag := upd s.cbFlag i v.sub } := by
          unfold setVector
          rw [e1, e2, hvn]
          simp only [past, upd_same]
        by_cases hi : s.indep = true
        · rw [if_pos hi] at e4
          obtain ⟨e5, rfl⟩ := e4
          refine ⟨v.pred, [], natBits 1 v.sub, ⟨by omega, ?_⟩, ⟨v.sub, by omega, [], ⟨hfin, rfl⟩, (List.append_nil _).symm⟩, rfl⟩
          rw [if_pos hi]
          exact ⟨e5, rfl⟩
        · rw [if_neg hi] at e4
          obtain ⟨e5, rfl⟩ := e4
          refine ⟨v.pred, natBits 1 v.pred, natBits 1 v.sub, ⟨e5, ?_⟩, ⟨v.sub, by omega, [], ⟨hfin, rfl⟩, (List.append_nil _).symm⟩, rfl⟩
          rw [if_neg hi]
    · rw [if_neg h6]
      obtain rfl : n = 5 := by omega
      constructor
      · rintro ⟨rfl, rfl⟩
        refine ⟨⟨5, s.book i, s.num i, s.pFlag i, s.cbFlag i⟩, rfl, ?_, base.symm⟩
        rw [if_neg (by simp), if_pos rfl]
        exact ⟨rfl, rfl, rfl, rfl, rfl⟩
      · rintro ⟨⟨_, _, _, _, _⟩, hvn, hc, rfl⟩
        simp only at hvn
        subst hvn
        rw [if_neg (by simp), if_pos rfl] at hc
        obtain ⟨rfl, rfl, rfl, rfl, rfl⟩ := hc
        exact ⟨base, rfl⟩

theorem four_bits {n : Nat} (h : n < 16) : natBits 4 n = natBits 1 (n / 8) ++ natBits 1 (n / 4 % 2) ++ natBits 2 (n % 4) := by
  have : ∀ n < 16, natBits 4 n = natBits 1 (n / 8) ++ natBits 1 (n / 4 % 2) ++ natBits 2 (n % 4) := by decide
  exact this n h

/-- A channel with a vector. -/
theorem vector_reads {c : Config} (hv : c.vqBits ≤ 24) (i : Nat) (s : Frame) : Reads (vector c i s) (fun s' b => ∃ f v,
    VectorCode c s.indep (past s i) f v b ∧ s' = setVector i f v s) := by
  have put : ∀ f v, setVector i (upd s.newVec i f i) v { s with newVec := upd s.newVec i f } = setVector i f v s := by
    intro f v
    unfold setVector
    have e : upd s.newVec i f i = f := by simp [upd]
    rw [e]
    simp only [Frame.mk.injEq, true_and, and_true]
    funext j
    simp only [upd]
    split <;> rfl
  unfold vector
  by_cases hi : s.indep = true
  · rw [if_pos hi]
    have first : Reads (if c.vecKind = 1 then do
        let v ← bits 1
        pure { s with newVec := upd s.newVec i v }
      else pure s) (fun s1 b => ∃ f, s1 = { s with newVec := upd s.newVec i f } ∧ if c.vecKind = 1 then f < 2 ∧ b = natBits 1 f else f = s.newVec i ∧ b = []) := by
      refine (Reads.ite (fun _ => bits_then (by omega) fun v _ => Reads.pure _) fun _ => Reads.pure _).congr fun s1 b => ?_
      by_cases hk : c.vecKind = 1
      · simp only [hk, if_true]
        constructor
        · rintro ⟨v, hv, _, ⟨rfl, rfl⟩, rfl⟩
          exact ⟨v, rfl, by omega, by simp⟩
        · rintro ⟨f, rfl, hf, rfl⟩
          exact ⟨f, by omega, [], ⟨rfl, rfl⟩, by simp⟩
      · simp only [hk, if_false]
        constructor
        · rintro ⟨rfl, rfl⟩
          exact ⟨s1.newVec i, by rw [upd_same], rfl, rfl⟩
        · rintro ⟨f, rfl, rfl, rfl⟩
          exact ⟨by rw [upd_same], rfl⟩
    refine (first.bind fun s1 _ _ => bits_then (by omega) fun n _ => fail_if fun hn => quant_reads hv i n s1 (by omega)).congr fun s' b => ?_
    have key : ∀ f v b, VectorCode c s.indep (past s i) f v b ↔ ∃ r, 4 ≤ v.nbits ∧ v.nbits < 16 ∧ HeadCode c true (past s i).head v r ∧
        if c.vecKind = 1 then f < 2 ∧ b = natBits 1 f ++ natBits 4 v.nbits ++ r else f = s.newVec i ∧ b = natBits 4 v.nbits ++ r := by
      intro f v b
      rw [VectorCode, if_pos hi]
      rfl
    constructor
    · rintro ⟨s1, b1, _, ⟨f, rfl, hf⟩, ⟨n, hn, r, ⟨hn4, v, rfl, hc, rfl⟩, rfl⟩, rfl⟩
      refine ⟨f, v, (key _ _ _).mpr ⟨r, by omega, by omega, ?_, ?_⟩, put f v⟩
      · have : HeadCode c s.indep (past s i).head v r := hc
        rwa [hi] at this
      · by_cases hk : c.vecKind = 1
        · rw [if_pos hk] at hf ⊢
          exact ⟨hf.1, by rw [hf.2]; simp⟩
        · rw [if_neg hk] at hf ⊢
          exact ⟨hf.1, by rw [hf.2]; simp⟩
    · rintro ⟨f, v, hcode, rfl⟩
      obtain ⟨r, h4, h16, hc, hb⟩ := (key _ _ _).mp hcode
      rw [← hi] at hc
      have hc' : HeadCode c s.indep (past { s with newVec := upd s.newVec i f } i).head v r := hc
      by_cases hk : c.vecKind = 1
      · rw [if_pos hk] at hb
        obtain ⟨hf, rfl⟩ := hb
        exact ⟨_, natBits 1 f, natBits 4 v.nbits ++ r, ⟨f, rfl, by rw [if_pos hk]; exact ⟨hf, rfl⟩⟩,
          ⟨v.nbits, by omega, r, ⟨by omega, v, rfl, hc', (put f v).symm⟩, rfl⟩, by simp⟩
      · rw [if_neg hk] at hb
        obtain ⟨hf, rfl⟩ := hb
        exact ⟨_, [], natBits 4 v.nbits ++ r, ⟨f, rfl, by rw [if_neg hk]; exact ⟨hf, rfl⟩⟩,
          ⟨v.nbits, by omega, r, ⟨by omega, v, rfl, hc', (put f v).symm⟩, rfl⟩, by simp⟩
  · rw [if_neg hi]
    have hi' : s.indep = false := by simpa using hi
    obtain ⟨f, hf⟩ : ∃ f, f = if c.vecKind = 1 ∧ s.prevType i ≠ 1 then 1 else s.newVec i := ⟨_, rfl⟩
    have hs1 : (if c.vecKind = 1 ∧ s.prevType i ≠ 1 then { s with newVec := upd s.newVec i 1 } else s) = { s with newVec := upd s.newVec i f } := by
      rw [hf]
      split
      · rfl
      · rw [upd_same]
    rw [hs1]
    refine (bits_then (by omega) fun a ha => bits_then (by omega) fun b hb => Reads.ite (fun _ => bits_then (by omega) fun k _ =>
      quant_reads hv i (8 * a + 4 * b + k) _ (by omega)) fun _ => Reads.pure _).congr fun s' bs => ?_
    have key : ∀ f v b, VectorCode c s.indep (past s i) f v b ↔ f = (if c.vecKind = 1 ∧ s.prevType i ≠ 1 then 1 else s.newVec i) ∧
        ((v = (past s i).before ∧ b = [false, false]) ∨ ∃ r, 4 ≤ v.nbits ∧ v.nbits < 16 ∧ HeadCode c false (past s i).head v r ∧ b = natBits 4 v.nbits ++ r) := by
      intro f v b
      rw [VectorCode, if_neg hi]
      rfl
    constructor
    · rintro ⟨a, ha, _, ⟨b, hb, r, hr, rfl⟩, rfl⟩
      refine ⟨f, ?_⟩
      by_cases hab : a + b ≠ 0
      · rw [if_pos hab] at hr
        obtain ⟨k, hk, r, ⟨v, hvn, hc, rfl⟩, rfl⟩ := hr
        refine ⟨v, (key _ _ _).mpr ⟨hf, Or.inr ⟨r, by omega, by omega, ?_, ?_⟩⟩, put f v⟩
        · have : HeadCode c s.indep (past s i).head v r := hc
          rwa [hi'] at this
        · rw [four_bits (n := v.nbits) (by omega), hvn, show (8 * a + 4 * b + k) / 8 = a by omega, show (8 * a + 4 * b + k) / 4 % 2 = b by omega,
            show (8 * a + 4 * b + k) % 4 = k by omega]
          simp
      · rw [if_neg hab] at hr
        obtain ⟨rfl, rfl⟩ := hr
        obtain rfl : a = 0 := by omega
        obtain rfl : b = 0 := by omega
        exact ⟨(past s i).before, (key _ _ _).mpr ⟨hf, Or.inl ⟨rfl, rfl⟩⟩, rfl⟩
    · rintro ⟨f', v, hcode, rfl⟩
      obtain ⟨hf', hc⟩ := (key _ _ _).mp hcode
      obtain rfl : f' = f := by rw [hf', hf]
      rcases hc with ⟨rfl, rfl⟩ | ⟨r, h4, h16, hc, rfl⟩
      · exact ⟨0, by omega, [false], ⟨0, by omega, [], by rw [if_neg (by omega)]; exact ⟨rfl, rfl⟩, rfl⟩, rfl⟩
      · rw [← hi'] at hc
        refine ⟨v.nbits / 8, by omega, natBits 1 (v.nbits / 4 % 2) ++ (natBits 2 (v.nbits % 4) ++ r), ⟨v.nbits / 4 % 2, by omega, _, ?_, rfl⟩, ?_⟩
        · rw [if_pos (by omega)]
          exact ⟨v.nbits % 4, by omega, r, ⟨v, by omega, hc, (put _ v).symm⟩, rfl⟩
        · rw [four_bits (by omega)]
          simp

/-- Zeros up to a one. -/
theorem unary_reads (f k : Nat) : Reads (unary f k) (fun g b => k < g ∧ g ≤ k + f ∧ b = List.replicate (g - k - 1) false ++ [true]) := by
  induction f generalizing k with
  | zero => exact Reads.undef.congr fun g b => ⟨False.elim, fun ⟨h1, h2, _⟩ => by omega⟩
  | succ f ih =>
    unfold unary
    refine (bits_then (by omega) fun v hv => Reads.ite (fun _ => Reads.pure _) fun _ => ih (k + 1)).congr fun g b => ?_
    constructor
    · rintro ⟨v, hv, b2, hb, rfl⟩
      by_cases h1 : v = 1
      · rw [if_pos h1] at hb
        obtain ⟨rfl, rfl⟩ := hb
        subst h1
        exact ⟨by omega, by omega, by rw [show k + 1 - k - 1 = 0 by omega]; rfl⟩
      · rw [if_neg h1] at hb
        obtain ⟨e1, e2, rfl⟩ := hb
        obtain rfl : v = 0 := by omega
        refine ⟨by omega, by omega, ?_⟩
        rw [show g - k - 1 = (g - (k + 1) - 1) + 1 by omega, List.replicate_succ]
        rfl
    · rintro ⟨e1, e2, rfl⟩
      by_cases h1 : g = k + 1
      · subst h1
        exact ⟨1, by omega, [], by rw [if_pos rfl]; exact ⟨rfl, rfl⟩, by rw [show k + 1 - k - 1 = 0 by omega]; rfl⟩
      · refine ⟨0, by omega, _, by rw [if_neg (by omega)]; exact ⟨by omega, by omega, rfl⟩, ?_⟩
        rw [show g - k - 1 = (g - (k + 1) - 1) + 1 by omega, List.replicate_succ]
        rfl

/-- The exponent of the frame before. -/
theorem prev_reads {c : Config} (he : c.expBits ≤ 24) (i : Nat) (s : Frame) : Reads (if s.indep then prevGain c i s else pure { s with prevExp := upd s.prevExp i 0 })
    (fun s' b => ∃ x, s' = { s with prevExp := upd s.prevExp i x } ∧
      if s.indep then ∃ e : Nat, e < 2 ^ c.expBits ∧ x = (e : Int) - c.expBias ∧ b = natBits c.expBits e else x = 0 ∧ b = []) := by
  unfold prevGain
  refine (Reads.ite (fun _ => bits_then he fun e _ => Reads.pure _) fun _ => Reads.pure _).congr fun s' b => ?_
  by_cases hi : s.indep = true
  · simp only [hi, if_true]
    constructor
    · rintro ⟨e, h1, _, ⟨rfl, rfl⟩, rfl⟩
      exact ⟨_, rfl, e, h1, rfl, by simp⟩
    · rintro ⟨x, rfl, e, h1, rfl, rfl⟩
      exact ⟨e, h1, [], ⟨rfl, rfl⟩, by simp⟩
  · simp only [hi, Bool.false_eq_true, if_false]
    constructor
    · rintro ⟨rfl, rfl⟩
      exact ⟨0, rfl, rfl, rfl⟩
    · rintro ⟨x, rfl, rfl, rfl⟩
      exact ⟨rfl, rfl⟩

theorem setUse_indep (c : Config) (i : Nat) (s : Frame) (u : Use) : (setUse c i s u).indep = s.indep := by
  cases u <;> simp only [setUse, setVector, setAmbience] <;> split_ifs <;> rfl

/-- **C236** A channel is delivered if and only if the bits are a code of its use and its gain; vectors and directions are put in the lists of them. -/
theorem C236_channel {t len : Nat} {l l' : List Bool} {c : Config} (h : (config t len).run l = .ok (c, l')) (i : Nat) (s : Frame) :
    Reads (channel c i s) (fun s' b => i < 49 ∧ ∃ u g b1 b2, UseCode c s.indep (past s i) u b1 ∧ Fits c u ∧ GainCode c s.indep g b2 ∧ g.coded ≤ 65 ∧
      b = natBits 2 u.kind ++ b1 ++ b2 ∧ s' = enlist i (setGain i g (setUse c i { s with ctype := upd s.ctype i u.kind } u))) := by
  have hv : c.vqBits ≤ 24 := le_trans (C221_fields h).1 (by omega)
  have he := exp_le h
  have use : ∀ k, k < 4 → Reads (if k = 2 then ambience c i { s with ctype := upd s.ctype i k } else if k = 1 then vector c i { s with ctype := upd s.ctype i k }
      else if k = 0 then direction i { s with ctype := upd s.ctype i k } else pure { s with ctype := upd s.ctype i k } : Prog Frame)
      (fun s' b => ∃ u : Use, u.kind = k ∧ UseCode c s.indep (past s i) u b ∧ Fits c u ∧ s' = setUse c i { s with ctype := upd s.ctype i u.kind } u) := by
    intro k hk
    have : k = 0 ∨ k = 1 ∨ k = 2 ∨ k = 3 := by omega
    rcases this with rfl | rfl | rfl | rfl
    · simp only [if_true, if_false, OfNat.zero_ne_ofNat, OfNat.ofNat_ne_zero, zero_ne_one, reduceIte]
      unfold direction
      refine (bits_then (by omega) fun d _ => fail_if fun _ => Reads.pure _).congr fun s' b => ?_
      constructor
      · rintro ⟨d, hd, _, ⟨h9, rfl, rfl⟩, rfl⟩
        exact ⟨.direction d, rfl, ⟨by omega, by simp⟩, trivial, rfl⟩
      · rintro ⟨u, hu, hc, hf, rfl⟩
        cases u <;> simp [Use.kind] at hu
        obtain ⟨h9, rfl⟩ := hc
        exact ⟨_, by omega, [], ⟨by omega, rfl, rfl⟩, by simp⟩
    · simp only [reduceIte, OfNat.one_ne_ofNat]
      refine (vector_reads hv i _).congr fun s' b => ?_
      constructor
      · rintro ⟨f, v, hc, rfl⟩
        exact ⟨.vector f v, rfl, hc, trivial, rfl⟩
      · rintro ⟨u, hu, hc, hf, rfl⟩
        cases u <;> simp [Use.kind] at hu
        exact ⟨_, _, hc, rfl⟩
    · simp only [reduceIte]
      refine (ambience_reads h i _).congr fun s' b => ?_
      constructor
      · rintro ⟨st, k, hc, hf, rfl⟩
        exact ⟨.ambience st k, rfl, hc, hf, rfl⟩
      · rintro ⟨u, hu, hc, hf, rfl⟩
        cases u <;> simp [Use.kind] at hu
        exact ⟨_, _, hc, hf, rfl⟩
    · simp only [reduceIte, OfNat.ofNat_ne_zero, Nat.succ_ne_self, OfNat.ofNat_ne_one, Nat.reduceEqDiff]
      refine (Reads.pure _).congr fun s' b => ?_
      constructor
      · rintro ⟨rfl, rfl⟩
        exact ⟨.empty, rfl, rfl, trivial, rfl⟩
      · rintro ⟨u, hu, hc, hf, rfl⟩
        cases u <;> simp [Use.kind] at hu
        exact ⟨rfl, hc⟩
  unfold channel
  refine (inside_then (bits_then (by omega) fun k hk => (use k (by omega)).bind fun s1 _ _ => (prev_reads he i s1).bind fun s2 _ _ =>
    (unary_reads unaryFuel 0).bind fun g _ _ => fail_if fun hg => bits_then (by omega) fun e _ => Reads.pure _)).congr fun s' b => ?_
  constructor
  · rintro ⟨hi, k, hk, _, ⟨s1, b1, _, ⟨u, rfl, hc, hf, rfl⟩, ⟨s2, b3, _, ⟨x, rfl, hx⟩, ⟨g, b4, _, ⟨g1, g2, rfl⟩, ⟨hg, e, he, _, ⟨rfl, rfl⟩, rfl⟩, rfl⟩, rfl⟩, rfl⟩, rfl⟩
    rw [setUse_indep] at hx
    exact ⟨hi, u, ⟨x, g, e⟩, b1, _, hc, hf, ⟨b3, by simp only; omega, by simp only; omega, rfl, hx⟩, by simp only; omega, by simp, rfl⟩
  · rintro ⟨hi, u, ⟨x, g, e⟩, b1, _, hc, hf, ⟨r, g1, g2, rfl, hx⟩, hg, rfl, rfl⟩
    simp only at g1 g2 hg hx ⊢
    refine ⟨hi, u.kind, by cases u <;> simp [Use.kind], b1 ++ (r ++ (List.replicate (g - 1) false ++ [true] ++ (natBits 1 e ++ []))), ⟨_, b1, _, ⟨u, rfl, hc, hf, rfl⟩, ⟨_, r, _, ⟨x, rfl, ?_⟩,
      ⟨g, _, _, ⟨by omega, by unfold unaryFuel; omega, rfl⟩, ⟨by omega, e, by omega, [], ⟨rfl, rfl⟩, rfl⟩, rfl⟩, rfl⟩, rfl⟩, by simp⟩
    rw [setUse_indep]
    exact hx

/-- The frame with a channel. -/
def put (c : Config) (x : Nat → Chan) (s : Frame) (i : Nat) : Frame :=
  enlist i (setGain i (x i).gain (setUse c i { s with ctype := upd s.ctype i (x i).use.kind } (x i).use))

theorem enlist_indep (i : Nat) (s : Frame) : (enlist i s).indep = s.indep := by
  unfold enlist
  split_ifs <;> rfl

theorem put_indep (c : Config) (x : Nat → Chan) (s : Frame) (i : Nat) : (put c x s i).indep = s.indep := by
  unfold put
  rw [enlist_indep]
  show (setUse c i _ (x i).use).indep = s.indep
  rw [setUse_indep]

theorem upd_other {α : Type} (f : Nat → α) {i j : Nat} (v : α) (h : j ≠ i) : upd f i v j = f j := by
  unfold upd
  rw [if_neg h]

theorem past_enlist (i j : Nat) (s : Frame) : past (enlist i s) j = past s j := by
  unfold enlist
  split_ifs <;> rfl

/-- A channel does not change what is known about the others. -/
theorem past_put (c : Config) (x : Nat → Chan) (s : Frame) {i j : Nat} (h : j ≠ i) : past (put c x s i) j = past s j := by
  unfold put
  rw [past_enlist]
  cases (x i).use <;> simp only [setUse, setVector, setAmbience, setGain, past]
  · simp only [upd_other _ _ h]
  · split_ifs <;> simp only [upd_other _ _ h]

/-- A channel is coded, with what is known about it. -/
def ChanCode (c : Config) (indep : Bool) (p : Past) (x : Chan) : Prop :=
  UseCode c indep p x.use x.useBits ∧ Fits c x.use ∧ GainCode c indep x.gain x.gainBits ∧ x.gain.coded ≤ 65

/-- **C236** The additional channels of a frame are delivered if and only if the bits are their codes one after the other, each with what is known about the channel from
the frame before. -/
theorem C236_channels {t len : Nat} {l l' : List Bool} {c : Config} (h : (config t len).run l = .ok (c, l')) (n i : Nat) (s : Frame) :
    Reads (foldN (channel c) n i s) (fun s' b => (n ≠ 0 → i + n ≤ 49) ∧ ∃ x : Nat → Chan, (∀ j, i ≤ j → j < i + n → ChanCode c s.indep (past s j) (x j)) ∧
      b = (List.range' i n).flatMap (fun j => (x j).code) ∧ s' = (List.range' i n).foldl (put c x) s) := by
  induction n generalizing i s with
  | zero =>
    refine (Reads.pure s).congr fun s' b => ?_
    constructor
    · rintro ⟨rfl, rfl⟩
      exact ⟨by simp, fun _ => ⟨.empty, ⟨0, 0, 0⟩, [], []⟩, fun j _ _ => by omega, rfl, rfl⟩
    · rintro ⟨-, x, -, rfl, rfl⟩
      exact ⟨rfl, rfl⟩
  | succ n ih =>
    refine ((C236_channel h i s).bind fun s1 _ _ => ih (i + 1) s1).congr fun s' b => ?_
    constructor
    · rintro ⟨s1, b1, b2, ⟨hi, u, g, bu, bg, h1, h2, h3, h4, rfl, rfl⟩, ⟨hn, x, hx, rfl, rfl⟩, rfl⟩
      obtain ⟨y, hy⟩ : ∃ y : Nat → Chan, y = upd x i ⟨u, g, bu, bg⟩ := ⟨_, rfl⟩
      have yi : y i = ⟨u, g, bu, bg⟩ := by rw [hy]; simp [upd]
      have yo : ∀ j, j ≠ i → y j = x j := fun j hj => by rw [hy, upd_other _ _ hj]
      have hput : enlist i (setGain i g (setUse c i { s with ctype := upd s.ctype i u.kind } u)) = put c y s i := by
        unfold put
        rw [yi]
      rw [hput] at hx ⊢
      refine ⟨fun _ => ?_, y, ?_, ?_, ?_⟩
      · by_cases h0 : n = 0
        · omega
        · have := hn h0
          omega
      · intro j j1 j2
        by_cases e : j = i
        · subst e
          rw [yi]
          exact ⟨h1, h2, h3, h4⟩
        · rw [yo j e]
          have := hx j (by omega) (by omega)
          rwa [put_indep, past_put c y s e] at this
      · rw [List.range'_succ, List.flatMap_cons, yi]
        congr 1
        apply List.flatMap_congr
        intro j hj
        rw [List.mem_range'_1] at hj
        rw [yo j (by omega)]
      · rw [List.range'_succ, List.foldl_cons]
        apply List.foldl_ext
        intro a j hj
        rw [List.mem_range'_1] at hj
        unfold put
        rw [yo j (by omega)]
    · rintro ⟨hn, x, hx, rfl, rfl⟩
      have hn' := hn (by omega)
      obtain ⟨h1, h2, h3, h4⟩ := hx i le_rfl (by omega)
      refine ⟨_, _, _, ⟨by omega, (x i).use, (x i).gain, _, _, h1, h2, h3, h4, rfl, rfl⟩, ⟨fun _ => by omega, x, ?_, rfl, ?_⟩, ?_⟩
      · intro j j1 j2
        have := hx j (by omega) (by omega)
        rw [← put_indep c x s i, ← past_put c x s (show j ≠ i by omega)] at this
        exact this
      · rw [List.range'_succ, List.foldl_cons]
        rfl
      · rw [List.range'_succ, List.flatMap_cons]
        rfl

/-- The lists behind the channels. -/
theorem put_lists (c : Config) (x : Nat → Chan) (s : Frame) (i : Nat) : (put c x s i).vecs = s.vecs ++ (if (x i).use.kind = 1 then [i + 1] else []) ∧
    (put c x s i).numDir = s.numDir + (if (x i).use.kind = 0 then 1 else 0) ∧
    (put c x s i).dirCh = (if (x i).use.kind = 0 then upd s.dirCh s.numDir (i + 1) else s.dirCh) := by
  obtain ⟨r, hr⟩ : ∃ r, r = setGain i (x i).gain (setUse c i { s with ctype := upd s.ctype i (x i).use.kind } (x i).use) := ⟨_, rfl⟩
  have e1 : r.ctype i = (x i).use.kind ∧ r.vecs = s.vecs ∧ r.numDir = s.numDir ∧ r.dirCh = s.dirCh := by
    have hk : ∀ k : Nat, upd s.ctype i k i = k := fun k => by simp [upd]
    rw [hr]
    cases (x i).use <;> simp only [setUse, setVector, setAmbience, setGain, hk, and_self]
    split_ifs <;> simp only [hk, and_self]
  obtain ⟨e1, e2, e3, e4⟩ := e1
  have : put c x s i = enlist i r := by rw [hr]; rfl
  rw [this]
  unfold enlist
  rw [e1]
  by_cases h1 : (x i).use.kind = 1
  · rw [if_pos h1, if_pos h1, if_neg (by omega), if_neg (by omega)]
    exact ⟨by rw [← e2], e3, e4⟩
  · rw [if_neg h1, if_neg h1]
    by_cases h0 : (x i).use.kind = 0
    · rw [if_pos h0, if_pos h0, if_pos h0]
      exact ⟨by simpa using e2, by rw [← e3], by rw [← e4, ← e3]⟩
    · rw [if_neg h0, if_neg h0, if_neg h0]
      exact ⟨by simpa using e2, e3, e4⟩

/-- **C236** The vectors of a frame are those of the channels coded as vectors, in order, and its directional signals those coded as directions. -/
theorem C236_lists (c : Config) (x : Nat → Chan) (n i : Nat) (s : Frame) : ((List.range' i n).foldl (put c x) s).vecs = s.vecs ++ ofKind 1 x i n ∧
    ((List.range' i n).foldl (put c x) s).numDir = s.numDir + (ofKind 0 x i n).length ∧
    ∀ k, ((List.range' i n).foldl (put c x) s).dirCh k = if k < s.numDir then s.dirCh k else (ofKind 0 x i n).getD (k - s.numDir) (s.dirCh k) := by
  induction n generalizing i s with
  | zero => exact ⟨by simp [ofKind], rfl, fun k => by simp [ofKind]⟩
  | succ n ih =>
    obtain ⟨a1, a2, a3⟩ := put_lists c x s i
    obtain ⟨i1, i2, i3⟩ := ih (i + 1) (put c x s i)
    rw [List.range'_succ, List.foldl_cons]
    have step : ∀ k, ofKind k x i (n + 1) = (if (x i).use.kind = k then [i + 1] else []) ++ ofKind k x (i + 1) n := by
      intro k
      unfold ofKind
      rw [List.range'_succ, List.filter_cons]
      by_cases hk : (x i).use.kind = k
      · simp [hk]
      · simp [hk]
    refine ⟨?_, ?_, ?_⟩
    · rw [i1, a1, step, List.append_assoc]
    · rw [i2, a2, step, List.length_append]
      split <;> simp <;> omega
    · intro k
      rw [i3, a2, a3, step]
      by_cases h0 : (x i).use.kind = 0
      · rw [if_pos h0, if_pos h0, if_pos h0]
        rcases Nat.lt_trichotomy k s.numDir with hk | hk | hk
        · rw [if_pos (by omega), if_pos hk, upd_other _ _ (by omega)]
        · subst hk
          rw [if_pos (by omega), if_neg (by omega), Nat.sub_self]
          simp [upd]
        · rw [if_neg (by omega), if_neg (by omega), upd_other _ _ (by omega), show k - s.numDir = (k - (s.numDir + 1)) + 1 by omega]
          rfl
      · rw [if_neg h0, if_neg h0, if_neg h0]
        rfl

/-- The frame with the gain of a channel of the ambience that is always sent; frames that depend on the one before keep its exponent. -/
def putRest (g : Nat → GainHead) (s : Frame) (i : Nat) : Frame :=
  { s with prevExp := if s.indep then upd s.prevExp i (g i).prevExp else s.prevExp, coded := upd s.coded i (g i).coded, exc := upd s.exc i (g i).exc }

/-- **C236** A channel of the ambience that is always sent is delivered if and only if the bits are a code of its gain. -/
theorem C236_rest {t len : Nat} {l l' : List Bool} {c : Config} (h : (config t len).run l = .ok (c, l')) (i : Nat) (s : Frame) :
    Reads (restChannel c i s) (fun s' b => i < 49 ∧ ∃ g : Nat → GainHead, GainCode c s.indep (g i) b ∧ (g i).coded ≤ unaryFuel ∧ s' = putRest g s i) := by
  have he := exp_le h
  have prev : Reads (if s.indep then prevGain c i s else pure s : Prog Frame)
      (fun s' b => ∃ x, s' = { s with prevExp := if s.indep then upd s.prevExp i x else s.prevExp } ∧
        if s.indep then ∃ e : Nat, e < 2 ^ c.expBits ∧ x = (e : Int) - c.expBias ∧ b = natBits c.expBits e else x = 0 ∧ b = []) := by
    unfold prevGain
    refine (Reads.ite (fun _ => bits_then he fun e _ => Reads.pure _) fun _ => Reads.pure _).congr fun s' b => ?_
    by_cases hi : s.indep = true
    · simp only [hi, if_true]
      constructor
      · rintro ⟨e, h1, _, ⟨rfl, rfl⟩, rfl⟩
        exact ⟨_, rfl, e, h1, rfl, by simp⟩
      · rintro ⟨x, rfl, e, h1, rfl, rfl⟩
        exact ⟨e, h1, [], ⟨rfl, rfl⟩, by simp⟩
    · simp only [hi, Bool.false_eq_true, if_false]
      have hi' : s.indep = false := by simpa using hi
      constructor
      · rintro ⟨rfl, rfl⟩
        exact ⟨0, by rw [← hi'], rfl, rfl⟩
      · rintro ⟨x, rfl, rfl, rfl⟩
        exact ⟨by rw [← hi'], rfl⟩
  unfold restChannel
  refine (inside_then (prev.bind fun s1 _ _ => (unary_reads unaryFuel 0).bind fun g _ _ => bits_then (by omega) fun e _ => Reads.pure _)).congr fun s' b => ?_
  constructor
  · rintro ⟨hi, s1, b1, _, ⟨x, rfl, hx⟩, ⟨g, b4, _, ⟨g1, g2, rfl⟩, ⟨e, he, _, ⟨rfl, rfl⟩, rfl⟩, rfl⟩, rfl⟩
    exact ⟨hi, fun _ => ⟨x, g, e⟩, ⟨b1, by simp only; omega, by simp only; omega, by simp, hx⟩, by simp only; omega, rfl⟩
  · rintro ⟨hi, g, ⟨r, g1, g2, rfl, hx⟩, g3, rfl⟩
    exact ⟨hi, _, r, _, ⟨(g i).prevExp, rfl, hx⟩, ⟨(g i).coded, _, _, ⟨by omega, by omega, rfl⟩, ⟨(g i).exc, by omega, [], ⟨rfl, rfl⟩, rfl⟩, rfl⟩, by simp⟩

/-- **C236** All channels of the ambience that are always sent. -/
theorem C236_rests {t len : Nat} {l l' : List Bool} {c : Config} (h : (config t len).run l = .ok (c, l')) (n i : Nat) (s : Frame) :
    Reads (foldN (restChannel c) n i s) (fun s' b => (n ≠ 0 → i + n ≤ 49) ∧ ∃ (g : Nat → GainHead) (w : Nat → List Bool),
      (∀ j, i ≤ j → j < i + n → GainCode c s.indep (g j) (w j) ∧ (g j).coded ≤ unaryFuel) ∧
      b = (List.range' i n).flatMap w ∧ s' = (List.range' i n).foldl (putRest g) s) := by
  induction n generalizing i s with
  | zero =>
    refine (Reads.pure s).congr fun s' b => ?_
    constructor
    · rintro ⟨rfl, rfl⟩
      exact ⟨by simp, fun _ => ⟨0, 0, 0⟩, fun _ => [], fun j _ _ => by omega, rfl, rfl⟩
    · rintro ⟨-, g, w, -, rfl, rfl⟩
      exact ⟨rfl, rfl⟩
  | succ n ih =>
    refine ((C236_rest h i s).bind fun s1 _ _ => ih (i + 1) s1).congr fun s' b => ?_
    constructor
    · rintro ⟨s1, b1, b2, ⟨hi, g1, h1, h2, rfl⟩, ⟨hn, g, w, hx, rfl, rfl⟩, rfl⟩
      obtain ⟨y, hy⟩ : ∃ y : Nat → GainHead, y = upd g i (g1 i) := ⟨_, rfl⟩
      obtain ⟨v, hv⟩ : ∃ v : Nat → List Bool, v = upd w i b1 := ⟨_, rfl⟩
      have yi : y i = g1 i := by rw [hy]; simp [upd]
      have vi : v i = b1 := by rw [hv]; simp [upd]
      have yo : ∀ j, j ≠ i → y j = g j := fun j hj => by rw [hy, upd_other _ _ hj]
      have vo : ∀ j, j ≠ i → v j = w j := fun j hj => by rw [hv, upd_other _ _ hj]
      have hput : putRest g1 s i = putRest y s i := by
        unfold putRest
        rw [yi]
      rw [hput] at hx ⊢
      refine ⟨fun _ => ?_, y, v, ?_, ?_, ?_⟩
      · by_cases h0 : n = 0
        · omega
        · have := hn h0
          omega
      · intro j j1 j2
        by_cases e : j = i
        · subst e
          rw [yi, vi]
          exact ⟨h1, h2⟩
        · rw [yo j e, vo j e]
          exact hx j (by omega) (by omega)
      · rw [List.range'_succ, List.flatMap_cons, vi]
        congr 1
        apply List.flatMap_congr
        intro j hj
        rw [List.mem_range'_1] at hj
        rw [vo j (by omega)]
      · rw [List.range'_succ, List.foldl_cons]
        apply List.foldl_ext
        intro a j hj
        rw [List.mem_range'_1] at hj
        unfold putRest
        rw [yo j (by omega)]
    · rintro ⟨hn, g, w, hx, rfl, rfl⟩
      have hn' := hn (by omega)
      obtain ⟨h1, h2⟩ := hx i le_rfl (by omega)
      refine ⟨_, _, _, ⟨by omega, g, h1, h2, rfl⟩, ⟨fun _ => by omega, g, w, ?_, rfl, ?_⟩, ?_⟩
      · intro j j1 j2
        exact hx j (by omega) (by omega)
      · rw [List.range'_succ, List.foldl_cons]
      · rw [List.range'_succ, List.flatMap_cons]

/-! ## Whole frames -/

/-- What a frame says about its channels. -/
structure Heads where
  indep : Bool
  ctype : Nat → Nat
  trans : Nat → Nat
  ambIdx : Nat → Nat
  newVec : Nat → Nat
  nbits : Nat → Nat
  book : Nat → Nat
  num : Nat → Nat
  pFlag : Nat → Nat
  cbFlag : Nat → Nat
  dirId : Nat → Nat
  prevExp : Nat → Int
  coded : Nat → Nat
  exc : Nat → Nat
  vecs : List Nat
  numDir : Nat
  dirCh : Nat → Nat

def heads (s : Frame) : Heads :=
  ⟨s.indep, s.ctype, s.trans, s.ambIdx, s.newVec, s.nbits, s.book, s.num, s.pFlag, s.cbFlag, s.dirId, s.prevExp, s.coded, s.exc, s.vecs, s.numDir, s.dirCh⟩

def HeadsAre (v : Heads) (s : Frame) : Prop := heads s = v

variable {v : Heads}

theorem vectorData_heads (c : Config) (ch idx : Nat) {s : Frame} (hs : HeadsAre v s) : Only (vectorData c ch idx s) (HeadsAre v) := by
  unfold vectorData
  refine Only.ite (fun _ => ?_) fun _ => Only.ite (fun _ => ?_) fun _ => Only.ite (fun _ => ?_) fun _ => Only.pure hs
  · unfold vqData
    have hp : ∀ j s, HeadsAre v s → Only (indexPair c ch idx j s) (HeadsAre v) := by
      intro j s hs
      unfold indexPair
      exact Only.then fun _ => Only.then fun _ => Only.then fun _ => Only.pure hs
    refine Only.then fun _ => Only.bind (P := HeadsAre v) (Only.ite (fun _ => Only.then fun w => Only.fold _ _ (fun j s _ _ hs => hp j s hs) hs)
      fun _ => hp 0 _ hs) fun s hs => Only.then fun _ => Only.fold _ _ (fun k s _ _ hs => ?_) hs
    exact Only.then fun b => Only.then fun _ => Only.pure hs
  · unfold wordData
    refine Only.fold _ _ (fun k s _ _ hs => ?_) hs
    exact Only.then fun b => Only.then fun v => Only.then fun _ => Only.then fun _ => Only.pure hs
  · unfold huffData
    refine Only.then fun _ => Only.bind (P := HeadsAre v) (Only.fold _ _ (fun k s _ _ hs => ?_) hs) fun s hs => Only.pure hs
    unfold huffElement
    exact Only.then fun b => Only.then fun _ => Only.then fun _ => Only.ite (fun _ => Only.pure hs) fun _ => Only.then fun cid => Only.ite
      (fun _ => Only.then fun v => Only.ite (fun _ => Only.then fun w => Only.pure hs) fun _ => Only.pure hs) fun _ => Only.pure hs

theorem vectors_heads (c : Config) (l : List Nat) (idx : Nat) {s : Frame} (hs : HeadsAre v s) : Only (vectors c l idx s) (HeadsAre v) := by
  induction l generalizing idx s with
  | nil => exact Only.pure hs
  | cons x l ih =>
    unfold vectors
    exact (vectorData_heads c _ idx hs).bind fun s hs => ih (idx + 1) hs

theorem prediction_heads (c : Config) {s : Frame} (hs : HeadsAre v s) : Only (prediction c s) (HeadsAre v) := by
  unfold prediction
  refine Only.ite (fun _ => Only.then fun on => Only.ite (fun _ => Only.bind (P := HeadsAre v) ?_ fun s hs => Only.bind (P := HeadsAre v)
    (Only.fold _ _ (fun j s _ _ hs => ?_) hs) fun s hs => Only.fold _ _ (fun j s _ _ hs => ?_) hs) fun _ => Only.pure hs) fun _ => Only.pure hs
  · unfold activePreds
    refine Only.then fun kind => Only.ite (fun _ => Only.fold _ _ (fun j s _ _ hs => ?_) hs) fun _ => Only.then fun n =>
      Only.fold _ _ (fun j s _ _ hs => ?_) hs
    · exact Only.then fun v => Only.pure hs
    · exact Only.then fun v => Only.then fun _ => Only.pure hs
  · unfold predId
    exact Only.then fun v => Only.then fun _ => Only.ite (fun _ => Only.then fun _ => Only.pure hs) fun _ => Only.pure hs
  · unfold predGain
    exact Only.then fun _ => Only.ite (fun _ => Only.then fun v => Only.pure hs) fun _ => Only.pure hs

/-- The frame at its start. -/
def begin (indep : Bool) (s : Frame) : Frame :=
  { s with indep := indep, vecs := [], numDir := 0, newVec := fun _ => 0, fadeIn := fun _ => 0, nonTrans := fun _ => 0 }

/-- **C236** An accepted frame begins with the flag of its independence, the codes of the additional channels and those of the gains of the others, and says about its channels
what these codes say. -/
theorem C236_frame {t len : Nat} {l l' : List Bool} {c : Config} (h : (config t len).run l = .ok (c, l')) {s s' : Frame} {b b' : List Bool}
    (e : (frame c s).run b = .ok (s', b')) : ∃ (indep : Bool) (x : Nat → Chan) (g : Nat → GainHead) (w : Nat → List Bool) (r : List Bool),
    b = [indep] ++ (List.range' 0 c.extra).flatMap (fun j => (x j).code) ++ (List.range' c.extra (c.transport - c.extra)).flatMap w ++ r ∧
    (∀ j, j < c.extra → ChanCode c indep (past (begin indep s) j) (x j)) ∧
    (∀ j, c.extra ≤ j → j < c.extra + (c.transport - c.extra) → GainCode c indep (g j) (w j)) ∧
    heads s' = heads ((List.range' c.extra (c.transport - c.extra)).foldl (putRest g) ((List.range' 0 c.extra).foldl (put c x) (begin indep s))) := by
  unfold frame at e
  rw [run_bind, Res.bind_eq_ok] at e
  obtain ⟨⟨f, b1⟩, e1, e⟩ := e
  rw [run_bind, Res.bind_eq_ok] at e
  obtain ⟨⟨s1, b2⟩, e2, e⟩ := e
  rw [run_bind, Res.bind_eq_ok] at e
  obtain ⟨⟨s2, b3⟩, e3, e⟩ := e
  obtain ⟨hx0, ⟨-, hf, rfl⟩, rfl⟩ := (Reads.bits 1 b f b1).mp e1
  obtain ⟨y1, ⟨-, x, hx, rfl, rfl⟩, rfl⟩ := (C236_channels h _ _ _ _ _ _).mp e2
  obtain ⟨y2, ⟨-, g, w, hg, rfl, rfl⟩, rfl⟩ := (C236_rests h _ _ _ _ _ _).mp e3
  refine ⟨f != 0, x, g, w, b3, ?_, ?_, ?_, ?_⟩
  · have : f = 0 ∨ f = 1 := by omega
    rcases this with rfl | rfl <;> simp [natBits]
  · intro j hj
    exact hx j (by omega) (by omega)
  · intro j h1 h2
    have h3 := (hg j h1 h2).1
    have : ∀ (L : List Nat) (s : Frame), (L.foldl (put c x) s).indep = s.indep := by
      intro L
      induction L with
      | nil => intro s; rfl
      | cons a L ih => intro s; rw [List.foldl_cons, ih, put_indep]
    rw [this] at h3
    exact h3
  · have h4 : Only (do
        let s ← vectors c ((List.range' c.extra (c.transport - c.extra)).foldl (putRest g) ((List.range' 0 c.extra).foldl (put c x) (begin (f != 0) s))).vecs 0 _
        let s := { s with prevSgnSize := fun i => if i < s.vecs.length then s.sgnSize i else s.prevSgnSize i }
        let s ← prediction c s
        pure (keep s)) (HeadsAre (heads ((List.range' c.extra (c.transport - c.extra)).foldl (putRest g) ((List.range' 0 c.extra).foldl (put c x) (begin (f != 0) s))))) :=
      (vectors_heads c _ 0 (s := { ((List.range' c.extra (c.transport - c.extra)).foldl (putRest g) ((List.range' 0 c.extra).foldl (put c x) (begin (f != 0) s))) with
          sgnSize := fun i => if i < ((List.range' c.extra (c.transport - c.extra)).foldl (putRest g) ((List.range' 0 c.extra).foldl (put c x) (begin (f != 0) s))).vecs.length
            then ((List.range' c.extra (c.transport - c.extra)).foldl (putRest g) ((List.range' 0 c.extra).foldl (put c x) (begin (f != 0) s))).prevSgnSize i
            else ((List.range' c.extra (c.transport - c.extra)).foldl (putRest g) ((List.range' 0 c.extra).foldl (put c x) (begin (f != 0) s))).sgnSize i }) rfl).bind fun s1 h1 =>
        (prediction_heads c (s := { s1 with prevSgnSize := fun i => if i < s1.vecs.length then s1.sgnSize i else s1.prevSgnSize i }) h1).bind fun s2 h2 => Only.pure h2
    exact h4 _ _ _ e

/-! ## C237: coefficients of the ambience -/

theorem put_amb (c : Config) (x : Nat → Chan) (s : Frame) (i : Nat) : (put c x s i).ctype = upd s.ctype i (x i).use.kind ∧
    (∀ st k, (x i).use = .ambience st k → (put c x s i).ambIdx i = k ∧ (put c x s i).trans i = st) ∧
    ∀ j, j ≠ i → (put c x s i).ambIdx j = s.ambIdx j ∧ (put c x s i).trans j = s.trans j := by
  have hk : ∀ (f : Nat → Nat) (k : Nat), upd f i k i = k := fun f k => by simp [upd]
  have he : ∀ r : Frame, (enlist i r).ctype = r.ctype ∧ (enlist i r).ambIdx = r.ambIdx ∧ (enlist i r).trans = r.trans := by
    intro r
    unfold enlist
    split_ifs <;> exact ⟨rfl, rfl, rfl⟩
  unfold put
  rw [(he _).1, (he _).2.1, (he _).2.2]
  cases hu : (x i).use with
  | direction id => exact ⟨rfl, fun _ _ h => (by cases h), fun j hj => ⟨rfl, rfl⟩⟩
  | vector f v => exact ⟨rfl, fun _ _ h => (by cases h), fun j hj => ⟨rfl, rfl⟩⟩
  | empty => exact ⟨rfl, fun _ _ h => (by cases h), fun j hj => ⟨rfl, rfl⟩⟩
  | ambience st k =>
    simp only [setUse, setAmbience, setGain]
    split_ifs <;> exact ⟨rfl, fun _ _ h => (by cases h; exact ⟨hk _ _, hk _ _⟩), fun j hj => ⟨upd_other _ _ hj, upd_other _ _ hj⟩⟩

theorem puts_amb (c : Config) (x : Nat → Chan) (n i : Nat) (s : Frame) (j : Nat) (h1 : i ≤ j) (h2 : j < i + n) :
    ((List.range' i n).foldl (put c x) s).ctype j = (x j).use.kind ∧
    ∀ st k, (x j).use = .ambience st k → ((List.range' i n).foldl (put c x) s).ambIdx j = k ∧ ((List.range' i n).foldl (put c x) s).trans j = st := by
  have later : ∀ (n i : Nat) (s : Frame), j < i → ((List.range' i n).foldl (put c x) s).ctype j = s.ctype j ∧
      ((List.range' i n).foldl (put c x) s).ambIdx j = s.ambIdx j ∧ ((List.range' i n).foldl (put c x) s).trans j = s.trans j := by
    intro n
    induction n with
    | zero => intro i s _; exact ⟨rfl, rfl, rfl⟩
    | succ n ih =>
      intro i s hj
      rw [List.range'_succ, List.foldl_cons]
      obtain ⟨e1, e2, e3⟩ := ih (i + 1) (put c x s i) (by omega)
      obtain ⟨p1, -, p3⟩ := put_amb c x s i
      rw [e1, e2, e3, p1, (p3 j (by omega)).1, (p3 j (by omega)).2, upd_other _ _ (by omega)]
      exact ⟨rfl, rfl, rfl⟩
  induction n generalizing i s with
  | zero => omega
  | succ n ih =>
    rw [List.range'_succ, List.foldl_cons]
    by_cases e : j = i
    · subst e
      obtain ⟨e1, e2, e3⟩ := later n (j + 1) (put c x s j) (by omega)
      obtain ⟨p1, p2, -⟩ := put_amb c x s j
      rw [e1, e2, e3, p1]
      exact ⟨by simp [upd], p2⟩
    · exact ih (i + 1) (put c x s i) (by omega) (by omega)

theorem rests_amb (g : Nat → GainHead) (L : List Nat) (s : Frame) : (L.foldl (putRest g) s).ctype = s.ctype ∧ (L.foldl (putRest g) s).ambIdx = s.ambIdx ∧
    (L.foldl (putRest g) s).trans = s.trans := by
  induction L generalizing s with
  | nil => exact ⟨rfl, rfl, rfl⟩
  | cons a L ih => exact ih (putRest g s a)

/-- **C237** (partial) In independent frames, with an ambience of at most the order of the signal, the coefficients sent in additional channels are coefficients of the signal
behind those that are always sent.  Missing: frames that depend on the one before. -/
theorem C237_independent_partial {t len : Nat} {l l' : List Bool} {c : Config} (h : (config t len).run l = .ok (c, l')) (ho : c.max1 ≤ c.order + 1) {s s' : Frame}
    {b b' : List Bool} (e : (frame c s).run (true :: b) = .ok (s', b')) {ch : Nat} (hch : ch < c.extra) (ht : s'.ctype ch = 2) :
    c.minCoeffs < s'.ambIdx ch ∧ s'.ambIdx ch ≤ c.coeffs ∧ s'.trans ch < 3 := by
  obtain ⟨indep, x, g, w, r, hb, hx, -, hh⟩ := C236_frame h e
  have hi : indep = true := by
    have := congrArg List.head? hb
    simpa using this.symm
  subst hi
  have e1 := congrArg Heads.ctype hh
  have e2 := congrArg Heads.ambIdx hh
  have e3 := congrArg Heads.trans hh
  simp only [heads] at e1 e2 e3
  obtain ⟨r1, r2, r3⟩ := rests_amb g (List.range' c.extra (c.transport - c.extra)) ((List.range' 0 c.extra).foldl (put c x) (begin true s))
  obtain ⟨p1, p2⟩ := puts_amb c x c.extra 0 (begin true s) ch (by omega) (by omega)
  have hk : (x ch).use.kind = 2 := by rw [← p1, ← r1, ← e1]; exact ht
  obtain ⟨st, k, hu⟩ : ∃ st k, (x ch).use = .ambience st k := by
    cases hu : (x ch).use with
    | ambience st k => exact ⟨st, k, rfl⟩
    | _ => rw [hu] at hk; simp [Use.kind] at hk
  obtain ⟨q1, q2⟩ := p2 st k hu
  rw [e2, e3, r2, r3, q1, q2]
  have hc := (hx ch hch).1
  rw [hu] at hc
  obtain ⟨a1, a2, a3, -⟩ : st < 3 ∧ c.amb1 ^ 2 < k ∧ k ≤ c.amb1 ^ 2 + (c.max1 ^ 2 - c.amb1 ^ 2) ∧ _ := hc
  have hm : c.minCoeffs = c.amb1 ^ 2 := by unfold Config.minCoeffs; rw [pow_two]
  have hl : c.max1 ^ 2 ≤ (c.order + 1) ^ 2 := Nat.pow_le_pow_left ho 2
  have hn : c.coeffs = (c.order + 1) ^ 2 := by unfold Config.coeffs; rw [pow_two]
  rw [hm, hn]
  exact ⟨a2, by omega, a1⟩

/-- **C237** (refuted) "The coefficients of the ambience sent in a frame are coefficients of the signal": a frame that depends on the one before may name any coefficient that
fits in the bits.  Here a signal of order 1 with 4 coefficients has a channel with coefficient 5. -/
theorem C237_refuted : ∃ c l l1 l2 s1 s2, (config 3 1024).run l = .ok (c, []) ∧ c.max1 = c.order + 1 ∧ (frame c Frame.zero).run l1 = .ok (s1, []) ∧
    (frame c s1).run l2 = .ok (s2, []) ∧ c.coeffs = 4 ∧ 0 < c.extra ∧ s2.ctype 0 = 2 ∧ s2.trans 0 = 1 ∧ s2.ambIdx 0 = 5 := by
  have h0 := seen_result (r := (frame order1 Frame.zero).run ([true] ++ natBits 2 2 ++ natBits 2 2 ++ natBits 2 0 ++ noGain ++ natBits 2 3 ++ noGain ++ noGain)) (l := [])
    (by decide +kernel)
  obtain ⟨s2, h1, h2⟩ := seen_ok (f := fun s => (s.ctype 0, s.trans 0, s.ambIdx 0)) (b := (2, 1, 5)) (l := [])
    (r := (frame order1 (result ((frame order1 Frame.zero).run ([true] ++ natBits 2 2 ++ natBits 2 2 ++ natBits 2 0 ++ noGain ++ natBits 2 3 ++ noGain ++ noGain)))).run
      ([false] ++ natBits 2 2 ++ [true] ++ natBits 2 3 ++ [true, false] ++ natBits 2 3 ++ [true, false] ++ [true, false])) (by decide +kernel)
  simp only [Prod.mk.injEq] at h2
  exact ⟨order1, order1Bits, _, _, _, s2, order1_accepted, rfl, h0, h1, rfl, by decide, h2.1, h2.2.1, h2.2.2⟩

/-- A channel that fades out coefficient 2 in an independent frame. -/
example : ∃ s, (frame order1 Frame.zero).run (true :: (natBits 2 2 ++ natBits 2 2 ++ natBits 2 0 ++ noGain ++ natBits 2 3 ++ noGain ++ noGain)) = .ok (s, []) ∧
    s.ctype 0 = 2 ∧ s.ambIdx 0 = 2 := by
  obtain ⟨s, h1, h2⟩ := seen_ok (f := fun s => (s.ctype 0, s.ambIdx 0)) (b := (2, 2)) (l := [])
    (r := (frame order1 Frame.zero).run (true :: (natBits 2 2 ++ natBits 2 2 ++ natBits 2 0 ++ noGain ++ natBits 2 3 ++ noGain ++ noGain))) (by decide +kernel)
  simp only [Prod.mk.injEq] at h2
  exact ⟨s, h1, h2.1, h2.2⟩

/-- A code of a channel with direction 5 and no change of the gain. -/
example : ChanCode order1 false (past Frame.zero 0) ⟨.direction 5, ⟨0, 1, 0⟩, natBits 10 5, [true, false]⟩ :=
  ⟨⟨by omega, rfl⟩, trivial, ⟨[], by decide, by decide, rfl, rfl, rfl⟩, by decide⟩

end Verif.Hoa
