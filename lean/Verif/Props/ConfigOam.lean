import Verif.Props.ConfigExt
import Verif.Props.Interact

/-! # Object metadata configuration -/

namespace Verif.Config

open Prog

/-! ## C94: flags of screen-relative objects -/

/-- `n` single bits. -/
def flagBits (fs : List Nat) : List Bool := fs.flatMap (natBits 1)

/-- The flags, if there are any. -/
def screenBits : Option (List Nat) → List Bool
  | none => natBits 1 0
  | some fs => natBits 1 1 ++ flagBits fs

/-- The frame length, if it is coded. -/
def codedBits : Option Nat → List Bool
  | none => natBits 1 1
  | some v => natBits 1 0 ++ natBits 6 v

/-- The body of an object metadata configuration: `coded` is the coded frame length if it is not that of the
core coder. -/
def oamBits (ld : Nat) (coded : Option Nat) (screen : Option (List Nat)) (dyn uniform : Nat) : List Bool :=
  natBits 1 ld ++ (codedBits coded ++ (screenBits screen ++ (natBits 1 dyn ++ natBits 1 uniform)))

/-- The claim C94: the configuration of any number of objects a configuration can declare is read with the
flags each has. -/
def ScreenFlags : Prop :=
  ∀ (fs : List Nat) (o : Oam) (l : List Bool), (∀ f ∈ fs, f < 2) → o.screen.length = 24 →
    ∃ r, run (oamCfg 1024 fs.length o) (oamBits 0 none (some fs) 0 0 ++ l) = .ok (r, l) ∧ r.2.screen.take fs.length = fs

/-- **C94, refuted.** 25 flags are written to an array of 24. -/
theorem C94_refuted : ¬ ScreenFlags := by
  intro H
  obtain ⟨r, hr, _⟩ := H (List.replicate 25 1) Oam.zero [] (by decide) rfl
  have hu : (run (oamCfg 1024 25 Oam.zero) (oamBits 0 none (some (List.replicate 25 1)) 0 0 ++ [])).map (fun _ => ()) =
      .ub := by decide +kernel
  rw [List.length_replicate] at hr
  rw [hr] at hu
  cases hu

/-- A whole configuration with a group of 24 objects and a group of one. -/
def manyObjects : List Bool :=
  front 13 ++ (natBits 5 1 ++ (natBits 3 1 ++ natBits 5 23) ++ (natBits 3 1 ++ natBits 5 0)) ++
    oneElement (natBits 2 3 ++ extHead 5 4 none 0 ++ oamBits 0 none (some (List.replicate 25 1)) 0 0)

/-- The same, from the beginning of the configuration: the number of objects is only limited after the
elements have been read. -/
theorem C94_refuted_config : (run (configDec noSub 0 Cfg.zero) manyObjects).map (fun _ => ()) = .ub := by
  decide +kernel

theorem run_screen (fs : List Nat) (hf : ∀ f ∈ fs, f < 2) (i : Nat) (t : List Nat) (acc : Nat) (h : i + fs.length ≤ t.length)
    (l : List Bool) :
    run (foldN (fun i (s : List Nat × Nat) => do
        let b ← bits 1
        let t ← setAt s.1 i b
        pure (t, s.2 ||| b)) fs.length i (t, acc)) (flagBits fs ++ l) =
      .ok ((t.take i ++ fs ++ t.drop (i + fs.length), fs.foldl (· ||| ·) acc), l) := by
  induction fs generalizing i t acc with
  | nil => simp [foldN, flagBits]
  | cons f fs ih =>
    simp only [List.length_cons] at h
    have e : flagBits (f :: fs) ++ l = natBits 1 f ++ (flagBits fs ++ l) := by simp [flagBits]
    rw [e]
    simp only [List.length_cons, foldN]
    rw [run_bind, run_bits_bind 1 f _ _ (by decide) (hf f (by simp)), run_bind, run_setAt _ _ _ _ (by omega)]
    simp only [Res.ok_bind, run_pure]
    rw [ih (fun q hq => hf q (by simp [hq])) (i + 1) _ _ (by simp; omega)]
    have hs : (t.set i f).take (i + 1) ++ fs ++ (t.set i f).drop (i + 1 + fs.length) =
        t.take i ++ f :: fs ++ t.drop (i + (fs.length + 1)) := by
      have hi : i < t.length := by omega
      rw [List.take_set, List.drop_set, if_pos (by omega)]
      have : (t.take (i + 1)).set i f = t.take i ++ [f] := by
        rw [List.take_succ_eq_append_getElem hi, List.set_append, if_neg (by simp)]
        simp [Nat.min_eq_left (Nat.le_of_lt hi)]
      rw [this, show i + 1 + fs.length = i + (fs.length + 1) by omega]
      simp
    rw [hs]
    rfl

/-- The frame length in samples. -/
def frameSamples : Option Nat → Nat
  | none => 1024
  | some v => (v + 1) * 64

/-- **C94, the part that holds** (and C95): for at most 24 objects and a frame length of 256, 512 or 1024
samples every field is read.  Missing: more objects. -/
theorem C94_read_partial (ld : Nat) (coded : Option Nat) (screen : Option (List Nat)) (dyn uniform n : Nat) (o : Oam)
    (l : List Bool) (h1 : ld < 2) (h2 : dyn < 2) (h3 : uniform < 2) (ho : o.screen.length = 24) (hn : n ≤ 24)
    (hs : ∀ fs ∈ screen, fs.length = n ∧ ∀ f ∈ fs, f < 2) (hc : ∀ v ∈ coded, v < 64)
    (hfl : frameSamples coded = 256 ∨ frameSamples coded = 512 ∨ frameSamples coded = 1024) :
    run (oamCfg 1024 n o) (oamBits ld coded screen dyn uniform ++ l) = .ok ((false,
      { o with
        ld, ccfl := 1024, frameLength := frameSamples coded, dyn, uniform,
        screen := (screen.map (fun fs => fs ++ o.screen.drop n)).getD o.screen,
        screenPresent := (screen.map (fun fs => fs.foldl (· ||| ·) 0)).getD o.screenPresent }), l) := by
  have tail : ∀ (o : Oam) (g : Nat → Nat → Oam) (l : List Bool),
      run (do
        let dyn ← bits 1
        let uniform ← bits 1
        pure (false, g dyn uniform)) (natBits 1 dyn ++ (natBits 1 uniform ++ l)) = .ok ((false, g dyn uniform), l) := by
    intro o g l
    rw [run_bits_bind 1 dyn _ _ (by decide) h2, run_bits_bind 1 uniform _ _ (by decide) h3]
    rfl
  have scr : ∀ (o : Oam) (l : List Bool), o.screen.length = 24 →
      run (do
        let scr ← bits 1
        let o ← (if scr ≠ 0 then do
            let r ← foldN (fun i (s : List Nat × Nat) => do
              let b ← bits 1
              let t ← setAt s.1 i b
              pure (t, s.2 ||| b)) n 0 (o.screen, 0)
            pure { o with screen := r.1, screenPresent := r.2 }
          else pure o)
        let dyn ← bits 1
        let uniform ← bits 1
        pure (false, { o with dyn, uniform })) (screenBits screen ++ (natBits 1 dyn ++ (natBits 1 uniform ++ l))) =
      .ok ((false, { o with
        dyn, uniform, screen := (screen.map (fun fs => fs ++ o.screen.drop n)).getD o.screen,
        screenPresent := (screen.map (fun fs => fs.foldl (· ||| ·) 0)).getD o.screenPresent }), l) := by
    intro o l ho
    cases screen with
    | none =>
      unfold screenBits
      rw [run_bits_bind 1 0 _ _ (by decide) (by decide)]
      exact tail o (fun dyn uniform => { o with dyn, uniform }) l
    | some fs =>
      obtain ⟨hl, hf⟩ := hs fs rfl
      unfold screenBits
      rw [List.append_assoc, run_bits_bind 1 1 _ _ (by decide) (by decide)]
      simp only [ne_eq, one_ne_zero, not_false_eq_true, if_true]
      rw [run_bind, run_bind, ← hl, run_screen fs hf 0 o.screen 0 (by omega)]
      simp only [Res.ok_bind, run_pure, List.take_zero, List.nil_append, Nat.zero_add]
      exact tail o (fun dyn uniform => { o with dyn, uniform, screen := _, screenPresent := _ }) l
  unfold oamCfg oamBits
  simp only [List.append_assoc]
  rw [run_bits_bind 1 ld _ _ (by decide) h1]
  cases coded with
  | none =>
    unfold codedBits
    rw [run_bits_bind 1 1 _ _ (by decide) (by decide)]
    exact scr { o with ld, ccfl := 1024, frameLength := 1024 } l ho
  | some v =>
    unfold codedBits
    have hv := hc v rfl
    simp only [frameSamples] at hfl ⊢
    rw [List.append_assoc, run_bits_bind 1 0 _ _ (by decide) (by decide)]
    show run (bits 6 >>= _) _ = _
    rw [run_bits_bind 6 v _ _ (by decide) (by omega)]
    simp only [ne_eq, not_true_eq_false, if_false, true_and]
    rw [run_ite_neg _ _ _ (by omega)]
    exact scr { o with ld, ccfl := 1024, frameLength := (v + 1) * 64 } l ho

example : frameSamples (some 3) = 256 ∧ frameSamples (some 7) = 512 ∧ frameSamples (some 15) = 1024 := by decide

/-! ## C95: frame lengths of object metadata -/

/-- The claim C95: an object metadata element with a frame length other than 256, 512 and 1024 is refused. -/
def FrameLengthChecked : Prop :=
  ∀ (sub : Sub) (g : Sig) (idx len : Nat) (e : Elem) (d : Dec) (v : Nat) (l : List Bool) (r : (Elem × Dec) × List Bool),
    v < 64 → (v + 1) * 64 ∉ [256, 512, 1024] → len < 1536 → g.obj ≤ 24 → d.oam.screen.length = 24 →
    run (extElement sub g idx e d) (extHead 5 len none 0 ++ (oamBits 0 (some v) none 0 0 ++ l)) ≠ .ok r

/-- **C95, refuted.** The error that object metadata configuration returns is dropped. -/
theorem C95_refuted : ¬ FrameLengthChecked := by
  intro H
  have h : (run (extElement noSub ⟨0, 2, 0, 1, 0⟩ 0 Elem.zero Dec.zero)
      (extHead 5 2 none 0 ++ (oamBits 0 (some 0) none 0 0 ++ natBits 5 0))).map
        (fun r => r.1.2.oam.frameLength) = .ok 0 := by decide +kernel
  obtain ⟨c', l', hr, hc⟩ := of_map (f := fun r : Elem × Dec => r.2.oam.frameLength) h
  exact H noSub _ _ 2 _ _ 0 _ _ (by decide) (by decide) (by decide) (by decide) rfl hr

/-- **C95, the part that holds.** A frame length that is not supported is never stored: afterwards the length
is one of the three, or what it was before.  Missing: the element is not refused. -/
theorem C95_stored_partial (n : Nat) (o : Oam) (l l' : List Bool) (r : Bool × Oam)
    (h : run (oamCfg 1024 n o) l = .ok (r, l')) :
    (r.1 = false → r.2.frameLength ∈ [256, 512, 1024]) ∧ (r.1 = true → r.2.frameLength = o.frameLength) := by
  refine (?_ : Post 0 (oamCfg 1024 n o) (fun r => (r.1 = false → r.2.frameLength ∈ [256, 512, 1024]) ∧
    (r.1 = true → r.2.frameLength = o.frameLength))) l r l' h (Nat.zero_le _)
  unfold oamCfg
  refine Post.bind Post.triv fun ld _ => ?_
  refine Post.bind Post.triv fun core _ => ?_
  refine Post.bind Post.triv fun fl _ => ?_
  refine Post.ite (fun _ => Post.pure ⟨by simp, fun _ => rfl⟩) fun hc => ?_
  refine Post.bind Post.triv fun scr _ => ?_
  have hlen : (if core ≠ 0 then 1024 else (fl + 1) * 64) ∈ [256, 512, 1024] := by
    simp only [List.mem_cons, List.not_mem_nil, or_false]
    split
    · omega
    · rename_i h0
      simp only [ne_eq, not_not] at h0
      rw [if_neg (by omega)] at hc
      omega
  refine Post.bind (R := fun x => x.frameLength = if core ≠ 0 then 1024 else (fl + 1) * 64) ?_ fun x hx => ?_
  · refine Post.ite (fun _ => ?_) fun _ => Post.pure rfl
    exact Post.bind Post.triv fun _ _ => Post.pure rfl
  refine Post.bind Post.triv fun dyn _ => ?_
  refine Post.bind Post.triv fun uniform _ => Post.pure ⟨fun _ => ?_, by simp⟩
  simp only
  rw [hx]
  exact hlen

/-! ## C96: enhanced object metadata stay within the object limits -/

/-- What holds of an accepted enhanced configuration for `n` objects. -/
structure EnhOk (n : Nat) (e : Enh) : Prop where
  count : e.numDiv = (e.hasDiv.take n).countP (· ≠ 0)
  total : n + 2 * e.numDiv ≤ 24
  rendered : (e.hasDiv.take n).countP (· = 0) +
    3 * ((e.hasDiv.zip e.azRange).take n).countP (fun p => p.1 ≠ 0 ∧ 0 < p.2) ≤ 16

/-- The invariant of the loop. -/
structure EnhInv (i : Nat) (s : EnhLoop) : Prop where
  len : s.e.hasDiv.length = 24 ∧ s.e.azRange.length = 24 ∧ s.e.onlyPre.length = 24
  withDiv : s.withDiv = (s.e.hasDiv.take i).countP (· ≠ 0)
  without : s.without = (s.e.hasDiv.take i).countP (· = 0)
  gt0 : s.gt0 = ((s.e.hasDiv.zip s.e.azRange).take i).countP (fun p => p.1 ≠ 0 ∧ 0 < p.2)

theorem take_set_succ {α : Type} (x : List α) (i : Nat) (v : α) (h : i < x.length) :
    (x.set i v).take (i + 1) = x.take i ++ [v] := by
  rw [List.take_set, List.take_succ_eq_append_getElem h, List.set_append, if_neg (by simp)]
  simp [Nat.min_eq_left (Nat.le_of_lt h)]

theorem zip_take_succ (x y : List Nat) (i v : Nat) (w : Nat) (hx : i < x.length) (hy : i < y.length) :
    ((x.set i v).zip (y.set i w)).take (i + 1) = (x.zip y).take i ++ [(v, w)] := by
  rw [List.zip, List.take_zipWith, take_set_succ x i v hx, take_set_succ y i w hy, ← List.zip,
    List.zip_append (by simp; omega), List.zip, ← List.take_zipWith]
  rfl

theorem enhObj_safe (i : Nat) (hi : i < 24) (s : EnhLoop) (h : EnhInv i s) : Safe (enhObj i s) (EnhInv (i + 1)) := by
  obtain ⟨⟨l1, l2, l3⟩, h1, h2, h3⟩ := h
  unfold enhObj
  refine Safe.bits_bind (by decide) fun d hd => ?_
  refine Safe.bind (Safe.setAt (by omega)) fun t ht => ?_
  subst ht
  have hzip : ∀ w : Nat, ((s.e.hasDiv.set i d).zip (s.e.azRange.set i w)).take (i + 1) =
      (s.e.hasDiv.zip s.e.azRange).take i ++ [(d, w)] := fun w => zip_take_succ _ _ _ _ _ (by omega) (by omega)
  have hkeep : ((s.e.hasDiv.set i d).zip s.e.azRange).take (i + 1) =
      (s.e.hasDiv.zip s.e.azRange).take i ++ [(d, s.e.azRange[i]'(by omega))] := by
    have := hzip (s.e.azRange[i]'(by omega))
    rwa [List.set_getElem_self] at this
  have hset := take_set_succ s.e.hasDiv i d (by omega)
  refine Safe.bind (R := EnhInv (i + 1)) ?_ fun s' hs' => ?_
  · refine Safe.ite (fun hne => ?_) fun hne => ?_
    · refine Safe.bits_bind (by decide) fun r _ => ?_
      refine Safe.bind (Safe.setAt (by simp only; omega)) fun t ht => ?_
      subst ht
      refine Safe.pure ⟨by simp [l1, l2, l3], ?_, ?_, ?_⟩
      · simp only [hset, List.countP_append, ← h1]
        simp [hne]
      · simp only [hset, List.countP_append, ← h2]
        simp [hne]
      · simp only [hzip, List.countP_append, ← h3]
        by_cases hr : 0 < r <;> simp [hne, hr]
    · simp only [ne_eq, not_not] at hne
      refine Safe.pure ⟨by simp [l1, l2, l3], ?_, ?_, ?_⟩
      · simp only [hset, List.countP_append, ← h1]
        simp [hne]
      · simp only [hset, List.countP_append, ← h2]
        simp [hne]
      · simp only [hkeep, List.countP_append, ← h3]
        simp [hne]
  · refine Safe.ite (fun _ => ?_) fun _ => Safe.pure hs'
    refine Safe.bits_bind (by decide) fun p _ => ?_
    refine Safe.bind (Safe.setAt (by have := hs'.len; omega)) fun t ht => ?_
    subst ht
    exact Safe.pure ⟨by simp [hs'.len], hs'.withDiv, hs'.without, hs'.gt0⟩

/-- Arrays of the declared sizes. -/
def EnhLen (e : Enh) : Prop := e.hasDiv.length = 24 ∧ e.azRange.length = 24 ∧ e.onlyPre.length = 24

theorem enhCfg_safe (n : Nat) (hn : n ≤ 24) (e : Enh) (h : EnhLen e) :
    Safe (enhCfg n e) (fun e' => EnhOk n e' ∧ EnhLen e') := by
  obtain ⟨l1, l2, l3⟩ := h
  unfold enhCfg
  refine Safe.bits_bind (by decide) fun _ _ => ?_
  refine Safe.bind (Safe.bitsOr (by decide)) fun _ _ => ?_
  refine Safe.bits_bind (by decide) fun _ _ => ?_
  refine Safe.bind (Safe.optBits (by decide)) fun comExcl _ => ?_
  refine Safe.bind (Safe.optBits (by decide)) fun pre _ => ?_
  refine Safe.bits_bind (by decide) fun _ _ => ?_
  refine Safe.bind (Safe.bitsOr (by decide)) fun _ _ => ?_
  have hlen : (if comExcl ≠ 0 then List.replicate 24 pre else e.onlyPre).length = 24 := by
    split
    · exact List.length_replicate ..
    · exact l3
  refine Safe.bind (Safe.foldN EnhInv n 0 _ ⟨⟨l1, l2, hlen⟩, by simp, by simp, by simp⟩
    fun j t _ hj ht => enhObj_safe j (by omega) t ht) fun s hs => ?_
  rw [Nat.zero_add] at hs
  refine Safe.ite (fun _ => Safe.fail) fun h24 => ?_
  refine Safe.ite (fun _ => Safe.fail) fun h16 => Safe.pure ⟨⟨?_, ?_, ?_⟩, hs.len⟩
  · exact hs.withDiv
  · simp only; omega
  · simp only
    rw [← hs.without, ← hs.gt0]
    omega

/-- **C96.** An enhanced object metadata configuration is accepted only if the objects plus two extra ones for
each object with divergence are at most 24, and the objects without divergence plus three for each with a
positive range are at most 16; reading it writes to no place outside its arrays. -/
theorem C96_limits (n : Nat) (hn : n ≤ 24) (e e' : Enh) (he : EnhLen e) (l l' : List Bool)
    (h : run (enhCfg n e) l = .ok (e', l')) : EnhOk n e' :=
  ((enhCfg_safe n hn e he l).2 e' l' h).1

theorem C96_safe (n : Nat) (hn : n ≤ 24) (e : Enh) (he : EnhLen e) (l : List Bool) : run (enhCfg n e) l ≠ .ub :=
  (enhCfg_safe n hn e he l).1

/-- Three objects, the second with divergence. -/
example : (run (enhCfg 3 Enh.zero) (natBits 1 0 ++ natBits 1 0 ++ natBits 1 0 ++ (natBits 2 0) ++
      (natBits 1 1 ++ natBits 6 9 ++ natBits 1 1) ++ natBits 2 1)).map
      (fun r => (r.1.numDiv, r.1.hasDiv.take 3, r.1.azRange.take 3, r.1.onlyPre.take 3, r.2)) =
    .ok (1, [0, 1, 0], [0, 9, 0], [0, 1, 1], []) := by decide +kernel

/-- Nine objects with divergence are too many. -/
example : (run (enhCfg 9 Enh.zero) (natBits 3 0 ++ (List.replicate 9 (natBits 1 1 ++ natBits 6 9 ++ natBits 1 1)).flatten)).map
      (fun _ => ()) = .err .unsupportedNumObjs := by decide +kernel

end Verif.Config
