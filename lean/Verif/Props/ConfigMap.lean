import Verif.Props.ConfigExt
import Verif.Props.Pcm

/-! # The channel map of a configuration -/

namespace Verif.Config

open Prog

/-! ## C97: every decoded channel has its own output -/

/-- The claim C97: if the groups of a configuration declare `n` channels and nothing else, the decoder's channel
map sends the channels `0 … n - 1` to `n` different outputs. -/
def ChannelMap : Prop :=
  ∀ (sub : Sub) (user : Nat) (l l' : List Bool) (c : Cfg), run (configDec sub user Cfg.zero) l = .ok (c, l') →
    signals c = c.groups.sig.ch → Pcm.IsPerm (signals c) (c.dec.chns.take (signals c))

/-- One group of `n` channels (at most 31) with the reference layout. -/
def channels (n : Nat) : List Bool := natBits 5 0 ++ natBits 3 0 ++ natBits 5 (n - 1) ++ natBits 1 0

/-- A channel pair without tools whose second channel is shifted by `s`, coded in `nb` bits. -/
def shifted (nb s : Nat) : List Bool := natBits 2 1 ++ natBits 4 0 ++ natBits 2 0 ++ natBits 1 1 ++ natBits nb s ++ natBits 1 0

/-- Stereo, with the second channel shifted by one. -/
def stereo : List Bool := front 11 ++ channels 2 ++ oneElement (shifted 1 0) ++ natBits 1 0

theorem stereo_map : (run (configDec noSub 0 Cfg.zero) stereo).map
    (fun r => (fun c : Cfg => (signals c, c.groups.sig.ch, c.dec.chns.take 2)) r.1) = .ok (2, 2, [0, 2]) := by
  decide +kernel

/-- **C97, refuted.** The second channel of a stereo stream is sent to the third output. -/
theorem C97_refuted : ¬ ChannelMap := by
  intro H
  obtain ⟨c, l', hr, hc⟩ := of_map (f := fun c : Cfg => (signals c, c.groups.sig.ch, c.dec.chns.take 2)) stereo_map
  simp only [Prod.mk.injEq] at hc
  obtain ⟨h1, h2, h3⟩ := hc
  have hp := H noSub 0 _ l' c hr (by omega)
  rw [h1, h3] at hp
  have := hp.range 1 2 (by decide)
  omega

/-- What the listener hears: both outputs carry the first channel, whatever the second is. -/
theorem C97_lost (a b : ℚ) : (Pcm.samplesSat 1 16 [[a], [b]] [0, 2] 0 2).map (·.bytes) =
    (Pcm.samplesSat 1 16 [[a], [a]] [0, 1] 0 2).map (·.bytes) := by
  simp only [Pcm.samplesSat, Pcm.posLoop, Pcm.smpLoop, Pcm.chLoop, Pcm.fetch, Pcm.maxChannels]
  obtain ⟨x, hx, _⟩ := Pcm.C27_sample16 a
  have e : (List.replicate 24 0).set (Int.toNat 2) 1 = 0 :: 0 :: 1 :: List.replicate 21 0 := by decide
  norm_num [hx, Res.map, e]

/-! ### The part that holds -/

/-- Tools of an element: `full_band_lpd`, noise filling, enhanced noise filling with its fields. -/
structure Tools where
  lpd : Nat
  noise : Nat
  igf : Option Nat

/-- Values that fit, for `nb` bits of fields. -/
def Tools.Fits (t : Tools) (nb : Nat) : Prop := t.lpd < 2 ∧ t.noise < 2 ∧ ∀ v ∈ t.igf, v < 2 ^ nb

def igfBits (nb : Nat) : Option Nat → List Bool
  | none => natBits 1 0
  | some v => natBits 1 1 ++ natBits nb v

def toolBits (nb : Nat) (t : Tools) : List Bool :=
  natBits 1 0 ++ (natBits 1 t.lpd ++ (natBits 1 t.noise ++ igfBits nb t.igf))

/-- An element with audio; a channel pair is not shifted. -/
inductive Chan
  | single (t : Tools)
  | pair (t : Tools) (lpdStereo : Nat)
  | lfe

def Chan.Fits : Chan → Prop
  | .single t => t.Fits 13
  | .pair t s => t.Fits 14 ∧ s < 2
  | .lfe => True

def Chan.bits : Chan → List Bool
  | .single t => natBits 2 0 ++ toolBits 13 t
  | .pair t s => natBits 2 1 ++ (toolBits 14 t ++ (natBits 2 0 ++ (natBits 1 0 ++ natBits 1 s)))
  | .lfe => natBits 2 2

/-- Channels of an element. -/
def Chan.count : Chan → Nat
  | .pair _ _ => 2
  | _ => 1

/-- The map of the first `k` channels to themselves. -/
def ident (k : Nat) : List Int := (List.range k).map Int.ofNat ++ List.replicate (50 - k) (-1)

theorem mapEle_ident : ∀ k < 24, mapEle (ident k) 0 0 = (ident (k + 1), k) := by decide +kernel

theorem mapEle_ident' (k sc : Nat) (h : k < 24) : mapEle (ident k) 0 sc = (ident (k + 1), k) := by
  rw [← mapEle_ident k h]
  rfl

theorem ident_get : ∀ k < 25, ∀ i < k, (ident k)[i]? = some (i : Int) := by decide +kernel

theorem run_tools (nb : Nat) (t : Tools) (e : Elem) (hnb : nb ≤ 24) (h : t.Fits nb) (l : List Bool) :
    run (tools nb e) (toolBits nb t ++ l) =
      .ok ({ e with noise := t.noise, enhNoise := if t.igf.isSome then 1 else 0 }, l) := by
  obtain ⟨h1, h2, h3⟩ := h
  unfold tools toolBits
  simp only [List.append_assoc]
  rw [run_bits_bind 1 0 _ _ (by decide) (by decide)]
  simp only [ne_eq, not_true_eq_false, if_false]
  rw [run_bits_bind 1 t.lpd _ _ (by decide) h1, run_bits_bind 1 t.noise _ _ (by decide) h2]
  obtain ⟨lpd, noise, igf⟩ := t
  cases igf with
  | none =>
    unfold igfBits
    rw [run_bits_bind 1 0 _ _ (by decide) (by decide)]
    rfl
  | some v =>
    unfold igfBits
    rw [List.append_assoc, run_bits_bind 1 1 _ _ (by decide) (by decide)]
    simp only [Prog.when, one_ne_zero, not_false_eq_true, decide_true, if_true]
    rw [run_bind, run_bits_bind nb v _ _ hnb (h3 v rfl)]
    rfl

theorem run_element (sub : Sub) (g : Sig) (idx : Nat) (d : Dec) (c : Chan) (k : Nat) (hc : c.Fits) (hd : d.chns = ident k)
    (hk : k + c.count ≤ 24) (hi : idx < d.elems.length) (l : List Bool) :
    ∃ e, run (element sub g idx d) (c.bits ++ l) =
      .ok ({ d with elems := d.elems.set idx e, chns := ident (k + c.count) }, l) := by
  unfold element
  cases c with
  | single t =>
    unfold Chan.bits
    rw [run_getAt_bind _ _ _ _ _ (List.getElem?_eq_getElem hi), List.append_assoc,
      run_bits_bind 2 0 _ _ (by decide) (by decide)]
    simp only [OfNat.zero_ne_ofNat, zero_ne_one, if_false]
    refine ⟨{ d.elems[idx] with kind := 0, noise := t.noise, enhNoise := if t.igf.isSome then 1 else 0 }, ?_⟩
    rw [run_bind, run_tools 13 t _ (by decide) hc, Res.ok_bind]
    rw [run_bind, run_setAt _ _ _ _ hi, Res.ok_bind, hd, mapEle_ident k (by simp [Chan.count] at hk; omega)]
    rfl
  | lfe =>
    unfold Chan.bits
    rw [run_getAt_bind _ _ _ _ _ (List.getElem?_eq_getElem hi), run_bits_bind 2 2 _ _ (by decide) (by decide)]
    simp only [Nat.reduceEqDiff, if_false, if_true]
    refine ⟨{ d.elems[idx] with kind := 2, noise := 0 }, ?_⟩
    rw [run_bind, run_setAt _ _ _ _ hi, Res.ok_bind, hd, mapEle_ident k (by simp [Chan.count] at hk; omega)]
    rfl
  | pair t s =>
    obtain ⟨ht, hs⟩ := hc
    simp only [Chan.count] at hk
    unfold Chan.bits
    simp only [List.append_assoc]
    rw [run_getAt_bind _ _ _ _ _ (List.getElem?_eq_getElem hi), run_bits_bind 2 1 _ _ (by decide) (by decide)]
    simp only [OfNat.one_ne_ofNat, if_false, if_true]
    rw [run_bind]
    have hp : ∀ e, run (cpeConfig (g.ch + g.obj + g.hoa) e d.chns)
        (toolBits 14 t ++ (natBits 2 0 ++ (natBits 1 0 ++ (natBits 1 s ++ l)))) =
        .ok (({ e with noise := t.noise, enhNoise := if t.igf.isSome then 1 else 0 }, ident (k + 2)), l) := by
      intro e
      unfold cpeConfig
      rw [run_bind, run_tools 14 t e (by decide) ht, Res.ok_bind]
      rw [run_bits_bind 2 0 _ _ (by decide) (by decide), hd]
      simp only [ne_eq, not_true_eq_false, if_false]
      rw [mapEle_ident k (by omega)]
      dsimp only
      rw [run_getAt_bind _ _ _ _ _ (ident_get (k + 1) (by omega) k (by omega)), run_ite_neg _ _ _ (by omega)]
      rw [run_bits_bind 1 0 _ _ (by decide) (by decide)]
      show run (getAt (mapEle (ident (k + 1)) 0 0).1 (mapEle (ident (k + 1)) 0 0).2 >>= _) _ = _
      rw [mapEle_ident (k + 1) (by omega)]
      dsimp only
      rw [run_getAt_bind _ _ _ _ _ (ident_get (k + 1 + 1) (by omega) (k + 1) (by omega)), run_ite_neg _ _ _ (by omega)]
      rw [run_bits_bind 1 s _ _ (by decide) hs]
      rfl
    refine ⟨{ d.elems[idx] with kind := 1, noise := t.noise, enhNoise := if t.igf.isSome then 1 else 0 }, ?_⟩
    rw [hp, Res.ok_bind]
    rw [run_bind, run_setAt _ _ _ _ hi, Res.ok_bind]
    rfl

/-- Channels of a list of elements. -/
def chanCount (cs : List Chan) : Nat := (cs.map Chan.count).sum

theorem run_elements (sub : Sub) (g : Sig) (cs : List Chan) (h : ∀ c ∈ cs, c.Fits) (idx k : Nat) (d : Dec) (hd : d.chns = ident k)
    (hk : k + chanCount cs ≤ 24) (hi : idx + cs.length ≤ d.elems.length) (l : List Bool) :
    ∃ d', run (foldN (element sub g) cs.length idx d) (cs.flatMap Chan.bits ++ l) = .ok (d', l) ∧
      d'.chns = ident (k + chanCount cs) := by
  induction cs generalizing idx k d with
  | nil => exact ⟨d, rfl, hd⟩
  | cons c cs ih =>
    simp only [chanCount, List.map_cons, List.sum_cons, List.length_cons] at hk hi
    obtain ⟨e, he⟩ := run_element sub g idx d c k (h c (by simp)) hd (by omega) (by omega) (cs.flatMap Chan.bits ++ l)
    obtain ⟨d', hd', hm⟩ := ih (fun q hq => h q (by simp [hq])) (idx + 1) (k + c.count)
      { d with elems := d.elems.set idx e, chns := ident (k + c.count) } rfl (by simp only [chanCount]; omega)
      (by simp; omega)
    refine ⟨d', ?_, ?_⟩
    · show run (element sub g idx d >>= _) _ = _
      rw [List.flatMap_cons, List.append_assoc, run_bind, he]
      exact hd'
    · rw [hm]
      simp [chanCount, Nat.add_assoc]

theorem ident_perm (n : Nat) (h : n ≤ 24) : Pcm.IsPerm n ((ident n).take n) := by
  have ht : (ident n).take n = (List.range n).map Int.ofNat := by
    unfold ident
    rw [List.take_append_of_le_length (by simp)]
    exact List.take_of_length_le (by simp)
  have hg : ∀ (j : Nat) (m : Int), (Pcm.complete ((ident n).take n))[j]? = some m → m = j ∧ j < n := by
    intro j m hm
    rw [Pcm.complete_get, ht] at hm
    simp only [List.getElem?_map, Option.map_map, Option.map_eq_some_iff] at hm
    obtain ⟨a, ha, rfl⟩ := hm
    by_cases hj : j < n
    · rw [List.getElem?_range hj] at ha
      cases ha
      refine ⟨?_, hj⟩
      simp
    · rw [List.getElem?_eq_none (by simpa using hj)] at ha
      cases ha
  refine ⟨h, ?_, ?_, ?_⟩
  · rw [ht]; simp
  · intro j m hm
    obtain ⟨rfl, hj⟩ := hg j m hm
    omega
  · intro i j m hi hj
    have := (hg i m hi).1
    have := (hg j m hj).1
    omega

/-- **C97, the part that holds.** Elements with at most 24 channels, no channel pair shifted, give the map that
leaves every channel in its place, which is a permutation.  Missing: shifted pairs; more channels. -/
theorem C97_unshifted_partial (sub : Sub) (g : Sig) (d : Dec) (cs : List Chan) (lp : Nat) (l : List Bool)
    (h : ∀ c ∈ cs, c.Fits) (h0 : 0 < cs.length) (hk : chanCount cs ≤ 24) (hlp : lp < 2) (hd : d.elems.length = 50)
    (hl : cs.length ≤ 50) :
    ∃ d', run (decoderConfig sub g d) (esc 4 8 16 (cs.length - 1) ++ (natBits 1 lp ++ (cs.flatMap Chan.bits ++ l))) =
      .ok (d', l) ∧ d'.chns = ident (chanCount cs) ∧ Pcm.IsPerm (chanCount cs) (d'.chns.take (chanCount cs)) := by
  unfold decoderConfig
  rw [run_esc_bind 4 8 16 (cs.length - 1) _ _ (by decide) (by decide) (by decide) (by simp [escapeMax]; omega)]
  rw [run_ite_neg _ _ _ (by omega), run_bits_bind 1 lp _ _ (by decide) hlp, Nat.sub_add_cancel h0]
  obtain ⟨d', hd', hm⟩ := run_elements sub g cs h 0 0
    { d with chns := List.replicate 50 (-1), preroll := 0, numElem := cs.length, lenPresent := lp } rfl
    (by omega) (by simp only; omega) l
  rw [Nat.zero_add] at hm
  exact ⟨d', hd', hm, hm ▸ ident_perm _ hk⟩

/-- A pair and a low-frequency channel. -/
example : ∃ cs : List Chan, (∀ c ∈ cs, c.Fits) ∧ chanCount cs = 3 :=
  ⟨[.pair ⟨0, 1, some 77⟩ 1, .lfe], by simp [Chan.Fits, Tools.Fits], by decide⟩

/-- More than 24 channels: the 25th takes the place of the first, which is lost. -/
theorem C97_refuted_25 : mapEle (ident 24) 0 0 = (ident 24 |>.set 0 24, 0) := by decide +kernel

/-! ## C98: the channel map points to existing outputs -/

/-- The claim C98: with the channel map of an accepted configuration whose layout has as many loudspeakers as
there are channels, writing a frame of finite samples to the output is defined. -/
def MapInRange : Prop :=
  ∀ (sub : Sub) (user : Nat) (l l' : List Bool) (c : Cfg), run (configDec sub user Cfg.zero) l = .ok (c, l') →
    signals c = c.groups.sig.ch → refSpeakers c = signals c →
    Pcm.samplesSat 1 16 (List.replicate (signals c) [0]) c.dec.chns 0 (signals c) ≠ .ub

/-- 14 channels in seven pairs, the last of which has its second channel shifted by 15. -/
def far : List Bool :=
  natBits 8 13 ++ natBits 5 3 ++ natBits 3 1 ++ natBits 1 0 ++ natBits 1 1 ++ natBits 2 0 ++ natBits 6 18 ++
    channels 14 ++ (natBits 4 6 ++ natBits 1 0 ++
      (List.replicate 6 (natBits 2 1 ++ natBits 4 0 ++ natBits 2 0 ++ natBits 1 0 ++ natBits 1 0)).flatten ++ shifted 4 15) ++
    natBits 1 0

/-- **C98, refuted.** The last of 14 channels is sent to output 29; `channel_pos` has 24 entries. -/
theorem C98_refuted : ¬ MapInRange := by
  intro H
  have h : (run (configDec noSub 0 Cfg.zero) far).map (fun r => (fun c : Cfg =>
      (signals c, c.groups.sig.ch, refSpeakers c, c.dec.chns)) r.1) =
      .ok (14, 14, 14, (List.range 13).map Int.ofNat ++ 29 :: List.replicate 36 (-1)) := by decide +kernel
  obtain ⟨c, l', hr, hc⟩ := of_map (f := fun c : Cfg => (signals c, c.groups.sig.ch, refSpeakers c, c.dec.chns)) h
  simp only [Prod.mk.injEq] at hc
  obtain ⟨h1, h2, h3, h4⟩ := hc
  refine H noSub 0 _ l' c hr (by omega) (by rw [h1, h3]) ?_
  rw [h1, h4]
  have hp : Pcm.posLoop 14 0 ((List.range 13).map Int.ofNat ++ 29 :: List.replicate 36 (-1))
      (List.replicate Pcm.maxChannels 0) = .ub := by decide +kernel
  simp only [Pcm.samplesSat, hp]
  rfl

theorem freeChannel_le (chns : List Int) : 0 ≤ freeChannel chns := by
  unfold freeChannel
  have inner : ∀ (xs : List Int) (c : Int), 0 ≤ c → 0 ≤ xs.foldl (fun c x => if x = c then c + 1 else c) c := by
    intro xs
    induction xs with
    | nil => exact fun c h => h
    | cons x xs ih =>
      intro c h
      refine ih _ ?_
      dsimp only
      split <;> omega
  have outer : ∀ (ys : List Nat) (c : Int), 0 ≤ c →
      0 ≤ ys.foldl (fun c _ => (chns.take 24).foldl (fun c x => if x = c then c + 1 else c) c) c := by
    intro ys
    induction ys with
    | nil => exact fun c h => h
    | cons y ys ih => exact fun c h => ih _ (inner _ _ h)
  exact outer _ 0 (by decide)

theorem nextIdx_lt (chns : List Int) (h : chns.length = 50) : nextIdx chns < chns.length := by
  unfold nextIdx
  cases hf : (chns.take 24).findIdx? (· < 0) with
  | none => simp; omega
  | some i =>
    have := (List.findIdx?_eq_some_iff_findIdx_eq.mp hf).1
    simp at this
    simp; omega

theorem mapEle_length (chns : List Int) (a b : Nat) : (mapEle chns a b).1.length = chns.length := by simp [mapEle]

/-- The test for a shift that is too large compares it with the place it was just added to: it never fails. -/
theorem shift_test (chns : List Int) (h : chns.length = 50) (a b : Nat) (c : Int)
    (hc : (mapEle chns a b).1[(mapEle chns a b).2]? = some c) (hb : a = 0 → b = 0) : (b : Int) ≤ c := by
  have hn := nextIdx_lt chns h
  have hf := freeChannel_le chns
  simp only [mapEle, List.getElem?_set_self hn, Option.some.injEq] at hc
  subst hc
  split
  · rename_i h0
    have := hb h0
    omega
  · omega

/-- **C98, what the check does.** Every shift is accepted, whatever the number of channels: the check for shifts
that are too large is without effect. -/
theorem C98_accepted (t : Nat) (e : Elem) (chns : List Int) (h : chns.length = 50) (tl : Tools) (ht : tl.Fits 14) (sc s : Nat)
    (hsc : sc < 2 ^ shiftBits t) (hs : s < 2) (l : List Bool) :
    ∃ e', run (cpeConfig t e chns) (toolBits 14 tl ++ (natBits 2 0 ++ (natBits 1 1 ++ (natBits (shiftBits t) sc ++
      (natBits 1 s ++ l))))) = .ok ((e', (mapEle (mapEle chns 0 0).1 1 sc).1), l) := by
  have h1 := mapEle_length chns 0 0
  have g1 : ∃ c, (mapEle chns 0 0).1[(mapEle chns 0 0).2]? = some c :=
    ⟨_, List.getElem?_eq_getElem (by rw [h1]; exact nextIdx_lt chns h)⟩
  have g2 : ∃ c, (mapEle (mapEle chns 0 0).1 1 sc).1[(mapEle (mapEle chns 0 0).1 1 sc).2]? = some c :=
    ⟨_, List.getElem?_eq_getElem (by rw [mapEle_length]; exact nextIdx_lt _ (by omega))⟩
  obtain ⟨c0, g1⟩ := g1
  obtain ⟨c1, g2⟩ := g2
  have b0 := shift_test chns h 0 0 c0 g1 (fun _ => rfl)
  have b1 := shift_test _ (by omega) 1 sc c1 g2 (by simp)
  have hb : shiftBits t ≤ 24 := by unfold shiftBits; split_ifs <;> decide
  refine ⟨{ e with noise := tl.noise, enhNoise := if tl.igf.isSome then 1 else 0 }, ?_⟩
  unfold cpeConfig
  rw [run_bind, run_tools 14 tl e (by decide) ht, Res.ok_bind]
  rw [run_bits_bind 2 0 _ _ (by decide) (by decide)]
  simp only [ne_eq, not_true_eq_false, if_false]
  rw [run_getAt_bind _ _ _ _ _ g1, run_ite_neg _ _ _ (by omega)]
  rw [run_bits_bind 1 1 _ _ (by decide) (by decide)]
  show run (bits (shiftBits t) >>= _) _ = _
  rw [run_bits_bind _ sc _ _ hb hsc, run_getAt_bind _ _ _ _ _ g2, run_ite_neg _ _ _ (by omega)]
  rw [run_bits_bind 1 s _ _ (by decide) hs]
  rfl

/-- **C98, the part that holds.** Without shifts the output is defined.  Missing: shifted pairs. -/
theorem C98_unshifted_partial (n : Nat) (h : n ≤ 24) :
    ∃ r, Pcm.samplesSat 1 16 (List.replicate n [0]) ((ident n).take n) 0 n = .ok r := by
  obtain ⟨r, hr, _⟩ := Pcm.C27_frame 1 16 n (List.replicate n [0]) _ 0 (Or.inl rfl) (ident_perm n h)
    ⟨by simp, fun j row _ hr => by
      obtain ⟨_, rfl⟩ := List.getElem?_eq_some_iff.mp hr
      simp⟩
  exact ⟨r, hr⟩

end Verif.Config
