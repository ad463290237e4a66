import Verif.Model.Preroll
import Verif.Proofs.Asi
import Verif.Proofs.Fields
import Verif.Props.Asi
import Mathlib.Tactic.Linarith
import Mathlib.Tactic.NormNum

/-! # Properties of pre-roll handling and configuration changes (C30, C50, C55 - C57) -/

namespace Verif.Preroll

open Prog Verif.Asi

theorem configLen_safe : Safe configLen (fun v => v ≤ 285) := by
  unfold configLen
  refine Safe.bind (Safe.bits (by decide)) fun a ha => ?_
  refine Safe.ite (fun _ => ?_) (fun _ => Safe.pure (by norm_num at ha; omega))
  refine Safe.bind (Safe.bits (by decide)) fun b hb => ?_
  refine Safe.ite (fun _ => ?_) (fun _ => Safe.pure (by norm_num at hb; omega))
  exact Safe.bind (Safe.bits (by decide)) fun c hc => Safe.pure (by norm_num at hc; omega)

theorem auLoop_safe (size : Int) (frame : Nat) (offs : List Int) (hl : offs.length = 4)
    (hf : frame < 4) : Safe (auLoop size frame offs) (fun o => o.length = 4) := by
  unfold auLoop
  refine Safe.bind (Safe.bits (by decide)) fun a _ => ?_
  refine Safe.bind (Safe.optBits (by decide)) fun e _ => ?_
  refine Safe.bind Safe.avail fun c _ => ?_
  refine Safe.bind (Safe.setAt (by omega)) fun o ho => ?_
  refine Safe.ite (fun _ => Safe.fail) fun _ => ?_
  exact Safe.bind (Safe.drop (by omega)) fun _ _ => Safe.pure (by rw [ho]; simpa using hl)

theorem look_safe (n : Nat) (h : n ≤ 24) : Safe (look n) (fun _ => True) := by
  intro l
  refine ⟨?_, fun _ _ _ => trivial⟩
  simp only [run_look]
  split
  · simp
  · rw [if_neg (by omega)]; simp

/-- **C30** For every input (and position in it) pre-roll parsing stays inside `config[288]` and
`preroll_frame_offset[4]`; the number of units it delivers is at most 1, so that the caller's write
of the last offset stays inside too. -/
theorem C30_preroll_safe (isExt : Bool) (size : Int) :
    Safe (parse isExt size) (fun o => o.config.length = 288 ∧ o.configLen ≤ 288 ∧
      o.offsets.length = 4 ∧ ∀ u, o.units = some u → u ≤ 1) := by
  unfold parse
  cases isExt with
  | false => exact Safe.pure ⟨List.length_replicate, Nat.zero_le _, rfl, by intro u h; simp at h; omega⟩
  | true =>
    refine Safe.ite (fun _ => ?_) (fun h => absurd rfl h)
    refine Safe.bind (look_safe 3 (by decide)) fun w _ => ?_
    refine Safe.ite (fun _ => ?_) (fun _ => Safe.pure ⟨List.length_replicate, Nat.zero_le _, rfl,
      by intro u h; simp at h; omega⟩)
    refine Safe.ite (fun _ => Safe.pure ⟨List.length_replicate, Nat.zero_le _, rfl, by intro u h; simp at h⟩)
      (fun _ => ?_)
    refine Safe.bind (Safe.drop (by decide)) fun _ _ => ?_
    refine Safe.bind (Safe.bits (by decide)) fun pl _ => ?_
    refine Safe.bind (Safe.optBits (by decide)) fun _ _ => ?_
    refine Safe.bind configLen_safe fun len hlen => ?_
    refine Safe.bind (Safe.foldN (fun _ (c : List Nat) => c.length = 288) len 0 _ List.length_replicate
      fun j t _ hj ht => ?_) fun cfg hcfg => ?_
    · refine Safe.bind (Safe.bits (by decide)) fun b _ => ?_
      exact (Safe.setAt (by omega)).mono fun c hc => by rw [hc]; simpa using ht
    refine Safe.bind (Safe.drop (by decide)) fun _ _ => ?_
    refine Safe.bind (Safe.bits (by decide)) fun n _ => ?_
    refine Safe.bind (Safe.optBits (by decide)) fun e _ => ?_
    refine Safe.ite (fun _ => Safe.fail) fun hn => ?_
    simp only [maxPrerolls, not_lt] at hn
    refine Safe.bind (Safe.foldN (fun _ (c : List Int) => c.length = 4) (n + e) 0 _ (by simp)
      fun j t _ hj ht => auLoop_safe size j t ht (by omega)) fun offs hoffs => ?_
    exact Safe.pure ⟨hcfg, by simp only; omega, hoffs, by intro u h; simp at h; omega⟩

/-- **C30** The same for the pointer code and including the caller's write. -/
theorem C30_preroll_runC (isExt : Bool) (size m : Int) (s : BitBuf) (hs : s.WF) :
    (parse isExt size).runC s ≠ .ub ∧ ∀ o s', (parse isExt size).runC s = .ok (o, s') →
      setLast o m ≠ .ub := by
  obtain ⟨h1, h2⟩ := (C30_preroll_safe isExt size).runC s hs
  refine ⟨h1, ?_⟩
  intro o s' h
  obtain ⟨⟨-, -, h3, h4⟩, -⟩ := h2 o s' h
  unfold setLast
  have : o.units.getD 0 ≤ 1 := by
    cases hu : o.units with
    | none => simp
    | some u => exact h4 u hu
  rw [if_pos (by omega)]
  simp

/-- A pre-roll with a two-byte configuration and one access unit of one byte. -/
example : (run (parse true 88) ([false, true, false] ++ natBits 8 9 ++ natBits 4 2 ++ natBits 8 7 ++
    natBits 8 8 ++ natBits 2 0 ++ natBits 2 1 ++ natBits 16 1 ++ natBits 8 99)).map
      (fun r => (r.1.config.take 3, r.1.configLen, r.1.offsets, r.1.units, r.2)) =
    .ok ([7, 8, 0], 2, [80, 0, 0, 0], some 1, []) := by decide +kernel

/-- One access unit of the pre-roll: its bytes and their number in one or two fields. -/
def unitBits (u : List Nat) : List Bool :=
  (if u.length < 65535 then natBits 16 u.length else natBits 16 65535 ++ natBits 16 (u.length - 65535)) ++
    u.flatMap (natBits 8)

theorem bytes_length (u : List Nat) : (u.flatMap (natBits 8)).length = 8 * u.length := by
  induction u with
  | nil => rfl
  | cons b u ih => rw [List.flatMap_cons, List.length_append, ih]; simp; omega

/-- **C30** An access unit is found where it begins, and the next one where it ends. -/
theorem C30_unit (size : Int) (frame : Nat) (offs : List Int) (hf : frame < offs.length) (u : List Nat)
    (hu : u.length < 65535 + 65536) (l : List Bool) :
    run (auLoop size frame offs) (unitBits u ++ l) =
      .ok (offs.set frame (size - (8 * u.length + l.length : Nat)), l) := by
  have tail : ∀ n : Nat, n = u.length → run (do
      let c ← avail
      let offs ← setAt offs frame (size - c)
      if 8 * (n : Int) > c then fail .initFatal
      else do
        drop (8 * (n : Int))
        pure offs) (u.flatMap (natBits 8) ++ l) = .ok (offs.set frame (size - (8 * u.length + l.length : Nat)), l) := by
    intro n hn
    subst hn
    have hl : (u.flatMap (natBits 8) ++ l).length = 8 * u.length + l.length := by
      rw [List.length_append, bytes_length]
    rw [run_bind, run_avail, Res.ok_bind, run_bind, run_setAt _ _ _ _ hf, Res.ok_bind]
    dsimp only
    rw [run_ite_neg _ _ _ (by rw [hl]; push_cast; omega), run_bind, run_drop, if_neg (by omega),
      if_neg (by rw [hl]; push_cast; omega)]
    simp only [Res.ok_bind, run_pure, hl]
    rw [show (8 * (u.length : Int)).toNat = (u.flatMap (natBits 8)).length by rw [bytes_length]; omega,
      List.drop_left]
  unfold auLoop unitBits
  split
  · rename_i h
    rw [List.append_assoc, run_bits_bind 16 u.length _ _ (by decide) (by omega)]
    have hz : (u.length == 65535) = false := by simp; omega
    rw [hz]
    exact tail (u.length + 0) rfl
  · rename_i h
    rw [List.append_assoc, List.append_assoc, run_bits_bind 16 65535 _ _ (by decide) (by decide)]
    show run (bits 16 >>= _) _ = _
    rw [run_bits_bind 16 (u.length - 65535) _ _ (by decide) (by omega)]
    exact tail (65535 + (u.length - 65535)) (by omega)

/-- **C30** An access unit longer than what is left of the frame is refused. -/
theorem C30_unit_too_long (size : Int) (frame : Nat) (offs : List Int) (hf : frame < offs.length) (n : Nat)
    (hn : n < 65535) (l : List Bool) (h : l.length < 8 * n) :
    run (auLoop size frame offs) (natBits 16 n ++ l) = .err .initFatal := by
  unfold auLoop
  rw [run_bits_bind 16 n _ _ (by decide) (by omega)]
  have hz : (n == 65535) = false := by simp; omega
  rw [hz]
  show run (avail >>= _) _ = _
  rw [run_bind, run_avail, Res.ok_bind, run_bind, run_setAt _ _ _ _ hf, Res.ok_bind]
  dsimp only
  rw [run_ite_pos _ _ _ (by push_cast; omega)]
  simp

example : run (auLoop 100 0 [0, 0]) (natBits 16 3 ++ natBits 20 0) = .err .initFatal :=
  C30_unit_too_long 100 0 [0, 0] (by decide) 3 (by decide) (natBits 20 0) (by decide)

/-! ## Configuration packets -/

/-- The active configuration. -/
def CfgState.active (s : CfgState) : List Nat := s.data.take s.len

/-- The state is in good order. -/
def CfgState.WF (s : CfgState) : Prop := s.data.length = maxCfg ∧ s.len ≤ maxCfg

theorem copyTo_take (dst src : List Nat) : (copyTo dst src).take src.length = src := by
  simp [copyTo]

theorem copyTo_length (dst src : List Nat) (h : src.length ≤ dst.length) :
    (copyTo dst src).length = dst.length := by
  simp [copyTo]; omega

/-- **C50** (partial) With a non-empty active configuration and a packet of at most 768 bytes: the decoder
is flushed exactly if the packet differs from the active configuration, and the packet is the
active configuration afterwards. Missing: longer packets (`C50_refuted_long`), an empty active
configuration (`C50_refuted_empty`). -/
theorem C50_change_partial (s : CfgState) (new : List Nat) (hs : s.WF) (h0 : s.active ≠ [])
    (hn : new.length ≤ 768) :
    ∃ s' f, configPacket s new = .ok (s', f) ∧ (f = true ↔ new ≠ s.active) ∧
      s'.active = new ∧ s'.WF := by
  obtain ⟨h1, h2⟩ := hs
  have hlen : s.len ≠ 0 := by
    intro h; apply h0; simp [CfgState.active, h]
  have hmax : maxCfg = 768 := rfl
  simp only [configPacket]
  rw [if_pos hlen, if_pos (by omega)]
  by_cases hd : new.length ≠ s.len ∨ new ≠ s.data.take new.length
  · rw [if_pos hd]
    refine ⟨_, _, rfl, ?_, copyTo_take _ _, ?_, by simp only; omega⟩
    rotate_left
    · rw [← h1]; exact copyTo_length _ _ (by omega)
    simp only [true_iff]
    intro he
    have hl : new.length = s.len := by
      rw [he]; simp only [CfgState.active, List.length_take]; omega
    rcases hd with hd | hd
    · exact hd hl
    · rw [hl] at hd; exact hd he
  · rw [if_neg hd]
    push Not at hd
    refine ⟨_, _, rfl, ?_, ?_, h1, h2⟩
    · simp only [Bool.false_eq_true, false_iff, not_not]
      rw [CfgState.active, ← hd.1]; exact hd.2
    · rw [CfgState.active, ← hd.1]; exact hd.2.symm

/-- **C50** over a whole sequence of packets: each one flushes exactly if it differs from the one before.-/
theorem C50_sequence_partial (ps : List (List Nat)) : ∀ (s : CfgState), s.WF → s.active ≠ [] →
    (∀ p ∈ ps, p ≠ [] ∧ p.length ≤ 768) →
    ∃ s' fs, ps.foldlM (fun (st : CfgState × List Bool) p => do
        let (s', f) ← configPacket st.1 p
        Res.ok (s', st.2 ++ [f])) (s, []) = .ok (s', fs) ∧
      fs = (List.zipWith (fun a b => decide (b ≠ a)) (s.active :: ps) ps) := by
  suffices H : ∀ (ps : List (List Nat)) (s : CfgState) (acc : List Bool), s.WF → s.active ≠ [] →
      (∀ p ∈ ps, p ≠ [] ∧ p.length ≤ 768) →
      ∃ s' fs, ps.foldlM (fun (st : CfgState × List Bool) p => do
          let (s', f) ← configPacket st.1 p
          Res.ok (s', st.2 ++ [f])) (s, acc) = .ok (s', fs) ∧
        fs = acc ++ (List.zipWith (fun a b => decide (b ≠ a)) (s.active :: ps) ps) by
    intro s h1 h2 h3
    obtain ⟨s', fs, h4, h5⟩ := H ps s [] h1 h2 h3
    exact ⟨s', fs, h4, by simpa using h5⟩
  intro ps
  induction ps with
  | nil => intro s acc _ _ _; exact ⟨s, acc, rfl, by simp⟩
  | cons p ps ih =>
    intro s acc h1 h2 h3
    obtain ⟨s1, f, h4, h5, h6, h7⟩ := C50_change_partial s p h1 h2 (h3 p (by simp)).2
    obtain ⟨s2, fs, h8, h9⟩ := ih s1 (acc ++ [f]) h7 (by rw [h6]; exact (h3 p (by simp)).1)
      (fun q hq => h3 q (by simp [hq]))
    refine ⟨s2, fs, ?_, ?_⟩
    · rw [List.foldlM_cons]
      simp only [h4, Res.ok_bind]
      exact h8
    · rw [h9, h6]
      have : f = decide (p ≠ s.active) := by
        cases f <;> simp_all
      rw [this]
      simp

/-- The hypotheses are met by a first configuration of three bytes, and a change is seen. -/
example : configPacket { data := copyTo (List.replicate 768 0) [1, 2, 3], len := 3 } [1, 2, 4] =
    .ok ({ data := copyTo (List.replicate 768 0) [1, 2, 4], len := 3 }, true) := by
  decide +kernel

/-- **C50** is false for packets longer than the buffer: storing one is an overrun, whatever the state. -/
theorem C50_refuted_long (s : CfgState) (new : List Nat) (hn : 768 < new.length) :
    configPacket s new = .ub := by
  have : maxCfg = 768 := rfl
  simp only [configPacket]
  split <;> rw [if_neg (by omega)]

/-- **C50** is false after an empty configuration: no later configuration is detected as a change. -/
theorem C50_refuted_empty (s : CfgState) (new : List Nat) (h0 : s.len = 0) (hn : new.length ≤ 768) :
    ∃ s', configPacket s new = .ok (s', false) := by
  have : maxCfg = 768 := rfl
  simp only [configPacket, h0]
  rw [if_neg (by simp), if_pos (by omega)]
  exact ⟨_, rfl⟩

/-! ## Pre-roll configuration -/

/-- The configuration padded to the buffer. -/
def padded (cfg : List Nat) : List Nat := cfg ++ List.replicate (288 - cfg.length) 0

/-- **C56** (partial) A pre-roll configuration of the same length as the last one triggers a change exactly
if it differs. Missing: lengths that differ, see `C56_refuted`. -/
theorem C56_preroll_change_partial (a b : List Nat) (hl : a.length = b.length) (st : PreState)
    (hp : st.present = true) (ha : st.prev = padded a) :
    ((prerollConfig st (padded b)).2 = true ↔ b ≠ a) ∧ (prerollConfig st (padded b)).1.prev = padded b := by
  have key : padded a = padded b ↔ a = b := by
    constructor
    · intro h
      unfold padded at h
      exact (List.append_inj h hl).1
    · intro h; rw [h]
  unfold prerollConfig
  rw [if_pos hp, ha]
  by_cases h : padded a = padded b
  · have hab := key.1 h
    subst hab
    simp [ha]
  · have hab : a ≠ b := fun e => h (key.2 e)
    rw [if_pos h]
    exact ⟨by simp [Ne.symm hab], rfl⟩

/-- **C56** (partial) over a whole stream of pre-roll configurations of the same length, from a new decoder on:
the first is no change, and each later one is exactly if it differs from the one before. -/
theorem C56_sequence_partial (n : Nat) (c : List Nat) (cs : List (List Nat)) (hc : c.length = n) (h : ∀ d ∈ cs, d.length = n) :
    ((c :: cs).foldl (fun (st : PreState × List Bool) d =>
        ((prerollConfig st.1 (padded d)).1, st.2 ++ [(prerollConfig st.1 (padded d)).2])) ({}, [])).2 =
      false :: List.zipWith (fun a b => decide (b ≠ a)) (c :: cs) cs := by
  have H : ∀ (cs : List (List Nat)) (c : List Nat) (st : PreState) (acc : List Bool), c.length = n → (∀ d ∈ cs, d.length = n) →
      st.present = true → st.prev = padded c →
      (cs.foldl (fun (st : PreState × List Bool) d =>
        ((prerollConfig st.1 (padded d)).1, st.2 ++ [(prerollConfig st.1 (padded d)).2])) (st, acc)).2 =
      acc ++ List.zipWith (fun a b => decide (b ≠ a)) (c :: cs) cs := by
    intro cs
    induction cs with
    | nil => simp
    | cons d cs ih =>
      intro c st acc hc h hp hv
      obtain ⟨h1, h2⟩ := C56_preroll_change_partial c d (by rw [hc, h d (by simp)]) st hp hv
      have hp' : (prerollConfig st (padded d)).1.present = true := by
        unfold prerollConfig
        rw [if_pos hp]
        split <;> exact hp
      rw [List.foldl_cons, ih d _ _ (h d (by simp)) (fun e he => h e (by simp [he])) hp' h2]
      have h3 : (prerollConfig st (padded d)).2 = decide (d ≠ c) := by
        rw [Bool.eq_iff_iff]
        simpa using h1
      simp [h3]
  rw [List.foldl_cons, H cs c _ _ hc h rfl rfl]
  rfl

example : (([[1, 2], [1, 2], [1, 3]] : List (List Nat)).foldl (fun (st : PreState × List Bool) d =>
    ((prerollConfig st.1 (padded d)).1, st.2 ++ [(prerollConfig st.1 (padded d)).2])) ({}, [])).2 = [false, false, true] := by
  decide +kernel

/-- **C56** is false: the comparison is of the zero-padded buffers, so that a configuration followed by
zero bytes is taken for the shorter one; its length is not stored. -/
theorem C56_refuted : ∃ (a b : List Nat) (st : PreState), a ≠ b ∧ a ≠ [] ∧ st.present = true ∧
    st.prev = padded a ∧ (prerollConfig st (padded b)).2 = false := by
  refine ⟨[1], [1, 0], ⟨padded [1], true⟩, by decide, by decide, rfl, rfl, ?_⟩
  decide +kernel

/-! ## Pre-roll output -/

/-- **C55** (partial) If the access units of the call give the same number of bytes, the application sees
exactly the output of the last one: `a` (a pre-roll of the same size, if there is one) is dropped.  The
number of access units counted is right too.
Missing: access units of different sizes, see `C55_refuted`. -/
theorem C55_last_unit_partial (a b tail : List Nat) (hb : b ≠ []) (h : a.length = b.length) :
    (visible (a ++ b ++ tail) [a.length, b.length, 0] = b ∧ (discard [a.length, b.length, 0]).1 = 2) ∧
    (visible (b ++ tail) [b.length, 0, 0] = b ∧ (discard [b.length, 0, 0]).1 = 1) := by
  have hb' : b.length ≠ 0 := by simpa using hb
  have hb2 : ¬ b.length = 0 := hb'
  refine ⟨⟨?_, ?_⟩, ?_, ?_⟩
  · simp [visible, discard, countLoop, maxPrerolls, offsetLoop, h, hb]
  · simp [discard, countLoop, maxPrerolls, h, hb]
  · simp [visible, discard, countLoop, maxPrerolls, offsetLoop, hb]
  · simp [discard, countLoop, maxPrerolls, hb]

/-- **C55** is false if the first access unit gives less output than the second, as when the start-up delay
is removed from it: part of each is shown, and nothing if all of the first was removed. -/
theorem C55_refuted :
    visible [1, 2, 3, 4, 5, 6] [2, 4, 0] = [5, 6] ∧ visible [1, 2, 3, 4] [0, 4, 0] = [] := by decide

example : visible [1, 2, 3, 4] [2, 2, 0] = [3, 4] := by decide

end Verif.Preroll
