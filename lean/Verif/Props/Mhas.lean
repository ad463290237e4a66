import Verif.Model.Mhas
import Verif.Props.BitWriter
import Verif.Props.Asi
import Mathlib.Data.Nat.Bitwise
import Mathlib.Tactic.NormNum

/-!
# C08-C11, C17-C19: MHAS packets
-/

namespace Verif.Mhas

open Prog Asi

/-! ### C08: termination -/

theorem bits_consumes {n v : Nat} {l l' : List Bool} (h : run (bits n) l = .ok (v, l')) :
    l'.length + n = l.length := by
  rw [run_bits] at h
  split at h
  · simp at h
  · split at h
    · simp at h
    · simp at h
      rw [← h.2, List.length_drop]; omega

theorem readEscape_consumes {b1 b2 b3 v : Nat} {l l' : List Bool}
    (h : run (readEscape b1 b2 b3) l = .ok (v, l')) : l'.length + b1 ≤ l.length := by
  unfold readEscape at h
  simp only [run_bind_ok] at h
  obtain ⟨_, l1, h1, _, l2, h2, w, l3, h3, h4⟩ := h
  have k1 := run_length_le _ _ h1
  have k2 := run_length_le _ _ h2
  have k3 := bits_consumes h3
  have k4 := run_length_le _ _ h4
  omega

theorem header_consumes {h : Header} {l l' : List Bool} (e : run header l = .ok (h, l')) :
    l'.length + 16 ≤ l.length := by
  unfold header at e
  simp only [run_bind_ok, run_pure, Res.ok.injEq, Prod.mk.injEq] at e
  obtain ⟨_, l1, h1, _, l2, h2, _, l3, h3, _, rfl⟩ := e
  have := readEscape_consumes h1
  have := readEscape_consumes h2
  have := readEscape_consumes h3
  omega

/-- C08, progress: every turn of the packet walk consumes at least 16 bits. -/
theorem C08_progress (loud : Prog (Option ErrCode)) (st st' : St) (h : Header)
    (l l' : List Bool) (e : run (turn loud st) l = .ok ((h, st'), l')) :
    l'.length + 16 ≤ l.length := by
  unfold turn at e
  simp only [run_bind_ok, run_pure, Res.ok.injEq, Prod.mk.injEq] at e
  obtain ⟨_, l1, h1, _, l2, h2, _, rfl⟩ := e
  have := header_consumes h1
  have := run_length_le _ _ h2
  omega

/-- C08, termination: the walk never gets beyond `bits / 16 + 1` turns. The loop cut off there,
or anywhere later, with anything whatsoever (`stop`, `stop'`) put in place of the turns cut off,
gives the same outcome. -/
theorem C08_terminates (loud : Prog (Option ErrCode)) (stop stop' : Prog (Header × St))
    (fuel fuel' : Nat) (st : St) (l : List Bool) (hf : l.length / 16 < fuel)
    (hf' : l.length / 16 < fuel') :
    run (walk loud stop fuel st) l = run (walk loud stop' fuel' st) l := by
  induction fuel generalizing fuel' st l with
  | zero => omega
  | succ fuel ih =>
    obtain ⟨m, rfl⟩ : ∃ m, fuel' = m + 1 := ⟨fuel' - 1, by omega⟩
    simp only [walk]
    rw [run_bind, run_bind]
    cases ht : run (turn loud st) l with
    | ok x =>
      obtain ⟨⟨h, st'⟩, l'⟩ := x
      simp only [Res.ok_bind]
      split
      · have := C08_progress loud st st' h l l' ht
        exact ih m st' l' (by omega) (by omega)
      · rfl
    | jump => rfl
    | err c => rfl
    | ub => rfl

theorem walk_succ (loud : Prog (Option ErrCode)) (stop : Prog (Header × St)) (fuel : Nat) (st : St)
    (l : List Bool) : run (walk loud stop (fuel + 1) st) l =
      (run (turn loud st) l >>= fun x => run (if continues x.1.1 x.1.2 then
        walk loud stop fuel x.1.2 else pure x.1) x.2) := by
  simp only [walk]
  rw [run_bind]

theorem payload_pcm {loud : Prog (Option ErrCode)} {h : Header} {st st' : St} {l l' : List Bool}
    (e : run (payload loud h st) l = .ok (st', l')) (hst : st.pcmTypePresent = false)
    (hp : st'.pcmTypePresent = true) : h.type = 20 ∨ h.type = 21 := by
  unfold payload at e
  split at e <;> rename_i ht
  case h_5 => exact .inl ht
  case h_6 => exact .inr ht
  case h_2 =>
    simp only [run_bind_ok] at e
    obtain ⟨_, _, _, e⟩ := e
    split at e
    · simp at e
    · simp only [run_pure, Res.ok.injEq, Prod.mk.injEq] at e
      rw [← e.1] at hp; simp_all
  all_goals
    simp only [run_bind_ok, run_pure, Res.ok.injEq, Prod.mk.injEq] at e
  case h_1 => obtain ⟨_, _, _, _, _, _, _, _, _, rfl, _⟩ := e; simp_all
  case h_3 => obtain ⟨_, _, _, rfl, _⟩ := e; simp_all
  case h_4 => obtain ⟨_, _, _, _, _, _, _, _, _, rfl, _⟩ := e; simp_all
  case h_7 => obtain ⟨_, _, _, rfl, _⟩ := e; simp_all
  case h_8 => obtain ⟨rfl, _⟩ := e; simp_all
  case h_9 => obtain ⟨rfl, _⟩ := e; simp_all
  case h_10 => obtain ⟨_, _, _, rfl, _⟩ := e; simp_all

/-- C08, result: for every input the parser either ends with an error code, with the
insufficient-input jump, with undefined behaviour inside a payload parser (see C11, C17, C18), or
it returns at a configuration (1), frame (2) or PCM (20, 21) packet. -/
theorem C08_returns (loud : Prog (Option ErrCode)) (st st' : St) (h : Header) (l l' : List Bool)
    (e : run (parse loud st) l = .ok ((h, st'), l')) :
    h.type = 1 ∨ h.type = 2 ∨ h.type = 20 ∨ h.type = 21 := by
  have key : ∀ (fuel : Nat) (st : St) (l : List Bool), st.pcmTypePresent = false →
      run (walk loud undef fuel st) l = .ok ((h, st'), l') →
      h.type = 1 ∨ h.type = 2 ∨ h.type = 20 ∨ h.type = 21 := by
    intro fuel
    induction fuel with
    | zero => intro st l _ e; simp [walk] at e
    | succ fuel ih =>
      intro st l hst e
      simp only [walk, run_bind_ok] at e
      obtain ⟨⟨h1, st1⟩, l1, e1, e2⟩ := e
      simp only at e2
      split at e2
      · rename_i hc
        refine ih st1 l1 ?_ e2
        unfold continues at hc
        simp at hc
        exact hc.2
      · rename_i hc
        simp only [run_pure, Res.ok.injEq, Prod.mk.injEq] at e2
        obtain ⟨⟨rfl, rfl⟩, -⟩ := e2
        unfold turn at e1
        simp only [run_bind_ok, run_pure, Res.ok.injEq, Prod.mk.injEq] at e1
        obtain ⟨h2, l2, f1, st2, l3, f2, ⟨rfl, rfl⟩, _⟩ := e1
        unfold continues at hc
        by_cases t1 : h2.type = 1
        · exact .inl t1
        · by_cases t2 : h2.type = 2
          · exact .inr (.inl t2)
          · have : st2.pcmTypePresent = true := by simpa [t1, t2] using hc
            exact .inr (.inr (payload_pcm f2 hst this))
  unfold parse at e
  rw [run_bind, run_avail] at e
  exact key _ _ _ rfl e

/-! ### Packet headers as written -/

/-- `MHASPacket()` header fields (ISO/IEC 23008-3 clause 14). -/
def headerBits (type label len : Nat) : List Bool :=
  fieldBits (escapeFields type 3 8 8) ++ (fieldBits (escapeFields label 2 8 32) ++
    fieldBits (escapeFields len 11 24 24))

theorem run_label (label : Nat) (hl : label ≤ 257) (l : List Bool) :
    run (readEscape 2 8 32) (fieldBits (escapeFields label 2 8 32) ++ l) = .ok (label, l) := by
  unfold readEscape escapeFields WBuf.escMax
  rw [if_pos (by omega), if_pos (by omega)]
  simp only [Prog.lift]
  show Prog.run (Prog.bits 2 >>= _) _ = _
  by_cases c1 : label < 2 ^ 2 - 1
  · rw [if_pos c1]
    simp only [fieldBits, List.append_nil]
    rw [run_bits_bind _ _ _ _ (by decide) (by omega), run_ite_neg _ _ _ (by omega)]
    rfl
  · rw [if_neg c1, if_pos (by omega)]
    simp only [fieldBits, List.append_nil, List.append_assoc]
    rw [run_bits_bind _ _ _ _ (by decide) (by omega), run_ite_pos _ _ _ rfl,
      run_bits_bind _ _ _ _ (by decide) (by omega), run_ite_neg _ _ _ (by omega), run_pure,
      Nat.mod_eq_of_lt (by omega)]
    congr 2; omega

/-- The header of a packet with a label below the last escape is read back. -/
theorem run_header (type label len : Nat) (ht : type ≤ escapeMax 3 8 8) (hl : label ≤ 257)
    (hn : len ≤ escapeMax 11 24 24) (l : List Bool) :
    run header (headerBits type label len ++ l) = .ok ({ type, label, len }, l) := by
  unfold header headerBits
  simp only [List.append_assoc]
  rw [run_bind, C05_reader _ _ _ _ (by decide) (by decide) (by decide) ht]
  simp only [Res.ok_bind]
  rw [run_bind, run_label label hl]
  simp only [Res.ok_bind]
  rw [run_bind, C05_reader _ _ _ _ (by decide) (by decide) (by decide) hn]
  rfl

/-! ### C09 -/

/-- The packet types the parser acts on. -/
def handled : List Nat := [1, 2, 3, 6, 12, 19, 20, 21, 22]

theorem payload_unhandled (loud : Prog (Option ErrCode)) (h : Header) (st : St)
    (hu : h.type ∉ handled) (p l : List Bool) (hp : p.length = 8 * h.len) :
    run (payload loud h st) (p ++ l) = .ok (st, l) := by
  unfold payload
  split
  case h_10 =>
    rw [run_bind, run_drop, if_neg (by omega), if_neg (by simp; omega)]
    simp only [Res.ok_bind, run_pure]
    rw [show (8 * (h.len : Int)).toNat = p.length by omega]
    simp
  all_goals
    rename_i ht
    exact absurd (by rw [ht]; decide) hu

/-- C09: a packet of unhandled type in front of a stream makes no difference to the outcome of
the packet parser on the stream: same packet found, same decoder state, same rest of input, same
error. (Labels from 258 on are the subject of C11.) -/
theorem C09_unhandled_skipped (loud : Prog (Option ErrCode)) (st : St) (type label len : Nat)
    (hu : type ∉ handled) (ht : type ≤ escapeMax 3 8 8) (hl : label ≤ 257)
    (hn : len ≤ escapeMax 11 24 24) (p rest : List Bool) (hp : p.length = 8 * len) :
    run (parse loud st) (headerBits type label len ++ (p ++ rest)) =
      run (parse loud st) rest := by
  unfold parse
  rw [run_bind, run_bind, run_avail, run_avail]
  simp only [Res.ok_bind]
  generalize hst : ({ st with pcmTypePresent := false, pcmDataPresent := false,
                              pending := none } : St) = st0
  have h0 : st0.pcmTypePresent = false := by rw [← hst]
  have hturn : run (turn loud st0) (headerBits type label len ++ (p ++ rest)) =
      .ok (({ type, label, len }, st0), rest) := by
    unfold turn
    rw [run_bind, run_header type label len ht hl hn]
    simp only [Res.ok_bind]
    rw [run_bind, payload_unhandled loud _ st0 hu p rest hp]
    rfl
  have hlen := C08_progress loud st0 st0 _ _ _ hturn
  rw [walk_succ, hturn]
  simp only [Res.ok_bind]
  have hc : continues { type, label, len } st0 = true := by
    unfold continues
    rw [h0]
    simp only [handled, List.mem_cons, List.not_mem_nil, or_false, not_or] at hu
    simp [hu.1, hu.2.1]
  rw [if_pos hc]
  apply C08_terminates
  · omega
  · omega

/-- A fill packet (type 0) of 3 bytes and an unknown packet of type 300 meet the hypotheses. -/
example : 0 ∉ handled ∧ 300 ∉ handled ∧ 300 > escapeMax 3 8 0 ∧ 300 ≤ escapeMax 3 8 8 := by decide

/-! ### C10 -/

/-- C10: a sync packet is passed over exactly when its length is 1 and its byte is 0xA5;
otherwise the call returns the sync error. -/
theorem C10_sync (loud : Prog (Option ErrCode)) (st : St) (label len b : Nat)
    (hl : label ≤ 257) (hn : len ≤ escapeMax 11 24 24) (hb : b < 256) (rest : List Bool) :
    run (parse loud st) (headerBits 6 label len ++ (natBits 8 b ++ rest)) =
      if len = 1 ∧ b = 0xA5 then run (parse loud st) rest else .err .invalidSyncByte := by
  unfold parse
  rw [run_bind, run_bind, run_avail, run_avail]
  simp only [Res.ok_bind]
  generalize hst : ({ st with pcmTypePresent := false, pcmDataPresent := false,
                              pending := none } : St) = st0
  have h0 : st0.pcmTypePresent = false := by rw [← hst]
  have hturn : run (turn loud st0) (headerBits 6 label len ++ (natBits 8 b ++ rest)) =
      if len = 1 ∧ b = 0xA5 then .ok (({ type := 6, label, len }, st0), rest)
      else .err .invalidSyncByte := by
    unfold turn
    rw [run_bind, run_header 6 label len (by decide) hl hn]
    simp only [Res.ok_bind]
    rw [run_bind]
    simp only [payload]
    rw [run_bits_bind _ _ _ _ (by decide) (by omega)]
    by_cases hc : len = 1 ∧ b = 0xA5
    · rw [run_ite_neg _ _ _ (by omega), if_pos hc]; rfl
    · rw [run_ite_pos _ _ _ (by omega), if_neg hc]; rfl
  rw [walk_succ, hturn]
  by_cases hc : len = 1 ∧ b = 0xA5
  · rw [if_pos hc, if_pos hc]
    simp only [Res.ok_bind]
    rw [if_pos (by simp [continues, h0])]
    rw [if_pos hc] at hturn
    have hlen := C08_progress loud st0 st0 _ _ _ hturn
    apply C08_terminates
    · omega
    · omega
  · rw [if_neg hc, if_neg hc]; rfl

/-! ### C11 -/

/-- C11 is false: a header whose label uses the last escape is undefined behaviour at every
alignment of the input, as soon as the 32 bits are there. -/
theorem C11_refuted (s : BitBuf) (hs : s.WF) (type : Nat) (ht : type ≤ escapeMax 3 8 8)
    (l : List Bool) (hl : 32 ≤ l.length)
    (hr : s.rest = fieldBits (escapeFields type 3 8 8) ++ (natBits 2 3 ++ (natBits 8 255 ++ l))) :
    header.runC s = .ub := by
  have e0 : readEscape 2 8 32 = (do
      let v ← bits 2
      if v = 3 then do
        let v ← bits 8
        if v = 255 then do
          let v ← bits 32
          pure ((v + 255 + 3) % 2 ^ 32)
        else pure ((v + 3) % 2 ^ 32)
      else pure v) := rfl
  unfold header
  rw [runC_bind]
  have h1 := C05_reader type 3 8 8 (by decide) (by decide) (by decide) ht
    (natBits 2 3 ++ (natBits 8 255 ++ l))
  rw [← hr] at h1
  have s1 := sim (readEscape 3 8 8) s hs
  rw [h1] at s1
  obtain ⟨t, g1, g2, _, _, g5⟩ := s1
  rw [g1]
  simp only [Res.ok_bind]
  rw [runC_bind, e0, runC_bind]
  have s2 := sim (bits 2) t g2
  rw [g5, run_bits_append 2 3 (by decide)] at s2
  obtain ⟨u, k1, k2, _, _, k5⟩ := s2
  rw [k1]
  simp only [Res.ok_bind]
  rw [if_pos (by decide), runC_bind]
  have s3 := sim (bits 8) u k2
  rw [k5, run_bits_append 8 255 (by decide)] at s3
  obtain ⟨v, m1, m2, _, _, m5⟩ := s3
  rw [m1]
  simp only [Res.ok_bind]
  rw [if_pos (by decide), runC_bind]
  have hcnt : 32 ≤ v.cnt := by
    have := BitBuf.rest_length v m2
    rw [m5] at this
    omega
  have : (bits 32).runC v = .ub := by
    simp only [bits, runC, C06_read32_via_read_refuted v m2 hcnt]
  rw [this]
  rfl

/-- C11, labels up to 257 (no or first escape only): read back by the pointer code at every
alignment. Missing: labels from 258 on, where it is false (`C11_refuted`). -/
theorem C11_labels_partial (s : BitBuf) (hs : s.WF) (type label len : Nat)
    (ht : type ≤ escapeMax 3 8 8) (hl : label ≤ 257) (hn : len ≤ escapeMax 11 24 24)
    (l : List Bool) (hr : s.rest = headerBits type label len ++ l) :
    ∃ s', header.runC s = .ok ({ type, label, len }, s') ∧ s'.WF ∧ s'.rest = l := by
  have h := sim header s hs
  rw [hr, run_header type label len ht hl hn] at h
  obtain ⟨s', h1, h2, _, _, h3⟩ := h
  exact ⟨s', h1, h2, h3⟩

/-- A buffer holding such a header exists: type 0, label escape, then ample bytes. -/
example : (BitBuf.create [0x1F, 0xF8, 0, 0, 0, 0, 0, 0, 0]).WF ∧
    (BitBuf.create [0x1F, 0xF8, 0, 0, 0, 0, 0, 0, 0]).rest =
      fieldBits (escapeFields 0 3 8 8) ++ (natBits 2 3 ++ (natBits 8 255 ++ natBits 59 0)) := by
  refine ⟨BitBuf.create_wf _, ?_⟩
  rw [BitBuf.create_rest]
  decide +kernel

/-! ### C17 -/

theorem earcon_safe (cnt : Nat) (hc : cnt < 16) (st : List Earcon × List Nat)
    (h : st.1.length = cnt ∧ st.2.length = 16 ∧ ∀ n ∈ st.2, n < 16) :
    Safe (earcon cnt st) (fun r => r.1.length = cnt + 1 ∧ r.2.length = 16 ∧ ∀ n ∈ r.2, n < 16) := by
  obtain ⟨h1, h2, h3⟩ := h
  unfold earcon
  iterate 13 safe_step
  refine Safe.bind (Safe.getAt (by omega)) fun old hold => ?_
  have holdlt : old < 16 := h3 old (List.mem_of_getElem? hold)
  refine Safe.bind (Safe.bitsOr (by decide)) fun nl hnl => ?_
  refine Safe.bind (Safe.setAt (by omega)) fun langs hlangs => ?_
  refine Safe.bind (Safe.forN _ _ (P := fun _ => True) fun j _ hj => ?_) fun texts _ => ?_
  · unfold earconText
    safe_step
    safe_step
    refine Safe.bind (Safe.bits (by decide)) fun len hlen => ?_
    refine Safe.bind (Safe.forN _ _ (P := fun _ => True)
      fun q _ hq => (safe_cell _ _ _ (by omega) (by omega) (by decide)).mono fun _ _ => trivial)
      fun _ _ => Safe.pure trivial
  · refine Safe.pure ⟨by simp [h1], by simp [hlangs, h2], ?_⟩
    subst hlangs
    exact forall_set h3 (by omega)

/-- C17 for every announced count except 16: no store outside the tables, at most 16 earcons.
Missing: the announced count 16, where it is false (`C17_refuted`). -/
theorem C17_earcon_tables_partial (langs : List Nat) (hl : langs.length = 16)
    (hlt : ∀ n ∈ langs, n < 16) (n : Nat) (hn : n < 128) (hn16 : n ≠ 16) (l : List Bool) :
    run (earcons langs) (natBits 7 n ++ l) ≠ .ub ∧
      ∀ es ls l', run (earcons langs) (natBits 7 n ++ l) = .ok ((es, ls), l') →
        es.length = n + 1 ∧ es.length ≤ 16 ∧ ls.length = 16 ∧ ∀ k ∈ ls, k < 16 := by
  unfold earcons
  rw [run_bits_bind _ _ _ _ (by decide) (by omega)]
  by_cases h16 : n > 16
  · rw [run_ite_pos _ _ _ h16]
    exact ⟨by simp, fun _ _ _ e => by simp at e⟩
  · rw [run_ite_neg _ _ _ h16]
    have := Safe.foldN (f := earcon) (fun j st => st.1.length = j ∧ st.2.length = 16 ∧
      ∀ n ∈ st.2, n < 16) (n + 1) 0 ([], langs) ⟨rfl, hl, hlt⟩
      (fun j t _ hj ht => earcon_safe j (by omega) t ht) l
    refine ⟨this.1, ?_⟩
    intro es ls l' e
    have h := this.2 _ _ e
    simp only [Nat.zero_add] at h
    exact ⟨h.1, by omega, h.2.1, h.2.2⟩

/-- C17 is false: with an announced count of 16 the parser processes 17 earcons, and whenever the
first 16 are readable the seventeenth is stored outside the tables. -/
theorem C17_refuted (langs : List Nat) (l l' : List Bool) (st : List Earcon × List Nat)
    (h : run (foldN earcon 16 0 ([], langs)) l = .ok (st, l')) :
    run (earcons langs) (natBits 7 16 ++ l) = .ub := by
  unfold earcons
  rw [run_bits_bind _ _ _ _ (by decide) (by omega), run_ite_neg _ _ _ (by decide),
    show 16 + 1 = 16 + 1 from rfl, run_foldN_add, h]
  simp only [Res.ok_bind, foldN]
  rw [run_bind]
  unfold earcon
  rw [run_bind]
  rfl

/-- 16 minimal earcons are readable from 16 * 25 zero bits. -/
example : ((run (foldN earcon 16 0 ([], List.replicate 16 0))
    (List.replicate 400 false)).map (fun x => x.1.1.length)) = .ok 16 := by decide +kernel

/-! ### C18 -/

theorem sample_safe (bps : Nat) (h : bps = 16 ∨ bps = 24 ∨ bps = 32) :
    Safe (sample bps) (fun _ => True) := by
  unfold sample
  refine Safe.ite (fun _ => ?_) fun _ => Safe.ite (fun _ => ?_) fun _ =>
    Safe.ite (fun _ => ?_) fun _ => by omega
  · safe_step; exact Safe.pure trivial
  · safe_step; exact Safe.pure trivial
  · refine (Safe.foldN (fun _ _ => True) 4 0 0 trivial fun j t _ _ _ => ?_)
    safe_step; exact Safe.pure trivial

/-- A PCM configuration never leaves a table, and what it accepts has a tabulated sample width. -/
theorem C18_config_safe (p : Pcm) (hb : p.bitsPerSample = 16 ∨ p.bitsPerSample = 24 ∨
      p.bitsPerSample = 32 ∨ p.bitsPerSample = 0) :
    Safe (pcmConfig p) (fun q => (q.bitsPerSample = 16 ∨ q.bitsPerSample = 24 ∨
      q.bitsPerSample = 32 ∨ q.bitsPerSample = 0) ∧ q.frameSizeIdx < max 8 (p.frameSizeIdx + 1)) := by
  unfold pcmConfig
  safe_step
  rename_i ns hns
  safe_step
  refine Safe.bind (Safe.bits (by decide)) fun ri hri => ?_
  have hlen : rateTbl.length = 32 := rfl
  refine Safe.bind (Safe.getAt (by omega)) fun r0 _ => ?_
  refine Safe.bind (Safe.bitsOr (by decide)) fun rate _ => ?_
  refine Safe.bind (Safe.bits (by decide)) fun bi hbi => ?_
  refine Safe.ite (fun _ => Safe.pure ⟨hb, by simp only; omega⟩) fun hbi2 => ?_
  have hlen3 : bitsPerSampleTbl.length = 3 := rfl
  refine Safe.bind (Safe.getAt (by omega)) fun bps hbps => ?_
  refine Safe.bind (Safe.bits (by decide)) fun fi hfi => ?_
  refine Safe.bind (Safe.bitsOr (by decide)) fun ff _ => ?_
  refine Safe.bind (Safe.forN _ _ (P := fun _ => True)
      fun q _ hq => (safe_cell _ _ _ (by omega) (by omega) (by decide)).mono fun _ _ => trivial)
      fun ids _ => ?_
  safe_step
  safe_step
  refine Safe.bind (Safe.bitsOr (by decide)) fun ag _ => ?_
  refine Safe.pure ⟨?_, by simp only; omega⟩
  simp only
  have : bi = 0 ∨ bi = 1 ∨ bi = 2 := by omega
  rcases this with rfl | rfl | rfl <;> simp [bitsPerSampleTbl] at hbps <;> omega

/-- C18 for frame size indices 0, 1, 2 (no samples, 768, 1024): every table access is inside its
table and every one of the announced signals gets exactly the tabulated number of samples.
Missing: indices 3 to 7, where it is false (`C18_refuted_lookup`, `C18_refuted_samples`). -/
theorem C18_frame_size_partial (p : Pcm) (hb : p.bitsPerSample = 16 ∨ p.bitsPerSample = 24 ∨
    p.bitsPerSample = 32) (hi : p.frameSizeIdx = 1 ∨ p.frameSizeIdx = 2) :
    Safe (pcmData p) (fun q => q.numInFrame = 0 ∧ q.samples = p.samples ∨
      q.samples.length = (if p.frameSizeIdx = 1 then 768 else 1024) ∧
      ∀ row ∈ q.samples, row.length = q.numInFrame + 1) := by
  unfold pcmData
  refine Safe.bind (Safe.bits (by decide)) fun n hn => ?_
  refine Safe.ite (fun _ => Safe.pure (.inl ⟨rfl, rfl⟩)) fun h23 => ?_
  refine Safe.bind (Safe.forN _ _ (P := fun _ => True)
      fun q _ hq => (safe_cell _ _ _ (by omega) (by omega) (by decide)).mono fun _ _ => trivial)
      fun ids _ => ?_
  refine Safe.bind (Safe.bitsOr (by decide)) fun ag _ => ?_
  refine Safe.bind (Safe.bitsOr (by decide)) fun vf _ => ?_
  refine Safe.ite (fun h0 => ?_) fun h0 => ?_
  · simp only at h0; omega
  · refine Safe.bind (R := fun r => r.2 = if p.frameSizeIdx = 1 then 768 else 1024) ?_ fun r hr => ?_
    · unfold frameSize
      have hlen5 : frameSizeTbl.length = 5 := rfl
      rcases hi with h | h <;> simp only [h]
      · exact Safe.bind (Safe.getAt (by simp; decide)) fun v hv => Safe.pure (by
          simp [frameSizeTbl] at hv; simp [hv])
      · exact Safe.bind (Safe.getAt (by simp; decide)) fun v hv => Safe.pure (by
          simp [frameSizeTbl] at hv; simp [hv])
    · refine Safe.bind (Safe.forN _ _ (P := fun row => row.length = n + 1) fun cnt _ hcnt => ?_)
        fun samples hs => ?_
      · have hr' : r.2 ≤ 1024 := by rw [hr]; split <;> omega
        refine (Safe.forN _ _ (P := fun _ => True) fun ch _ hch => ?_).mono fun x hx => hx.1
        refine Safe.bind (Safe.inTable (by omega) (by omega)) fun _ _ => ?_
        refine Safe.bind (Safe.inTable (by omega) (by omega)) fun _ _ => ?_
        exact sample_safe _ (by simpa using hb)
      · refine Safe.pure (.inr ⟨?_, hs.2⟩)
        rw [← hr]; exact hs.1

/-- C18 is false for an explicitly coded fixed size: whatever the size from 5 on, it is used as an
*index* of the five-entry table. -/
theorem C18_refuted_lookup (p : Pcm) (hi : p.frameSizeIdx = 5) (hsz : 5 ≤ p.fixFrameSize)
    (hg : p.hasAttGain ≠ 2) (n : Nat) (hn : n ≤ 23) (ids : List Nat) (hids : ids.length = n + 1)
    (hid : ∀ i ∈ ids, i < 128) (l : List Bool) :
    run (pcmData p) (natBits 7 n ++ (ids.flatMap (natBits 7) ++ l)) = .ub := by
  unfold pcmData
  rw [run_bits_bind _ _ _ _ (by decide) (by omega), run_ite_neg _ _ _ (by omega),
    run_forN_bind _ (natBits 7) ids 0 _ _ hids.symm]
  · have b1 : bitsOr (decide (p.hasAttGain = 2)) 8 p.attGain = pure p.attGain := by
      simp [bitsOr, hg]
    have b2 : bitsOr (decide (p.frameSizeIdx = 6)) 16 p.varFrameSize = pure p.varFrameSize := by
      simp [bitsOr, hi]
    rw [b1, b2, run_bind, run_pure]
    simp only [Res.ok_bind]
    rw [run_bind, run_pure]
    simp only [Res.ok_bind]
    rw [run_ite_neg _ _ _ (by omega), run_bind]
    unfold frameSize
    have : getAt frameSizeTbl p.fixFrameSize = undef := by
      unfold getAt
      have : frameSizeTbl[p.fixFrameSize]? = none := by
        rw [List.getElem?_eq_none_iff]; exact hsz
      rw [this]
    simp only [hi, if_true, this]
    rfl
  · intro j a ha l'
    have hj : j < ids.length := (List.getElem?_eq_some_iff.mp ha).1
    rw [run_inTable_bind _ _ _ _ (by omega), run_bits_append _ _ (by decide),
      Nat.mod_eq_of_lt (hid a (List.mem_of_getElem? ha))]

/-- A stored configuration with the explicit frame size 960 meets the hypotheses. -/
example : ∃ p : Pcm, p.frameSizeIdx = 5 ∧ 5 ≤ p.fixFrameSize ∧ p.hasAttGain ≠ 2 :=
  ⟨{ frameSizeIdx := 5, fixFrameSize := 960 }, by decide⟩

theorem run_forN_add {α : Type} (f : Nat → Prog α) (k m i : Nat) (l : List Bool) :
    run (forN f (k + m) i) l =
      (run (forN f k i) l >>= fun x => run (forN f m (i + k)) x.2 >>= fun y =>
        .ok (x.1 ++ y.1, y.2)) := by
  induction k generalizing i l with
  | zero =>
    simp only [forN, Nat.zero_add, run_pure, Res.ok_bind, Nat.add_zero, List.nil_append]
    cases run (forN f m i) l <;> rfl
  | succ k ih =>
    rw [show k + 1 + m = (k + m) + 1 by omega]
    simp only [forN, run_bind, Res.bind_assoc']
    congr 1
    funext x
    rw [ih (i + 1), show i + 1 + k = i + (k + 1) by omega]
    simp only [Res.bind_assoc', run_pure, Res.ok_bind, List.cons_append]

/-- One row of samples, as the loop of `pcmData` reads it. -/
def sampleRow (p : Pcm) (n cnt : Nat) : Prog (List Int) := forN (fun ch => do
  inTable ch 24
  inTable cnt 1024
  sample p.bitsPerSample) (n + 1) 0

/-- C18 is false for the tabulated sizes 2048 and 4096: once 1024 rows of samples are readable,
the next one is stored outside the sample table. -/
theorem C18_refuted_samples (p : Pcm) (hi : p.frameSizeIdx = 3 ∨ p.frameSizeIdx = 4)
    (hg : p.hasAttGain ≠ 2) (n : Nat) (hn : n ≤ 23) (ids : List Nat) (hids : ids.length = n + 1)
    (hid : ∀ i ∈ ids, i < 128) (rows : List (List Int)) (l l' : List Bool)
    (hrows : run (forN (sampleRow p n) 1024 0) l = .ok (rows, l')) :
    run (pcmData p) (natBits 7 n ++ (ids.flatMap (natBits 7) ++ l)) = .ub := by
  unfold pcmData
  rw [run_bits_bind _ _ _ _ (by decide) (by omega), run_ite_neg _ _ _ (by omega),
    run_forN_bind _ (natBits 7) ids 0 _ _ hids.symm]
  · have b1 : bitsOr (decide (p.hasAttGain = 2)) 8 p.attGain = pure p.attGain := by
      simp [bitsOr, hg]
    have b2 : bitsOr (decide (p.frameSizeIdx = 6)) 16 p.varFrameSize = pure p.varFrameSize := by
      have : p.frameSizeIdx ≠ 6 := by omega
      simp [bitsOr, this]
    rw [b1, b2, run_bind, run_pure]
    simp only [Res.ok_bind]
    rw [run_bind, run_pure]
    simp only [Res.ok_bind]
    rw [run_ite_neg _ _ _ (by omega), run_bind]
    have hfs : ∃ m, run (frameSize
        { p with numInFrame := n, signalIds := ids, attGain := p.attGain, varFrameSize := p.varFrameSize }) l = .ok ((p.frameSizeIdx, 1024 + (m + 1)), l) := by
      unfold frameSize
      rcases hi with h | h <;> simp only [h]
      · exact ⟨1023, rfl⟩
      · exact ⟨3071, rfl⟩
    obtain ⟨m, hfs⟩ := hfs
    rw [hfs]
    simp only [Res.ok_bind]
    rw [run_bind]
    show (run (forN (sampleRow p n) (1024 + (m + 1)) 0) l >>= _) = _
    rw [run_forN_add, hrows]
    simp only [Res.ok_bind, forN]
    rw [run_bind]
    have : run (sampleRow p n (0 + 1024)) l' = .ub := by
      unfold sampleRow
      simp only [forN]
      rw [run_bind, run_inTable_bind _ _ _ _ (by omega), run_bind]
      rfl
    rw [this]
    rfl
  · intro j a ha l'
    have hj : j < ids.length := (List.getElem?_eq_some_iff.mp ha).1
    rw [run_inTable_bind _ _ _ _ (by omega), run_bits_append _ _ (by decide),
      Nat.mod_eq_of_lt (hid a (List.mem_of_getElem? ha))]

/-- 1024 rows of one 16-bit signal are readable from 16384 zero bits. -/
example : ∃ rows l', run (forN (sampleRow { frameSizeIdx := 3, bitsPerSample := 16 } 0) 1024 0)
    ((List.replicate 1024 [(0 : Int)]).flatMap (fun _ => natBits 16 0) ++ []) = .ok (rows, l') := by
  have h := run_forN_items (sampleRow { frameSizeIdx := 3, bitsPerSample := 16 } 0)
    (fun _ => natBits 16 0) (List.replicate 1024 [(0 : Int)]) 0 ?_ []
  · rw [List.length_replicate] at h
    exact ⟨_, _, h⟩
  intro j a ha l
  have hj := (List.getElem?_eq_some_iff.mp ha).1
  rw [List.length_replicate] at hj
  have ha0 : a = [0] := by
    have := List.mem_of_getElem? ha
    exact List.eq_of_mem_replicate this
  subst ha0
  unfold sampleRow
  simp only [forN]
  rw [run_bind, run_inTable_bind _ _ _ _ (by omega), run_inTable_bind _ _ _ _ (by omega),
    show run (sample 16) (natBits 16 0 ++ l) = .ok (0, l) from by
      unfold sample; rw [run_ite_pos _ _ _ rfl, run_bits_bind _ _ _ _ (by decide) (by decide)]; rfl]
  rfl

/-! ### C19 -/

theorem and_pow_ne_zero (x i : Nat) : (x &&& 2 ^ i ≠ 0) ↔ x / 2 ^ i % 2 = 1 := by
  rw [Nat.and_comm, Nat.two_pow_and, Nat.testBit_eq_decide_div_mod_eq]
  have := Nat.two_pow_pos i
  by_cases h : x / 2 ^ i % 2 = 1
  · simp [h]
  · simp [h]

/-- C19, 16 bit: the field of a two's complement sample is delivered as the sample. -/
theorem C19_sample16 (x : Int) (h : -32768 ≤ x ∧ x < 32768) (l : List Bool) :
    run (sample 16) (natBits 16 (x % 2 ^ 16).toNat ++ l) = .ok (x, l) := by
  have hlt : (x % 2 ^ 16).toNat < 2 ^ 16 := by omega
  unfold sample
  rw [run_ite_pos _ _ _ rfl, run_bits_bind _ _ _ _ (by decide) hlt, run_pure]
  congr 2
  generalize hv : (x % 2 ^ 16).toNat = v at hlt
  unfold signExt16
  have e1 : v &&& 0xFFFF = v := by
    have := Nat.and_two_pow_sub_one_eq_mod v 16
    simp at this
    rw [this]; omega
  have e2 := and_pow_ne_zero v 15
  simp only [e1]
  simp only [Nat.reducePow] at e2
  split
  · rename_i hc; rw [e2] at hc; unfold toI32; omega
  · rename_i hc; rw [e2] at hc; unfold toI32; omega

/-- C19, 24 bit. -/
theorem C19_sample24 (x : Int) (h : -8388608 ≤ x ∧ x < 8388608) (l : List Bool) :
    run (sample 24) (natBits 24 (x % 2 ^ 24).toNat ++ l) = .ok (x, l) := by
  have hlt : (x % 2 ^ 24).toNat < 2 ^ 24 := by omega
  unfold sample
  rw [run_ite_neg _ _ _ (by decide), run_ite_pos _ _ _ rfl,
    run_bits_bind _ _ _ _ (by decide) hlt, run_pure]
  congr 2
  generalize hv : (x % 2 ^ 24).toNat = v at hlt
  unfold signExt24
  have e1 : v &&& 0xFFFFFF = v := by
    have := Nat.and_two_pow_sub_one_eq_mod v 24
    simp at this
    rw [this]; omega
  have e2 := and_pow_ne_zero v 23
  simp only [e1]
  simp only [Nat.reducePow] at e2
  split
  · rename_i hc; rw [e2] at hc; unfold toI32; omega
  · rename_i hc; rw [e2] at hc; unfold toI32; omega

/-- A 32 bit field is four bytes. -/
theorem natBits_split (n m v : Nat) : natBits (n + m) v = natBits n (v / 2 ^ m) ++ natBits m v := by
  induction n with
  | zero => simp [natBits]
  | succ n ih =>
    rw [show n + 1 + m = (n + m) + 1 by omega]
    simp only [natBits, List.cons_append, ih, Nat.testBit_div_two_pow]

theorem natBits_mod_self (n v : Nat) : natBits n v = natBits n (v % 2 ^ n) :=
  (natBits_mod n n v (Nat.le_refl n)).symm

/-- C19, 32 bit: read as four bytes. -/
theorem C19_sample32 (x : Int) (h : -2147483648 ≤ x ∧ x < 2147483648) (l : List Bool) :
    run (sample 32) (natBits 32 (x % 2 ^ 32).toNat ++ l) = .ok (x, l) := by
  have hlt : (x % 2 ^ 32).toNat < 2 ^ 32 := by omega
  generalize hv : (x % 2 ^ 32).toNat = v at hlt
  rw [natBits_split 8 24 v, natBits_split 8 16 v, natBits_split 8 8 v, natBits_mod_self 8 (v / 2 ^ 16),
    natBits_mod_self 8 (v / 2 ^ 8), natBits_mod_self 8 v]
  simp only [List.append_assoc]
  unfold sample
  rw [run_ite_neg _ _ _ (by decide), run_ite_neg _ _ _ (by decide), run_ite_pos _ _ _ rfl]
  have step : ∀ (b : Nat) (acc : Int) (l : List Bool), b < 2 ^ 8 →
      run (do let b ← bits 8; pure (push8 acc b)) (natBits 8 b ++ l) = .ok (push8 acc b, l) := by
    intro b acc l hb
    rw [run_bits_bind _ _ _ _ (by decide) hb]; rfl
  simp only [foldN]
  rw [run_bind, step _ _ _ (by omega)]
  simp only [Res.ok_bind]
  rw [run_bind, step _ _ _ (by omega)]
  simp only [Res.ok_bind]
  rw [run_bind, step _ _ _ (by omega)]
  simp only [Res.ok_bind]
  rw [run_bind, step _ _ _ (by omega)]
  simp only [Res.ok_bind, run_pure]
  simp only [Res.ok.injEq, Prod.mk.injEq, and_true]
  have small : ∀ (a b : Nat), a < 2 ^ 16 → push8 (a : Int) b = ((a * 256 + b : Nat) : Int) := by
    intro a b ha
    unfold push8 toI32; omega
  have q1 : push8 0 (v / 2 ^ 24) = ((v / 2 ^ 24 : Nat) : Int) := by
    have := small 0 (v / 2 ^ 24) (by omega)
    rw [Nat.zero_mul, Nat.zero_add] at this
    exact this
  have dm : ∀ u : Nat, u / 256 * 256 + u % 2 ^ 8 = u := by intro u; omega
  have e2 : v / 2 ^ 24 * 256 + v / 2 ^ 16 % 2 ^ 8 = v / 2 ^ 16 := by
    rw [show v / 2 ^ 24 = v / 2 ^ 16 / 256 by rw [Nat.div_div_eq_div_mul]; norm_num]; exact dm _
  have e3 : v / 2 ^ 16 * 256 + v / 2 ^ 8 % 2 ^ 8 = v / 2 ^ 8 := by
    rw [show v / 2 ^ 16 = v / 2 ^ 8 / 256 by rw [Nat.div_div_eq_div_mul]; norm_num]; exact dm _
  rw [q1, small _ _ (by omega), e2, small _ _ (by omega), e3]
  unfold push8 toI32
  generalize hw : v / 2 ^ 8 = w
  generalize hb : v % 2 ^ 8 = b
  have : v = 256 * w + b := by omega
  subst this
  have hw2 : w < 2 ^ 24 := by omega
  have hb2 : b < 256 := by omega
  clear dm hw hb e2 e3 q1 small step
  omega

example : run (sample 24) (natBits 24 0xFFFFFE) = .ok (-2, []) ∧
    run (sample 32) (natBits 32 0x80000001) = .ok (-2147483647, []) := by decide +kernel

end Verif.Mhas
