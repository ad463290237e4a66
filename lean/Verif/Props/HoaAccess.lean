import Verif.Props.HoaChannels

/-! # C238: what independent frames of higher order ambisonics say does not depend on what was decoded before -/

namespace Verif.Hoa

open Prog

/-- What a frame has about one channel. -/
structure ChanAt where
  ctype : Nat
  dirId : Nat
  newVec : Nat
  nbits : Nat
  book : Nat
  num : Nat
  pFlag : Nat
  cbFlag : Nat
  trans : Nat
  ambIdx : Nat
  prevExp : Int
  coded : Nat
  exc : Nat

def chanAt (s : Frame) (j : Nat) : ChanAt :=
  ⟨s.ctype j, s.dirId j, s.newVec j, s.nbits j, s.book j, s.num j, s.pFlag j, s.cbFlag j, s.trans j, s.ambIdx j, s.prevExp j, s.coded j, s.exc j⟩

/-- What a coded channel makes of it. -/
def after (x : Chan) (a : ChanAt) : ChanAt :=
  let a := { a with ctype := x.use.kind, prevExp := x.gain.prevExp, coded := x.gain.coded, exc := x.gain.exc }
  match x.use with
  | .direction id => { a with dirId := id }
  | .vector f v => { a with newVec := f, nbits := v.nbits, book := v.book, num := v.num, pFlag := v.pred, cbFlag := v.sub }
  | .ambience t k => { a with trans := t, ambIdx := k }
  | .empty => a

theorem upd_at {α : Type} (f : Nat → α) (i : Nat) (v : α) : upd f i v i = v := by simp [upd]

theorem chanAt_enlist (i j : Nat) (s : Frame) : chanAt (enlist i s) j = chanAt s j := by
  unfold enlist
  split_ifs <;> rfl

theorem chanAt_put (c : Config) (x : Nat → Chan) (s : Frame) (i : Nat) : chanAt (put c x s i) i = after (x i) (chanAt s i) := by
  unfold put
  rw [chanAt_enlist]
  unfold after
  cases (x i).use <;> simp only [setUse, setVector, setAmbience, setGain, chanAt, upd_at]
  split_ifs <;> simp only [upd_at]

theorem chanAt_other (c : Config) (x : Nat → Chan) (s : Frame) {i j : Nat} (h : j ≠ i) : chanAt (put c x s i) j = chanAt s j := by
  unfold put
  rw [chanAt_enlist]
  cases (x i).use <;> simp only [setUse, setVector, setAmbience, setGain, chanAt, upd_other _ _ h]
  split_ifs <;> simp only [upd_other _ _ h]

theorem chanAt_puts (c : Config) (x : Nat → Chan) (n i : Nat) (s : Frame) (j : Nat) :
    chanAt ((List.range' i n).foldl (put c x) s) j = if i ≤ j ∧ j < i + n then after (x j) (chanAt s j) else chanAt s j := by
  induction n generalizing i s with
  | zero => rw [if_neg (by omega)]; rfl
  | succ n ih =>
    rw [List.range'_succ, List.foldl_cons, ih]
    by_cases e : j = i
    · subst e
      rw [if_neg (by omega), if_pos (by omega), chanAt_put]
    · rw [chanAt_other c x s e]
      by_cases h : i + 1 ≤ j ∧ j < i + 1 + n
      · rw [if_pos h, if_pos (by omega)]
      · rw [if_neg h, if_neg (by omega)]

/-- What the gain of a channel makes of it. -/
def afterRest (indep : Bool) (g : GainHead) (a : ChanAt) : ChanAt :=
  { a with prevExp := if indep then g.prevExp else a.prevExp, coded := g.coded, exc := g.exc }

theorem putRest_indep (g : Nat → GainHead) (s : Frame) (i : Nat) : (putRest g s i).indep = s.indep := rfl

theorem chanAt_rests (g : Nat → GainHead) (n i : Nat) (s : Frame) (j : Nat) :
    chanAt ((List.range' i n).foldl (putRest g) s) j = if i ≤ j ∧ j < i + n then afterRest s.indep (g j) (chanAt s j) else chanAt s j := by
  induction n generalizing i s with
  | zero => rw [if_neg (by omega)]; rfl
  | succ n ih =>
    rw [List.range'_succ, List.foldl_cons, ih, putRest_indep]
    by_cases e : j = i
    · subst e
      rw [if_neg (by omega), if_pos (by omega)]
      unfold putRest afterRest chanAt
      simp only [upd_at]
      split <;> simp only [upd_at]
    · have ho : chanAt (putRest g s i) j = chanAt s j := by
        unfold putRest chanAt
        simp only [upd_other _ _ e]
        split <;> simp only [upd_other _ _ e]
      rw [ho]
      by_cases h : i + 1 ≤ j ∧ j < i + 1 + n
      · rw [if_pos h, if_pos (by omega)]
      · rw [if_neg h, if_neg (by omega)]

/-- What two frames say about a channel is the same, as far as the kind of the channel uses it. -/
structure SameUse (a b : ChanAt) : Prop where
  kind : a.ctype = b.ctype
  dir : a.ctype = 0 → a.dirId = b.dirId
  vec : a.ctype = 1 → a.nbits = b.nbits ∧ a.newVec = b.newVec ∧ (a.nbits = 4 → a.book = b.book ∧ a.num = b.num) ∧
    (6 ≤ a.nbits → a.pFlag = b.pFlag ∧ a.cbFlag = b.cbFlag)
  amb : a.ctype = 2 → a.trans = b.trans ∧ a.ambIdx = b.ambIdx

/-- The gains of a channel are the same. -/
def SameGain (a b : ChanAt) : Prop := a.prevExp = b.prevExp ∧ a.coded = b.coded ∧ a.exc = b.exc

/-- The head of a vector with the values of another past where they are not coded. -/
def headFor (p v : VecHead) : VecHead :=
  if v.nbits = 4 then { v with pred := p.pred, sub := p.sub } else if v.nbits = 5 then { p with nbits := v.nbits } else { v with book := p.book, num := p.num }

theorem headFor_nbits (p v : VecHead) : (headFor p v).nbits = v.nbits := by
  unfold headFor
  split_ifs <;> rfl

theorem headFor_code {c : Config} {indep : Bool} {p q v : VecHead} {b : List Bool} (h : HeadCode c indep p v b) : HeadCode c indep q (headFor q v) b := by
  unfold HeadCode at h ⊢
  rw [headFor_nbits]
  unfold headFor
  by_cases h4 : v.nbits = 4
  · rw [if_pos h4] at h
    simp only [if_pos h4]
    exact ⟨h.1, h.2.1, h.2.2.1, trivial, trivial, h.2.2.2.2.2⟩
  · by_cases h5 : v.nbits = 5
    · rw [if_neg h4, if_pos h5] at h
      simp only [if_neg h4, if_pos h5]
      exact ⟨trivial, trivial, trivial, trivial, h.2.2.2.2⟩
    · rw [if_neg h4, if_neg h5] at h
      simp only [if_neg h4, if_neg h5]
      exact ⟨trivial, trivial, h.2.2.1, h.2.2.2⟩

/-- The same channel for another past. -/
def useFor (p : Past) : Use → Use
  | .vector f v => .vector f (headFor p.head v)
  | u => u

def chanFor (p : Past) (x : Chan) : Chan := { x with use := useFor p x.use }

theorem useFor_kind (p : Past) (u : Use) : (useFor p u).kind = u.kind := by cases u <;> rfl

theorem chanFor_code (p : Past) (x : Chan) : (chanFor p x).code = x.code := by
  unfold Chan.code chanFor
  simp only [useFor_kind]

theorem chanFor_ok {c : Config} {p q : Past} (hf : p.fresh = q.fresh) {x : Chan} (h : ChanCode c true p x) : ChanCode c true q (chanFor q x) := by
  obtain ⟨h1, h2, h3, h4⟩ := h
  refine ⟨?_, ?_, h3, h4⟩
  · unfold chanFor
    simp only
    cases hu : x.use with
    | direction id => rw [hu] at h1; exact h1
    | empty => rw [hu] at h1; exact h1
    | ambience t k => rw [hu] at h1; exact h1
    | vector f v =>
      rw [hu] at h1
      obtain ⟨r, a1, a2, a3, a4⟩ : ∃ r, 4 ≤ v.nbits ∧ v.nbits < 16 ∧ HeadCode c true p.head v r ∧
        if c.vecKind = 1 then f < 2 ∧ x.useBits = natBits 1 f ++ natBits 4 v.nbits ++ r else f = p.fresh ∧ x.useBits = natBits 4 v.nbits ++ r := h1
      show VectorCode c true q f (headFor q.head v) x.useBits
      unfold VectorCode
      rw [if_pos rfl, headFor_nbits, ← hf]
      exact ⟨r, a1, a2, headFor_code a3, a4⟩
  · unfold chanFor
    simp only
    cases hu : x.use with
    | vector f v => trivial
    | direction id => trivial
    | empty => trivial
    | ambience t k => rw [hu] at h2; exact h2

theorem after_same (p : Past) (x : Chan) (a b : ChanAt) : SameUse (after x a) (after (chanFor p x) b) ∧ SameGain (after x a) (after (chanFor p x) b) := by
  unfold after chanFor
  cases hu : x.use with
  | direction id => exact ⟨⟨rfl, fun _ => rfl, fun h => absurd h (by simp [Use.kind]), fun h => absurd h (by simp [Use.kind])⟩, rfl, rfl, rfl⟩
  | empty => exact ⟨⟨rfl, fun h => absurd h (by simp [Use.kind]), fun h => absurd h (by simp [Use.kind]), fun h => absurd h (by simp [Use.kind])⟩, rfl, rfl, rfl⟩
  | ambience t k => exact ⟨⟨rfl, fun h => absurd h (by simp [Use.kind]), fun h => absurd h (by simp [Use.kind]), fun _ => ⟨rfl, rfl⟩⟩, rfl, rfl, rfl⟩
  | vector f v =>
    refine ⟨⟨rfl, fun h => absurd h (by simp [Use.kind]), fun _ => ⟨(headFor_nbits _ _).symm, rfl, fun h => ?_, fun h => ?_⟩, fun h => absurd h (by simp [Use.kind])⟩, rfl, rfl, rfl⟩
    · simp only [useFor]
      have h' : v.nbits = 4 := h
      unfold headFor
      rw [if_pos h']
      exact ⟨rfl, rfl⟩
    · simp only [useFor]
      have h' : 6 ≤ v.nbits := h
      unfold headFor
      rw [if_neg (by omega), if_neg (by omega)]
      exact ⟨rfl, rfl⟩

theorem afterRest_same (g : GainHead) (a b : ChanAt) : SameGain (afterRest true g a) (afterRest true g b) := ⟨rfl, rfl, rfl⟩

/-- The parts of a frame: the flag, the additional channels and the others; what is behind them does not change what is said about channels. -/
theorem frame_parts {c : Config} {s s' : Frame} {b b' : List Bool} (e : (frame c s).run b = .ok (s', b')) : ∃ f s1 s2 b1 b2 b3,
    (bits 1).run b = .ok (f, b1) ∧ (foldN (channel c) c.extra 0 (begin (f != 0) s)).run b1 = .ok (s1, b2) ∧
    (foldN (restChannel c) (c.transport - c.extra) c.extra s1).run b2 = .ok (s2, b3) ∧ heads s' = heads s2 := by
  unfold frame at e
  rw [run_bind, Res.bind_eq_ok] at e
  obtain ⟨⟨f, b1⟩, e1, e⟩ := e
  rw [run_bind, Res.bind_eq_ok] at e
  obtain ⟨⟨s1, b2⟩, e2, e⟩ := e
  rw [run_bind, Res.bind_eq_ok] at e
  obtain ⟨⟨s2, b3⟩, e3, e⟩ := e
  refine ⟨f, s1, s2, b1, b2, b3, e1, e2, e3, ?_⟩
  have h4 : Only (do
      let s ← vectors c s2.vecs 0 _
      let s := { s with prevSgnSize := fun i => if i < s.vecs.length then s.sgnSize i else s.prevSgnSize i }
      let s ← prediction c s
      pure (keep s)) (HeadsAre (heads s2)) :=
    (vectors_heads c _ 0 (s := { s2 with sgnSize := fun i => if i < s2.vecs.length then s2.prevSgnSize i else s2.sgnSize i }) rfl).bind fun s1 h1 =>
      (prediction_heads c (s := { s1 with prevSgnSize := fun i => if i < s1.vecs.length then s1.sgnSize i else s1.prevSgnSize i }) h1).bind fun s2 h2 => Only.pure h2
  exact h4 _ _ _ e

theorem chanAt_heads {s t : Frame} (h : heads s = heads t) (j : Nat) : chanAt s j = chanAt t j := by
  simp only [heads, Heads.mk.injEq] at h
  obtain ⟨h1, h2, h3, h4, h5, h6, h7, h8, h9, h10, h11, h12, h13, h14, -⟩ := h
  unfold chanAt
  rw [h2, h3, h4, h5, h6, h7, h8, h9, h10, h11, h12, h13, h14]

theorem puts_indep (c : Config) (x : Nat → Chan) (L : List Nat) (s : Frame) : (L.foldl (put c x) s).indep = s.indep := by
  induction L generalizing s with
  | nil => rfl
  | cons a L ih => rw [List.foldl_cons, ih, put_indep]

theorem rests_lists (g : Nat → GainHead) (L : List Nat) (s : Frame) : (L.foldl (putRest g) s).vecs = s.vecs ∧ (L.foldl (putRest g) s).numDir = s.numDir ∧
    (L.foldl (putRest g) s).dirCh = s.dirCh := by
  induction L generalizing s with
  | nil => exact ⟨rfl, rfl, rfl⟩
  | cons a L ih => exact ih (putRest g s a)

/-- **C238** What an independent frame says about its channels, and the gains that their signals start with, do not depend on what was decoded before: decoders with different
histories that get the same frame have the same uses, coefficients, directions, kinds of vectors, gains, and lists of vectors and directional signals. -/
theorem C238_independent {t len : Nat} {l l' : List Bool} {c : Config} (h : (config t len).run l = .ok (c, l')) {s s' r r' : Frame} {b b1 b2 : List Bool}
    (e1 : (frame c s).run (true :: b) = .ok (s', b1)) (e2 : (frame c r).run (true :: b) = .ok (r', b2)) :
    (∀ j < c.extra, SameUse (chanAt s' j) (chanAt r' j)) ∧ (∀ j < c.transport, SameGain (chanAt s' j) (chanAt r' j)) ∧ s'.vecs = r'.vecs ∧ s'.numDir = r'.numDir ∧
      ∀ k < s'.numDir, s'.dirCh k = r'.dirCh k := by
  obtain ⟨f, s1, s2, q1, q2, q3, p1, p2, p3, p4⟩ := frame_parts e1
  obtain ⟨f', r1, r2, v1, v2, v3, u1, u2, u3, u4⟩ := frame_parts e2
  rw [p1] at u1
  cases u1
  have hf : f = 1 := by
    obtain ⟨w, ⟨-, h2, rfl⟩, h3⟩ := (Reads.bits 1 _ f q1).mp p1
    have : f = 0 ∨ f = 1 := by omega
    rcases this with rfl | rfl
    · simp [natBits] at h3
    · rfl
  subst hf
  have p2' : (foldN (channel c) c.extra 0 (begin true s)).run q1 = .ok (s1, q2) := p2
  clear p2
  obtain ⟨y1, ⟨hn, x, hx, rfl, rfl⟩, rfl⟩ := (C236_channels h _ _ _ _ _ _).mp p2'
  have hx' : ∀ j, 0 ≤ j → j < 0 + c.extra → ChanCode c true (past (begin true r) j) (chanFor (past (begin true r) j) (x j)) :=
    fun j j1 j2 => chanFor_ok (p := past (begin true s) j) (q := past (begin true r) j) rfl (hx j j1 j2)
  have w2 := (C236_channels h c.extra 0 (begin true r) ((List.range' 0 c.extra).flatMap (fun j => (x j).code) ++ q2) _ q2).mpr
    ⟨_, ⟨hn, fun j => chanFor (past (begin true r) j) (x j), hx', rfl, rfl⟩, by simp only [chanFor_code]⟩
  rw [show ((1 : Nat) != 0) = true from rfl] at u2
  rw [w2] at u2
  cases u2
  obtain ⟨y2, ⟨hm, g, w, hg, rfl, rfl⟩, rfl⟩ := (C236_rests h _ _ _ _ _ _).mp p3
  have w3 := (C236_rests h (c.transport - c.extra) c.extra
    ((List.range' 0 c.extra).foldl (put c fun j => chanFor (past (begin true r) j) (x j)) (begin true r)) ((List.range' c.extra (c.transport - c.extra)).flatMap w ++ q3) _ q3).mpr
    ⟨_, ⟨hm, g, w, fun j j1 j2 => (by
      have := hg j j1 j2
      rw [puts_indep] at this ⊢
      exact this), rfl, rfl⟩, rfl⟩
  rw [w3] at u3
  cases u3
  refine ⟨fun j hj => ?_, fun j hj => ?_, ?_⟩
  · rw [chanAt_heads p4, chanAt_heads u4, chanAt_rests, chanAt_rests, if_neg (by omega), if_neg (by omega), chanAt_puts, chanAt_puts, if_pos (by omega), if_pos (by omega)]
    exact (after_same _ _ _ _).1
  · rw [chanAt_heads p4, chanAt_heads u4, chanAt_rests, chanAt_rests]
    by_cases hj' : j < c.extra
    · rw [if_neg (by omega), if_neg (by omega), chanAt_puts, chanAt_puts, if_pos (by omega), if_pos (by omega)]
      exact (after_same _ _ _ _).2
    · rw [if_pos (by omega), if_pos (by omega), puts_indep, puts_indep]
      exact afterRest_same _ _ _
  · have k1 := congrArg Heads.vecs p4
    have k2 := congrArg Heads.numDir p4
    have k3 := congrArg Heads.dirCh p4
    have k4 := congrArg Heads.vecs u4
    have k5 := congrArg Heads.numDir u4
    have k6 := congrArg Heads.dirCh u4
    simp only [heads] at k1 k2 k3 k4 k5 k6
    have same : ∀ k, ofKind k (fun j => chanFor (past (begin true r) j) (x j)) 0 c.extra = ofKind k x 0 c.extra := by
      intro k
      unfold ofKind chanFor
      simp only [useFor_kind]
    obtain ⟨l1, l2, l3⟩ := C236_lists c x c.extra 0 (begin true s)
    obtain ⟨m1, m2, m3⟩ := C236_lists c (fun j => chanFor (past (begin true r) j) (x j)) c.extra 0 (begin true r)
    rw [same] at m1 m2
    rw [k1, k2, k3, k4, k5, k6, (rests_lists _ _ _).1, (rests_lists _ _ _).1, (rests_lists _ _ _).2.1, (rests_lists _ _ _).2.1, (rests_lists _ _ _).2.2, (rests_lists _ _ _).2.2,
      l1, l2, m1, m2]
    refine ⟨rfl, rfl, fun k hk => ?_⟩
    rw [l3, m3, same]
    have hk' : k < (ofKind 0 x 0 c.extra).length := by
      have : (begin true s).numDir = 0 := rfl
      omega
    rw [if_neg (by show ¬ k < 0; omega), if_neg (by show ¬ k < 0; omega)]
    show (ofKind 0 x 0 c.extra).getD (k - 0) _ = (ofKind 0 x 0 c.extra).getD (k - 0) _
    rw [Nat.sub_zero, List.getD_eq_getElem _ _ hk', List.getD_eq_getElem _ _ hk']

/-- The exponent of the frame before is one that the tables have. -/
theorem prev_small {t len : Nat} {l l' : List Bool} {c : Config} (h : (config t len).run l = .ok (c, l')) {g : GainHead} {b : List Bool} (hg : GainCode c true g b) :
    g.prevExp.natAbs < 64 := by
  obtain ⟨r, -, -, -, hx⟩ := hg
  rw [if_pos rfl] at hx
  obtain ⟨e, h1, h2, -⟩ := hx
  obtain ⟨w, ⟨hr, -⟩, -⟩ := (C220_config t len l c l').mp h
  have h3 : c.coeffs ≤ 49 := sq_le_49 hr.order
  have h4 : ∀ n ≤ 73, ceilLog2 n ≤ 7 := by decide
  have h5 : c.expBias ≤ 7 := h4 _ (by omega)
  have h6 := hr.maxExp
  have h7 : ∀ n ≤ 32, ceilLog2 n ≤ 5 := by decide
  have h8 : c.expBits ≤ 5 := h7 _ (by omega)
  have h9 : 2 ^ c.expBits ≤ 2 ^ 5 := Nat.pow_le_pow_right (by omega) h8
  rw [h2]
  omega

/-- **C238** In an independent frame the channels start with gains that the frame has, whatever the gains were before. -/
theorem C238_gain {α : Type} [Field α] {t len : Nat} {l l' : List Bool} {c : Config} (h : (config t len).run l = .ok (c, l')) {s s' r r' : Frame} {b b1 b2 : List Bool}
    (e1 : (frame c s).run (true :: b) = .ok (s', b1)) (e2 : (frame c r).run (true :: b) = .ok (r', b2)) (ch : Nat) (hch : ch < c.transport) (last last' : α) :
    ∃ v, startGain s' ch last = .ok v ∧ startGain r' ch last' = .ok v := by
  obtain ⟨-, hg, -⟩ := C238_independent h e1 e2
  have key : ∀ {s s' : Frame} {b1 : List Bool}, (frame c s).run (true :: b) = .ok (s', b1) → s'.indep = true ∧ (s'.prevExp ch).natAbs < 64 := by
    intro s s' b1 e
    obtain ⟨indep, x, g, w, q, hb, hx, hy, hh⟩ := C236_frame h e
    have hi : indep = true := by
      have := congrArg List.head? hb
      simpa using this.symm
    subst hi
    have k1 := congrArg Heads.indep hh
    simp only [heads] at k1
    have k2 : ∀ (L : List Nat) (s : Frame), (L.foldl (putRest g) s).indep = s.indep := by
      intro L
      induction L with
      | nil => intro s; rfl
      | cons a L ih => intro s; exact ih (putRest g s a)
    rw [k2, puts_indep] at k1
    refine ⟨k1, ?_⟩
    show (chanAt s' ch).prevExp.natAbs < 64
    rw [chanAt_heads hh, chanAt_rests, puts_indep]
    by_cases hj : ch < c.extra
    · rw [if_neg (by omega), chanAt_puts, if_pos (by omega)]
      have : ∀ a, (after (x ch) a).prevExp = (x ch).gain.prevExp := by
        intro a
        unfold after
        cases (x ch).use <;> rfl
      rw [this]
      exact prev_small h (hx ch hj).2.2.1
    · rw [if_pos (by omega)]
      exact prev_small h (hy ch (by omega) (by omega))
  obtain ⟨a1, a2⟩ := key e1
  obtain ⟨b1, b2⟩ := key e2
  refine ⟨2 ^ s'.prevExp ch, ?_, ?_⟩
  · unfold startGain
    rw [if_pos a1, if_pos a2]
  · unfold startGain
    rw [if_pos b1, if_pos b2, show s'.prevExp ch = r'.prevExp ch from (hg ch hch).1]

/-- Decoders that start at a frame with a vector, or come from a frame with another one, agree on it. -/
example : ∃ s r b, (frame order1 Frame.zero).run (true :: b) = .ok (s, []) ∧ (frame order1 { Frame.zero with pFlag := fun _ => 1, prevExp := fun _ => 3 }).run (true :: b) =
    .ok (r, []) ∧ (chanAt s 1).nbits = 5 ∧ SameUse (chanAt s 1) (chanAt r 1) := by
  have h1 := seen_result (r := (frame order1 Frame.zero).run (true :: (natBits 2 3 ++ noGain ++ natBits 2 1 ++ natBits 1 1 ++ natBits 4 5 ++ noGain ++ noGain ++
    natBits 8 192 ++ natBits 8 192 ++ natBits 8 192))) (l := []) (by decide +kernel)
  have h2 := seen_result (r := (frame order1 { Frame.zero with pFlag := fun _ => 1, prevExp := fun _ => 3 }).run (true :: (natBits 2 3 ++ noGain ++ natBits 2 1 ++ natBits 1 1 ++
    natBits 4 5 ++ noGain ++ noGain ++ natBits 8 192 ++ natBits 8 192 ++ natBits 8 192))) (l := []) (by decide +kernel)
  exact ⟨_, _, _, h1, h2, by decide +kernel, (C238_independent order1_accepted h1 h2).1 1 (by decide)⟩

end Verif.Hoa
