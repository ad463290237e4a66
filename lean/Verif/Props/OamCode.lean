import Verif.Spec.ObjMd
import Verif.Props.Oam
import Verif.Proofs.Fields

/-! # Object metadata are decoded to the values coded (C61, C63), and the sample counter (C40) -/

namespace Verif.Oam

open Prog ObjMd

theorem run_readSigned (n : Nat) (v : Int) (l : List Bool) (h1 : 1 ≤ n) (h : n ≤ 24) (hv : FitsS n v) :
    run (readSigned n) (twos n v ++ l) = .ok (v, l) := by
  unfold readSigned twos
  obtain ⟨k, rfl⟩ : ∃ k, n = k + 1 := ⟨n - 1, by omega⟩
  obtain ⟨h0, h1⟩ := hv
  simp only [Nat.add_sub_cancel] at h0 h1 ⊢
  have hp : (2 : Int) ^ (k + 1) = 2 * 2 ^ k := by rw [pow_succ]; ring
  have hpos : (0 : Int) < 2 ^ k := by positivity
  have hN : ((2 ^ (k + 1) : Nat) : Int) = 2 * 2 ^ k := by push_cast; exact hp
  have hK : ((2 ^ k : Nat) : Int) = 2 ^ k := by push_cast; rfl
  rw [hp]
  have hm0 : 0 ≤ v % (2 * 2 ^ k) := Int.emod_nonneg _ (by omega)
  have hm1 : v % (2 * 2 ^ k) < 2 * 2 ^ k := Int.emod_lt_of_pos _ (by omega)
  rw [run_bits_bind (k + 1) _ _ l h (by omega), run_pure]
  congr 2
  rcases lt_or_ge v 0 with hneg | hnn
  · have he : v % (2 * 2 ^ k) = v + 2 * 2 ^ k := by
      rw [← Int.add_emod_right, Int.emod_eq_of_lt (by omega) (by omega)]
    rw [he, if_pos (by omega), Int.toNat_of_nonneg (by omega)]; ring
  · have he : v % (2 * 2 ^ k) = v := Int.emod_eq_of_lt hnn (by omega)
    rw [he, if_neg (by omega), Int.toNat_of_nonneg hnn]

theorem run_readUnsigned (n : Nat) (v : Int) (l : List Bool) (h : n ≤ 24) (hv : FitsU n v) :
    run (readUnsigned n) (twos n v ++ l) = .ok (v, l) := by
  unfold readUnsigned twos
  obtain ⟨h0, h1⟩ := hv
  have hN : ((2 ^ n : Nat) : Int) = 2 ^ n := by push_cast; rfl
  rw [Int.emod_eq_of_lt h0 h1, run_bits_bind n _ _ l h (by omega), run_pure,
    Int.toNat_of_nonneg h0]

theorem run_setAt_bind {α β : Type} (tbl : List α) (i : Nat) (v : α) (f : List α → Prog β) (l : List Bool)
    (h : i < tbl.length) : run (setAt tbl i v >>= f) l = run (f (tbl.set i v)) l := by
  rw [run_bind, run_setAt tbl i v l h]; rfl

theorem run_then {α β : Type} {p : Prog α} {f : α → Prog β} {l l' : List Bool} {a : α}
    (h : run p l = .ok (a, l')) : run (p >>= f) l = run (f a) l' := by
  rw [run_bind, h]; rfl

/-- The coded values of object `i` replaced. -/
def put (uniform dyn : Bool) (i : Nat) (c : Coded) (v : Vals) : Coded :=
  ⟨c.az.set i v.az, c.el.set i v.el, c.rad.set i v.rad, c.gain.set i v.gain, c.sw.set i v.sw,
   if uniform then c.sh else c.sh.set i v.sh, if uniform then c.sd else c.sd.set i v.sd,
   if dyn then c.pri.set i v.pri else c.pri⟩

/-- The arrays have 96 entries. -/
structure Sized (c : Coded) : Prop where
  az : c.az.length = 96
  el : c.el.length = 96
  rad : c.rad.length = 96
  gain : c.gain.length = 96
  sw : c.sw.length = 96
  sh : c.sh.length = 96
  sd : c.sd.length = 96
  pri : c.pri.length = 96

theorem run_fill_one (t : List Int) (i : Nat) (v : Int) (l : List Bool) (h : i < t.length) :
    run (fill t i 1 v) l = .ok (t.set i v, l) := by
  unfold fill foldN
  rw [run_setAt_bind _ _ _ _ _ (by simpa using h)]
  rfl

theorem run_spread3_one (i : Nat) (a b c : List Int) (w h d : Int) (l : List Bool)
    (ha : i < a.length) (hb : i < b.length) (hc : i < c.length) (hw : FitsU 7 w) (hh : FitsU 5 h)
    (hd : FitsU 4 d) :
    run (spread3 1 i (a, b, c)) (twos 7 w ++ (twos 5 h ++ (twos 4 d ++ l))) =
      .ok ((a.set i w, b.set i h, c.set i d), l) := by
  unfold spread3
  rw [run_then (run_readUnsigned 7 w _ (by omega) hw), run_then (run_readUnsigned 5 h _ (by omega) hh),
    run_then (run_readUnsigned 4 d _ (by omega) hd), run_then (run_fill_one a i w _ ha),
    run_then (run_fill_one b i h _ hb), run_then (run_fill_one c i d _ hc)]
  rfl

/-- **C63** for intra-coded data of one object: the values written are the values decoded, in every
configuration, and exactly the bits written are consumed. -/
theorem C63_intra_one (cfg : Cfg) (i : Nat) (c : Coded) (hc : Sized c) (hi : i < 96) (v : Vals)
    (hv : v.Fits) (l : List Bool) :
    run (intraOne cfg i c) (absolute cfg.uniformSpread cfg.dynPriority v ++ l) =
      .ok ((put cfg.uniformSpread cfg.dynPriority i c v, ⟨false, false, false, false, false, false⟩), l) := by
  unfold intraOne absolute put
  simp only [List.append_assoc]
  rw [run_then (run_readSigned 8 _ _ (by omega) (by omega) hv.az),
    run_setAt_bind _ _ _ _ _ (by rw [hc.az]; exact hi),
    run_then (run_readSigned 6 _ _ (by omega) (by omega) hv.el),
    run_setAt_bind _ _ _ _ _ (by rw [hc.el]; exact hi),
    run_then (run_readUnsigned 4 _ _ (by omega) hv.rad),
    run_setAt_bind _ _ _ _ _ (by rw [hc.rad]; exact hi),
    run_then (run_readSigned 7 _ _ (by omega) (by omega) hv.gain),
    run_setAt_bind _ _ _ _ _ (by rw [hc.gain]; exact hi)]
  have hpri : ∀ (f : List Int → Prog (Coded × Fixed)),
      run ((if cfg.dynPriority then do let v ← readUnsigned 3; setAt c.pri i v else pure c.pri) >>= f)
        ((if cfg.dynPriority then twos 3 v.pri else []) ++ l) =
      run (f (if cfg.dynPriority then c.pri.set i v.pri else c.pri)) l := by
    intro f
    cases cfg.dynPriority
    · rfl
    · simp only [if_true]
      rw [run_bind, run_then (run_readUnsigned 3 _ _ (by omega) hv.pri),
        run_setAt _ _ _ _ (by rw [hc.pri]; exact hi)]
      rfl
  cases hu : cfg.uniformSpread
  · simp only [Bool.false_eq_true, if_false, List.append_assoc]
    rw [run_then (run_spread3_one i c.sw c.sh c.sd v.sw v.sh v.sd _ (by rw [hc.sw]; exact hi)
      (by rw [hc.sh]; exact hi) (by rw [hc.sd]; exact hi) hv.sw hv.sh hv.sd)]
    simp only
    rw [hpri]; rfl
  · simp only [if_true, List.nil_append]
    have : run (do let v ← readUnsigned 7; let sw ← setAt c.sw i v; pure (sw, c.sh, c.sd))
        (twos 7 v.sw ++ ((if cfg.dynPriority = true then twos 3 v.pri else []) ++ l)) =
        .ok ((c.sw.set i v.sw, c.sh, c.sd), (if cfg.dynPriority = true then twos 3 v.pri else []) ++ l) := by
      rw [run_then (run_readUnsigned 7 _ _ (by omega) hv.sw),
        run_setAt_bind _ _ _ _ _ (by rw [hc.sw]; exact hi)]
      rfl
    rw [run_then this]
    simp only
    rw [hpri]; rfl

/-- No parameter is fixed. -/
def noneFixed : Fixed := ⟨false, false, false, false, false, false⟩

/-- **C63** (partial) for absolutely coded dynamic data: true when the spread is uniform and there is
no dynamic priority. -/
theorem C63_absolute_partial (cfg : Cfg) (hu : cfg.uniformSpread = true) (hd : cfg.dynPriority = false)
    (i : Nat) (c : Coded) (hc : Sized c) (hi : i < 96) (v : Vals) (hv : v.Fits) (l : List Bool) :
    run (singleAbs cfg noneFixed i c) (absolute cfg.uniformSpread cfg.dynPriority v ++ l) =
      .ok (put cfg.uniformSpread cfg.dynPriority i c v, l) := by
  have hs : ∀ (n : Nat) (t : List Int) (x : Int) (l : List Bool), 1 ≤ n → n ≤ 24 → FitsS n x →
      i < t.length → run (do let v ← readSigned n; setAt t i v) (twos n x ++ l) = .ok (t.set i x, l) := by
    intro n t x l h1 h2 h3 h4
    rw [run_then (run_readSigned n x l h1 h2 h3), run_setAt _ _ _ _ h4]
  have hus : ∀ (n : Nat) (t : List Int) (x : Int) (l : List Bool), n ≤ 24 → FitsU n x →
      i < t.length → run (do let v ← readUnsigned n; setAt t i v) (twos n x ++ l) = .ok (t.set i x, l) := by
    intro n t x l h2 h3 h4
    rw [run_then (run_readUnsigned n x l h2 h3), run_setAt _ _ _ _ h4]
  unfold singleAbs absolute put noneFixed
  simp only [List.append_assoc, hu, hd, Bool.false_eq_true, if_false, if_true, List.nil_append]
  rw [run_then (hs 8 _ _ _ (by omega) (by omega) hv.az (by rw [hc.az]; exact hi)),
    run_then (hs 6 _ _ _ (by omega) (by omega) hv.el (by rw [hc.el]; exact hi)),
    run_then (hus 4 _ _ _ (by omega) hv.rad (by rw [hc.rad]; exact hi)),
    run_then (hs 7 _ _ _ (by omega) (by omega) hv.gain (by rw [hc.gain]; exact hi))]
  have : run (do let v ← readUnsigned 7; let sw ← setAt c.sw i v; pure (sw, c.sh, c.sd))
      (twos 7 v.sw ++ l) = .ok ((c.sw.set i v.sw, c.sh, c.sd), l) := by
    rw [run_then (run_readUnsigned 7 _ _ (by omega) hv.sw),
      run_setAt_bind _ _ _ _ _ (by rw [hc.sw]; exact hi)]
    rfl
  rw [run_then this]
  rfl

/-- Values for examples. -/
def exVals : Vals := ⟨-3, 2, 7, -5, 9, 4, 11, 6⟩

theorem exVals_fits : exVals.Fits := by
  constructor <;> first | (unfold FitsS; decide) | (unfold FitsU; decide)

example : Sized init.coded := by constructor <;> rfl

example : (run (intraOne ⟨false, true, 1024⟩ 0 init.coded) (absolute false true exVals)).map
    (fun r => (r.1.1.az[0]?, r.1.1.sd[0]?, r.1.1.pri[0]?, r.2)) =
    .ok (some (-3), some 11, some 6, []) := by decide +kernel

/-- **C63** (refuted) With three spread parameters the depth is read with one bit more than it is
written with (and the end of the data is missed); with dynamic priorities the priority is not read
although it is not fixed. -/
theorem C63_refuted :
    (∃ v : Vals, v.Fits ∧ run (singleAbs ⟨false, false, 1024⟩ noneFixed 0 init.coded)
      (absolute false false v) = .jump) ∧
    (∃ v : Vals, v.Fits ∧ (run (singleAbs ⟨true, true, 1024⟩ noneFixed 0 init.coded)
      (absolute true true v)).map (fun r => (r.1.pri[0]?, r.2)) =
        .ok (some 0, [true, true, false])) :=
  ⟨⟨exVals, exVals_fits, by decide +kernel⟩, ⟨exVals, exVals_fits, by decide +kernel⟩⟩

/-! ## Differences -/

theorem getElem?_set_self' (t : List Int) (i : Nat) (x : Int) (h : t[i]? = some x) : t.set i x = t := by
  apply List.ext_getElem?
  intro j
  rw [List.getElem?_set]
  by_cases hij : i = j
  · subst hij
    have := (List.getElem?_eq_some_iff.mp h).1
    rw [if_pos rfl, if_pos this, h]
  · rw [if_neg hij]

theorem run_addDiff (t : List Int) (i nb : Nat) (x : Int) (d : Option Int) (l : List Bool)
    (hx : t[i]? = some x) (h1 : 1 ≤ nb) (h2 : nb ≤ 24) (hd : ∀ v, d = some v → FitsS nb v)
    (hr : -2147483648 ≤ x + d.getD 0 ∧ x + d.getD 0 ≤ 2147483647) :
    run (addDiff t i nb) (diffBits nb d ++ l) = .ok (t.set i (x + d.getD 0), l) := by
  cases d with
  | none =>
    have := run_addDiff_no t i nb l
    unfold diffBits
    simp only [List.singleton_append]
    rw [this]
    simp [getElem?_set_self' t i x hx]
  | some v =>
    have hi := (List.getElem?_eq_some_iff.mp hx).1
    unfold addDiff diffBits
    simp only [Option.getD_some, List.cons_append] at hr ⊢
    rw [run_bind, run_flag]
    simp only [Res.ok_bind, if_true]
    rw [run_then (run_readSigned nb v l h1 h2 (hd v rfl)), run_getAt_bind t i x _ _ hx]
    have : run (word (x + v)) l = .ok (x + v, l) := by
      unfold word Ops.i32 Ops.MIN_32 Ops.MAX_32
      rw [if_pos (by omega)]; rfl
    rw [run_then this, run_setAt _ _ _ _ hi]

/-- **C61** (partial) With a single sub-frame per frame and a uniform spread: the metadata of object
`i` after a differentially coded frame are those after the previous frame plus the differences. -/
theorem C61_differences_partial (cfg : Cfg) (hu : cfg.uniformSpread = true) (hp : cfg.dynPriority = false)
    (i nb : Nat) (hnb : 2 ≤ nb) (hnb' : nb ≤ 9) (c : Coded)
    (da de dr dg dw : Option Int) (az el rad gain sw : Int)
    (haz : c.az[i]? = some az) (hel : c.el[i]? = some el) (hrad : c.rad[i]? = some rad)
    (hgain : c.gain[i]? = some gain) (hsw : c.sw[i]? = some sw)
    (hb : ∀ x ∈ [az, el, rad, gain, sw], -2000000000 ≤ x ∧ x ≤ 2000000000)
    (fa : ∀ v, da = some v → FitsS nb v) (fe : ∀ v, de = some v → FitsS (min 7 nb) v)
    (fr : ∀ v, dr = some v → FitsS (min 5 nb) v) (fg : ∀ v, dg = some v → FitsS (min 8 nb) v)
    (fw : ∀ v, dw = some v → FitsS (min 8 nb) v) (l : List Bool) :
    run (singleDiff cfg noneFixed i c)
      (natBits 3 (nb - 2) ++ (diffBits nb da ++ (diffBits (min 7 nb) de ++ (diffBits (min 5 nb) dr ++
        (diffBits (min 8 nb) dg ++ (diffBits (min 8 nb) dw ++ l)))))) =
      .ok ({ c with
        az := c.az.set i (az + da.getD 0), el := c.el.set i (el + de.getD 0),
        rad := c.rad.set i (rad + dr.getD 0), gain := c.gain.set i (gain + dg.getD 0),
        sw := c.sw.set i (sw + dw.getD 0) }, l) := by
  have small : ∀ (k : Nat) (d : Option Int), k ≤ 9 → (∀ v, d = some v → FitsS k v) →
      -256 ≤ d.getD 0 ∧ d.getD 0 ≤ 256 := by
    intro k d hk h
    cases d with
    | none => simp
    | some v =>
      obtain ⟨a, b⟩ := h v rfl
      have : (2 : Int) ^ (k - 1) ≤ 2 ^ 8 := pow_le_pow_right₀ (by norm_num) (by omega)
      simp only [Option.getD_some]
      constructor <;> omega
  have hb1 := hb az (by simp)
  have hb2 := hb el (by simp)
  have hb3 := hb rad (by simp)
  have hb4 := hb gain (by simp)
  have hb5 := hb sw (by simp)
  have s1 := small _ da hnb' fa
  have s2 := small _ de (by omega) fe
  have s3 := small _ dr (by omega) fr
  have s4 := small _ dg (by omega) fg
  have s5 := small _ dw (by omega) fw
  unfold singleDiff noneFixed
  rw [run_bits_bind 3 (nb - 2) _ _ (by omega) (by omega)]
  simp only [show nb - 2 + 2 = nb by omega, hu, hp, Bool.false_eq_true, if_false, if_true]
  rw [run_then (run_addDiff _ i nb az da _ haz (by omega) (by omega) fa (by omega)),
    run_then (run_addDiff _ i (min 7 nb) el de _ hel (by omega) (by omega) fe (by omega)),
    run_then (run_addDiff _ i (min 5 nb) rad dr _ hrad (by omega) (by omega) fr (by omega)),
    run_then (run_addDiff _ i (min 8 nb) gain dg _ hgain (by omega) (by omega) fg (by omega))]
  have : run (do let sw ← addDiff c.sw i (min 8 nb); pure (sw, c.sh, c.sd))
      (diffBits (min 8 nb) dw ++ l) = .ok ((c.sw.set i (sw + dw.getD 0), c.sh, c.sd), l) := by
    rw [run_then (run_addDiff _ i (min 8 nb) sw dw _ hsw (by omega) (by omega) fw (by omega))]
    rfl
  rw [run_then this]
  rfl

example : (run (singleDiff ⟨true, false, 1024⟩ noneFixed 0 init.coded)
    (natBits 3 0 ++ [true] ++ twos 2 1 ++ [false, false, false, false])).map (fun r => (r.1.az[0]?, r.2)) =
    .ok (some 1, []) := by decide +kernel

/-- **C61** (refuted) Two sub-frames per frame, one object.  Frame 1 gives azimuths 0 and then 10;
frame 2 gives a difference of 1 in its first sub-frame: the azimuth becomes 1, not 11. -/
theorem C61_refuted : ∃ f1 f2 : List Bool,
    (frames noPow ⟨true, false, 512⟩ 1 [f1] (init, [0, 0, 0, 0])).map
      (fun s => (s.1.coded.az[0]?, s.1.coded.az[1]?)) = .ok (some 0, some 10) ∧
    (frames noPow ⟨true, false, 512⟩ 1 [f1, f2] (init, [0, 0, 0, 0])).map
      (fun s => (s.1.coded.az[0]?, s.2)) = .ok (some 1, [1, 0, 0, 0]) :=
  ⟨[true, true] ++ List.replicate 32 false ++ [true, true] ++ natBits 8 10 ++ List.replicate 24 false,
   [true, false, false, true] ++ natBits 3 0 ++ [true] ++ twos 2 1 ++ [false, false, false, false, false],
   by decide +kernel⟩

/-! ## The sample counter -/

/-- A frame without metadata for its only object, not intra-coded. -/
def idleBits : List Bool := [false, false, false]

theorem run_overwrite {β : Type} (t : List Rat) (a b : Nat) (f : Nat → Rat → Rat)
    (g : List Rat → Prog β) (l : List Bool) (ht : t.length = 96) (hb : b ≤ 96) :
    ∃ t' : List Rat, t'.length = 96 ∧ run (overwrite t a b f >>= g) l = run (g t') l := by
  refine ⟨t.mapIdx fun i x => if a ≤ i ∧ i < b then f i x else x, by simp [ht], ?_⟩
  unfold overwrite
  rw [if_pos (by omega)]
  rfl

theorem run_descale (m : Libm) (fl : Int) (a b : Nat) (c : Coded) (d : Desc) (l : List Bool)
    (hd : DescOk d) (hb : b ≤ 96) :
    ∃ d', DescOk d' ∧ run (descale m ⟨true, false, fl⟩ a b c d) l = .ok (d', l) := by
  unfold descale
  obtain ⟨pri, h1, e1⟩ := run_overwrite d.pri a b _ _ l hd.pri hb
  rw [e1]
  obtain ⟨sw, h2, e2⟩ := run_overwrite d.sw a b _ _ l hd.sw hb
  rw [e2]
  simp only [if_true]
  rw [run_then (run_pure _ _)]
  simp only
  obtain ⟨rad, h3, e3⟩ := run_overwrite d.rad a b _ _ l hd.rad hb
  rw [e3]
  obtain ⟨el, h4, e4⟩ := run_overwrite d.el a b _ _ l hd.el hb
  rw [e4]
  obtain ⟨az, h5, e5⟩ := run_overwrite d.az a b _ _ l hd.az hb
  rw [e5]
  obtain ⟨gain, h6, e6⟩ := run_overwrite d.gain a b _ _ l hd.gain hb
  rw [e6]
  exact ⟨⟨az, el, rad, gain, sw, d.sh, d.sd, pri⟩, ⟨h5, h4, h3, h6, h2, hd.sh, hd.sd, h1⟩, rfl⟩

theorem run_limitRange (fl : Int) (n : Nat) (d : Desc) (l : List Bool) (hd : DescOk d) (hb : n ≤ 96) :
    ∃ d', DescOk d' ∧ run (limitRange ⟨true, false, fl⟩ n d) l = .ok (d', l) := by
  unfold limitRange
  obtain ⟨rad, h3, e3⟩ := run_overwrite d.rad 0 n _ _ l hd.rad hb
  rw [e3]
  obtain ⟨el, h4, e4⟩ := run_overwrite d.el 0 n _ _ l hd.el hb
  rw [e4]
  obtain ⟨az, h5, e5⟩ := run_overwrite d.az 0 n _ _ l hd.az hb
  rw [e5]
  obtain ⟨gain, h6, e6⟩ := run_overwrite d.gain 0 n _ _ l hd.gain hb
  rw [e6]
  obtain ⟨sw, h2, e2⟩ := run_overwrite d.sw 0 n _ _ l hd.sw hb
  rw [e2]
  simp only [if_true]
  rw [run_then (run_pure _ _)]
  simp only
  obtain ⟨pri, h1, e1⟩ := run_overwrite d.pri 0 n _ _ l hd.pri hb
  rw [e1]
  exact ⟨⟨az, el, rad, gain, sw, d.sh, d.sd, pri⟩, ⟨h5, h4, h3, h6, h2, hd.sh, hd.sd, h1⟩, rfl⟩

theorem run_idle (m : Libm) (s : State) (x : Int) (r : List Int) (hs : s.sample = x :: r)
    (hm : s.hasMd.length = 96) (hd : DescOk s.desc) (p : List Nat) :
    ∃ d h, DescOk d ∧ h.length = 96 ∧
      run (payload m ⟨true, false, 1024⟩ 1024 1 s p) idleBits =
        (Ops.i32 (x + 1024) >>= fun y =>
          .ok (({ s with sample := y :: r, desc := d, hasMd := h }, p), [])) := by
  obtain ⟨d1, hd1, e1⟩ := run_descale m 1024 (0 * 1) (0 * 1 + 1) s.coded s.desc [] hd (by omega)
  obtain ⟨d2, hd2, e2⟩ := run_limitRange 1024 1 d1 [] hd1 (by omega)
  refine ⟨d2, s.hasMd.set (0 * 1) 0, hd2, by simp [hm], ?_⟩
  have hdyn : run (dynamic ⟨true, false, 1024⟩ (0 * 1) 1 s) [false, false] =
      .ok ({ s with hasMd := s.hasMd.set (0 * 1) 0 }, []) := by
    unfold dynamic foldN
    rw [run_bind, run_flag, Res.ok_bind]
    simp only
    rw [run_bind, run_bind, run_bits, if_neg (by decide), if_neg (by decide), Res.ok_bind]
    simp only [List.take_succ_cons, List.take_zero, List.drop_succ_cons, List.drop_zero]
    rw [run_bind, run_setAt _ _ _ _ (by omega), Res.ok_bind]
    rfl
  have hadv : run (advance 1024 1 s.sample) [] =
      (Ops.i32 (x + 1024) >>= fun y => .ok (y :: r, [])) := by
    unfold advance foldN
    rw [hs, run_bind, run_getAt_bind _ 0 x _ _ rfl]
    unfold word Ops.i32
    split
    · rw [run_bind]; simp [lift, setAt, foldN]
    · rw [run_bind]; simp [lift]
  have hlow : run (lowDelay m ⟨true, false, 1024⟩ 1 0 s) idleBits =
      (Ops.i32 (x + 1024) >>= fun y =>
        .ok ({ s with sample := y :: r, desc := d2, hasMd := s.hasMd.set (0 * 1) 0 }, [])) := by
    unfold lowDelay idleBits
    rw [run_bind, run_flag, Res.ok_bind]
    simp only [Bool.false_eq_true, if_false]
    rw [run_then hdyn]
    simp only
    rw [run_then e1, run_then e2, run_bind, hadv]
    cases Ops.i32 (x + 1024) <;> rfl
  unfold payload
  rw [if_neg (by simp), if_neg (by simp), run_bind, hlow]
  cases Ops.i32 (x + 1024) <;> rfl

theorem frames_idle (m : Libm) (k : Nat) (s : State) (x : Int) (r : List Int) (hs : s.sample = x :: r)
    (hm : s.hasMd.length = 96) (hd : DescOk s.desc) (p : List Nat) (h0 : 0 ≤ x)
    (hx : x + 1024 * k ≤ 2147483647) (hk : 2147483647 < x + 1024 * (k + 1)) :
    frames m ⟨true, false, 1024⟩ 1 (List.replicate (k + 1) idleBits) (s, p) = .ub := by
  induction k generalizing s x with
  | zero =>
    obtain ⟨d, h, _, _, e⟩ := run_idle m s x r hs hm hd p
    simp only [List.replicate_succ, List.replicate_zero, frames]
    rw [e]
    have : Ops.i32 (x + 1024) = .ub := by
      unfold Ops.i32 Ops.MIN_32 Ops.MAX_32; rw [if_neg (by omega)]
    rw [this]; rfl
  | succ k ih =>
    obtain ⟨d, h, hd', hm', e⟩ := run_idle m s x r hs hm hd p
    push_cast at hx hk
    rw [List.replicate_succ, frames, e]
    have : Ops.i32 (x + 1024) = .ok (x + 1024) := by
      unfold Ops.i32 Ops.MIN_32 Ops.MAX_32; rw [if_pos (by omega)]
    rw [this]
    simp only [Res.ok_bind]
    exact ih _ (x + 1024) rfl hm' hd' (by omega) (by omega) (by omega)

/-- **C40** (refuted) After 2097152 frames (about twelve and a half hours at 48 kHz), even if they
contain no object metadata at all, the sample counter of the metadata overflows. -/
theorem C40_counter_refuted (m : Libm) : ∃ ls : List (List Bool), ls.length = 2097152 ∧
    frames m ⟨true, false, 1024⟩ 1 ls (init, [0, 0, 0, 0]) = .ub := by
  refine ⟨List.replicate (2097151 + 1) idleBits, by rw [List.length_replicate], ?_⟩
  exact frames_idle m 2097151 init 0 (List.replicate 95 0) rfl (by simp [init]) init_ok.desc _
    (by omega) (by norm_num) (by norm_num)

end Verif.Oam
