import Verif.Spec.DrcInstr
import Verif.Props.DrcCoeffs
import Verif.Props.OamCode

/-! # DRC instructions are decoded as coded -/

namespace Verif.DrcConfig

open Prog DrcGain DrcLoud Spec Oam

/-! ## Kind and head -/

/-- The decoder holds what an instruction is for. -/
def IsTarget (t : Drc.Target) (o : Instr) : Prop := match t with
  | .whole => o.kind = 0 ∧ o.group = -1 ∧ o.preset = -1
  | .group g => o.kind = 2 ∧ o.group = g
  | .preset p => o.kind = 3 ∧ o.preset = p

/-- The fields of a target loudness: whether there is one, the upper end, whether there is a lower end, the lower
end. -/
def RangeIs (r : Option (Nat × Option Nat)) (a : Nat) (b : Int) (c : Nat) (d : Int) : Prop := match r with
  | none => a = 0 ∧ b = 0 ∧ d = -63
  | some (u, none) => a = 1 ∧ b = u - 63 ∧ c = 0 ∧ d = -63
  | some (u, some v) => a = 1 ∧ b = u - 63 ∧ c = 1 ∧ d = v - 63

/-- The fields of the use of an instruction: whether it depends on another set, whether it is never used alone, and
the set it depends on. -/
def UseIs (u : Drc.Use) (x y z : Nat) : Prop := match u with
  | .alone never => x = 0 ∧ y = never.toNat
  | .after id => x = 1 ∧ y = 0 ∧ z = id

/-- The decoder holds the head of an instruction. -/
structure IsHead (h : Drc.Head) (o : Instr) : Prop where
  setId : o.setId = h.setId
  loc : o.loc = h.loc
  apply : o.applyDmx = if h.dmx = 0 then 0 else 1
  count : o.dmxCount = h.ids.length
  ids : ∀ (j : Nat) (d : Nat), h.ids[j]? = some d → o.dmxIds[j]? = some (d : Int)
  effect : o.effect = h.effect
  peak : Drc.ducks h.effect = false → o.peakPresent = (if h.peak.isSome then 1 else 0) ∧ ∀ v ∈ h.peak, o.peak = -(v : Rat) / 8
  range : RangeIs h.range o.targetPresent o.upper o.lowerPresent o.lower
  use : UseIs h.use o.depends o.noIndep o.dependsOn

/-- Nothing but the head has been written. -/
structure HeadOnly (o o' : Instr) : Prop where
  gainIdx : o'.gainIdx = o.gainIdx
  mods : o'.mods = o.mods
  duck : o'.duck = o.duck
  kind : o'.kind = o.kind
  group : o'.group = o.group
  preset : o'.preset = o.preset
  groupSet : o'.groupSet = o.groupSet

theorem run_readKind (t : Drc.Target) (ht : t.Valid) (o : Instr) :
    ∃ o', (∀ l, run (readKind o) (t.bits ++ l) = .ok (o', l)) ∧ IsTarget t o' ∧
      ∃ a b c, o' = { o with kind := a, group := b, preset := c } := by
  unfold readKind
  cases t with
  | whole =>
    refine ⟨{ o with kind := 0, group := -1, preset := -1 }, fun l => ?_, ⟨rfl, rfl, rfl⟩, _, _, _, rfl⟩
    simp only [Drc.Target.bits, List.cons_append, List.nil_append]
    rw [run_one_bind]
    rfl
  | group g =>
    refine ⟨{ o with kind := 2, group := g }, fun l => ?_, ⟨rfl, rfl⟩, _, _, _, rfl⟩
    simp only [Drc.Target.bits, List.cons_append]
    rw [run_one_bind, if_neg (by decide), run_one_bind, if_neg (by decide), run_bits_bind 7 _ _ _ (by omega) ht]
    rfl
  | preset g =>
    refine ⟨{ o with kind := 3, preset := g }, fun l => ?_, ⟨rfl, rfl⟩, _, _, _, rfl⟩
    simp only [Drc.Target.bits, List.cons_append]
    rw [run_one_bind, if_neg (by decide), run_one_bind, if_pos (by decide), run_bits_bind 5 _ _ _ (by omega) ht]
    rfl

theorem run_readDmxIds (d : Nat) (hd : d < 128) (more : Option (List Nat)) (hm : ∀ xs ∈ more, xs.length < 8 ∧ ∀ x ∈ xs, x < 128)
    (o : Instr) (ho : o.dmxIds.length = 8) :
    ∃ ids, (∀ l, run (readDmxIds o) (natBits 7 d ++ (Drc.opt (fun xs => natBits 3 xs.length ++ xs.flatMap (natBits 7)) more ++ l)) =
        .ok ({ o with dmxIds := ids, applyDmx := if d = 0 then 0 else 1, dmxCount := (d :: more.getD []).length }, l)) ∧
      ids.length = 8 ∧ ∀ (j : Nat) (x : Nat), (d :: more.getD [])[j]? = some x → ids[j]? = some (x : Int) := by
  have ha : (if d ≠ 0 then 1 else 0) = (if d = 0 then 0 else 1 : Nat) := by split <;> simp_all
  unfold readDmxIds
  cases more with
  | none =>
    refine ⟨o.dmxIds.set 0 d, fun l => ?_, by simpa using ho, ?_⟩
    · simp only [Drc.opt, List.cons_append, List.nil_append]
      rw [run_bits_bind 7 _ _ _ (by omega) hd, run_setAt_bind _ _ _ _ _ (by omega), run_one_bind, if_pos (by decide), ha]
      rfl
    · intro j x hj
      cases j with
      | zero =>
        simp only [List.getElem?_cons_zero, Option.some.injEq] at hj
        subst hj
        rw [List.getElem?_set_self (by omega)]
      | succ j => simp at hj
  | some xs =>
    obtain ⟨hx1, hx2⟩ := hm xs rfl
    obtain ⟨ids, h1, h2, h3⟩ := run_foldN_items (fun k ids => do
        let v ← bits 7
        setAt ids (k + 1) (v : Int)) (natBits 7) 0 xs
      (fun pre ids => ids.length = 8 ∧ ∀ (j : Nat) (x : Nat), (d :: pre)[j]? = some x → ids[j]? = some (x : Int)) (by
        rintro pre x post s hall ⟨s1, s2⟩
        have hlen : pre.length + (post.length + 1) = xs.length := by rw [hall]; simp
        refine ⟨s.set (pre.length + 1) x, fun l => ?_, by simpa using s1, ?_⟩
        · rw [Nat.zero_add, run_bits_bind 7 _ _ _ (by omega) (hx2 x (by rw [hall]; simp)), run_setAt _ _ _ _ (by omega)]
        · intro j y hj
          rw [← List.cons_append] at hj
          rcases getElem?_snoc hj with ⟨hlt, hj⟩ | ⟨rfl, rfl⟩
          · rw [List.getElem?_set_ne (by simp at hlt; omega)]
            exact s2 j y hj
          · rw [show (d :: pre).length = pre.length + 1 from rfl, List.getElem?_set_self (by omega)]) xs []
      (o.dmxIds.set 0 d) rfl ⟨by simpa using ho, by
        intro j x hj
        cases j with
        | zero =>
          simp only [List.getElem?_cons_zero, Option.some.injEq] at hj
          subst hj
          rw [List.getElem?_set_self (by omega)]
        | succ j => simp at hj⟩
    refine ⟨ids, fun l => ?_, h2, h3⟩
    simp only [Drc.opt, List.cons_append, List.append_assoc]
    rw [run_bits_bind 7 _ _ _ (by omega) hd, run_setAt_bind _ _ _ _ _ (by omega), run_one_bind, if_neg (by decide),
      run_bits_bind 3 _ _ _ (by omega) (by omega), run_bind]
    have := h1 l
    simp only [List.length_nil, Nat.add_zero] at this
    rw [this, Res.ok_bind, ha]
    simp [Nat.add_comm]

theorem run_readTarget (r : Option (Nat × Option Nat)) (hr : ∀ x ∈ r, x.1 < 64 ∧ ∀ v ∈ x.2, v < 64) (o : Instr) :
    ∃ a b c d, (∀ l, run (readTarget o) (Drc.opt (fun r : Nat × Option Nat => natBits 6 r.1 ++ Drc.opt (natBits 6) r.2) r ++ l) =
        .ok ({ o with targetPresent := a, upper := b, lowerPresent := c, lower := d }, l)) ∧
      RangeIs r a b c d := by
  unfold readTarget
  match r, hr with
  | none, _ =>
    refine ⟨0, 0, o.lowerPresent, -63, fun l => ?_, rfl, rfl, rfl⟩
    simp only [Drc.opt, List.cons_append, List.nil_append]
    rw [run_one_bind]
    rfl
  | some (u, none), hr =>
    refine ⟨1, u - 63, 0, -63, fun l => ?_, rfl, rfl, rfl, rfl⟩
    simp only [Drc.opt, List.cons_append, List.nil_append, List.append_assoc]
    rw [run_one_bind, if_pos (by decide), run_bits_bind 6 _ _ _ (by omega) (hr _ rfl).1, run_one_bind]
    rfl
  | some (u, some v), hr =>
    refine ⟨1, u - 63, 1, v - 63, fun l => ?_, rfl, rfl, rfl, rfl⟩
    simp only [Drc.opt, List.cons_append, List.append_assoc]
    rw [run_one_bind, if_pos (by decide), run_bits_bind 6 _ _ _ (by omega) (hr _ rfl).1, run_one_bind, if_pos (by decide),
      run_bits_bind 6 _ _ _ (by omega) ((hr _ rfl).2 v rfl)]
    rfl

theorem run_readHead (h : Drc.Head) (hh : h.Valid) (o : Instr) (ho : o.dmxIds.length = 8) :
    ∃ o', (∀ l, run (readHead o) (h.bits ++ l) = .ok (o', l)) ∧ IsHead h o' ∧ HeadOnly o o' := by
  obtain ⟨ids, hids, hil, hi⟩ := run_readDmxIds h.dmx hh.dmx h.more hh.more { o with setId := h.setId, loc := h.loc } ho
  have hd0 : ids[0]? = some (h.dmx : Int) := hi 0 h.dmx rfl
  obtain ⟨o1, e1⟩ : ∃ o1 : Instr, o1 = { o with setId := h.setId, loc := h.loc, dmxIds := ids, applyDmx := if h.dmx = 0 then 0 else 1, dmxCount := (h.dmx :: h.more.getD []).length, effect := h.effect } := ⟨_, rfl⟩
  have hpeak : ∃ p v, (∀ l, run (if !duckOther h.effect && !duckSelf h.effect then (do
        let p ← bits 1
        if p = 1 then do
          let v ← bits 8
          pure { o1 with peakPresent := p, peak := -(v : Rat) / 8 }
        else pure { o1 with peakPresent := p })
      else pure o1) ((if Drc.ducks h.effect then [] else Drc.opt (natBits 8) h.peak) ++ l) =
        .ok ({ o1 with peakPresent := p, peak := v }, l)) ∧
      (Drc.ducks h.effect = false → p = (if h.peak.isSome then 1 else 0) ∧ ∀ x ∈ h.peak, v = -(x : Rat) / 8) := by
    by_cases hd : Drc.ducks h.effect = true
    · refine ⟨o1.peakPresent, o1.peak, fun l => ?_, fun hf => by rw [hd] at hf; simp at hf⟩
      have : (!duckOther h.effect && !duckSelf h.effect) = false := by
        simp only [Drc.ducks] at hd
        simp only [duckOther, duckSelf]
        rcases Bool.or_eq_true _ _ ▸ hd with h | h <;> simp [h]
      rw [this, hd]
      rfl
    · have hd : Drc.ducks h.effect = false := by simpa using hd
      have : (!duckOther h.effect && !duckSelf h.effect) = true := by
        simp only [Drc.ducks, Bool.or_eq_false_iff] at hd
        simp [duckOther, duckSelf, hd]
      rw [this, hd]
      cases hp : h.peak with
      | none =>
        refine ⟨0, o1.peak, fun l => ?_, fun _ => ⟨rfl, by simp⟩⟩
        simp only [Drc.opt, if_true, Bool.false_eq_true, if_false, List.cons_append, List.nil_append]
        rw [run_one_bind]
        rfl
      | some v =>
        refine ⟨1, -(v : Rat) / 8, fun l => ?_, fun _ => ⟨rfl, by simp⟩⟩
        simp only [Drc.opt, if_true, Bool.false_eq_true, if_false, List.cons_append]
        rw [run_one_bind, if_pos (by decide), run_bits_bind 8 _ _ _ (by omega) (hh.peak v (by rw [hp]; rfl))]
        rfl
  obtain ⟨p, v, hp, hpv⟩ := hpeak
  obtain ⟨a, b, c, e, hr, hrv⟩ := run_readTarget h.range hh.range { o1 with peakPresent := p, peak := v }
  have huse : ∃ x y z, (∀ l, run (do
        let dep ← bits 1
        let d ← getAt ids 0
        if d = 0 ∧ dep ≠ 0 then fail errProfile
        else if dep = 0 then do
          let ni ← bits 1
          pure { o1 with peakPresent := p, peak := v, targetPresent := a, upper := b, lowerPresent := c, lower := e, depends := dep, noIndep := ni }
        else do
          let on ← bits 6
          pure { o1 with peakPresent := p, peak := v, targetPresent := a, upper := b, lowerPresent := c, lower := e, depends := dep, noIndep := 0, dependsOn := on })
        ((match h.use with
          | .alone never => [false, never]
          | .after id => true :: natBits 6 id) ++ l) =
        .ok ({ o1 with peakPresent := p, peak := v, targetPresent := a, upper := b, lowerPresent := c, lower := e, depends := x, noIndep := y, dependsOn := z }, l)) ∧
      UseIs h.use x y z := by
    cases hu : h.use with
    | alone never =>
      refine ⟨0, never.toNat, o1.dependsOn, fun l => ?_, rfl, rfl⟩
      simp only [List.cons_append, List.nil_append]
      rw [run_one_bind, run_getAt_bind _ _ _ _ _ hd0, if_neg (by simp), if_pos (by decide), run_one_bind]
      rfl
    | after id =>
      have hv := hh.use
      rw [hu] at hv
      refine ⟨1, 0, id, fun l => ?_, rfl, rfl, rfl⟩
      simp only [List.cons_append]
      rw [run_one_bind, run_getAt_bind _ _ _ _ _ hd0, if_neg (by simp [hv.2]), if_neg (by decide),
        run_bits_bind 6 _ _ _ (by omega) hv.1]
      rfl
  obtain ⟨x, y, z, hu, huv⟩ := huse
  refine ⟨{ o1 with peakPresent := p, peak := v, targetPresent := a, upper := b, lowerPresent := c, lower := e, depends := x, noIndep := y, dependsOn := z },
    fun l => ?_, ⟨?_, ?_, ?_, ?_, ?_, ?_, ?_, ?_, ?_⟩, ⟨?_, ?_, ?_, ?_, ?_, ?_, ?_⟩⟩
  · unfold readHead Drc.Head.bits
    simp only [List.append_assoc]
    rw [run_bits_bind 6 _ _ _ (by omega) (by have := hh.setId; omega), if_neg (by have := hh.setId; omega),
      run_bits_bind 4 _ _ _ (by omega) hh.loc, run_bind, hids, Res.ok_bind]
    dsimp only
    rw [run_bits_bind 16 _ _ _ (by omega) hh.effect]
    subst e1
    refine (run_then (hp _)).trans ?_
    refine (run_then (hr _)).trans ?_
    exact hu l
  all_goals subst e1
  · rfl
  · rfl
  · rfl
  · rfl
  · exact hi
  · rfl
  · exact hpv
  · exact hrv
  · exact huv
  all_goals rfl

/-! ## Channels -/

/-- `vs` written over `xs` from `ch` on. -/
def over {α : Type} (xs : List α) (ch : Nat) (vs : List α) : List α := xs.take ch ++ vs ++ xs.drop (ch + vs.length)

theorem over_length {α : Type} {xs vs : List α} {ch : Nat} (h : ch + vs.length ≤ xs.length) : (over xs ch vs).length = xs.length := by
  simp [over]
  omega

theorem over_nil {α : Type} (xs : List α) (ch : Nat) : over xs ch [] = xs := by simp [over]

theorem over_get {α : Type} {xs vs : List α} {ch : Nat} (h : ch + vs.length ≤ xs.length) (i : Nat) :
    (over xs ch vs)[i]? = if ch ≤ i ∧ i < ch + vs.length then vs[i - ch]? else xs[i]? := by
  unfold over
  have ht : (xs.take ch).length = ch := by simp; omega
  split
  · rw [List.append_assoc, List.getElem?_append_right (by omega), List.getElem?_append_left (by omega), ht]
  · by_cases hi : i < ch
    · rw [List.append_assoc, List.getElem?_append_left (by omega), List.getElem?_take, if_pos hi]
    · rw [List.getElem?_append_right (by simp; omega), List.getElem?_drop]
      congr 1
      simp
      omega

theorem over_over {α : Type} {xs vs ws : List α} {ch : Nat} (h : ch + vs.length + ws.length ≤ xs.length) :
    over (over xs ch vs) (ch + vs.length) ws = over xs ch (vs ++ ws) := by
  apply List.ext_getElem?
  intro i
  have h1 := over_length (xs := xs) (vs := vs) (ch := ch) (by omega)
  rw [over_get (by omega), over_get (by omega), over_get (by simp; omega)]
  simp only [List.length_append]
  by_cases a : i < ch
  · rw [if_neg (by omega), if_neg (by omega), if_neg (by omega)]
  · by_cases b : i < ch + vs.length
    · rw [if_neg (by omega), if_pos (by omega), if_pos (by omega), List.getElem?_append_left (by omega)]
    · by_cases c : i < ch + vs.length + ws.length
      · rw [if_pos (by omega), if_pos (by omega), List.getElem?_append_right (by omega)]
        congr 1
        omega
      · rw [if_neg (by omega), if_neg (by omega), if_neg (by omega)]

theorem set_eq_over {α : Type} {xs : List α} {ch : Nat} {v : α} (h : ch < xs.length) : xs.set ch v = over xs ch [v] := by
  apply List.ext_getElem?
  intro i
  rw [over_get (by simp; omega), List.getElem?_set]
  simp only [List.length_singleton]
  by_cases e : ch = i
  · subst e
    simp [h]
  · rw [if_neg e, if_neg (by omega)]

theorem run_fillFrom {α : Type} (v : α) (n : Nat) : ∀ (ch : Nat) (xs : List α), ch + n ≤ xs.length → ∀ l,
    run (fillFrom n ch v xs) l = .ok (over xs ch (List.replicate n v), l) := by
  induction n with
  | zero =>
    intro ch xs _ l
    simp [fillFrom, foldN, over_nil]
  | succ n ih =>
    intro ch xs h l
    have : fillFrom (n + 1) ch v xs = setAt xs ch v >>= fillFrom n (ch + 1) v := rfl
    rw [this, run_setAt_bind _ _ _ _ _ (by omega), ih _ _ (by simp; omega), set_eq_over (by omega)]
    have := over_over (xs := xs) (vs := [v]) (ws := List.replicate n v) (ch := ch) (by simp; omega)
    rw [show ch + [v].length = ch + 1 from rfl] at this
    rw [this]
    rfl

theorem indices_cons (r : Drc.Run) (rs : List Drc.Run) :
    Drc.indices (r :: rs) = List.replicate (Drc.spread r.more) (r.set - 1 : Int) ++ Drc.indices rs := rfl

theorem spread_pos (m : Option Nat) : 1 ≤ Drc.spread m := by unfold Drc.spread; split <;> omega

theorem run_idxLoop (cnt : Nat) (hc : cnt ≤ 16) : ∀ (rs : List Drc.Run) (_ : ∀ r ∈ rs, r.Valid) (fuel ch : Nat) (xs : List Int),
    xs.length = 16 → ch + (Drc.indices rs).length = cnt → (Drc.indices rs).length ≤ fuel → ∀ l,
    run (idxLoop cnt fuel ch xs) (rs.flatMap Drc.Run.bits ++ l) = .ok ((cnt, over xs ch (Drc.indices rs)), l) := by
  intro rs
  induction rs with
  | nil =>
    intro _ fuel ch xs _ hcnt _ l
    simp only [Drc.indices, List.flatMap_nil, List.length_nil, Nat.add_zero] at hcnt
    subst hcnt
    simp only [Drc.indices, List.flatMap_nil, List.nil_append, over_nil]
    cases fuel with
    | zero => rfl
    | succ f =>
      unfold idxLoop
      rw [if_neg (by omega)]
      rfl
  | cons r rs ih =>
    intro hv fuel ch xs hx hcnt hf l
    have hr := hv r (by simp)
    have hpos := spread_pos r.more
    rw [indices_cons, List.length_append, List.length_replicate] at hcnt hf
    obtain ⟨f, rfl⟩ : ∃ f, fuel = f + 1 := ⟨fuel - 1, by omega⟩
    unfold idxLoop
    rw [if_pos (by omega), List.flatMap_cons, Drc.Run.bits]
    have key : ((r.set : Nat) - 1 : Int) = (r.set - 1 : Int) := rfl
    cases hm : r.more with
    | none =>
      rw [hm] at hcnt hf
      simp only [Drc.spread] at hcnt hf
      have := run_pair_bind 6 1 r.set 0 (fun t => if 24 < t / 2 then fail errUnexpected else do
        let xs ← setAt xs ch ((t / 2 : Nat) - 1 : Int)
        if t % 2 = 1 then do
          let n ← bits 5
          if 16 < ch + 1 + (n + 1) then fail errUnexpected
          else do
            let xs ← fillFrom (n + 1) (ch + 1) ((t / 2 : Nat) - 1 : Int) xs
            idxLoop cnt f (ch + 1 + (n + 1)) xs
        else idxLoop cnt f (ch + 1) xs) (rs.flatMap Drc.Run.bits ++ l) (by omega) (by have := hr.1; omega) (by omega)
      simp only [Drc.opt, List.append_assoc, List.cons_append, List.nil_append]
      rw [show natBits 1 0 = [false] from rfl] at this
      simp only [List.cons_append, List.nil_append] at this
      rw [this, if_neg (by have := hr.1; omega), run_setAt_bind _ _ _ _ _ (by omega), if_neg (by omega),
        ih (fun x hx => hv x (by simp [hx])) f (ch + 1) _ (by simpa using hx) (by omega) (by omega), set_eq_over (by omega)]
      have := over_over (xs := xs) (vs := [(((r.set * 2 ^ 1 + 0) / 2 : Nat) - 1 : Int)]) (ws := Drc.indices rs) (ch := ch) (by simp; omega)
      rw [List.length_singleton] at this
      rw [this, indices_cons, hm, show (r.set * 2 ^ 1 + 0) / 2 = r.set by omega]
      rfl
    | some n =>
      have hn := hr.2 n hm
      rw [hm] at hcnt hf
      simp only [Drc.spread] at hcnt hf
      have := run_pair_bind 6 1 r.set 1 (fun t => if 24 < t / 2 then fail errUnexpected else do
        let xs ← setAt xs ch ((t / 2 : Nat) - 1 : Int)
        if t % 2 = 1 then do
          let n ← bits 5
          if 16 < ch + 1 + (n + 1) then fail errUnexpected
          else do
            let xs ← fillFrom (n + 1) (ch + 1) ((t / 2 : Nat) - 1 : Int) xs
            idxLoop cnt f (ch + 1 + (n + 1)) xs
        else idxLoop cnt f (ch + 1) xs) (natBits 5 n ++ (rs.flatMap Drc.Run.bits ++ l)) (by omega) (by have := hr.1; omega) (by omega)
      simp only [Drc.opt, List.append_assoc, List.cons_append]
      rw [show natBits 1 1 = [true] from rfl] at this
      simp only [List.cons_append, List.nil_append] at this
      rw [this, if_neg (by have := hr.1; omega), run_setAt_bind _ _ _ _ _ (by omega), if_pos (by omega),
        run_bits_bind 5 _ _ _ (by omega) hn, if_neg (by omega), run_bind, run_fillFrom _ _ _ _ (by simp; omega), Res.ok_bind]
      have hlen : (over (xs.set ch (((r.set * 2 ^ 1 + 1) / 2 : Nat) - 1 : Int)) (ch + 1)
          (List.replicate (n + 1) (((r.set * 2 ^ 1 + 1) / 2 : Nat) - 1 : Int))).length = 16 := by
        rw [over_length (by simp; omega)]
        simpa using hx
      dsimp only
      rw [ih (fun x hx => hv x (by simp [hx])) f (ch + 1 + (n + 1)) _ hlen (by omega) (by omega), set_eq_over (by omega)]
      have o1 := over_over (xs := xs) (vs := [(((r.set * 2 ^ 1 + 1) / 2 : Nat) - 1 : Int)])
        (ws := List.replicate (n + 1) (((r.set * 2 ^ 1 + 1) / 2 : Nat) - 1 : Int)) (ch := ch) (by simp; omega)
      rw [List.length_singleton] at o1
      have o2 := over_over (xs := xs) (vs := [(((r.set * 2 ^ 1 + 1) / 2 : Nat) - 1 : Int)] ++
        List.replicate (n + 1) (((r.set * 2 ^ 1 + 1) / 2 : Nat) - 1 : Int)) (ws := Drc.indices rs) (ch := ch) (by simp; omega)
      rw [List.length_append, List.length_singleton, List.length_replicate, ← Nat.add_assoc] at o2
      rw [o1, o2, indices_cons, hm, show (r.set * 2 ^ 1 + 1) / 2 = r.set by omega]
      rfl

/-- The factors of the channels with the flags the decoder keeps beside them. -/
def factors (rs : List Drc.DuckRun) : List (Nat × Rat) :=
  rs.flatMap fun r => List.replicate (Drc.spread r.more) (r.change.isSome.toNat, r.factor)

/-- The gain sets of the channels. -/
def duckSets (rs : List Drc.DuckRun) : List Int := rs.flatMap fun r => List.replicate (Drc.spread r.more) (r.set - 1 : Int)

theorem duckSets_cons (r : Drc.DuckRun) (rs : List Drc.DuckRun) :
    duckSets (r :: rs) = List.replicate (Drc.spread r.more) (r.set - 1 : Int) ++ duckSets rs := rfl

theorem factors_cons (r : Drc.DuckRun) (rs : List Drc.DuckRun) :
    factors (r :: rs) = List.replicate (Drc.spread r.more) (r.change.isSome.toNat, r.factor) ++ factors rs := rfl

theorem factors_length (rs : List Drc.DuckRun) : (factors rs).length = (duckSets rs).length := by
  induction rs with
  | nil => rfl
  | cons r rs ih => simp [factors_cons, duckSets_cons, ih]

theorem ducked_eq (rs : List Drc.DuckRun) : Drc.ducked rs = (duckSets rs).zip ((factors rs).map (·.2)) := by
  induction rs with
  | nil => rfl
  | cons r rs ih =>
    rw [duckSets_cons, factors_cons, List.map_append, List.zip_append (by simp), ← ih]
    simp [Drc.ducked]

theorem run_readDuck (r : Drc.DuckRun) (hr : r.Valid) (l : List Bool) :
    run readDuck (Drc.opt (fun o : Bool × Nat => o.1 :: natBits 3 o.2) r.change ++ l) =
      .ok ((r.change.isSome.toNat, r.factor), l) := by
  unfold readDuck
  cases hc : r.change with
  | none =>
    simp only [Drc.opt, List.cons_append, List.nil_append]
    rw [run_one_bind]
    simp [Drc.DuckRun.factor, hc]
  | some o =>
    obtain ⟨neg, v⟩ := o
    have hv : v < 8 := hr.2.1 _ hc
    simp only [Drc.opt, List.cons_append]
    rw [run_one_bind, if_pos (by decide)]
    have := run_pair_bind 1 3 neg.toNat v (fun t => (pure (1, if t / 8 ≠ 0 then 1 - (1 + (t % 8 : Nat)) / 8 else 1 + (1 + (t % 8 : Nat)) / 8) :
      Prog (Nat × Rat))) l (by omega) (by cases neg <;> decide) hv
    rw [natBits_one] at this
    refine this.trans ?_
    simp only [run_pure, Drc.DuckRun.factor, hc]
    cases neg
    · rw [show (Bool.toNat false * 2 ^ 3 + v) / 8 = 0 by simp; omega, show (Bool.toNat false * 2 ^ 3 + v) % 8 = v by simp; omega]
      simp [add_comm]
    · rw [show (Bool.toNat true * 2 ^ 3 + v) / 8 = 1 by simp; omega, show (Bool.toNat true * 2 ^ 3 + v) % 8 = v by simp; omega]
      simp [add_comm]

theorem run_duckLoop (cnt : Nat) (hc : cnt ≤ 16) : ∀ (rs : List Drc.DuckRun) (_ : ∀ r ∈ rs, r.Valid) (fuel ch : Nat)
    (s : List Int × List (Nat × Rat)), s.1.length = 16 → s.2.length = 16 → ch + (duckSets rs).length = cnt →
    (duckSets rs).length ≤ fuel → ∀ l, run (duckLoop cnt fuel ch s) (rs.flatMap Drc.DuckRun.bits ++ l) =
      .ok ((cnt, over s.1 ch (duckSets rs), over s.2 ch (factors rs)), l) := by
  intro rs
  induction rs with
  | nil =>
    intro _ fuel ch s _ _ hcnt _ l
    simp only [duckSets, List.flatMap_nil, List.length_nil, Nat.add_zero] at hcnt
    subst hcnt
    simp only [duckSets, factors, List.flatMap_nil, List.nil_append, over_nil]
    cases fuel with
    | zero => rfl
    | succ f =>
      unfold duckLoop
      rw [if_neg (by omega)]
      rfl
  | cons r rs ih =>
    intro hv fuel ch s hx hd hcnt hf l
    obtain ⟨xs, ds⟩ := s
    dsimp only at hx hd ⊢
    have hr := hv r (by simp)
    have hpos := spread_pos r.more
    rw [duckSets_cons, List.length_append, List.length_replicate] at hcnt hf
    have hfl := factors_length rs
    obtain ⟨f, rfl⟩ : ∃ f, fuel = f + 1 := ⟨fuel - 1, by omega⟩
    unfold duckLoop
    rw [if_pos (by omega), List.flatMap_cons, Drc.DuckRun.bits]
    simp only [List.append_assoc]
    rw [run_bits_bind 6 _ _ _ (by omega) (by have := hr.1; omega), if_neg (by have := hr.1; omega),
      run_setAt_bind _ _ _ _ _ (by omega), run_bind, run_readDuck r hr, Res.ok_bind]
    dsimp only
    rw [run_setAt_bind _ _ _ _ _ (by omega)]
    cases hm : r.more with
    | none =>
      rw [hm] at hcnt hf
      simp only [Drc.spread] at hcnt hf
      simp only [Drc.opt, List.cons_append, List.nil_append]
      rw [run_one_bind, if_neg (by decide), ih (fun x hx => hv x (by simp [hx])) f (ch + 1) _ (by simpa using hx)
        (by simpa using hd) (by omega) (by omega)]
      dsimp only
      rw [set_eq_over (by omega), set_eq_over (by omega)]
      have o1 := over_over (xs := xs) (vs := [(r.set - 1 : Int)]) (ws := duckSets rs) (ch := ch) (by simp; omega)
      have o2 := over_over (xs := ds) (vs := [(r.change.isSome.toNat, r.factor)]) (ws := factors rs) (ch := ch) (by simp; omega)
      rw [List.length_singleton] at o1 o2
      rw [o1, o2, duckSets_cons, factors_cons, hm]
      rfl
    | some n =>
      have hn := hr.2.2 n hm
      rw [hm] at hcnt hf
      simp only [Drc.spread] at hcnt hf
      simp only [Drc.opt, List.cons_append]
      rw [run_one_bind, if_pos (by decide), run_bits_bind 5 _ _ _ (by omega) hn, if_neg (by omega), run_bind,
        run_fillFrom _ _ _ _ (by simp; omega), Res.ok_bind]
      dsimp only
      rw [run_bind, run_fillFrom _ _ _ _ (by simp; omega), Res.ok_bind]
      dsimp only
      rw [ih (fun x hx => hv x (by simp [hx])) f (ch + 1 + (n + 1)) _ (by dsimp only; rw [over_length (by simp; omega)]; simpa using hx)
        (by dsimp only; rw [over_length (by simp; omega)]; simpa using hd) (by omega) (by omega)]
      dsimp only
      rw [set_eq_over (by omega), set_eq_over (by omega)]
      have o1 := over_over (xs := xs) (vs := [(r.set - 1 : Int)]) (ws := List.replicate (n + 1) (r.set - 1 : Int)) (ch := ch)
        (by simp; omega)
      have o2 := over_over (xs := ds) (vs := [(r.change.isSome.toNat, r.factor)])
        (ws := List.replicate (n + 1) (r.change.isSome.toNat, r.factor)) (ch := ch) (by simp; omega)
      rw [List.length_singleton] at o1 o2
      have o3 := over_over (xs := xs) (vs := [(r.set - 1 : Int)] ++ List.replicate (n + 1) (r.set - 1 : Int)) (ws := duckSets rs)
        (ch := ch) (by simp; omega)
      have o4 := over_over (xs := ds) (vs := [(r.change.isSome.toNat, r.factor)] ++
        List.replicate (n + 1) (r.change.isSome.toNat, r.factor)) (ws := factors rs) (ch := ch) (by simp; omega)
      rw [List.length_append, List.length_singleton, List.length_replicate, ← Nat.add_assoc] at o3 o4
      rw [o1, o2, o3, o4, duckSets_cons, factors_cons, hm]
      rfl

/-! ## Modifiers -/

/-- What the decoder keeps of a modifier. -/
def modOf (m : Drc.Mod) : BandMod := ⟨m.scale.isSome.toNat, m.attenuation, m.amplification, m.shift.isSome.toNat, m.offset⟩

theorem fillFrom_ok {α : Type} (v : α) (n : Nat) : ∀ (ch : Nat) (xs ys : List α) (l l' : List Bool),
    run (fillFrom n ch v xs) l = .ok (ys, l') → l' = l ∧ (∀ b < ch, ys[b]? = xs[b]?) ∧
      ∀ b, ch ≤ b → b < ch + n → ys[b]? = some v := by
  induction n with
  | zero =>
    intro ch xs ys l l' h
    simp only [fillFrom, foldN, run_pure, Res.ok.injEq, Prod.mk.injEq] at h
    obtain ⟨rfl, rfl⟩ := h
    exact ⟨rfl, fun _ _ => rfl, fun b _ _ => by omega⟩
  | succ n ih =>
    intro ch xs ys l l' h
    have e : fillFrom (n + 1) ch v xs = setAt xs ch v >>= fillFrom n (ch + 1) v := rfl
    by_cases hch : ch < xs.length
    · rw [e, run_setAt_bind _ _ _ _ _ hch] at h
      obtain ⟨h1, h2, h3⟩ := ih _ _ _ _ _ h
      refine ⟨h1, fun b hb => ?_, fun b hb1 hb2 => ?_⟩
      · rw [h2 b (by omega), List.getElem?_set_ne (by omega)]
      · by_cases hbc : b = ch
        · subst hbc
          rw [h2 b (by omega), List.getElem?_set_self hch]
        · exact h3 b (by omega) (by omega)
    · rw [e, run_bind] at h
      unfold setAt at h
      rw [if_neg hch] at h
      simp at h

theorem run_readMods (m : Drc.Mod) (hm : m.Valid) (bands : Nat) (ms : List BandMod) (l : List Bool) :
    run (readMods bands ms) (m.bits ++ l) = run (fillFrom bands 0 (modOf m) ms) l := by
  unfold readMods Drc.Mod.bits
  have h1 : ∀ (f : Nat → Rat × Rat → Prog (List BandMod)) (l : List Bool), run (do
      let sf ← bits 1
      let s ← (if sf = 1 then do
          let t ← bits 8
          pure ((t / 16 : Nat) / (8 : Rat), (t % 16 : Nat) / (8 : Rat))
        else pure (1, 1))
      f sf s) (Drc.opt (fun s : Nat × Nat => natBits 4 s.1 ++ natBits 4 s.2) m.scale ++ l) =
      run (f m.scale.isSome.toNat (m.attenuation, m.amplification)) l := by
    intro f l
    cases hc : m.scale with
    | none =>
      simp only [Drc.opt, List.cons_append, List.nil_append]
      rw [run_one_bind]
      simp [Drc.Mod.attenuation, Drc.Mod.amplification, hc, run_bind]
    | some s =>
      obtain ⟨a, b⟩ := s
      have hv := hm.1 _ hc
      dsimp only at hv
      simp only [Drc.opt, List.cons_append, List.append_assoc]
      rw [run_one_bind, if_pos (by decide), run_bind, run_pair_bind 4 4 _ _ _ _ (by omega) hv.1 hv.2]
      simp only [run_pure, Res.ok_bind, Drc.Mod.attenuation, Drc.Mod.amplification, hc]
      rw [show (a * 2 ^ 4 + b) / 16 = a by omega, show (a * 2 ^ 4 + b) % 16 = b by omega]
      rfl
  have h2 : ∀ (f : Nat → Rat → Prog (List BandMod)) (l : List Bool), run (do
      let of ← bits 1
      let g ← (if of = 1 then do
          let t ← bits 6
          pure (if t / 32 = 1 then -((1 + t % 32 : Nat) / (4 : Rat)) else (1 + t % 32 : Nat) / (4 : Rat))
        else pure (0 : Rat))
      f of g) (Drc.opt (fun o : Bool × Nat => o.1 :: natBits 5 o.2) m.shift ++ l) =
      run (f m.shift.isSome.toNat m.offset) l := by
    intro f l
    cases hc : m.shift with
    | none =>
      simp only [Drc.opt, List.cons_append, List.nil_append]
      rw [run_one_bind]
      simp [Drc.Mod.offset, hc, run_bind]
    | some s =>
      obtain ⟨neg, v⟩ := s
      have hv := hm.2 _ hc
      dsimp only at hv
      simp only [Drc.opt, List.cons_append]
      rw [run_one_bind, if_pos (by decide), run_bind]
      have := run_pair_bind 1 5 neg.toNat v (fun t => (pure (if t / 32 = 1 then -((1 + t % 32 : Nat) / (4 : Rat)) else
        (1 + t % 32 : Nat) / (4 : Rat)) : Prog Rat)) l (by omega) (by cases neg <;> decide) hv
      rw [natBits_one] at this
      simp only [List.cons_append, List.nil_append] at this
      rw [this]
      simp only [run_pure, Res.ok_bind, Drc.Mod.offset, hc]
      cases neg
      · rw [show (Bool.toNat false * 2 ^ 5 + v) / 32 = 0 by simp; omega, show (Bool.toNat false * 2 ^ 5 + v) % 32 = v by simp; omega]
        simp [add_comm]
      · rw [show (Bool.toNat true * 2 ^ 5 + v) / 32 = 1 by simp; omega, show (Bool.toNat true * 2 ^ 5 + v) % 32 = v by simp; omega]
        simp [add_comm]
  rw [List.append_assoc]
  refine (h1 _ _).trans ?_
  exact h2 _ _

/-- The number of bands that are changed in a gain set. -/
def bandsOf (c : Coeffs) (v : Int) : Nat := if v < c.count then ((c.sets[v.toNat]?).map (·.bands)).getD 0 else 1

theorem modSteps_ok (c : Coeffs) (uniq : List (Int × Rat)) : ∀ (mods : List Drc.Mod) (_ : ∀ m ∈ mods, m.Valid) (i : Nat)
    (s s' : List Int × List (List BandMod)) (l l' : List Bool),
    run (foldN (modStep c uniq) mods.length i s) (mods.flatMap Drc.Mod.bits ++ l) = .ok (s', l') →
    l' = l ∧ (∀ k < i, s'.1[k]? = s.1[k]? ∧ s'.2[k]? = s.2[k]?) ∧
      ∀ (j : Nat) (m : Drc.Mod), mods[j]? = some m → ∃ v bs, s'.1[i + j]? = some v ∧ s'.2[i + j]? = some bs ∧
        ∀ b < bandsOf c v, bs[b]? = some (modOf m) := by
  intro mods
  induction mods with
  | nil =>
    intro _ i s s' l l' h
    simp only [List.length_nil, foldN, List.flatMap_nil, List.nil_append, run_pure, Res.ok.injEq, Prod.mk.injEq] at h
    obtain ⟨rfl, rfl⟩ := h
    exact ⟨rfl, fun _ _ => ⟨rfl, rfl⟩, by simp⟩
  | cons m mods ih =>
    intro hv i s s' l l' h
    have e : foldN (modStep c uniq) (m :: mods).length i s = modStep c uniq i s >>= foldN (modStep c uniq) mods.length (i + 1) := rfl
    rw [e, run_bind, List.flatMap_cons, List.append_assoc] at h
    obtain ⟨⟨s1, l1⟩, h1, h2⟩ := Res.bind_eq_ok.mp h
    dsimp only at h2
    unfold modStep at h1
    rw [run_bind] at h1
    obtain ⟨⟨u, lu⟩, hu, h1⟩ := Res.bind_eq_ok.mp h1
    dsimp only at h1
    have hlu : lu = m.bits ++ (mods.flatMap Drc.Mod.bits ++ l) := by
      unfold getAt at hu
      cases hx : uniq[i]? with
      | none => rw [hx] at hu; simp at hu
      | some w => rw [hx] at hu; simp at hu; exact hu.2.symm
    subst hlu
    by_cases hneg : u.1 < 0
    · rw [if_pos hneg] at h1
      simp at h1
    rw [if_neg hneg, run_bind] at h1
    obtain ⟨⟨gs, lg⟩, hg, h1⟩ := Res.bind_eq_ok.mp h1
    dsimp only at h1
    have hi1 : i < s.1.length := by
      by_contra hc
      unfold setAt at hg
      rw [if_neg hc] at hg
      simp at hg
    rw [run_setAt _ _ _ _ hi1] at hg
    simp only [Res.ok.injEq, Prod.mk.injEq] at hg
    obtain ⟨rfl, rfl⟩ := hg
    rw [run_bind] at h1
    obtain ⟨⟨bands, lb⟩, hb, h1⟩ := Res.bind_eq_ok.mp h1
    dsimp only at h1
    have hbands : bands = bandsOf c u.1 ∧ lb = m.bits ++ (mods.flatMap Drc.Mod.bits ++ l) := by
      unfold bandsOf
      by_cases hcnt : u.1 < c.count
      · rw [if_pos hcnt] at hb ⊢
        unfold getAt at hb
        cases hx : c.sets[u.1.toNat]? with
        | none =>
          rw [hx, run_bind] at hb
          change Res.ub = _ at hb
          simp at hb
        | some w => rw [hx] at hb; simp [run_bind] at hb; exact ⟨hb.1.symm, hb.2.symm⟩
      · rw [if_neg hcnt] at hb ⊢
        simp at hb
        exact ⟨hb.1.symm, hb.2.symm⟩
    obtain ⟨rfl, rfl⟩ := hbands
    rw [run_bind] at h1
    obtain ⟨⟨bm, lm⟩, hbm, h1⟩ := Res.bind_eq_ok.mp h1
    dsimp only at h1
    have hlm : lm = m.bits ++ (mods.flatMap Drc.Mod.bits ++ l) := by
      unfold getAt at hbm
      cases hx : s.2[i]? with
      | none => rw [hx] at hbm; simp at hbm
      | some w => rw [hx] at hbm; simp at hbm; exact hbm.2.symm
    subst hlm
    rw [run_bind, run_readMods m (hv m (by simp))] at h1
    obtain ⟨⟨bs, lbs⟩, hbs, h1⟩ := Res.bind_eq_ok.mp h1
    dsimp only at h1
    obtain ⟨rfl, _, hbs⟩ := fillFrom_ok _ _ _ _ _ _ _ hbs
    rw [run_bind] at h1
    obtain ⟨⟨ms, lms⟩, hms, h1⟩ := Res.bind_eq_ok.mp h1
    dsimp only at h1
    have hi2 : i < s.2.length := by
      by_contra hc
      unfold setAt at hms
      rw [if_neg hc] at hms
      simp at hms
    rw [run_setAt _ _ _ _ hi2] at hms
    simp only [Res.ok.injEq, Prod.mk.injEq] at hms
    obtain ⟨rfl, rfl⟩ := hms
    simp only [run_pure, Res.ok.injEq, Prod.mk.injEq] at h1
    obtain ⟨rfl, rfl⟩ := h1
    obtain ⟨k1, k2, k3⟩ := ih (fun x hx => hv x (by simp [hx])) _ _ _ _ _ h2
    refine ⟨k1, fun k hk => ?_, fun j y hj => ?_⟩
    · obtain ⟨a, b⟩ := k2 k (by omega)
      dsimp only at a b
      rw [a, b, List.getElem?_set_ne (by omega), List.getElem?_set_ne (by omega)]
      exact ⟨rfl, rfl⟩
    · cases j with
      | zero =>
        simp only [List.getElem?_cons_zero, Option.some.injEq] at hj
        subst hj
        obtain ⟨a, b⟩ := k2 i (by omega)
        dsimp only at a b
        rw [List.getElem?_set_self (by omega)] at a b
        exact ⟨u.1, bs, a, b, fun x hx => hbs x (by omega) (by omega)⟩
      | succ j =>
        obtain ⟨v, w, e1, e2, e3⟩ := k3 j y (by simpa using hj)
        exact ⟨v, w, by rw [← e1]; congr 1; omega, by rw [← e2]; congr 1; omega, e3⟩

/-! ## Instructions -/

/-- The program reads no bits. -/
def Silent {α : Type} (p : Prog α) : Prop := ∀ l a l', run p l = .ok (a, l') → l' = l

theorem Silent.pure {α : Type} (a : α) : Silent (Pure.pure a) := by
  intro l x l' h
  simp only [run_pure, Res.ok.injEq, Prod.mk.injEq] at h
  exact h.2.symm

theorem Silent.fail {α : Type} (c : ErrCode) : Silent (fail c : Prog α) := by
  intro l x l' h
  simp at h

theorem Silent.bind {α β : Type} {p : Prog α} {f : α → Prog β} (hp : Silent p) (hf : ∀ a, Silent (f a)) : Silent (p >>= f) := by
  intro l x l' h
  rw [run_bind] at h
  obtain ⟨⟨a, l1⟩, h1, h2⟩ := Res.bind_eq_ok.mp h
  rw [hf a _ _ _ h2, hp _ _ _ h1]

theorem Silent.setAt {α : Type} (xs : List α) (i : Nat) (v : α) : Silent (Prog.setAt xs i v) := by
  intro l x l' h
  by_cases hi : i < xs.length
  · rw [run_setAt _ _ _ _ hi] at h
    simp only [Res.ok.injEq, Prod.mk.injEq] at h
    exact h.2.symm
  · unfold Prog.setAt at h
    rw [if_neg hi] at h
    simp at h

theorem Silent.getAt {α : Type} (xs : List α) (i : Nat) : Silent (Prog.getAt xs i) := by
  intro l x l' h
  unfold Prog.getAt at h
  cases hx : xs[i]? with
  | none => rw [hx] at h; simp at h
  | some w => rw [hx] at h; simp at h; exact h.2.symm

theorem Silent.ite {α : Type} {c : Prop} [Decidable c] {p q : Prog α} (hp : Silent p) (hq : Silent q) : Silent (if c then p else q) := by
  split
  · exact hp
  · exact hq

theorem Silent.foldN {σ : Type} {f : Nat → σ → Prog σ} (hf : ∀ i s, Silent (f i s)) (k : Nat) : ∀ i s, Silent (Prog.foldN f k i s) := by
  induction k with
  | zero => exact fun i s => Silent.pure s
  | succ k ih => exact fun i s => Silent.bind (hf i s) fun s => ih (i + 1) s

theorem join_silent (same : Int × Rat → Bool) (ch : Nat) (idx : Int) (q : Rat) (g : Groups) : Silent (join same ch idx q g) := by
  unfold join
  split
  · exact Silent.bind (Silent.setAt _ _ _) fun _ => Silent.pure _
  · exact Silent.bind (Silent.setAt _ _ _) fun _ => Silent.bind (Silent.setAt _ _ _) fun _ => Silent.pure _

theorem formGroups_silent (d : Int) (k cnt : Nat) (xs : List Int) (g : Groups) : Silent (formGroups d k cnt xs g) := by
  unfold formGroups
  refine Silent.ite (Silent.bind (Silent.getAt _ _) fun _ => Silent.ite (Silent.bind (Silent.setAt _ _ _) fun _ => Silent.pure _)
    (Silent.pure _)) (Silent.foldN (fun i s => ?_) _ _ _)
  unfold groupStep
  exact Silent.bind (Silent.getAt _ _) fun _ => Silent.ite (Silent.bind (Silent.setAt _ _ _) fun _ => Silent.pure _) (join_silent _ _ _ _ _)

theorem duckGroups_silent (e cnt : Nat) (xs : List Int) (ds : List (Nat × Rat)) (g : Groups) : Silent (duckGroups e cnt xs ds g) := by
  unfold duckGroups
  refine Silent.ite (Silent.bind (Silent.foldN (fun i s => ?_) _ _ _) fun _ => Silent.pure _)
    (Silent.bind (Silent.foldN (fun i s => ?_) _ _ _) fun _ => Silent.ite (Silent.fail _) (Silent.pure _))
  · unfold selfStep
    exact Silent.bind (Silent.getAt _ _) fun _ => Silent.bind (Silent.getAt _ _) fun _ =>
      Silent.ite (Silent.bind (Silent.setAt _ _ _) fun _ => Silent.pure _) (join_silent _ _ _ _ _)
  · unfold otherStep
    exact Silent.bind (Silent.getAt _ _) fun _ => Silent.bind (Silent.getAt _ _) fun _ =>
      Silent.ite (Silent.ite (Silent.fail _) (Silent.bind (Silent.setAt _ _ _) fun _ => Silent.pure _))
        (Silent.bind (join_silent _ _ _ _ _) fun _ => Silent.pure _)

/-- How many channels the gain sets of an instruction are coded for: one if it is for several downmixes or any,
those of the stream if it is for no downmix, those of the downmix otherwise. -/
def coded (env : Env) (channels : Nat) (h : Drc.Head) : Option Nat :=
  if 1 < h.ids.length ∨ h.dmx = 127 then some 1
  else if h.dmx = 0 then some channels
  else (env.dmx.find? (·.1 = (h.dmx : Int))).map (·.2)

theorem run_channelCount (env : Env) (channels : Nat) (h : Drc.Head) (n : Nat) (hc : coded env channels h = some n) (hn : n ≤ 16)
    (l : List Bool) : run (channelCount env (h.dmx : Int) h.ids.length channels) l = .ok (n, l) := by
  unfold channelCount
  unfold coded at hc
  have hl : 1 ≤ h.ids.length := by simp [Drc.Head.ids]
  split at hc
  · rename_i h1
    simp only [Option.some.injEq] at hc
    subst hc
    rw [if_neg (by omega), if_pos (by omega)]
    rfl
  · rename_i h1
    split at hc
    · rename_i h2
      simp only [Option.some.injEq] at hc
      subst hc
      rw [if_neg (by omega), if_neg (by omega), run_bind, run_pure, Res.ok_bind]
      dsimp only
      rw [if_neg (by omega)]
      rfl
    · rename_i h2
      rw [if_pos (by omega), run_bind]
      cases hf : env.dmx.find? (·.1 = (h.dmx : Int)) with
      | none => rw [hf] at hc; simp at hc
      | some x =>
        rw [hf] at hc
        simp only [Option.map_some, Option.some.injEq] at hc
        subst hc
        simp only [run_pure, Res.ok_bind]
        rw [if_neg (by omega)]
        rfl

/-- **C128** (part: without ducking).  An instruction that is accepted has been decoded as it is coded: what it is
for, its head, the gain set of every channel and, for as many modifiers as it has groups, the modifier of every band
of every group. -/
theorem C128_plain (env : Env) (cs : List Coeffs) (channels : Nat) (o : Instr) (ho : InstrRoom o)
    (t : Drc.Target) (ht : t.Valid) (h : Drc.Head) (hh : h.Valid) (hd : Drc.ducks h.effect = false)
    (rs : List Drc.Run) (hr : ∀ r ∈ rs, r.Valid) (hc : coded env channels h = some (Drc.indices rs).length)
    (mods : List Drc.Mod) (hm : ∀ m ∈ mods, m.Valid) (l l' : List Bool) (o' : Instr)
    (hrun : run (readKind o >>= readInstr env cs channels)
      (t.bits ++ (h.bits ++ (rs.flatMap Drc.Run.bits ++ (mods.flatMap Drc.Mod.bits ++ l)))) = .ok (o', l'))
    (hg : o'.groups = mods.length) :
    l' = l ∧ IsTarget t o' ∧ IsHead h o' ∧
      (∀ (i : Nat) (v : Int), (Drc.indices rs)[i]? = some v → o'.gainIdx[i]? = some v) ∧
      ∃ c ∈ cs, c.loc = h.loc ∧ ∀ (j : Nat) (m : Drc.Mod), mods[j]? = some m →
        ∃ v bs, o'.groupSet[j]? = some v ∧ o'.mods[j]? = some bs ∧
          ∀ b < bandsOf c v, ∃ x, bs[b]? = some x ∧ x.attn = m.attenuation ∧ x.ampl = m.amplification ∧ x.off = m.offset := by
  obtain ⟨o1, k1, k2, a, b, c, ek⟩ := run_readKind t ht o
  rw [run_bind, k1, Res.ok_bind] at hrun
  dsimp only at hrun
  obtain ⟨o2, e1, e2, e3⟩ := run_readHead h hh o1 (by rw [ek]; exact ho.dmxIds)
  unfold readInstr at hrun
  rw [run_bind, e1, Res.ok_bind] at hrun
  dsimp only at hrun
  have hkind : IsTarget t o2 := by
    unfold IsTarget at k2 ⊢
    rw [e3.kind, e3.group, e3.preset]
    exact k2
  have hx : o2.gainIdx.length = 16 := by rw [e3.gainIdx, ek]; exact ho.gainIdx
  have hid : o2.dmxIds[0]? = some (h.dmx : Int) := e2.ids 0 h.dmx rfl
  cases hla : lastAt cs o2.loc with
  | none =>
    rw [hla] at hrun
    simp at hrun
  | some c =>
    rw [hla] at hrun
    dsimp only at hrun
    by_cases h16 : 16 < channels
    · rw [if_pos h16] at hrun
      simp at hrun
    have hdk : (!duckOther o2.effect && !duckSelf o2.effect) = true := by
      rw [e2.effect]
      simp only [Drc.ducks, Bool.or_eq_false_iff] at hd
      simp [duckOther, duckSelf, hd]
    rw [if_neg h16, if_pos hdk, run_bind] at hrun
    obtain ⟨⟨o3, l3⟩, h3, hrun⟩ := Res.bind_eq_ok.mp hrun
    dsimp only at hrun
    unfold plainBody at h3
    rw [run_getAt_bind _ _ _ _ _ hid, e2.count] at h3
    by_cases hn : (Drc.indices rs).length ≤ 16
    swap
    · exfalso
      rw [run_bind] at h3
      obtain ⟨⟨n, l4⟩, h4, h5⟩ := Res.bind_eq_ok.mp h3
      unfold coded at hc
      unfold channelCount at h4
      have hl : 1 ≤ h.ids.length := by simp [Drc.Head.ids]
      split at hc
      · simp only [Option.some.injEq] at hc
        omega
      · split at hc
        · simp only [Option.some.injEq] at hc
          omega
        · rw [if_pos (by omega), run_bind] at h4
          cases hf : env.dmx.find? (·.1 = (h.dmx : Int)) with
          | none => rw [hf] at hc; simp at hc
          | some x =>
            rw [hf] at hc h4
            simp only [Option.map_some, Option.some.injEq] at hc
            simp only [run_pure, Res.ok_bind] at h4
            rw [if_pos (by omega)] at h4
            simp at h4
    rw [run_bind, run_channelCount env channels h _ hc hn, Res.ok_bind] at h3
    dsimp only at h3
    rw [run_bind, run_idxLoop _ hn rs hr _ 0 _ hx (by omega) (by omega), Res.ok_bind] at h3
    dsimp only at h3
    rw [if_neg (by omega), run_bind] at h3
    obtain ⟨⟨g, l5⟩, h5, h3⟩ := Res.bind_eq_ok.mp h3
    dsimp only at h3
    rw [formGroups_silent _ _ _ _ _ _ _ _ h5] at h3
    by_cases hgn : 16 < g.n
    · rw [if_pos hgn] at h3
      simp at h3
    rw [if_neg hgn, run_bind] at h3
    obtain ⟨⟨s, l6⟩, h6, h3⟩ := Res.bind_eq_ok.mp h3
    simp only [run_pure, Res.ok.injEq, Prod.mk.injEq] at h3
    obtain ⟨rfl, rfl⟩ := h3
    rw [run_getAt_bind _ _ _ _ _ hid] at hrun
    have hfin : o' = { o2 with dmxCount := h.ids.length, gainIdx := over o2.gainIdx 0 (Drc.indices rs), chGroup := g.of, groups := g.n, groupSet := s.1, mods := s.2 } ∧ l' = l6 := by
      split at hrun
      · simp at hrun
      · simp only [run_pure, Res.ok.injEq, Prod.mk.injEq] at hrun
        exact ⟨hrun.1.symm, hrun.2.symm⟩
    obtain ⟨rfl, rfl⟩ := hfin
    dsimp only at hg
    rw [hg] at h6
    obtain ⟨m1, _, m3⟩ := modSteps_ok c g.uniq mods hm 0 _ _ _ _ h6
    obtain ⟨m, c1, c2, _⟩ := lastAt_spec hla
    refine ⟨m1, hkind, ⟨e2.1, e2.2, e2.3, rfl, e2.5, e2.6, e2.7, e2.8, e2.9⟩, fun i v hi => ?_, c, List.mem_of_getElem? c1,
      c2.trans e2.loc, fun j m hj => ?_⟩
    · dsimp only
      have hi' := (List.getElem?_eq_some_iff.mp hi).1
      rw [over_get (by omega), if_pos (by omega)]
      exact hi
    · obtain ⟨v, bs, b1, b2, b3⟩ := m3 j m hj
      rw [Nat.zero_add] at b1 b2
      exact ⟨v, bs, b1, b2, fun b hb => ⟨_, b3 b hb, rfl, rfl, rfl⟩⟩

/-- **C128** (part: with ducking).  An instruction that is accepted has been decoded as it is coded: what it is for,
its head, gain set and ducking factor of every channel; and every group has the factor of its channels, marked as
ducked unless the factor is 1. -/
theorem C128_ducking (env : Env) (cs : List Coeffs) (channels : Nat) (o : Instr) (ho : InstrRoom o)
    (t : Drc.Target) (ht : t.Valid) (h : Drc.Head) (hh : h.Valid) (hd : Drc.ducks h.effect = true)
    (rs : List Drc.DuckRun) (hr : ∀ r ∈ rs, r.Valid) (hc : (Drc.ducked rs).length = channels) (l l' : List Bool) (o' : Instr)
    (hrun : run (readKind o >>= readInstr env cs channels)
      (t.bits ++ (h.bits ++ (rs.flatMap Drc.DuckRun.bits ++ l))) = .ok (o', l')) :
    l' = l ∧ IsTarget t o' ∧ IsHead h o' ∧
      ∀ (i : Nat) (v : Int) (q : Rat), (Drc.ducked rs)[i]? = some (v, q) → o'.gainIdx[i]? = some v ∧
        (∃ f, o'.duck[i]? = some (f, q)) ∧
        ∀ k : Nat, o'.chGroup[i]? = some (k : Int) → k < o'.groups → ∃ f, o'.groupDuck[k]? = some (f, q) ∧ (f = 0 ↔ q = 1) := by
  obtain ⟨o1, k1, k2, a, b, c, ek⟩ := run_readKind t ht o
  rw [run_bind, k1, Res.ok_bind] at hrun
  dsimp only at hrun
  have room1 : InstrRoom o1 := by
    rw [ek]
    exact ho.congr rfl rfl rfl rfl rfl rfl rfl rfl rfl rfl rfl
  obtain ⟨o2, e1, e2, e3⟩ := run_readHead h hh o1 room1.dmxIds
  have room2 : InstrRoom o2 := ((readHead_meets (S := True) o1 room1 _).2 _ _ (e1 [])).room
  unfold readInstr at hrun
  rw [run_bind, e1, Res.ok_bind] at hrun
  dsimp only at hrun
  have hkind : IsTarget t o2 := by
    unfold IsTarget at k2 ⊢
    rw [e3.kind, e3.group, e3.preset]
    exact k2
  have hid : o2.dmxIds[0]? = some (h.dmx : Int) := e2.ids 0 h.dmx rfl
  have hlen : (duckSets rs).length = channels := by
    rw [← hc, ducked_eq]
    simp [factors_length]
  cases hla : lastAt cs o2.loc with
  | none =>
    rw [hla] at hrun
    simp at hrun
  | some c =>
    rw [hla] at hrun
    dsimp only at hrun
    by_cases h16 : 16 < channels
    · rw [if_pos h16] at hrun
      simp at hrun
    have hdk : ¬ (!duckOther o2.effect && !duckSelf o2.effect) = true := by
      rw [e2.effect]
      simp only [Drc.ducks] at hd
      simp only [duckOther, duckSelf]
      rcases Bool.or_eq_true _ _ ▸ hd with h | h <;> simp [h]
    rw [if_neg h16, if_neg hdk, run_bind] at hrun
    obtain ⟨⟨o3, l3⟩, h3, hrun⟩ := Res.bind_eq_ok.mp hrun
    dsimp only at hrun
    have hsome : duckSelf o2.effect = false → duckOther o2.effect = true := by
      intro hs
      simpa [hs] using hdk
    obtain ⟨xs, ds, of, n, gs, gd, bs, e4, room3, _, _, _, _, _, duck⟩ :=
      (duckBody_meets (S := True) channels (by omega) o2 room2 hsome _).2 _ _ h3
    unfold duckBody at h3
    rw [run_bind, run_duckLoop channels (by omega) rs hr _ 0 _ room2.gainIdx room2.duck (by omega) (by omega), Res.ok_bind] at h3
    dsimp only at h3
    rw [if_neg (by omega), run_bind] at h3
    obtain ⟨⟨g, l5⟩, h5, h3⟩ := Res.bind_eq_ok.mp h3
    dsimp only at h3
    rw [duckGroups_silent _ _ _ _ _ _ _ _ h5] at h3
    by_cases hgn : 16 < g.2.n
    · rw [if_pos hgn] at h3
      simp at h3
    rw [if_neg hgn, run_bind] at h3
    obtain ⟨⟨s, l6⟩, h6, h3⟩ := Res.bind_eq_ok.mp h3
    have hl6 : l6 = l := by
      refine Silent.foldN (fun i s => ?_) _ _ _ _ _ _ h6
      unfold duckStep
      exact Silent.bind (Silent.getAt _ _) fun _ => Silent.ite (Silent.fail _) (Silent.bind (Silent.setAt _ _ _) fun _ =>
        Silent.bind (Silent.setAt _ _ _) fun _ => Silent.bind (Silent.setAt _ _ _) fun _ => Silent.pure _)
    simp only [run_pure, Res.ok.injEq, Prod.mk.injEq] at h3
    obtain ⟨e5, rfl⟩ := h3
    have hid3 : o3.dmxIds[0]? = some (h.dmx : Int) := by rw [← e5]; exact hid
    rw [run_getAt_bind _ _ _ _ _ hid3] at hrun
    have hfin : o' = o3 ∧ l' = l6 := by
      split at hrun
      · simp at hrun
      · simp only [run_pure, Res.ok.injEq, Prod.mk.injEq] at hrun
        exact ⟨hrun.1.symm, hrun.2.symm⟩
    obtain ⟨rfl, rfl⟩ := hfin
    have hxs : xs = over o2.gainIdx 0 (duckSets rs) := by
      have := congrArg Instr.gainIdx (e4.symm.trans e5.symm)
      exact this
    have hds : ds = over o2.duck 0 (factors rs) := by
      have := congrArg Instr.duck (e4.symm.trans e5.symm)
      exact this
    subst e4
    refine ⟨hl6, hkind, ⟨e2.1, e2.2, e2.3, e2.4, e2.5, e2.6, e2.7, e2.8, e2.9⟩, fun i v q hi => ?_⟩
    have hi' := (List.getElem?_eq_some_iff.mp hi).1
    rw [ducked_eq, List.getElem?_zip_eq_some] at hi
    dsimp only at hi
    obtain ⟨i1, i2⟩ := hi
    rw [List.getElem?_map, Option.map_eq_some_iff] at i2
    obtain ⟨⟨f, q'⟩, i2, rfl⟩ := i2
    have hil : i < (duckSets rs).length := (List.getElem?_eq_some_iff.mp i1).1
    have hfl := factors_length rs
    have hg := room2.gainIdx
    have hdl := room2.duck
    have hduck : ds[i]? = some (f, q') := by
      rw [hds, over_get (by omega), if_pos (by omega)]
      exact i2
    refine ⟨?_, ⟨f, hduck⟩, fun k hk _ => duck i (by omega) k hk _ hduck⟩
    dsimp only
    rw [hxs, over_get (by omega), if_pos (by omega)]
    exact i1

/-! ## Examples -/

theorem accepted {r : Res (Instr × List Bool)} {n : Nat} {l : List Bool} (h : r.map (fun x => (x.1.groups, x.2)) = .ok (n, l)) :
    ∃ o, r = .ok (o, l) ∧ o.groups = n := by
  cases r with
  | ok x =>
    simp only [Res.map, Res.ok.injEq, Prod.mk.injEq] at h
    exact ⟨x.1, by rw [← h.2], h.1⟩
  | _ => simp [Res.map] at h

/-- Coefficients at location 1 with one gain set of one band. -/
def oneBand : Coeffs := ⟨1, 1, (zeroCoeffs.sets).set 0 ⟨0, 1, 0, 0, 0, 0, 1, 0, List.replicate 4 ⟨0, 0, 0, 0⟩⟩⟩

def plainHead : Drc.Head := ⟨3, 1, 0, none, 1, some 16, some (40, some 20), .alone true⟩
def duckHead : Drc.Head := ⟨4, 1, 0, none, 2 ^ 11, none, none, .alone false⟩

/-- An instruction for group 9 with two channels, the same gain set for both, and a modifier. -/
example : ∃ o', run (readKind zeroInstr >>= readInstr ⟨32, []⟩ [oneBand] 2) ((Drc.Target.group 9).bits ++ (plainHead.bits ++
      ([(⟨1, some 0⟩ : Drc.Run)].flatMap Drc.Run.bits ++ ([(⟨some (8, 4), some (true, 3)⟩ : Drc.Mod)].flatMap Drc.Mod.bits ++ [true])))) =
      .ok (o', [true]) ∧ IsTarget (.group 9) o' ∧ IsHead plainHead o' ∧ o'.gainIdx[1]? = some 0 ∧ o'.upper = -23 ∧
      ∃ v bs x, o'.groupSet[0]? = some v ∧ o'.mods[0]? = some bs ∧ bs[0]? = some x ∧ x.ampl = 1 / 2 ∧ x.off = (-1 : Rat) := by
  obtain ⟨o', h1, h2⟩ := accepted (n := 1) (l := [true]) (r := run (readKind zeroInstr >>= readInstr ⟨32, []⟩ [oneBand] 2)
    ((Drc.Target.group 9).bits ++ (plainHead.bits ++ ([(⟨1, some 0⟩ : Drc.Run)].flatMap Drc.Run.bits ++
      ([(⟨some (8, 4), some (true, 3)⟩ : Drc.Mod)].flatMap Drc.Mod.bits ++ [true]))))) (by decide +kernel)
  obtain ⟨_, k1, k2, k3, c, k4, _, k5⟩ := C128_plain ⟨32, []⟩ [oneBand] 2 zeroInstr zeroInstr_room (.group 9) (show 9 < 128 by omega)
    plainHead (by constructor <;> simp [plainHead]) (by decide) [⟨1, some 0⟩] (by simp [Drc.Run.Valid]) (by decide)
    [⟨some (8, 4), some (true, 3)⟩] (by simp [Drc.Mod.Valid]) [true] [true] o' h1 (by rw [h2]; rfl)
  obtain ⟨v, bs, b1, b2, b3⟩ := k5 0 _ rfl
  refine ⟨o', h1, k1, k2, k3 1 0 (by decide), ?_, ?_⟩
  · have := k2.range
    exact this.2.1
  · simp only [List.mem_singleton] at k4
    subst k4
    have hb : 0 < bandsOf oneBand v := by
      unfold bandsOf
      split
      · have h0 : ∀ i : Nat, (oneBand.sets[v.toNat]?).map (·.bands) = some i → 0 < i → 0 < ((oneBand.sets[v.toNat]?).map (·.bands)).getD 0 := by
          intro i h h'
          rw [h]
          exact h'
        have hv : v.toNat = 0 := by simp [oneBand] at *; omega
        rw [hv]
        decide
      · omega
    obtain ⟨x, x1, _, x2, x3⟩ := b3 0 hb
    refine ⟨v, bs, x, b1, b2, x1, by rw [x2]; simp [Drc.Mod.amplification]; norm_num, by rw [x3]; simp [Drc.Mod.offset]; norm_num⟩

/-- An instruction that ducks the first of two channels by 1/4. -/
example : ∃ o', run (readKind zeroInstr >>= readInstr ⟨32, []⟩ [oneBand] 2) (Drc.Target.whole.bits ++ (duckHead.bits ++
      ([(⟨1, some (true, 5), none⟩ : Drc.DuckRun), ⟨0, none, none⟩].flatMap Drc.DuckRun.bits ++ [true]))) = .ok (o', [true]) ∧
      IsHead duckHead o' ∧ o'.gainIdx[0]? = some 0 ∧ ∃ f, o'.duck[0]? = some (f, 1 / 4) := by
  obtain ⟨o', h1, h2⟩ := accepted (n := 1) (l := [true]) (r := run (readKind zeroInstr >>= readInstr ⟨32, []⟩ [oneBand] 2)
    (Drc.Target.whole.bits ++ (duckHead.bits ++
      ([(⟨1, some (true, 5), none⟩ : Drc.DuckRun), ⟨0, none, none⟩].flatMap Drc.DuckRun.bits ++ [true])))) (by decide +kernel)
  obtain ⟨_, _, k2, k3⟩ := C128_ducking ⟨32, []⟩ [oneBand] 2 zeroInstr zeroInstr_room .whole trivial
    duckHead (by constructor <;> simp [duckHead]) (by decide) [⟨1, some (true, 5), none⟩, ⟨0, none, none⟩]
    (by simp [Drc.DuckRun.Valid]) (by decide) [true] [true] o' h1
  obtain ⟨a, b, _⟩ := k3 0 0 (1 / 4) (by decide +kernel)
  exact ⟨o', h1, k2, a, b⟩

end Verif.DrcConfig
