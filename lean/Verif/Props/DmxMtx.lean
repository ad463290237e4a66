import Verif.Props.DmxPairs

/-! # Downmix matrices: C276, C278, C281, C284, C285 -/

namespace Verif.Dmx

open Prog

/-! ## C285: what the flags mean for any stream -/

/-- Every element that is read obeys its flags and its place, and its gains are those of the reader or silence. -/
theorem cell_meets (gain : Prog ℚ) (Q : ℚ → Prop) (hg : Meets False gain Q) (hs : Q (-256)) (full : Bool) (sep sym bit : Nat) (a b : Entry) (d : Nat → Nat → ℚ) (ha : a.Two) (hb : b.Two) :
    Meets False (cell gain full sep sym bit a b d) fun d' => Obeys d' full sep sym a b ∧ (bit = 0 → ∀ x ∈ a.members, ∀ y ∈ b.members, d' x y = -256) ∧
      (∀ x ∈ a.members, ∀ y ∈ b.members, Q (d' x y)) ∧ ∀ x y, ¬ (x ∈ a.members ∧ y ∈ b.members) → d' x y = d x y := by
  obtain ⟨ap, ak, al⟩ := a
  obtain ⟨bp, bk, bl⟩ := b
  have ha' : ∀ o, ak = .pair o → ap ≠ o := ha
  have hb' : ∀ o, bk = .pair o → bp ≠ o := hb
  clear ha hb
  by_cases h0 : bit = 0
  · cases ak <;> cases bk <;> simp only [cell, if_pos h0] <;> refine Meets.pure ?_ <;> simp only [Obeys, Entry.members, put_eq, silent, List.mem_cons, List.not_mem_nil] <;> grind
  · cases ak <;> cases bk <;> by_cases h1 : sym = 0 <;> by_cases h2 : sep = 0 <;> cases full <;>
      simp only [cell, if_neg h0, h1, h2, ne_eq, not_true_eq_false, not_false_eq_true, and_true, and_false, and_self, if_true, if_false, reduceCtorEq, Bool.false_eq_true] <;>
      (repeat (refine Meets.bind hg fun _ _ => ?_)) <;> refine Meets.pure ?_ <;>
      simp only [Obeys, Entry.members, put_eq, silent, List.mem_cons, List.not_mem_nil] <;> grind

private theorem obeys_congr {d d' : Nat → Nat → ℚ} {full : Bool} {sep sym : Nat} {a b : Entry} (h : ∀ x ∈ a.members, ∀ y ∈ b.members, d' x y = d x y) (ho : Obeys d full sep sym a b) :
    Obeys d' full sep sym a b := by
  obtain ⟨ap, ak, al⟩ := a
  obtain ⟨bp, bk, bl⟩ := b
  cases ak <;> cases bk <;> simp only [Obeys, Entry.members, List.mem_cons, List.not_mem_nil] at * <;> grind

/-- C285: whatever the stream, the matrix that is read obeys the flags (pairs that are symmetric are mirror images, separable ones are not mixed crosswise), is silent where no place is
set, and has only gains that the gain reader gives and silence. -/
theorem C285_flags (gain : Prog ℚ) (Q : ℚ → Prop) (hg : Meets False gain Q) (hs : Q (-256)) (full : Bool) (f : Flags) (s : Sides) (P : Nat → Nat → Nat) (d : Nat → Nat → ℚ) (nIn nOut : Nat)
    (hin : Covers s.ins nIn) (hout : Covers s.outs nOut) (l l' : List Bool) (d' : Nat → Nat → ℚ) (h : run (cells gain full f s P d) l = .ok (d', l')) :
    Allowed d' full f s P ∧ ∀ x y, x < nIn → y < nOut → Q (d' x y) := by
  let G : Nat → Nat → (Nat → Nat → ℚ) → Prop := fun i j d =>
    Obeys d full (f.sep.getD j 0) (f.sym.getD j 0) (entryAt s.ins i) (entryAt s.outs j) ∧
      (P i j = 0 → ∀ x ∈ (entryAt s.ins i).members, ∀ y ∈ (entryAt s.outs j).members, d x y = -256) ∧
      ∀ x ∈ (entryAt s.ins i).members, ∀ y ∈ (entryAt s.outs j).members, Q (d x y)
  have hcongr : ∀ i j d d', (∀ x ∈ (entryAt s.ins i).members, ∀ y ∈ (entryAt s.outs j).members, d' x y = d x y) → G i j d → G i j d' := by
    intro i j d d' he hG
    refine ⟨obeys_congr he hG.1, fun hz x hx y hy => ?_, fun x hx y hy => ?_⟩
    · rw [he x hx y hy]; exact hG.2.1 hz x hx y hy
    · rw [he x hx y hy]; exact hG.2.2 x hx y hy
  have key : Meets False (cells gain full f s P d) fun d' => ∀ i j, i < s.ins.length → j < s.outs.length → G i j d' := by
    unfold cells
    refine (Meets.foldN (fun i d => ∀ i' j, i' < i → j < s.outs.length → G i' j d) s.ins.length 0 d (fun _ _ h => by omega) fun i d _ hi hd => ?_).mono
      fun d' h i j a b => h i j (by omega) b
    refine (Meets.foldN (fun j d => (∀ i' j, i' < i → j < s.outs.length → G i' j d) ∧ ∀ j', j' < j → G i j' d) s.outs.length 0 d ⟨hd, fun _ h => by omega⟩ fun j d _ hj hd => ?_).mono
      fun d' h i' j a b => ?_
    · have hi' : i < s.ins.length := by omega
      have hj' : j < s.outs.length := by omega
      refine (cell_meets gain Q hg hs full _ _ _ _ _ d (hin.two hi') (hout.two hj')).mono fun d' hd' => ⟨fun i1 j1 a b => ?_, fun j1 a => ?_⟩
      · refine hcongr i1 j1 d d' (fun x hx y hy => hd'.2.2.2 x y fun hc => ?_) (hd.1 i1 j1 a b)
        have := hin.unique (by omega) hi' hx hc.1
        omega
      · by_cases e : j1 = j
        · subst e; exact ⟨hd'.1, hd'.2.1, hd'.2.2.1⟩
        · refine hcongr i j1 d d' (fun x hx y hy => hd'.2.2.2 x y fun hc => ?_) (hd.2 j1 (by omega))
          have := hout.unique (by omega) hj' hy hc.2
          omega
    · by_cases e : i' = i
      · subst e; exact h.2 j (by omega)
      · exact h.1 i' j (by omega) b
  have hG := (key l).2 d' l' h
  refine ⟨⟨fun i j a b => (hG i j a b).1, fun i j a b => (hG i j a b).2.1⟩, fun x y hx hy => ?_⟩
  obtain ⟨i, hi, hxi⟩ := (hin.mem x).1 hx
  obtain ⟨j, hj, hyj⟩ := (hout.mem y).1 hy
  exact (hG i j hi hj).2.2 x hxi y hyj

/-! ## C276: every element is written -/

/-- When the first program succeeds so does the second, at the same place, with related results. -/
def Agree {α β : Type} (p : Prog α) (q : Prog β) (R : α → β → Prop) : Prop := ∀ l a l', run p l = .ok (a, l') → ∃ b, run q l = .ok (b, l') ∧ R a b

theorem Agree.pure {α β : Type} {R : α → β → Prop} {a : α} {b : β} (h : R a b) : Agree (Pure.pure a) (Pure.pure b) R := by
  intro l x l' e
  simp only [run_pure] at e
  injection e with e
  injection e with e1 e2
  subst e1; subst e2
  exact ⟨b, rfl, h⟩

theorem Agree.bind {α α' β β' : Type} {p : Prog α} {q : Prog α'} {T : α → α' → Prop} {f : α → Prog β} {g : α' → Prog β'} {R : β → β' → Prop} (hp : Agree p q T)
    (h : ∀ a b, T a b → Agree (f a) (g b) R) : Agree (p >>= f) (q >>= g) R := by
  intro l x l' e
  rw [run_bind] at e
  obtain ⟨⟨a, l1⟩, e1, e2⟩ := Res.bind_eq_ok.1 e
  obtain ⟨b, e3, ht⟩ := hp l a l1 e1
  obtain ⟨c, e4, hr⟩ := h a b ht l1 x l' e2
  exact ⟨c, by rw [run_bind, e3]; exact e4, hr⟩

theorem Agree.refl {α : Type} (p : Prog α) : Agree p p (· = ·) := fun _ a _ e => ⟨a, e, rfl⟩

theorem Agree.same {α β β' : Type} (p : Prog α) {f : α → Prog β} {g : α → Prog β'} {R : β → β' → Prop} (h : ∀ a, Agree (f a) (g a) R) : Agree (p >>= f) (p >>= g) R :=
  (Agree.refl p).bind fun a _ e => e ▸ h a

theorem Agree.mono {α β : Type} {p : Prog α} {q : Prog β} {R S : α → β → Prop} (h : Agree p q R) (hr : ∀ a b, R a b → S a b) : Agree p q S := by
  intro l a l' e
  obtain ⟨b, e1, e2⟩ := h l a l' e
  exact ⟨b, e1, hr a b e2⟩

theorem Agree.foldN {σ : Type} (f g : Nat → σ → Prog σ) (I : Nat → σ → σ → Prop) (k i : Nat) (s t : σ) (hs : I i s t)
    (h : ∀ j s t, i ≤ j → j < i + k → I j s t → Agree (f j s) (g j t) (I (j + 1))) : Agree (foldN f k i s) (foldN g k i t) (I (i + k)) := by
  induction k generalizing i s t with
  | zero => exact Agree.pure hs
  | succ k ih =>
    unfold Prog.foldN
    refine (h i s t (by omega) (by omega) hs).bind fun a b hab => ?_
    rw [show i + (k + 1) = i + 1 + k by omega]
    exact ih (i + 1) a b hab fun j s t h1 h2 => h j s t (by omega) (by omega)

theorem cell_agree (gain : Prog ℚ) (full : Bool) (sep sym bit : Nat) (a b : Entry) (d e : Nat → Nat → ℚ) :
    Agree (cell gain full sep sym bit a b d) (cell gain full sep sym bit a b e) fun d' e' =>
      (∀ x ∈ a.members, ∀ y ∈ b.members, d' x y = e' x y) ∧ ∀ x y, d x y = e x y → d' x y = e' x y := by
  obtain ⟨ap, ak, al⟩ := a
  obtain ⟨bp, bk, bl⟩ := b
  by_cases h0 : bit = 0
  · cases ak <;> cases bk <;> simp only [cell, if_pos h0] <;> refine Agree.pure ?_ <;> simp only [Entry.members, put_eq, silent, List.mem_cons, List.not_mem_nil] <;> grind
  · cases ak <;> cases bk <;> by_cases h1 : sym = 0 <;> by_cases h2 : sep = 0 <;> cases full <;>
      simp only [cell, if_neg h0, h1, h2, ne_eq, not_true_eq_false, not_false_eq_true, and_true, and_false, and_self, if_true, if_false, reduceCtorEq, Bool.false_eq_true] <;>
      (repeat (refine Agree.same gain fun _ => ?_)) <;> refine Agree.pure ?_ <;>
      simp only [Entry.members, put_eq, silent, List.mem_cons, List.not_mem_nil] <;> grind

theorem cells_agree (gain : Prog ℚ) (full : Bool) (f : Flags) (s : Sides) (P : Nat → Nat → Nat) (d e : Nat → Nat → ℚ) (nIn nOut : Nat) (hin : Covers s.ins nIn) (hout : Covers s.outs nOut) :
    Agree (cells gain full f s P d) (cells gain full f s P e) fun d' e' => ∀ x y, x < nIn → y < nOut → d' x y = e' x y := by
  unfold cells
  refine (Agree.foldN _ _ (fun i d e => ∀ i', i' < i → ∀ x ∈ (entryAt s.ins i').members, ∀ y, y < nOut → d x y = e x y) s.ins.length 0 d e (fun _ h => by omega) fun i d e _ hi hd => ?_).mono
    fun d' e' h x y hx hy => ?_
  · refine (Agree.foldN _ _ (fun j d e => (∀ i', i' < i → ∀ x ∈ (entryAt s.ins i').members, ∀ y, y < nOut → d x y = e x y) ∧
        ∀ j', j' < j → ∀ x ∈ (entryAt s.ins i).members, ∀ y ∈ (entryAt s.outs j').members, d x y = e x y) s.outs.length 0 d e ⟨hd, fun _ h => by omega⟩ fun j d e _ hj hd => ?_).mono
      fun d' e' h i' hi' x hx y hy => ?_
    · refine (cell_agree gain full _ _ _ _ _ d e).mono fun d' e' h => ⟨fun i' a x hx y hy => h.2 x y (hd.1 i' a x hx y hy), fun j' a x hx y hy => ?_⟩
      by_cases e : j' = j
      · subst e; exact h.1 x hx y hy
      · exact h.2 x y (hd.2 j' (by omega) x hx y hy)
    · by_cases e : i' = i
      · subst e
        obtain ⟨j, hj, hyj⟩ := (hout.mem y).1 hy
        exact h.2 j (by omega) x hx y hyj
      · exact h.1 i' (by omega) x hx y hy
  · obtain ⟨i, hi, hxi⟩ := (hin.mem x).1 hx
    exact h i (by omega) x hxi y hy

/-- C276: the matrix that is decoded does not depend on the one that was there before. -/
theorem C276_determined (st : Stale) (p : Params) (d e : Nat → Nat → ℚ) (ic oc : List Speaker.Geo) (hic : inputs st p.layout p.nIn = .ok ic) (hoc : places (layoutList p.outIdx) = .ok oc)
    (l l' : List Bool) (o : Out) (h : run (decode st p d) l = .ok (o, l')) :
    ∃ o', run (decode st p e) l = .ok (o', l') ∧ o'.eq = o.eq ∧ ∀ x y, x < ic.length → y < oc.length → o'.gains x y = o.gains x y := by
  have key : Agree (decode st p d) (decode st p e) fun o o' => o'.eq = o.eq ∧ ∀ x y, x < ic.length → y < oc.length → o'.gains x y = o.gains x y := by
    unfold decode
    rw [hic, hoc]
    simp only [Prog.lift]
    change Agree (bits 1 >>= _) (bits 1 >>= _) _
    refine Agree.same _ fun present => ?_
    refine Agree.same _ fun eq => ?_
    refine Agree.same _ fun prec => ?_
    refine Agree.same _ fun hi => ?_
    refine Agree.same _ fun lo => ?_
    refine Agree.same _ fun sep => ?_
    refine Agree.same _ fun sym => ?_
    refine Agree.same _ fun lfeOnly => ?_
    refine Agree.same _ fun rawPl => ?_
    refine Agree.same _ fun m => ?_
    refine Agree.same _ fun full => ?_
    refine Agree.same _ fun c => ?_
    refine (cells_agree (decodeGain st c) _ _ ⟨p.inIdx, p.outIdx, compact ic, compact oc⟩ m d e ic.length oc.length (C275_partition ic) (C275_partition oc)).bind fun d' e' hd => ?_
    split
    · intro l a l' h; simp at h
    · cases eq with
      | none => exact Agree.pure ⟨rfl, fun x y hx hy => (hd x y hx hy).symm⟩
      | some q => exact Agree.same _ fun _ => Agree.pure ⟨rfl, fun x y hx hy => (hd x y hx hy).symm⟩
  obtain ⟨o', h1, h2⟩ := key l o l' h
  exact ⟨o', h1, h2⟩

/-! ## C284: places coded by runs -/

/-- How a run of `z` zeros is written. -/
def runEnc (cnt lg z : Nat) : List Bool :=
  List.replicate (z / 2 ^ lg) true ++ (if z / 2 ^ lg < cnt / 2 ^ lg then [false] else []) ++ natBits lg (z % 2 ^ lg)

/-- A list of zeros and ones behind `z` zeros, as runs of zeros with a one behind each but the last. -/
def runBits (cnt lg : Nat) : List Nat → Nat → List Bool
  | [], z => if z = 0 then [] else runEnc cnt lg z
  | v :: l, z => if v = 0 then runBits cnt lg l (z + 1) else runEnc cnt lg z ++ runBits cnt lg l 0

theorem run_ones (m h : Nat) (hh : h ≤ m) (l : List Bool) :
    run (ones m) (List.replicate h true ++ (if h < m then [false] else []) ++ l) = .ok (h, l) := by
  induction m generalizing h with
  | zero => obtain rfl : h = 0 := by omega
            rfl
  | succ m ih =>
    cases h with
    | zero => simp [ones, run_bind, bitsVal]
    | succ h =>
      have := ih h (by omega)
      simp only [Nat.add_lt_add_iff_right, List.replicate_succ, List.cons_append]
      unfold ones
      rw [run_bind, run_bits, if_neg (by simp), if_neg (by omega)]
      simp only [List.take_succ_cons, List.take_zero, List.drop_succ_cons, List.drop_zero, Res.ok_bind]
      rw [if_neg (by simp [bitsVal]), run_bind, this]
      rfl

private theorem run_run {β : Type} (cnt lg z : Nat) (hz : z ≤ cnt) (hlg : lg ≤ 24) (g : Nat → Prog β) (l : List Bool) :
    run (ones (cnt / 2 ^ lg) >>= fun head => bits lg >>= fun rest => g (head * 2 ^ lg + rest)) (runEnc cnt lg z ++ l) = run (g z) l := by
  have hmod : z % 2 ^ lg < 2 ^ lg := Nat.mod_lt _ (Nat.two_pow_pos _)
  have hidx : z / 2 ^ lg * 2 ^ lg + z % 2 ^ lg = z := by rw [Nat.mul_comm]; exact Nat.div_add_mod ..
  unfold runEnc
  rw [List.append_assoc, run_bind, run_ones _ _ (Nat.div_le_div_right hz)]
  simp only [Res.ok_bind]
  rw [run_bits_bind lg _ _ _ hlg hmod, hidx]

private theorem run_flatLoop (cnt lg : Nat) (hlg : lg ≤ 24) (hc : cnt ≤ 576) (l : List Nat) (z fuel : Nat) (m : List Nat) (hl : m.length + z + l.length = cnt) (h01 : ∀ v ∈ l, v < 2)
    (hne : l ≠ [] ∨ 0 < z) (hf : l.length < fuel) (rest : List Bool) :
    run (flatLoop cnt lg fuel m) (runBits cnt lg l z ++ rest) = .ok (m ++ List.replicate z 0 ++ l, rest) := by
  induction l generalizing z fuel m with
  | nil =>
    have hz : 0 < z := by simpa using hne
    obtain ⟨fuel, rfl⟩ : ∃ k, fuel = k + 1 := ⟨fuel - 1, by simp at hf; omega⟩
    simp only [List.length_nil, Nat.add_zero] at hl
    unfold flatLoop runBits
    rw [if_neg (by omega)]
    refine (run_run cnt lg z (by omega) hlg (fun val => (if 576 < m.length + val then undef
      else if (if (m ++ List.replicate val 0).length < cnt then (m ++ List.replicate val 0) ++ [1] else m ++ List.replicate val 0).length < cnt
        then flatLoop cnt lg fuel (if (m ++ List.replicate val 0).length < cnt then (m ++ List.replicate val 0) ++ [1] else m ++ List.replicate val 0)
        else pure (if (m ++ List.replicate val 0).length < cnt then (m ++ List.replicate val 0) ++ [1] else m ++ List.replicate val 0) : Prog (List Nat))) rest).trans ?_
    rw [if_neg (by omega)]
    simp only [List.length_append, List.length_replicate, hl, Nat.lt_irrefl, if_false, List.append_nil, run_pure]
  | cons v l ih =>
    unfold runBits
    simp only [List.length_cons] at hl hf
    have hv := h01 v (by simp)
    by_cases h0 : v = 0
    · subst h0
      rw [if_pos rfl, ih (z + 1) fuel m (by omega) (fun w hw => h01 w (by simp [hw])) (Or.inr (by omega)) (by omega)]
      simp [List.replicate_succ']
    · obtain rfl : v = 1 := by omega
      rw [if_neg h0]
      obtain ⟨fuel, rfl⟩ : ∃ k, fuel = k + 1 := ⟨fuel - 1, by omega⟩
      unfold flatLoop
      rw [List.append_assoc]
      refine (run_run cnt lg z (by omega) hlg (fun val => (if 576 < m.length + val then undef
      else if (if (m ++ List.replicate val 0).length < cnt then (m ++ List.replicate val 0) ++ [1] else m ++ List.replicate val 0).length < cnt
        then flatLoop cnt lg fuel (if (m ++ List.replicate val 0).length < cnt then (m ++ List.replicate val 0) ++ [1] else m ++ List.replicate val 0)
        else pure (if (m ++ List.replicate val 0).length < cnt then (m ++ List.replicate val 0) ++ [1] else m ++ List.replicate val 0) : Prog (List Nat))) (runBits cnt lg l 0 ++ rest)).trans ?_
      have hlt : (m ++ List.replicate z 0).length < cnt := by simp; omega
      rw [if_neg (by omega)]
      simp only [hlt, if_true]
      simp only [List.length_append, List.length_replicate, List.length_singleton]
      by_cases hlast : l = []
      · subst hlast
        simp only [List.length_nil] at hl
        rw [if_neg (by omega)]
        simp [runBits]
      · rw [if_pos (by have := List.length_pos_iff.2 hlast; omega),
          ih 0 fuel _ (by simp; omega) (fun w hw => h01 w (by simp [hw])) (Or.inl hlast) (by omega)]
        simp

/-- C284: places coded by runs are read back. -/
theorem C284_roundtrip (l : List Nat) (lg : Nat) (hl : l ≠ []) (hc : l.length ≤ 576) (h01 : ∀ v ∈ l, v < 2) (hlg : lg < if 256 ≤ l.length then 16 else 8) (rest : List Bool) :
    run (flat l.length) (natBits (if 256 ≤ l.length then 4 else 3) lg ++ (runBits l.length lg l 0 ++ rest)) = .ok (l, rest) := by
  unfold flat
  rw [run_bits_bind _ lg _ _ (by split <;> omega) (by split at hlg <;> simp only [*, if_true, if_false])]
  rw [run_flatLoop l.length lg (by split at hlg <;> omega) hc l 0 _ [] (by simp) h01 (Or.inl hl) (by omega)]
  simp

example : runBits 6 1 [0, 0, 0, 1, 0, 1] 0 = [true, false, true, false, true] := by decide

/-- C284: fewer than 256 places stay inside the array of 576, whatever the stream. -/
theorem C284_inside (cnt : Nat) (hc : cnt < 256) (l : List Bool) :
    run (flat cnt) l ≠ .ub ∧ ∀ m l', run (flat cnt) l = .ok (m, l') → cnt ≤ m.length ∧ m.length < 512 := by
  have hones : ∀ n, Meets True (ones n) (fun k => k ≤ n) := by
    intro n
    induction n with
    | zero => exact Meets.pure (Nat.le_refl _)
    | succ n ih =>
      unfold ones
      exact Meets.bits_bind (by omega) fun b _ => Meets.ite (fun _ => Meets.pure (by omega)) fun _ => ih.bind fun k hk => Meets.pure (by omega)
  have hloop : ∀ lg, lg ≤ 7 → ∀ fuel m, m.length < 512 → (m.length < cnt ∨ m = []) → cnt < fuel + m.length → Meets True (flatLoop cnt lg fuel m) (fun m => cnt ≤ m.length ∧ m.length < 512) := by
    intro lg hlg fuel
    induction fuel with
    | zero => intro m h1 h2 h3; exact Meets.pure ⟨by omega, h1⟩
    | succ fuel ih =>
      intro m h1 h2 h3
      unfold flatLoop
      refine (hones _).bind fun head hh => Meets.bits_bind (by omega) fun rest hr => ?_
      have hm : m.length < 256 := by
        rcases h2 with h | rfl
        · omega
        · simp
      have hval : head * 2 ^ lg + rest < 256 := by
        interval_cases lg <;> omega
      refine Meets.ite (fun h => by omega) fun _ => ?_
      simp only [List.length_append, List.length_replicate]
      by_cases h4 : m.length + (head * 2 ^ lg + rest) < cnt
      · simp only [h4, if_true, List.length_append, List.length_replicate, List.length_singleton]
        refine Meets.ite (fun h5 => ih _ (by simp; omega) (Or.inl (by simp; omega)) (by simp; omega)) fun h5 => Meets.pure (by simp; omega)
      · simp only [h4, if_false, List.length_append, List.length_replicate]
        exact Meets.pure (by simp; omega)
  have key : Meets True (flat cnt) (fun m => cnt ≤ m.length ∧ m.length < 512) := by
    unfold flat
    rw [if_neg (by omega)]
    exact Meets.bits_bind (by omega) fun lg hlg => hloop lg (by omega) _ [] (by simp) (Or.inr rfl) (by simp)
  exact ⟨(key l).1 trivial, (key l).2⟩

/-- C284: with more places they need not. -/
theorem C284_refuted : ¬ ∀ (cnt : Nat) (l : List Bool), cnt ≤ 576 → run (flat cnt) l ≠ .ub := by
  intro h
  refine h 256 (natBits 4 15 ++ natBits 15 1000) (by omega) ?_
  unfold flat
  rw [if_pos (by omega), run_bits_bind 4 15 _ _ (by omega) (by omega)]
  unfold flatLoop
  rw [show 256 / 2 ^ 15 = 0 by decide]
  unfold ones
  rw [run_bind, run_pure]
  simp only [Res.ok_bind]
  have := run_bits_bind 15 1000 (fun rest => (let val := 0 * 2 ^ 15 + rest
    if 576 < ([] : List Nat).length + val then undef
    else
      let m := ([] : List Nat) ++ List.replicate val 0
      let m := if m.length < 256 then m ++ [1] else m
      if m.length < 256 then flatLoop 256 15 256 m else pure m : Prog (List Nat))) [] (by omega) (by omega)
  rw [List.append_nil] at this
  rw [this]
  rfl

/-- An element of a compact configuration holds at least one loudspeaker. -/
theorem compact_le (conf : List Speaker.Geo) : (compact conf).length ≤ conf.length := by
  have h := (C275_partition conf).length_eq
  rw [List.length_range] at h
  rw [← h, List.length_flatMap]
  have : ∀ es : List Entry, es.length ≤ (es.map fun e => e.members.length).sum := by
    intro es
    induction es with
    | nil => simp
    | cons e es ih =>
      have : 1 ≤ e.members.length := by unfold Entry.members; split <;> simp
      simp only [List.length_cons, List.map_cons, List.sum_cons]; omega
  exact this _

/-- C284: with at most 16 channels, as many as the decoder takes, and an output layout of the tables there are at most 240 places. -/
theorem C284_places (ic oc : List Speaker.Geo) (i lfeOnly : Nat) (a b : Int) (hi : i < 21) (hoc : places (layoutList i) = .ok oc) (hic : ic.length ≤ 16) :
    total ⟨a, b, compact ic, compact oc⟩ lfeOnly ≤ 240 := by
  have ho : (compact oc).length ≤ 15 := by
    have key : ∀ i, i < 21 → (match places (layoutList i) with
      | .ok oc => decide ((compact oc).length ≤ 15)
      | _ => true) = true := by decide +kernel
    have := key i hi
    rw [hoc] at this
    simpa using this
  have hn := compact_le ic
  have h1 : (compact ic).length ≤ 16 := by omega
  unfold total
  split
  · exact Nat.le_trans (Nat.mul_le_mul (show _ ≤ 16 by simp only; omega) (show _ ≤ 15 by simp only; omega)) (by omega)
  · exact Nat.le_trans (Nat.mul_le_mul h1 ho) (by omega)

/-! ## C278: templates -/

/-- C278: a matrix that is coded against a template is never decoded. -/
theorem C278_never (s : Sides) (lfeOnly : Nat) (l : List Bool) : ∃ c, run (runPlaces s lfeOnly) (true :: l) = .err c := by
  unfold runPlaces
  rw [show true :: l = natBits 1 1 ++ l from rfl, run_bits_bind 1 1 _ _ (by omega) (by omega), if_pos (by omega)]
  split
  · exact ⟨_, rfl⟩
  · exact ⟨_, rfl⟩

/-- The start of a matrix from 5.1 channels to two with places coded against the template for these layouts, which the tables have (`ia_comp_tmplt_inp_idx`, impeghd_dmx_mtx.c 171-186). -/
def templateBits : List Bool := natBits 1 0 ++ natBits 2 0 ++ natBits 3 0 ++ natBits 4 2 ++ natBits 1 1 ++ natBits 1 1 ++ natBits 1 0 ++ natBits 1 0 ++ natBits 1 1

/-- C278: the matrix from 5.1 to two channels is given up, and the downmix stays what it was: the error code is not looked at. -/
theorem C278_refuted {α : Type} [Field α] (amp : ℚ → α) (curve : Eq → Nat → α) (st : Stale) (old : Nat → Nat → Nat → α) (l : List Bool) :
    install amp curve st ⟨6, 2, 6, .index 6⟩ [⟨2, templateBits ++ l⟩] old = .ok old := by
  have h : run (decode st ⟨6, 2, 6, .index 6⟩ fun _ _ => 0) (templateBits ++ l) = .err (.other 0xFFFF9407) := by
    obtain ⟨ic, hic⟩ : ∃ ic, inputs st (.index 6) 6 = .ok ic := ⟨_, rfl⟩
    obtain ⟨oc, hoc, hcomp⟩ : ∃ oc, places (layoutList 2) = .ok oc ∧ compact oc = [⟨0, .pair 1, 0⟩] := ⟨_, rfl, by decide⟩
    unfold decode templateBits
    simp only [hic, hoc, Prog.lift, List.append_assoc]
    change run (bits 1 >>= _) _ = _
    rw [run_bits_bind 1 0 _ _ (by omega) (by omega)]
    change run (bits 2 >>= _) _ = _
    rw [run_bits_bind 2 0 _ _ (by omega) (by omega)]
    have e1 := fun (g : Nat → Prog Out) l => run_escBits 3 4 0 (by omega) (by omega) (by omega) (by omega) g l
    have e2 := fun (g : Nat → Prog Out) l => run_escBits 4 5 2 (by omega) (by omega) (by omega) (by omega) g l
    rw [show escBits 3 4 0 = natBits 3 0 from rfl] at e1
    rw [show escBits 4 5 2 = natBits 4 2 from rfl] at e2
    rw [e1, e2, hcomp]
    unfold sepFlags
    rw [bind_assoc, run_bits_bind 1 1 _ _ (by omega) (by omega)]
    change run (symFlags _ >>= _) _ = _
    unfold symFlags
    rw [bind_assoc, run_bits_bind 1 1 _ _ (by omega) (by omega)]
    change run (bits 1 >>= _) _ = _
    rw [run_bits_bind 1 0 _ _ (by omega) (by omega), run_bits_bind 1 0 _ _ (by omega) (by omega), if_neg (by omega)]
    unfold runPlaces
    rw [bind_assoc, run_bits_bind 1 1 _ _ (by omega) (by omega)]
    rfl
  unfold install
  rw [if_pos ⟨rfl, by simp [templateBits, natBits]⟩]
  simp only [h]
  rfl

/-- C278: without a template what is decoded is put into the downmix. -/
theorem C278_partial {α : Type} [Field α] (amp : ℚ → α) (curve : Eq → Nat → α) (st : Stale) (p : Params) (b : List Bool) (old : Nat → Nat → Nat → α) (o : Out) (l : List Bool)
    (hb : b ≠ []) (h : run (decode st p fun _ _ => 0) b = .ok (o, l)) : install amp curve st p [⟨p.outIdx, b⟩] old = .ok (bandMatrix amp curve o old) := by
  unfold install
  rw [if_pos ⟨rfl, hb⟩]
  simp only [h]
  rfl

/-! ## C281: memory that nobody wrote -/

/-- A matrix with gains of one dB, none and minus one dB. -/
def small (full : Bool) (sep sym : List Nat) (places : Nat → Nat → Nat) : Choice := ⟨0, 1, 1, sep, sym, 0, places, full, .raw⟩

theorem small_valid (full : Bool) (a b : Int) (ins : List Entry) (sym : Nat) (P : Nat → Nat → Nat) (hs : sym < 2) (hP : ∀ i j, P i j < 2) :
    (small full [1] [sym] P).Valid ⟨a, b, ins, [⟨0, .pair 1, 0⟩]⟩ where
  prec := by simp [small]
  lo := by simp [small]
  hi := by simp [small]
  fits := by simp [small]
  sepLen := rfl
  sep := by
    intro j hj
    simp only [List.length_singleton] at hj
    obtain rfl : j = 0 := by omega
    refine ⟨by simp [small], fun h => absurd rfl (h 1)⟩
  symLen := rfl
  sym := by intro v hv; simp only [small, List.mem_singleton] at hv; omega
  lfeOnly := by simp [small]
  places := fun i j _ _ => ⟨hP i j, fun h => absurd rfl h⟩
  coding := by intro lg h; simp [small] at h

private theorem gain1 : Coding.raw.gain 1 1 0 1 = [false, false] := by
  unfold Coding.gain; norm_num; decide
private theorem gain0 : Coding.raw.gain 1 1 0 0 = [false, true] := by
  unfold Coding.gain; norm_num; decide
private theorem gainM : Coding.raw.gain 1 1 0 (-1) = [true, false] := by
  unfold Coding.gain; norm_num; decide

private theorem in1 : (1 : ℚ) ∈ gainTable 1 1 0 := (C279_members 1 1 0 (by omega) 1).2 (Or.inr ⟨1, by norm_num⟩)
private theorem in0 : (0 : ℚ) ∈ gainTable 1 1 0 := (C279_members 1 1 0 (by omega) 0).2 (Or.inr ⟨0, by norm_num⟩)
private theorem inM : (-1 : ℚ) ∈ gainTable 1 1 0 := (C279_members 1 1 0 (by omega) (-1)).2 (Or.inr ⟨-1, by norm_num⟩)
private theorem inS : (-256 : ℚ) ∈ gainTable 1 1 0 := (C279_members 1 1 0 (by omega) (-256)).2 (Or.inl rfl)

private theorem out2 : ∃ oc, places (layoutList 2) = .ok oc ∧ compact oc = [⟨0, .pair 1, 0⟩] ∧ oc.length = 2 := ⟨_, rfl, by decide, rfl⟩

private def start : List Bool := natBits 1 0 ++ natBits 2 0 ++ natBits 3 1 ++ natBits 4 0 ++ natBits 1 0 ++ natBits 1 1 ++ natBits 1 0 ++ natBits 1 1 ++ natBits 1 0 ++ natBits 1 1

/-- C281: the matrix depends on what was in the memory when the loudspeakers of the stream are anywhere: their positions are not taken. -/
theorem C281_refuted : ¬ ∀ (st st' : Stale) (p : Params) (l l1 l2 : List Bool) (o o' : Out), run (decode st p fun _ _ => 0) l = .ok (o, l1) → run (decode st' p fun _ _ => 0) l = .ok (o', l2) →
    o.gains 0 0 = o'.gains 0 0 := by
  intro h
  obtain ⟨oc, hoc, hcomp, hlen⟩ := out2
  let st : Stale := ⟨fun i => if i = 0 then ⟨30, 0, 0, 0⟩ else ⟨-30, 0, 0, 0⟩, fun _ => 0, fun _ => 0⟩
  let st' : Stale := ⟨fun _ => ⟨0, 0, 0, 0⟩, fun _ => 0, fun _ => 0⟩
  let M : Nat → Nat → ℚ := fun x y => if x = y then -1 else -256
  let M' : Nat → Nat → ℚ := fun x _ => if x = 0 then 1 else -256
  obtain ⟨o, h1, h2, h3⟩ := C277_roundtrip st ⟨2, 2, -1, .free⟩ [⟨30, 0, 0, 0⟩, ⟨-30, 0, 0, 0⟩] oc (small false [1] [1] fun _ _ => 1) M (fun _ _ => 0) [false] rfl hoc
    (by rw [hcomp]; exact small_valid _ _ _ _ 1 _ (by omega) (by intros; omega))
    (by
      rw [hcomp, show compact [⟨30, 0, 0, 0⟩, ⟨-30, 0, 0, 0⟩] = [⟨0, .pair 1, 0⟩] by decide]
      refine ⟨fun i j hi hj => ?_, fun i j _ _ h => by simp [small] at h⟩
      simp only [List.length_singleton] at hi hj
      obtain rfl : i = 0 := by omega
      obtain rfl : j = 0 := by omega
      simp [Obeys, entryAt, M])
    (by
      intro x y _ _
      show M x y ∈ gainTable 1 1 0
      simp only [M]
      split
      · exact inM
      · exact inS)
  obtain ⟨o', h1', h2', h3'⟩ := C277_roundtrip st' ⟨2, 2, -1, .free⟩ [⟨0, 0, 0, 0⟩, ⟨0, 0, 0, 0⟩] oc (small true [1] [1] fun i _ => if i = 0 then 1 else 0) M' (fun _ _ => 0) [] rfl hoc
    (by rw [hcomp]; exact small_valid _ _ _ _ 1 _ (by omega) (by intro i j; split <;> omega))
    (by
      rw [hcomp, show compact [⟨0, 0, 0, 0⟩, ⟨0, 0, 0, 0⟩] = [⟨0, .centre, 0⟩, ⟨1, .centre, 0⟩] by decide]
      refine ⟨fun i j hi hj => ?_, fun i j hi hj h => ?_⟩
      · simp only [List.length_cons, List.length_nil] at hi hj
        obtain rfl : j = 0 := by omega
        obtain rfl | rfl : i = 0 ∨ i = 1 := by omega
        · simp [Obeys, entryAt, M']
        · simp [Obeys, entryAt, M']
      · simp only [List.length_cons, List.length_nil] at hi hj
        obtain rfl : j = 0 := by omega
        obtain rfl | rfl : i = 0 ∨ i = 1 := by omega
        · simp [small] at h
        · simp [Entry.members, entryAt, M'])
    (by
      intro x y _ _
      show M' x y ∈ gainTable 1 1 0
      simp only [M']
      split
      · exact in1
      · exact inS)
  have e1 : matrixBits ⟨-1, 2, compact [⟨30, 0, 0, 0⟩, ⟨-30, 0, 0, 0⟩], compact oc⟩ (small false [1] [1] fun _ _ => 1) M ++ [false] = start ++ [true, false, true, true, false, false] := by
    rw [hcomp, show compact [⟨30, 0, 0, 0⟩, ⟨-30, 0, 0, 0⟩] = [⟨0, .pair 1, 0⟩] by decide]
    simp only [matrixBits, cellBits, small, sent, entryAt, M]
    simp [gainM, List.range'_succ]
    decide
  have e2 : matrixBits ⟨-1, 2, compact [⟨0, 0, 0, 0⟩, ⟨0, 0, 0, 0⟩], compact oc⟩ (small true [1] [1] fun i _ => if i = 0 then 1 else 0) M' ++ [] = start ++ [true, false, true, true, false, false] := by
    rw [hcomp, show compact [⟨0, 0, 0, 0⟩, ⟨0, 0, 0, 0⟩] = [⟨0, .centre, 0⟩, ⟨1, .centre, 0⟩] by decide]
    simp only [matrixBits, cellBits, small, sent, entryAt, M']
    simp [gain1, List.range'_succ]
    decide
  have k1 : run (decode st ⟨2, 2, -1, .free⟩ fun _ _ => 0) (start ++ [true, false, true, true, false, false]) = .ok (o, [false]) := by rw [← e1]; exact h1
  have k2 : run (decode st' ⟨2, 2, -1, .free⟩ fun _ _ => 0) (start ++ [true, false, true, true, false, false]) = .ok (o', []) := by rw [← e2]; exact h1'
  have := h st st' ⟨2, 2, -1, .free⟩ _ _ _ o o' k1 k2
  rw [h3 0 0 (by decide) (by omega), h3' 0 0 (by decide) (by omega)] at this
  simp only [M, M', if_true] at this
  norm_num at this

/-- C281: and when there are more channels than loudspeakers in the layout. -/
theorem C281_more : ¬ ∀ (st st' : Stale) (l l1 l2 : List Bool) (o o' : Out), run (decode st ⟨2, 2, 1, .index 1⟩ fun _ _ => 0) l = .ok (o, l1) →
    run (decode st' ⟨2, 2, 1, .index 1⟩ fun _ _ => 0) l = .ok (o', l2) → o.gains 1 1 = o'.gains 1 1 := by
  intro h
  obtain ⟨oc, hoc, hcomp, hlen⟩ := out2
  let st : Stale := ⟨fun _ => ⟨30, 0, 0, 0⟩, fun _ => 0, fun _ => 0⟩
  let st' : Stale := ⟨fun _ => ⟨0, 0, 0, 0⟩, fun _ => 0, fun _ => 0⟩
  let P : Nat → Nat → Nat := fun i _ => if i = 0 then 0 else 1
  let M : Nat → Nat → ℚ := fun x y => if x = 0 then -256 else if y = 0 then 1 else 0
  let M' : Nat → Nat → ℚ := fun x _ => if x = 0 then -256 else 1
  obtain ⟨o, h1, h2, h3⟩ := C277_roundtrip st ⟨2, 2, 1, .index 1⟩ [⟨0, 0, 0, 0⟩, ⟨30, 0, 0, 0⟩] oc (small true [1] [1] P) M (fun _ _ => 0) [] (by decide) hoc
    (by rw [hcomp]; exact small_valid _ _ _ _ 1 _ (by omega) (by intro i j; simp only [P]; split <;> omega))
    (by
      rw [hcomp, show compact [⟨0, 0, 0, 0⟩, ⟨30, 0, 0, 0⟩] = [⟨0, .centre, 0⟩, ⟨1, .single, 0⟩] by decide]
      refine ⟨fun i j hi hj => ?_, fun i j hi hj h => ?_⟩
      · simp only [List.length_cons, List.length_nil] at hi hj
        obtain rfl : j = 0 := by omega
        obtain rfl | rfl : i = 0 ∨ i = 1 := by omega
        · simp [Obeys, entryAt, M]
        · simp [Obeys, entryAt, small]
      · simp only [List.length_cons, List.length_nil] at hi hj
        obtain rfl : j = 0 := by omega
        obtain rfl | rfl : i = 0 ∨ i = 1 := by omega
        · simp [Entry.members, entryAt, M]
        · simp [small, P] at h)
    (by
      intro x y _ _
      show M x y ∈ gainTable 1 1 0
      simp only [M]
      split
      · exact inS
      · split
        · exact in1
        · exact in0)
  obtain ⟨o', h1', h2', h3'⟩ := C277_roundtrip st' ⟨2, 2, 1, .index 1⟩ [⟨0, 0, 0, 0⟩, ⟨0, 0, 0, 0⟩] oc (small true [1] [1] P) M' (fun _ _ => 0) [false, true] (by decide) hoc
    (by rw [hcomp]; exact small_valid _ _ _ _ 1 _ (by omega) (by intro i j; simp only [P]; split <;> omega))
    (by
      rw [hcomp, show compact [⟨0, 0, 0, 0⟩, ⟨0, 0, 0, 0⟩] = [⟨0, .centre, 0⟩, ⟨1, .centre, 0⟩] by decide]
      refine ⟨fun i j hi hj => ?_, fun i j hi hj h => ?_⟩
      · simp only [List.length_cons, List.length_nil] at hi hj
        obtain rfl : j = 0 := by omega
        obtain rfl | rfl : i = 0 ∨ i = 1 := by omega
        · simp [Obeys, entryAt, M']
        · simp [Obeys, entryAt, M']
      · simp only [List.length_cons, List.length_nil] at hi hj
        obtain rfl : j = 0 := by omega
        obtain rfl | rfl : i = 0 ∨ i = 1 := by omega
        · simp [Entry.members, entryAt, M']
        · simp [small, P] at h)
    (by
      intro x y _ _
      show M' x y ∈ gainTable 1 1 0
      simp only [M']
      split
      · exact inS
      · exact in1)
  have e1 : matrixBits ⟨1, 2, compact [⟨0, 0, 0, 0⟩, ⟨30, 0, 0, 0⟩], compact oc⟩ (small true [1] [1] P) M ++ [] = start ++ [false, true, true, true, false, false, false, true] := by
    rw [hcomp, show compact [⟨0, 0, 0, 0⟩, ⟨30, 0, 0, 0⟩] = [⟨0, .centre, 0⟩, ⟨1, .single, 0⟩] by decide]
    simp only [matrixBits, cellBits, small, sent, entryAt, M, P]
    simp [gain1, gain0, List.range'_succ]
    decide
  have e2 : matrixBits ⟨1, 2, compact [⟨0, 0, 0, 0⟩, ⟨0, 0, 0, 0⟩], compact oc⟩ (small true [1] [1] P) M' ++ [false, true] = start ++ [false, true, true, true, false, false, false, true] := by
    rw [hcomp, show compact [⟨0, 0, 0, 0⟩, ⟨0, 0, 0, 0⟩] = [⟨0, .centre, 0⟩, ⟨1, .centre, 0⟩] by decide]
    simp only [matrixBits, cellBits, small, sent, entryAt, M', P]
    simp [gain1, List.range'_succ]
    decide
  have k1 : run (decode st ⟨2, 2, 1, .index 1⟩ fun _ _ => 0) (start ++ [false, true, true, true, false, false, false, true]) = .ok (o, []) := by rw [← e1]; exact h1
  have k2 : run (decode st' ⟨2, 2, 1, .index 1⟩ fun _ _ => 0) (start ++ [false, true, true, true, false, false, false, true]) = .ok (o', [false, true]) := by rw [← e2]; exact h1'
  have := h st st' _ _ _ o o' k1 k2
  rw [h3 1 1 (by decide) (by omega), h3' 1 1 (by decide) (by omega)] at this
  simp [M, M'] at this

/-- How many loudspeakers a layout names. -/
def Layout.count : Layout → Nat
  | .index i => (layoutList i).length
  | .list l => l.length
  | _ => 0

/-- C281: with a loudspeaker of the layout for every channel the positions left in the memory have no part in it. -/
theorem C281_positions_partial (st st' : Stale) (p : Params) (h : p.nIn ≤ p.layout.count) (ht : st.tab = st'.tab) (hm : st.map = st'.map) (d : Nat → Nat → ℚ) :
    decode st p d = decode st' p d := by
  have hin : inputs st p.layout p.nIn = inputs st' p.layout p.nIn := by
    unfold inputs
    have hplaces : ∀ l r, places l = .ok r → r.length = l.length := by
      intro l r h
      unfold places at h
      split at h
      · injection h with h; rw [← h]; simp
      · simp at h
    have hmap : ∀ r : List Speaker.Geo, p.nIn ≤ r.length →
        (List.range p.nIn).map (fun i => if i < r.length then r.getD i ⟨0, 0, 0, 0⟩ else st.spk i) = (List.range p.nIn).map (fun i => if i < r.length then r.getD i ⟨0, 0, 0, 0⟩ else st'.spk i) := by
      intro r hr
      apply List.map_congr_left
      intro i hi
      have := List.mem_range.1 hi
      rw [if_pos (by omega), if_pos (by omega)]
    cases hlay : p.layout with
    | index i =>
      rw [hlay] at h
      simp only
      split
      · cases hp : places (layoutList i) with
        | ok r =>
          have := hplaces _ _ hp
          simp only [Res.ok_bind]
          rw [hmap r (by simp only [Layout.count] at h; omega)]
        | _ => rfl
      · rfl
    | list l =>
      rw [hlay] at h
      simp only
      cases hp : places l with
      | ok r =>
        have := hplaces _ _ hp
        simp only [Res.ok_bind]
        rw [hmap r (by simp only [Layout.count] at h; omega)]
      | _ => rfl
    | free =>
      rw [hlay] at h
      simp only [Layout.count] at h
      simp only [Res.ok_bind]
      rw [show p.nIn = 0 by omega]
      rfl
    | other => rfl
  have hd : decodeGain st = decodeGain st' := by
    funext c
    unfold decodeGain
    have : tabGet st c.tab = tabGet st' c.tab := by funext i; unfold tabGet; rw [ht]
    rw [this]
  have hq : eqCheck st = eqCheck st' := by funext e; unfold eqCheck; rw [hm]
  unfold decode
  rw [hin, hd, hq]

/-- C281: without the table of gains, and with no more equalisers than channels, the rest of the memory has no part in it either. -/
theorem C281_gains_partial (st st' : Stale) (c : Coder) (h : c.raw = true) : decodeGain st c = decodeGain st' c := by
  unfold decodeGain
  rw [if_pos h, if_pos h]

theorem C281_equalisers_partial (st st' : Stale) (e : EqConf) (h : e.eqs.length ≤ e.map.length) : eqCheck st e = eqCheck st' e := by
  unfold eqCheck
  have : (List.range e.eqs.length).any (fun i => decide ((e.eqs.length : Int) < if i < e.map.length then ((e.map.getD i 0 : Nat) : Int) else st.map i)) =
      (List.range e.eqs.length).any (fun i => decide ((e.eqs.length : Int) < if i < e.map.length then ((e.map.getD i 0 : Nat) : Int) else st'.map i)) := by
    rw [Bool.eq_iff_iff, List.any_eq_true, List.any_eq_true]
    constructor
    · rintro ⟨i, hi, hc⟩
      have := List.mem_range.1 hi
      rw [if_pos (by omega)] at hc
      exact ⟨i, hi, by rw [if_pos (by omega)]; exact hc⟩
    · rintro ⟨i, hi, hc⟩
      have := List.mem_range.1 hi
      rw [if_pos (by omega)] at hc
      exact ⟨i, hi, by rw [if_pos (by omega)]; exact hc⟩
  rw [this]

/-- Whether the place of input `i` and output `j` is in the list coded by runs. -/
def listed (s : Sides) (lfeOnly i j : Nat) : Bool := decide (lfeOnly = 0 ∨ ((entryAt s.ins i).lfe = 0 ∧ (entryAt s.outs j).lfe = 0))

/-- The places of the list coded by runs, input by input. -/
def listing (s : Sides) (lfeOnly : Nat) (P : Nat → Nat → Nat) : List Nat :=
  (List.range s.ins.length).flatMap fun i => ((List.range s.outs.length).filter (listed s lfeOnly i)).map (P i)

/-- The bits of places of low frequency channels, input by input. -/
def lfeBits (s : Sides) (lfeOnly : Nat) (P : Nat → Nat → Nat) : List Bool :=
  (List.range s.ins.length).flatMap fun i => (List.range s.outs.length).flatMap fun j =>
    if lfeOnly ≠ 0 ∧ (entryAt s.ins i).lfe = 1 ∧ (entryAt s.outs j).lfe = 1 then natBits 1 (P i j) else []

theorem count_lfes (l : List Entry) (h : ∀ e ∈ l, e.lfe < 2) : l.length - lfes l = ((List.range l.length).filter fun i => decide ((entryAt l i).lfe = 0)).length := by
  have h1 : (List.range l.length).map (entryAt l) = l := by
    apply List.ext_getElem (by simp)
    intro i h1 h2
    rw [List.getElem_map, List.getElem_range, entryAt_eq l i h2]
  have h2 : ((List.range l.length).filter fun i => decide ((entryAt l i).lfe = 0)).length = (l.filter fun e => decide (e.lfe = 0)).length := by
    conv_rhs => rw [← h1]
    rw [List.filter_map, List.length_map]; rfl
  rw [h2]
  unfold lfes
  clear h1 h2
  induction l with
  | nil => rfl
  | cons a l ih =>
    have h3 := List.length_filter_le (fun e : Entry => decide (e.lfe = 1)) l
    have h4 := ih fun e he => h e (by simp [he])
    have h5 := h a (by simp)
    rcases (show a.lfe = 0 ∨ a.lfe = 1 by omega) with h6 | h6 <;> simp only [List.filter_cons, h6, List.length_cons] <;> simp <;> omega

/-- C284: the number announced is the number of places of the list. -/
theorem total_eq (s : Sides) (lfeOnly : Nat) (P : Nat → Nat → Nat) (hi : ∀ e ∈ s.ins, e.lfe < 2) (ho : ∀ e ∈ s.outs, e.lfe < 2) :
    (listing s lfeOnly P).length = total s lfeOnly := by
  unfold listing total
  rw [List.length_flatMap]
  by_cases h : lfeOnly = 0
  · have : ∀ a, listed s lfeOnly a = fun _ => true := fun a => by funext j; simp [listed, h]
    simp only [this]
    simp [h]
  · rw [if_pos h, count_lfes _ hi, count_lfes _ ho]
    have : ∀ l : List Nat, (l.map fun i => (((List.range s.outs.length).filter (listed s lfeOnly i)).map (P i)).length).sum
        = (l.filter fun i => decide ((entryAt s.ins i).lfe = 0)).length * ((List.range s.outs.length).filter fun i => decide ((entryAt s.outs i).lfe = 0)).length := by
      intro l
      induction l with
      | nil => simp
      | cons a l ih =>
        rw [List.map_cons, List.sum_cons, ih, List.length_map]
        by_cases ha : (entryAt s.ins a).lfe = 0
        · have : listed s lfeOnly a = fun i => decide ((entryAt s.outs i).lfe = 0) := by
            funext j; simp [listed, h, ha]
          rw [this, List.filter_cons, if_pos (by simpa using ha), List.length_cons]; ring
        · have : listed s lfeOnly a = fun _ => false := by
            funext j; simp [listed, h, ha]
          rw [this, List.filter_cons, if_neg (by simpa using ha)]; simp
    exact this _

/-- C284: places coded by runs and the bits of low frequency channels are read back, and the count of places always agrees. -/
theorem C284_readback (s : Sides) (lfeOnly lg : Nat) (P : Nat → Nat → Nat) (hi : ∀ e ∈ s.ins, e.lfe < 2) (ho : ∀ e ∈ s.outs, e.lfe < 2)
    (hP : ∀ i j, i < s.ins.length → j < s.outs.length → P i j < 2 ∧ (lfeOnly ≠ 0 → (entryAt s.ins i).lfe ≠ (entryAt s.outs j).lfe → P i j = 0))
    (hne : listing s lfeOnly P ≠ []) (hc : (listing s lfeOnly P).length ≤ 576) (hlg : lg < if 256 ≤ (listing s lfeOnly P).length then 16 else 8) (l : List Bool) :
    ∃ m, run (runPlaces s lfeOnly) (false :: (natBits (if 256 ≤ (listing s lfeOnly P).length then 4 else 3) lg ++
        (runBits (listing s lfeOnly P).length lg (listing s lfeOnly P) 0 ++ (lfeBits s lfeOnly P ++ l)))) = .ok (m, l) ∧
      ∀ i j, i < s.ins.length → j < s.outs.length → m i j = P i j := by
  have ht := total_eq s lfeOnly P hi ho
  have hEi : ∀ i, i < s.ins.length → (entryAt s.ins i).lfe < 2 := fun i h => by rw [entryAt_eq _ _ h]; exact hi _ (List.getElem_mem h)
  have hEo : ∀ i, i < s.outs.length → (entryAt s.outs i).lfe < 2 := fun i h => by rw [entryAt_eq _ _ h]; exact ho _ (List.getElem_mem h)
  have h01 : ∀ v ∈ listing s lfeOnly P, v < 2 := by
    intro v hv
    simp only [listing, List.mem_flatMap, List.mem_map, List.mem_filter, List.mem_range] at hv
    obtain ⟨i, h1, j, ⟨h2, -⟩, rfl⟩ := hv
    exact (hP i j h1 h2).1
  have hf := C284_roundtrip (listing s lfeOnly P) lg hne hc h01 hlg (lfeBits s lfeOnly P ++ l)
  rw [ht] at hf ⊢
  generalize hL : listing s lfeOnly P = L at *
  -- what is left of the list
  let row (i a : Nat) : List Nat := ((List.range' a (s.outs.length - a)).filter (listed s lfeOnly i)).map (P i)
  let rows (a : Nat) : List Nat := (List.range' a (s.ins.length - a)).flatMap fun i => row i 0
  have hrow : ∀ i a, a < s.outs.length → row i a = (if listed s lfeOnly i a then [P i a] else []) ++ row i (a + 1) := by
    intro i a h
    show ((List.range' a (s.outs.length - a)).filter _).map _ = _
    rw [show s.outs.length - a = (s.outs.length - (a + 1)) + 1 by omega, List.range'_succ, List.filter_cons]
    by_cases hq : listed s lfeOnly i a = true <;> simp [hq, row]
  have hrows : ∀ a, a < s.ins.length → rows a = row a 0 ++ rows (a + 1) := by
    intro a h
    show (List.range' a (s.ins.length - a)).flatMap _ = _
    rw [show s.ins.length - a = (s.ins.length - (a + 1)) + 1 by omega, List.range'_succ, List.flatMap_cons]
  obtain ⟨r, e1, e2, e3⟩ := run_foldN_enc (fun i r => foldN (fun j r => runPlace s lfeOnly L i j r) s.outs.length 0 r)
    (fun i => (List.range s.outs.length).flatMap fun j =>
      if lfeOnly ≠ 0 ∧ (entryAt s.ins i).lfe = 1 ∧ (entryAt s.outs j).lfe = 1 then natBits 1 (P i j) else [])
    (fun a r => (r.2 ≤ L.length ∧ L.drop r.2 = rows a) ∧ ∀ i j, i < a → j < s.outs.length → r.1 i j = P i j) s.ins.length 0 (fun _ _ => 0, 0)
    ⟨⟨by simp, by rw [List.drop_zero, ← hL]; simp only [listing, rows, row, List.range_eq_range', Nat.sub_zero]⟩, fun i j h => by omega⟩
    (fun a r _ ha hI l => by
      obtain ⟨r', f1, f2, f3⟩ := run_foldN_enc (fun j r => runPlace s lfeOnly L a j r)
        (fun j => if lfeOnly ≠ 0 ∧ (entryAt s.ins a).lfe = 1 ∧ (entryAt s.outs j).lfe = 1 then natBits 1 (P a j) else [])
        (fun b r => (r.2 ≤ L.length ∧ L.drop r.2 = row a b ++ rows (a + 1)) ∧ ∀ i j, j < s.outs.length → i < a ∨ (i = a ∧ j < b) → r.1 i j = P i j)
        s.outs.length 0 r ⟨⟨hI.1.1, by rw [hI.1.2, hrows a (by omega)]⟩, fun i j h1 h2 => hI.2 i j (by omega) h1⟩
        (fun b r _ hb hJ l => by
          have h1 := hEi a (by omega)
          have h2 := hEo b (by omega)
          have h3 := hP a b (by omega) (by omega)
          have h4 := hrow a b (by omega)
          have hput : ∀ v, v = P a b → ∀ i j, j < s.outs.length → i < a ∨ (i = a ∧ j < b + 1) → put r.1 a b v i j = P i j := by
            intro v hv i j hj hij
            unfold put
            split
            · rename_i h; rw [h.1, h.2]; exact hv
            · exact hJ.2 i j hj (by omega)
          unfold runPlace
          by_cases c1 : lfeOnly ≠ 0 ∧ (entryAt s.ins a).lfe ≠ 0 ∧ (entryAt s.outs b).lfe ≠ 0
          · simp only [if_pos c1, if_pos (show lfeOnly ≠ 0 ∧ (entryAt s.ins a).lfe = 1 ∧ (entryAt s.outs b).lfe = 1 by omega)]
            rw [run_bits_bind 1 _ _ _ (by omega) h3.1]
            refine ⟨_, rfl, ⟨hJ.1.1, ?_⟩, hput _ rfl⟩
            rw [hJ.1.2, h4, if_neg (by simp [listed, c1])]; rfl
          · have c3 : ¬(lfeOnly ≠ 0 ∧ (entryAt s.ins a).lfe = 1 ∧ (entryAt s.outs b).lfe = 1) := by omega
            simp only [if_neg c1, if_neg c3]
            by_cases c2 : lfeOnly ≠ 0 ∧ (entryAt s.ins a).lfe ≠ (entryAt s.outs b).lfe
            · simp only [if_pos c2]
              refine ⟨_, rfl, ⟨hJ.1.1, ?_⟩, hput _ (h3.2 c2.1 c2.2).symm⟩
              rw [hJ.1.2, h4, if_neg (by simp only [listed, decide_eq_true_eq]; omega)]; rfl
            · simp only [if_neg c2]
              rw [h4, if_pos (by simp only [listed, decide_eq_true_eq]; omega)] at hJ
              have hlt : r.2 < L.length := by
                by_contra hcon
                have := hJ.1.2
                rw [List.drop_eq_nil_of_le (by omega)] at this
                simp at this
              have hd := List.drop_eq_getElem_cons hlt
              rw [hJ.1.2] at hd
              simp only [List.cons_append, List.nil_append, List.cons.injEq] at hd
              refine ⟨_, rfl, ⟨hlt, hd.2.symm⟩, hput _ ?_⟩
              rw [List.getD_eq_getElem?_getD, List.getElem?_eq_getElem hlt]; exact hd.1.symm) l
      rw [← List.range_eq_range'] at f1
      refine ⟨r', f1, ⟨f2.1, ?_⟩, fun i j h1 h2 => f3 i j h2 (by omega)⟩
      rw [f2.2]; simp [row]) l
  rw [← List.range_eq_range'] at e1
  have hr : r.2 = total s lfeOnly := by
    have h1 := congrArg List.length e2.2
    simp only [List.length_drop, rows, Nat.zero_add, Nat.sub_self, List.range'_zero, List.flatMap_nil, List.length_nil] at h1
    have := e2.1
    omega
  refine ⟨r.1, ?_, fun i j h1 h2 => e3 i j (by omega) h2⟩
  unfold runPlaces
  have hb := run_bits_bind 1 0 (fun template => if template ≠ 0 then
    if s.inIdx = -1 ∨ s.outIdx = -1 then fail (.other 0xFFFF9403) else fail (.other 0xFFFF9407)
  else do
    let l ← flat (total s lfeOnly)
    let r ← foldN (fun i r => foldN (fun j r => runPlace s lfeOnly l i j r) s.outs.length 0 r) s.ins.length 0 (fun _ _ => 0, 0)
    if r.2 ≠ total s lfeOnly then fail (.other 0xFFFF9408) else pure r.1) (natBits (if 256 ≤ total s lfeOnly then 4 else 3) lg ++
        (runBits (total s lfeOnly) lg L 0 ++ (lfeBits s lfeOnly P ++ l))) (by omega) (by omega)
  refine hb.trans ?_
  rw [if_neg (by omega), run_bind, hf]
  simp only [Res.ok_bind]
  rw [run_bind]
  have e1' : run (foldN (fun i r => foldN (fun j r => runPlace s lfeOnly L i j r) s.outs.length 0 r) s.ins.length 0 (fun _ _ => 0, 0)) (lfeBits s lfeOnly P ++ l) = .ok (r, l) := e1
  rw [e1']
  simp only [Res.ok_bind]
  rw [if_neg (not_not.2 hr)]
  rfl

/-- From 5.1 to stereo with a low frequency channel: two places listed, one bit on its own. -/
example : listing ⟨6, 2, [⟨0, .pair 1, 0⟩, ⟨2, .centre, 0⟩, ⟨3, .centre, 1⟩], [⟨0, .pair 1, 0⟩, ⟨2, .centre, 1⟩]⟩ 1 (fun i j => if i = j then 1 else if i = 2 ∧ j = 1 then 1 else 0) = [1, 0] ∧
    lfeBits ⟨6, 2, [⟨0, .pair 1, 0⟩, ⟨2, .centre, 0⟩, ⟨3, .centre, 1⟩], [⟨0, .pair 1, 0⟩, ⟨2, .centre, 1⟩]⟩ 1 (fun i j => if i = j then 1 else if i = 2 ∧ j = 1 then 1 else 0) = [true] := by
  decide

/-- C277: one set bit says that all outputs are symmetric, and one that all pairs are separable. -/
theorem C277_flags (outs : List Entry) (l : List Bool) :
    run (symFlags outs) (true :: l) = .ok (outs.map fun _ => 1, l) ∧
    run (sepFlags outs) (true :: l) = .ok (outs.map fun e => match e.kind with
      | .pair _ => 1
      | _ => 0, l) := by
  have key : ∀ (f : Nat → Prog Nat) (g : Entry → Nat) (es : List Entry) (i : Nat), (∀ j (h : j < es.length), ∀ l, run (f (i + j)) l = .ok (g es[j], l)) → ∀ l,
      run (forN f es.length i) l = .ok (es.map g, l) := by
    intro f g es
    induction es with
    | nil => intro i _ l; rfl
    | cons e es ih =>
      intro i h l
      rw [List.length_cons]
      unfold forN
      rw [run_bind, show f i = f (i + 0) by rfl, h 0 (by simp) l]
      simp only [Res.ok_bind]
      rw [run_bind, ih (i + 1) (fun j hj l => by
        have := h (j + 1) (by simpa using hj) l
        rw [show i + 1 + j = i + (j + 1) by omega]; simpa using this) l]
      rfl
  constructor
  · have hb := run_bits_bind 1 1 (fun all => forN (fun _ => if all = 0 then bits 1 else pure 1) outs.length 0) l (by omega) (by omega)
    refine hb.trans (key _ (fun _ => 1) outs 0 (fun j h l => rfl) l)
  · have hb := run_bits_bind 1 1 (fun all => forN (fun j => match (entryAt outs j).kind with
      | .pair _ => if all = 0 then bits 1 else pure 1
      | _ => pure 0) outs.length 0) l (by omega) (by omega)
    refine hb.trans (key _ _ outs 0 (fun j h l => ?_) l)
    rw [Nat.zero_add, entryAt_eq outs j h]
    cases outs[j].kind <;> rfl

end Verif.Dmx
