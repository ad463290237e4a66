import Verif.Spec.FdStream
import Verif.Props.Spectral
import Mathlib.Data.List.GetD

/-! # Windows and frames of spectra one after another (C205) -/

namespace Verif.FdStream

open Spectral ArithCode
open Arith (tables)

/-! ## Contexts -/

theorem get_ok {t : List Int} {i : Nat} (h : i < t.length) : get t i = .ok (t.getD i 0) := by
  unfold get
  rw [List.getElem?_eq_getElem h, List.getD_eq_getElem _ _ h]

theorem take_set_succ {t : List Int} {i : Nat} (v : Int) (h : i < t.length) : (t.set i v).take (i + 1) = t.take i ++ [v] := by
  rw [List.set_eq_take_append_cons_drop, if_pos h, List.take_append, List.length_take, Nat.min_eq_left (by omega), List.take_take,
    Nat.min_eq_right (by omega), show i + 1 - i = 1 by omega]
  simp

theorem mapLoop_ok (src : List Int) (pres prev : Nat) : ∀ (n i : Nat) (t : List Int), 2 + i + n ≤ t.length →
    (∀ j < n, 2 + (i + j) * prev / pres < src.length) →
    mapLoop src pres prev n i t =
      .ok (t.take (2 + i) ++ (List.range n).map (fun j => src.getD (2 + (i + j) * prev / pres) 0) ++ t.drop (2 + i + n))
  | 0, i, t, _, _ => by simp [mapLoop]
  | n + 1, i, t, h1, h2 => by
    have h20 := h2 0 (by omega)
    rw [Nat.add_zero] at h20
    rw [mapLoop, get_ok h20, Res.ok_bind]
    unfold put
    rw [if_pos (by omega), Res.ok_bind, mapLoop_ok src pres prev n (i + 1) _ (by rw [List.length_set]; omega)
      (fun j hj => by have := h2 (j + 1) (by omega); rwa [show i + 1 + j = i + (j + 1) by omega])]
    rw [show 2 + (i + 1) = (2 + i) + 1 by omega, take_set_succ _ (by omega), List.drop_set_of_lt (by omega), List.range_succ_eq_map, List.map_cons,
      List.map_map, show 2 + i + 1 + n = 2 + i + (n + 1) by omega, List.append_assoc (List.take _ _), List.singleton_append]
    congr 3
    · congr 1
      refine List.map_congr_left fun j _ => ?_
      simp only [Function.comp_apply, Nat.succ_eq_add_one]
      rw [show i + 1 + j = i + (j + 1) by omega]

theorem setOnes_ok : ∀ (n i : Nat) (t : List Int), 2 + i + n ≤ t.length →
    setOnes n i t = .ok (t.take (2 + i) ++ List.replicate n 1 ++ t.drop (2 + i + n))
  | 0, i, t, _ => by simp [setOnes]
  | n + 1, i, t, h => by
    rw [setOnes]
    unfold put
    rw [if_pos (by omega), Res.ok_bind, setOnes_ok n (i + 1) _ (by rw [List.length_set]; omega), Nat.add_comm i 2,
      show 2 + (i + 1) = (2 + i) + 1 by omega, take_set_succ _ (by omega), List.drop_set_of_lt (by omega),
      show 2 + i + 1 + n = 2 + i + (n + 1) by omega, List.append_assoc (List.take _ _), List.singleton_append, ← List.replicate_succ]

/-- The arrays of the decoder after windows of `size` lines that left the weights `ws`. -/
def Holds (s : Ctx) (ws : List Nat) : Prop :=
  Size s.size ∧ ws.length = s.size / 2 ∧ (∀ v ∈ ws, v ≤ 15) ∧
    (∃ z : List Int, s.c = 0 :: 0 :: (ws.map Nat.cast ++ z) ∧ s.c.length = 516) ∧
    ∃ (x y : Int) (old z : List Int), s.cPrev = x :: y :: (old ++ 0 :: z) ∧ old.length = s.size / 2 ∧ s.cPrev.length = 516

theorem scaled_le {pres prev : Nat} {ws : List Nat} (h : ∀ v ∈ ws, v ≤ 15) : ∀ v ∈ scaled pres prev ws, v ≤ 15 := by
  intro v hv
  obtain ⟨i, -, rfl⟩ := List.mem_map.1 hv
  rw [List.getD_eq_getElem?_getD]
  cases hx : ws[i * prev / pres]? with
  | none => simp
  | some w => exact h w (List.mem_of_getElem? hx)

theorem scaled_index {pres prev i : Nat} (h1 : Size pres) (h2 : Size prev) (hi : i < pres / 2) : i * prev / pres < prev / 2 := by
  rcases h1 with rfl | rfl | rfl | rfl <;> rcases h2 with rfl | rfl | rfl | rfl <;> omega

/-- The context at the start of a block. -/
def startOf (reset : Bool) (pres prev : Nat) (ws : List Nat) : List Nat := if reset then List.replicate (pres / 2) 0 else scaled pres prev ws

theorem mapContext_ok (pres : Nat) (hp : Size pres) (s : Ctx) (ws : List Nat) (reset : Bool) (h : reset = false → Holds s ws) :
    ∃ cp c, mapContext pres s.size reset s.cPrev s.c = .ok (cp, c) ∧ Holds ⟨cp, c, pres⟩ (startOf reset pres s.size ws) := by
  have hp2 : pres / 2 ≤ 512 := by rcases hp with rfl | rfl | rfl | rfl <;> omega
  cases reset with
  | true =>
    refine ⟨_, _, rfl, hp, by simp [startOf], ?_, ⟨List.replicate (514 - pres / 2) 0, ?_, List.length_replicate ..⟩, 0, 0,
      List.replicate (pres / 2) 0, List.replicate (513 - pres / 2) 0, ?_, List.length_replicate .., List.length_replicate ..⟩
    · intro v hv; simp [startOf] at hv; omega
    · simp only [startOf, if_true, List.map_replicate, Nat.cast_zero, List.replicate_append_replicate]
      conv_lhs => rw [show 516 = (pres / 2 + (514 - pres / 2)) + 1 + 1 by omega, List.replicate_succ, List.replicate_succ]
    · conv_lhs => rw [show 516 = (pres / 2 + ((513 - pres / 2) + 1)) + 1 + 1 by omega, List.replicate_succ, List.replicate_succ,
        ← List.replicate_append_replicate, List.replicate_succ]
  | false =>
    obtain ⟨hs, hl, hw, ⟨z, hc, hcl⟩, x, y, old, z', hq, hol, hql⟩ := h rfl
    have hs2 : s.size / 2 ≤ 512 := by rcases hs with h | h | h | h <;> omega
    unfold mapContext
    rw [if_neg (by simp), if_neg (by omega),
      mapLoop_ok s.c pres s.size (pres / 2) 0 s.c (by omega) (fun j hj => by
        have := scaled_index hp hs hj; rw [Nat.zero_add]; omega), Res.ok_bind,
      mapLoop_ok s.cPrev pres s.size (pres / 2) 0 s.cPrev (by omega) (fun j hj => by
        have := scaled_index hp hs hj; rw [Nat.zero_add]; omega), Res.ok_bind, get_ok (by omega), Res.ok_bind]
    have hmap : (List.range (pres / 2)).map (fun j => s.c.getD (2 + (0 + j) * s.size / pres) 0) = (scaled pres s.size ws).map Nat.cast := by
      unfold scaled
      rw [List.map_map]
      refine List.map_congr_left fun j hj => ?_
      have hj' := scaled_index hp hs (List.mem_range.1 hj)
      rw [Nat.zero_add, hc, Nat.add_comm 2]
      simp only [List.getD_cons_succ, Function.comp_apply]
      rw [List.getD_append _ _ _ _ (by rw [List.length_map]; omega), List.getD_eq_getElem _ _ (by rw [List.length_map]; omega), List.getElem_map,
        List.getD_eq_getElem _ _ (by omega)]
    have hlenA : ∀ (t : List Int) (f : Nat → Int), t.length = 516 → (t.take (2 + 0) ++ (List.range (pres / 2)).map f ++ t.drop (2 + 0 + pres / 2)).length = 516 := by
      intro t f ht; simp only [List.length_append, List.length_take, List.length_map, List.length_range, List.length_drop]; omega
    unfold put
    rw [if_pos (by rw [hlenA _ _ hcl]; omega), Res.ok_bind, get_ok (by omega), Res.ok_bind, if_pos (by rw [hlenA _ _ hql]; omega), Res.ok_bind]
    refine ⟨_, _, rfl, hp, by simp [startOf, scaled], by simpa [startOf] using scaled_le hw, ⟨((s.c.drop (2 + 0 + pres / 2)).set 1 (s.c.getD (s.size / 2 + 3) 0)), ?_, ?_⟩, ?_⟩
    · rw [hmap]
      dsimp only
      rw [List.set_append_right _ _ (by simp [scaled]; omega)]
      have e0 : s.c.take (2 + 0) = [0, 0] := by rw [hc]; rfl
      rw [e0]
      have : pres / 2 + 3 - ([0, 0] ++ (scaled pres s.size ws).map (Nat.cast : Nat → Int)).length = 1 := by simp [scaled]
      rw [this]
      rfl
    · dsimp only; rw [List.length_set, hlenA _ _ hcl]
    · have hv : s.cPrev.getD (s.size / 2 + 2) 0 = 0 := by
        rw [hq]
        simp only [List.getD_cons_succ]
        rw [List.getD_append_right _ _ _ _ (by omega), hol, Nat.sub_self]
        rfl
      have hne : ∃ a r, s.cPrev.drop (2 + 0 + pres / 2) = a :: r := by
        cases hd : s.cPrev.drop (2 + 0 + pres / 2) with
        | nil => have := congrArg List.length hd; simp at this; omega
        | cons a r => exact ⟨a, r, rfl⟩
      obtain ⟨a, r, hr⟩ := hne
      refine ⟨x, y, (List.range (pres / 2)).map (fun j => s.cPrev.getD (2 + (0 + j) * s.size / pres) 0), r, ?_, by simp, ?_⟩
      · dsimp only
        have e0 : s.cPrev.take (2 + 0) = [x, y] := by rw [hq]; rfl
        rw [hv, e0, hr, List.set_append_right _ _ (by simp)]
        have : pres / 2 + 2 - ([x, y] ++ (List.range (pres / 2)).map (fun j => s.cPrev.getD (2 + (0 + j) * s.size / pres) 0)).length = 0 := by simp
        rw [this]
        rfl
      · dsimp only; rw [List.length_set, hlenA _ _ hql]

/-! ## Windows -/

theorem weights_le (n : Nat) (vs : List (Int × Int)) : ∀ v ∈ weights n vs, v ≤ 15 := by
  intro v hv
  rcases List.mem_append.1 hv with h | h
  · obtain ⟨p, -, rfl⟩ := List.mem_map.1 h
    unfold weight; omega
  · have := List.eq_of_mem_replicate h; omega

theorem weights_length {n : Nat} {vs : List (Int × Int)} (h : vs.length ≤ n) : (weights n vs).length = n := by
  unfold weights; simp; omega

theorem windows_ok (fuel m n : Nat) (hf : 29 ≤ fuel) (hm : m ≤ n) (hN : n ≤ 512) (tail : List Bool) (ht : 15 ≤ tail.length) (x y : Int) (z2 zs : List Int) :
    ∀ (wins : List (List (Int × Int))) (ctx : List Nat) (old : List Int), ctx.length = n → (∀ v ∈ ctx, v ≤ 15) → old.length = n →
      (∀ vs ∈ wins, vs.length ≤ m ∧ ∀ p ∈ vs, p.1.natAbs < 2 ^ 30 ∧ p.2.natAbs < 2 ^ 30) →
      ∃ old' : List Int, old'.length = n ∧
        windows fuel m n wins.length (x :: y :: (old ++ 0 :: zs)) (0 :: 0 :: (ctx.map Nat.cast ++ z2)) (windowBits tables m n ctx wins ++ tail) =
          .ok ((x :: y :: (old' ++ 0 :: zs), 0 :: 0 :: ((after n ctx wins).map Nat.cast ++ z2), wins.map (linesOf n)), tail)
  | [], ctx, old, _, _, h3, _ => ⟨old, h3, rfl⟩
  | vs :: wins, ctx, old, h1, h2, h3, h4 => by
    obtain ⟨hv1, hv2⟩ := h4 vs List.mem_cons_self
    have hc := Arith.C113_spectrum_partial fuel m n hf hm (by omega) x y old zs z2 h3 ctx h2 h1 vs hv2 hv1
      (windowBits tables m n (weights n vs) wins ++ tail) (by simp only [List.length_append]; omega) (2 * n) (le_refl _)
    obtain ⟨old', k1, k2⟩ := windows_ok fuel m n hf hm hN tail ht x y z2 zs wins (weights n vs) (ctx.map Nat.cast) (weights_length (by omega))
      (weights_le n vs) (by rw [List.length_map, h1]) (fun v hv => h4 v (List.mem_cons_of_mem _ hv))
    refine ⟨old', k1, ?_⟩
    rw [List.length_cons, windows, windowBits, List.append_assoc, List.append_assoc]
    have hc' : Arith.level2 fuel m n (x :: y :: (old ++ 0 :: zs)) (0 :: 0 :: (ctx.map Nat.cast ++ z2)) (List.replicate (2 * n) 0)
        (encode Enc.start (spectrum tables m ctx (vs.map fun p => (p.1.natAbs, p.2.natAbs))) ++
          (signBits (flat vs) ++ (windowBits tables m n (weights n vs) wins ++ tail))) =
        .ok ((x :: y :: (ctx.map Nat.cast ++ 0 :: zs), 0 :: 0 :: ((weights n vs).map Nat.cast ++ z2), linesOf n vs),
          windowBits tables m n (weights n vs) wins ++ tail) := by
      refine Eq.trans hc ?_
      unfold weights linesOf
      simp
    rw [hc', Res.ok_bind]
    dsimp only
    rw [k2, Res.ok_bind, after]
    rfl

theorem after_props (n : Nat) (wins : List (List (Int × Int))) (ctx : List Nat) (h1 : ctx.length = n) (h2 : ∀ v ∈ ctx, v ≤ 15)
    (h3 : ∀ vs ∈ wins, vs.length ≤ n) : (after n ctx wins).length = n ∧ ∀ v ∈ after n ctx wins, v ≤ 15 := by
  induction wins generalizing ctx with
  | nil => exact ⟨h1, h2⟩
  | cons vs wins ih =>
    exact ih _ (weights_length (h3 vs List.mem_cons_self)) (weights_le n vs) fun v hv => h3 v (List.mem_cons_of_mem _ hv)

/-! ## C205: blocks of windows -/

theorem size_even {n : Nat} (h : Size n) : 2 * (n / 2) = n ∧ n / 2 ≤ 512 := by rcases h with rfl | rfl | rfl | rfl <;> decide

/-- One block, from a context that is right, or with a reset. -/
theorem block_ok (fuel : Nat) (hf : 29 ≤ fuel) (b : Block) (hb : b.Ok) (s : Ctx) (ws : List Nat) (h : b.reset = false → Holds s ws)
    (tail : List Bool) (ht : 15 ≤ tail.length) :
    ∃ s', spectral fuel b.size b.top b.wins.length b.reset s (b.bits tables s.size ws ++ tail) =
        .ok ((s', b.wins.map (linesOf (b.size / 2))), tail) ∧ s'.size = b.size ∧ Holds s' (b.leaves s.size ws) := by
  obtain ⟨hs, htop, hw⟩ := hb
  obtain ⟨he, h512⟩ := size_even hs
  obtain ⟨cp, c, k1, k2, k3, k4, ⟨z, k5, k6⟩, x, y, old, z', k7, k8, k9⟩ := mapContext_ok b.size hs s ws b.reset h
  dsimp only at k3 k5 k6 k7 k8 k9
  unfold spectral Block.bits Block.leaves
  rw [k1, Res.ok_bind]
  by_cases h0 : b.top = 0
  · rw [if_pos h0, if_pos h0, if_pos h0]
    dsimp only
    rw [setOnes_ok (b.size / 2) 0 c (by omega), Res.ok_bind]
    refine ⟨⟨cp, c.take (2 + 0) ++ List.replicate (b.size / 2) 1 ++ c.drop (2 + 0 + b.size / 2), b.size⟩, ?_, rfl, hs, List.length_replicate .., ?_, ⟨z, ?_, ?_⟩, x, y, old, z', k7, k8, k9⟩
    · rw [List.nil_append]
      congr 3
      rw [← List.map_const']
      refine List.map_congr_left fun vs hvs => ?_
      have := (hw vs hvs).1
      have hv : vs = [] := List.eq_nil_of_length_eq_zero (by omega)
      subst hv
      simp only [linesOf, flat, List.nil_append, List.length_nil, Nat.mul_zero, Nat.sub_zero, he]
    · intro v hv; have := List.eq_of_mem_replicate hv; omega
    · dsimp only
      have e1 : c.drop (2 + 0 + b.size / 2) = z := by
        rw [k5, Nat.add_zero, Nat.add_comm, List.drop_succ_cons, List.drop_succ_cons, List.drop_left']
        rw [List.length_map, k3]
      rw [e1, k5]
      simp
    · dsimp only
      simp only [List.length_append, List.length_take, List.length_replicate, List.length_drop]
      omega
  · rw [if_neg h0, if_neg h0, if_neg h0]
    dsimp only
    obtain ⟨old', j1, j2⟩ := windows_ok fuel (b.top / 2) (b.size / 2) hf (by omega) h512 tail ht x y z z' b.wins (b.start s.size ws) old k3 k4 k8 hw
    obtain ⟨a1, a2⟩ := after_props (b.size / 2) b.wins (b.start s.size ws) k3 k4 (fun vs hvs => by have := (hw vs hvs).1; omega)
    rw [k7, k5]
    change ∃ s', (windows fuel (b.top / 2) (b.size / 2) b.wins.length (x :: y :: (old ++ 0 :: z')) (0 :: 0 :: ((b.start s.size ws).map Nat.cast ++ z)) _ >>= _) = _ ∧ _
    rw [j2, Res.ok_bind]
    refine ⟨_, rfl, rfl, hs, a1, a2, ⟨z, rfl, ?_⟩, x, y, old', z', rfl, j1, ?_⟩
    · have : c.length = 2 + (b.size / 2 + z.length) := by rw [k5]; simp [k3]; omega
      simp only [List.length_cons, List.length_append, List.length_map, a1]; omega
    · have : cp.length = 2 + (b.size / 2 + (z'.length + 1)) := by rw [k7]; simp [k8]; omega
      simp only [List.length_cons, List.length_append, j1]; omega

/-- Blocks one after another; each has its own input. -/
def decodeAll (fuel : Nat) : (s : Ctx) → List (Block × List Bool) → Res (List (List (List Int) × List Bool))
  | _, [] => .ok []
  | s, (b, l) :: rest => do
    let x ← spectral fuel b.size b.top b.wins.length b.reset s l
    let ys ← decodeAll fuel x.1.1 rest
    .ok ((x.1.2, x.2) :: ys)

/-- The inputs of blocks: the code of each block, with the block before it as context, and what follows it. -/
def inputs : (prev : Nat) → (ws : List Nat) → List (Block × List Bool) → List (Block × List Bool)
  | _, _, [] => []
  | prev, ws, (b, tail) :: rest => (b, b.bits tables prev ws ++ tail) :: inputs b.size (b.leaves prev ws) rest

theorem blocks_ok (fuel : Nat) (hf : 29 ≤ fuel) : ∀ (bs : List (Block × List Bool)) (s : Ctx) (ws : List Nat),
    ((∀ x ∈ bs.head?, x.1.reset = true) ∨ Holds s ws) → (∀ x ∈ bs, x.1.Ok ∧ 15 ≤ x.2.length) →
    decodeAll fuel s (inputs s.size ws bs) = .ok (bs.map fun x => (x.1.wins.map (linesOf (x.1.size / 2)), x.2))
  | [], _, _, _, _ => rfl
  | (b, tail) :: bs, s, ws, h, hb => by
    obtain ⟨h1, h2⟩ := hb (b, tail) List.mem_cons_self
    obtain ⟨s', k1, k2, k3⟩ := block_ok fuel hf b h1 s ws (fun hr => by
      rcases h with h | h
      · have := h (b, tail) (by simp); rw [hr] at this; exact absurd this (by simp)
      · exact h) tail h2
    rw [inputs, decodeAll, k1, Res.ok_bind]
    dsimp only
    have := blocks_ok fuel hf bs s' (b.leaves s.size ws) (Or.inr k3) fun x hx => hb x (List.mem_cons_of_mem _ hx)
    rw [k2] at this
    rw [this, Res.ok_bind]
    rfl

/-- C205: spectra of any sequence of blocks, of long and short windows and parts of linear prediction, that starts with a reset are decoded to
what was coded, whatever the state was before.  Missing: numbers of more than 30 bits (C58), and less than 15 bits after a block (C32). -/
theorem C205_blocks_partial (fuel : Nat) (hf : 29 ≤ fuel) (bs : List (Block × List Bool)) (s : Ctx) (ws : List Nat)
    (hr : ∀ x ∈ bs.head?, x.1.reset = true) (hb : ∀ x ∈ bs, x.1.Ok ∧ 15 ≤ x.2.length) :
    decodeAll fuel s (inputs s.size ws bs) = .ok (bs.map fun x => (x.1.wins.map (linesOf (x.1.size / 2)), x.2)) :=
  blocks_ok fuel hf bs s ws (Or.inl hr) hb

/-- C205: parts of linear prediction are blocks of one window whose lines are all coded. -/
theorem C205_tcx (fuel size : Nat) (hs : Size size) (reset : Bool) (s : Ctx) (l : List Bool) :
    spectral fuel size size 1 reset s l = (do let x ← tcxSpectral fuel size reset s l; .ok ((x.1.1, [x.1.2]), x.2)) := by
  have h0 : size ≠ 0 := by rcases hs with rfl | rfl | rfl | rfl <;> decide
  unfold spectral tcxSpectral
  cases mapContext size s.size reset s.cPrev s.c with
  | ok m =>
    rw [Res.ok_bind, Res.ok_bind, if_neg h0, windows, (size_even hs).1]
    cases Arith.level2 fuel (size / 2) (size / 2) m.1 m.2 (List.replicate size 0) l with
    | ok x => rfl
    | jump => rfl
    | err c => rfl
    | ub => rfl
  | jump => rfl
  | err c => rfl
  | ub => rfl

/-- A long window, eight short ones and a part of linear prediction; the second and third without reset. -/
example : ∀ x ∈ [((⟨1024, 12, true, [[(3, -1), (0, 20)]]⟩ : Block), List.replicate 15 true),
    (⟨128, 4, false, List.replicate 8 [(1, 0)]⟩, List.replicate 15 false), (⟨512, 512, false, [[(0, 0), (-7, 1)]]⟩, List.replicate 15 false)],
    x.1.Ok ∧ 15 ≤ x.2.length := by
  unfold Block.Ok Size
  decide

end Verif.FdStream
