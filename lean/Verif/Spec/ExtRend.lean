import Verif.Model.Escape
import Verif.Model.Loop

/-! # Specification of the metadata for an external renderer

A reader that knows the syntax and nothing else: what it reads next is decided by what it has read. -/

namespace Verif.ExtRend.Spec

open Prog

/-- `n` bits as a two's complement number. -/
def signed (n v : Nat) : Int := if v < 2 ^ (n - 1) then v else (v : Int) - 2 ^ n

/-- The lowest `n` bits of a number. -/
def low (n : Nat) (v : Int) : Nat := (v % 2 ^ n).toNat

/-- The metadata of one object at one time; what is not sent is 0. -/
structure Position where
  az : Int
  el : Int
  rad : Nat
  gain : Int
  pri : Nat
  width : Nat
  height : Nat
  depth : Nat
  deriving DecidableEq, Repr

/-- A position: priority only when sent, height and depth of the spread unless it is uniform. -/
def position (dyn uni : Bool) : Prog Position := do
  let a ← bits 8
  let e ← bits 6
  let r ← bits 4
  let g ← bits 7
  let p ← optBits dyn 3
  let w ← bits 7
  let h ← optBits (!uni) 5
  let d ← optBits (!uni) 4
  pure ⟨signed 8 a, signed 6 e, r, signed 7 g, p, w, h, d⟩

/-- One sub-frame: a flag and the position it announces. -/
def subFrame (dyn uni : Bool) : Prog (Option Position) := do
  let h ← bits 1
  if h = 1 then do
    let p ← position dyn uni
    pure (some p)
  else pure none

/-- An exclusion sector: a predefined one or four angles. -/
inductive Sector where
  | predefined (k : Nat)
  | angles (minAz maxAz minEl maxEl : Nat)
  deriving DecidableEq, Repr

def sector : Prog Sector := do
  let u ← bits 1
  if u = 0 then do
    let a ← bits 7
    let b ← bits 7
    let c ← bits 5
    let d ← bits 5
    pure (.angles a b c d)
  else do
    let k ← bits 4
    pure (.predefined k)

/-- One object. -/
structure Obj where
  id : Nat
  frames : List (Option Position)
  fixed : Nat
  prio : Nat
  diff : Nat
  div : Nat
  range : Nat
  sectors : List Sector
  deriving DecidableEq, Repr

def obj : Prog Obj := do
  let id ← bits 9
  let dyn ← bits 1
  let uni ← bits 1
  let n ← bits 6
  let fs ← forN (fun _ => subFrame (dyn != 0) (uni != 0)) n 0
  let fixed ← bits 1
  let prio ← bits 3
  let diff ← bits 7
  let div ← bits 7
  let range ← bits 6
  let k ← bits 4
  let secs ← forN (fun _ => sector) k 0
  pure ⟨id, fs, fixed, prio, diff, div, range, secs⟩

/-- An extension element: its type and, of the announced number of bytes, the bits. -/
def ext : Prog (Nat × List Nat) := do
  let t ← bits 3
  let n ← bits 10
  let bs ← forN (fun _ => bits 8) n 0
  pure (t, bs)

/-- The metadata of the objects: samples of a sub-frame, the objects, the extension elements. -/
structure Oam where
  samples : Nat
  objs : List Obj
  exts : List (Nat × List Nat)
  deriving DecidableEq, Repr

def oam : Prog Oam := do
  let f ← bits 6
  let t ← bits 2
  let _ ← optBits (t != 0) 13
  let n ← bits 9
  let os ← forN (fun _ => obj) n 0
  let k ← bits 3
  let es ← forN (fun _ => ext) k 0
  pure ⟨64 * f, os, es⟩

/-- Layouts of loudspeakers that are given by number, or as a list of loudspeaker numbers. -/
inductive Layout where
  | number (k : Nat)
  | list (ks : List Nat)
  | other
  deriving DecidableEq, Repr

def layout : Prog Layout := do
  let t ← bits 2
  if t = 0 then do
    let k ← bits 6
    pure (.number k)
  else if t = 1 then do
    let n ← readEscape 5 8 16
    let ks ← forN (fun _ => bits 7) (n + 1) 0
    pure (.list ks)
  else pure .other

/-- A downmix: number, layout and the matrices with the groups they are for. -/
structure Dmx where
  id : Nat
  type : Nat
  layout : Nat
  mats : List (List Nat × List Nat)
  deriving DecidableEq, Repr

def mat : Prog (List Nat × List Nat) := do
  let n ← readEscape 1 4 4
  let gs ← forN (fun _ => bits 5) (n + 1) 0
  let len ← readEscape 8 8 12
  let bs ← forN (fun _ => bits 1) len 0
  pure (gs, bs)

def dmx : Prog Dmx := do
  let id ← bits 7
  let t ← bits 2
  let lay ← optBits (decide (t < 2)) 6
  if t = 1 then do
    let n ← readEscape 1 3 0
    let ms ← forN (fun _ => mat) (n + 1) 0
    pure ⟨id, t, lay, ms⟩
  else pure ⟨id, t, lay, []⟩

/-- The downmix configuration: type, passive flag, phase alignment, immersive flag and the downmixes. -/
structure DmxCfg where
  type : Nat
  passive : Nat
  phase : Nat
  immersive : Nat
  ids : List Dmx
  deriving DecidableEq, Repr

def downmix : Prog DmxCfg := do
  let t ← bits 2
  let p ← optBits (t == 0 || t == 2) 1
  let a ← optBits ((t == 0 || t == 2) && p == 0) 3
  let i ← optBits (t == 0 || t == 2) 1
  let n ← optBits (t == 1 || t == 2) 5
  let ds ← forN (fun _ => dmx) n 0
  pure ⟨t, p, a, i, ds⟩

/-- A group of channels: the number of its signals decides how many numbers of signals follow. -/
structure Group where
  signals : Nat
  layout : Layout
  ids : List Nat
  fixed : Nat
  prio : Nat
  gain : Nat
  dmx : Option DmxCfg
  exts : List (Nat × List Nat)
  deriving DecidableEq, Repr

def group : Prog Group := do
  let n ← bits 16
  let l ← layout
  let ids ← forN (fun _ => bits 9) n 0
  let f ← bits 1
  let p ← bits 3
  let g ← bits 8
  let has ← bits 1
  let d ← (if has = 1 then do
      let d ← downmix
      pure (some d)
    else pure none)
  let k ← bits 3
  let es ← forN (fun _ => ext) k 0
  pure ⟨n, l, ids, f, p, g, d, es⟩

/-- The metadata of the channels: samples and groups. -/
def channels : Prog (Nat × List Group) := do
  let f ← bits 6
  let t ← bits 2
  let _ ← optBits (t != 0) 13
  let n ← bits 9
  let gs ← forN (fun _ => group) n 0
  pure (64 * f, gs)

/-- 24 bits, lowest byte first, as a signed number. -/
def sample24 : List Nat → Int
  | [a, b, c] => signed 24 (a + 256 * b + 65536 * c)
  | _ => 0

end Verif.ExtRend.Spec
