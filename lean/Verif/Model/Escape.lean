import Verif.Model.Prog
import Verif.Model.BitWriter

/-! # Escape-coded integers, reader side -/

namespace Verif

/-- `ia_core_coder_read_escape_value`, ia_core_coder_init_config.c 149-173. The two `1 << n`
are on `int` and undefined from 31 bits on; the sums wrap modulo 2^32 (`UWORD32`). -/
def readEscape (b1 b2 b3 : Nat) : Prog Nat := do
  let esc1 ← Prog.lift (WBuf.escMax b1)
  let esc2 ← Prog.lift (WBuf.escMax b2)
  let v ← Prog.bits b1
  if v = esc1 then do
    let v ← Prog.bits b2
    if v = esc2 then do
      let v ← Prog.bits b3
      pure ((v + esc2 + esc1) % 2 ^ 32)
    else pure ((v + esc1) % 2 ^ 32)
  else pure v

end Verif
