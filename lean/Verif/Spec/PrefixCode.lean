/-! # Prefix codes

A code is a list of words, a word is a list of bits. -/

namespace Verif.PrefixCode

/-- No word is the beginning of another. -/
def PrefixFree (ws : List (List Bool)) : Prop :=
  ws.Pairwise fun a b => ¬ a <+: b ∧ ¬ b <+: a

/-- Every string of at least `n` bits begins with a word. -/
def Complete (n : Nat) (ws : List (List Bool)) : Prop :=
  ∀ l : List Bool, n ≤ l.length → ∃ w ∈ ws, w <+: l

end Verif.PrefixCode
