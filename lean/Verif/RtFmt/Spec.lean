import Mathlib.Logic.Function.Basic
/-!
What a storage whose format is chosen at run time owes its user, stated on its own.

Memory is counted in scalars `T`: one complex element takes two of them.
-/
namespace Verif.Rtf

/-- `storage_format_type` (vsip/layout.hpp l.65-76) -/
inductive Fmt where
  | any | array | split | inter
deriving DecidableEq, Repr

/-- the content of a pointer variable: null, an address, or never written -/
inductive Word where
  | null | at (n : Nat) | junk
deriving DecidableEq, Repr

/-- blocks of memory in use: address to number of scalars -/
abbrev Live := Nat → Option Nat

/-- Everything in use before is still in use, with its size. -/
def Keeps (before after : Live) : Prop := ∀ p n, before p = some n → after p = some n

/-- The words `a` (and `b` for split data) lead to blocks for `n` complex elements, which were free before, and nothing else has been
taken. -/
def Backed (before after : Live) (f : Fmt) (n : Nat) (a b : Word) : Prop :=
  match f with
  | .any => False
  | .array | .inter => ∃ p, a = .at p ∧ before p = none ∧ after = Function.update before p (some (2 * n))
  | .split => ∃ p q, a = .at p ∧ b = .at q ∧ p ≠ q ∧ before p = none ∧ before q = none ∧
      after = Function.update (Function.update before p (some n)) q (some n)

/-- where the real and the imaginary part of element `i` are -/
def partsOf (f : Fmt) (a b i : Nat) : Nat × Nat :=
  match f with
  | .split => (a + i, b + i)
  | _ => (a + 2 * i, a + 2 * i + 1)

end Verif.Rtf
