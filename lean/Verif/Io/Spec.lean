import Mathlib.Data.Nat.Notation
import Mathlib.Data.List.Basic

/-!
# Images and data sets in files

What a PNG file and an HDF5 data set are, as far as the library reads and writes them.
-/

namespace Verif.Io

/-- The header of a PNG file. -/
structure Png where
  width : ℕ
  height : ℕ
  depth : ℕ
  channels : ℕ

/-- Depths and numbers of channels the format allows (grey and palettes, grey with alpha, colour with and without alpha), and sizes up to 2^31. -/
def Png.Legal (p : Png) : Prop :=
  ((p.channels = 1 ∧ (p.depth = 1 ∨ p.depth = 2 ∨ p.depth = 4 ∨ p.depth = 8 ∨ p.depth = 16)) ∨
    ((p.channels = 2 ∨ p.channels = 3 ∨ p.channels = 4) ∧ (p.depth = 8 ∨ p.depth = 16))) ∧
  0 < p.width ∧ p.width < 2 ^ 31 ∧ 0 < p.height ∧ p.height < 2 ^ 31

/-- Elements of a data set with the given dimensions. -/
def prod : List ℕ → ℕ
  | [] => 1
  | d :: ds => d * prod ds

/-- An index within the dimensions. -/
def Within : List ℕ → List ℕ → Prop
  | [], [] => True
  | d :: ds, i :: is => i < d ∧ Within ds is
  | _, _ => False

end Verif.Io
