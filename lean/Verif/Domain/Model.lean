/-!
Model of `vsip::Domain<1>` and of the domain utilities.

Sources: `/repo/src/vsip/domain.hpp`, `/repo/src/ovxx/domain_utils.hpp`.

`index_type`/`length_type` are `std::size_t` and `stride_type` is `std::ptrdiff_t` (vsip/support.hpp l.88-101);
both are taken to be 64 bits wide.  Unsigned arithmetic wraps modulo `2^64`; conversion of a
signed value to `size_t` reduces modulo `2^64`; conversion back is two's complement.
-/
namespace Verif

/-- `2^64` -/
notation "W₆₄" => (18446744073709551616 : Nat)
/-- `2^63` -/
notation "W₆₃" => (9223372036854775808 : Nat)

/-- conversion of an integer to `size_t` -/
def toIdx (z : Int) : Nat := (z % (W₆₄ : Int)).toNat

/-- conversion of a `size_t` to `ptrdiff_t` (two's complement) -/
def toSigned (n : Nat) : Int := if n % W₆₄ < W₆₃ then ((n % W₆₄ : Nat) : Int) else ((n % W₆₄ : Nat) : Int) - W₆₄

/-- a mathematical integer is representable as `ptrdiff_t` -/
def FitsSigned (z : Int) : Prop := -(W₆₃ : Int) ≤ z ∧ z < W₆₃

instance (z : Int) : Decidable (FitsSigned z) := inferInstanceAs (Decidable (_ ∧ _))

/-- `Domain<1>`: fields `index_`, `stride_`, `length_` (domain.hpp l.107-178). -/
structure Dom where
  first : Nat
  stride : Int
  length : Nat
deriving DecidableEq, Repr, Inhabited

namespace Dom

/-- `Domain<1>(length_type)` (domain.hpp l.117) -/
def ofLen (n : Nat) : Dom := ⟨0, 1, n⟩

/-- `impl_nth` (domain.hpp l.144-155) with wrap-around everywhere. -/
def nth (d : Dom) (i : Nat) : Nat := toIdx (d.first + d.stride * toSigned i)

/-- `impl_nth` with the undefined behaviour (signed overflow of the product) made explicit. -/
def nth? (d : Dom) (i : Nat) : Option Nat :=
  if FitsSigned (d.stride * toSigned i) then some (d.nth i) else none

/-- `impl_last` (domain.hpp l.156-157); `length() - 1` wraps for the empty domain. -/
def last (d : Dom) : Nat := d.nth (toIdx ((d.length : Int) - 1))

/-- `impl_is_valid` (domain.hpp l.189-197) -/
def isValid (d : Dom) : Bool :=
  d.length == 0 || (decide (d.length > 0) && decide (0 ≤ toSigned d.last))

/-- `impl_add_in` (domain.hpp l.199-207): `index_ += s` -/
def addIn (d : Dom) (s : Int) : Dom := { d with first := toIdx (d.first + s) }
/-- `impl_sub_out` (domain.hpp l.208): `index_ -= s` -/
def subOut (d : Dom) (s : Int) : Dom := { d with first := toIdx (d.first - s) }
/-- `impl_mul_by` (domain.hpp l.209): `stride_ *= s` where `s` is `size_t`, so the product is
computed modulo `2^64` and converted back to signed. -/
def mulBy (d : Dom) (s : Nat) : Dom := { d with stride := toSigned (toIdx d.stride * s) }
/-- `impl_div_by` (domain.hpp l.210): `stride_ /= s` where `s` is `size_t`: the stride is first
converted to unsigned.  Division by zero is undefined behaviour (`none`). -/
def divBy? (d : Dom) (s : Nat) : Option Dom :=
  if s = 0 then none else some { d with stride := toSigned (toIdx d.stride / s) }

/-- `element_conformant` (domain.hpp l.215-217) -/
def elementConformant (a b : Dom) : Bool := a.length == b.length

/-- `impl_equals` (domain.hpp l.219-226).  `(d.length()-1)*d.stride()` and the sum are computed
in unsigned arithmetic. -/
def equals (a d : Dom) : Bool :=
  a.length == d.length &&
    ((a.stride == d.stride && a.first == d.first) ||
     (a.stride == -d.stride &&
      a.first == toIdx ((d.first : Int) + toIdx ((d.length : Int) - 1) * d.stride)))

end Dom

/-- `intersect` for 1-D domains (domain_utils.hpp l.129-178).  `none` = returns `false`
(`res` unchanged), `some r` = returns `true` with `res = r`.
Precondition in the code: `dom1.stride() == 1`.  All arithmetic is `size_t`; the stride is
converted to `size_t` before `%` and `/`. -/
def intersect (dom1 dom2 : Dom) : Option Dom :=
  if dom2.stride = 1 then
    let first := max dom1.first dom2.first
    let last := min dom1.last dom2.last
    if first ≤ last then some ⟨first, 1, (last - first + 1) % W₆₄⟩ else none
  else
    let st := toIdx dom2.stride
    let first1 := dom1.first
    let last1 := dom1.last
    let first2 :=
      if dom2.first < first1 then
        let diff := first1 - dom2.first
        let f := (dom2.first + diff) % W₆₄
        if diff % st ≠ 0 then (f + (st - diff % st)) % W₆₄ else f
      else dom2.first
    let last2 :=
      if dom2.last > last1 then
        let diff := dom2.last - last1
        if diff % st ≠ 0 then toIdx ((dom2.last : Int) - (st - diff % st : Nat)) else dom2.last
      else dom2.last
    let first := max first1 first2
    let last := min last1 last2
    if first ≤ last then some ⟨first, dom2.stride, ((last - first) / st + 1) % W₆₄⟩ else none

/-- `intersect` for 2-D / 3-D domains (domain_utils.hpp l.181-213): per dimension, all must
intersect.  A `Domain<D>` is modelled as the list of its `D` one-dimensional domains. -/
def intersectN : List Dom → List Dom → Option (List Dom)
  | [], [] => some []
  | a :: as, b :: bs =>
    match intersect a b with
    | none => none
    | some r => match intersectN as bs with
      | none => none
      | some rs => some (r :: rs)
  | _, _ => none

/-- `apply_intr` (domain_utils.hpp l.233-241): unsigned arithmetic for the first index,
signed for the stride. -/
def applyIntr (x y intr : Dom) : Dom :=
  ⟨toIdx ((x.first : Int) + (toIdx ((intr.first : Int) - y.first) : Int) * x.stride),
   x.stride * intr.stride, intr.length⟩

/-- `subset_from_intr` (domain_utils.hpp l.271-278).  `(intr.first() - dom.first())` is `size_t`
and the division converts the stride to `size_t`. -/
def subsetFromIntr (dom intr : Dom) : Dom :=
  ⟨toIdx ((intr.first : Int) - dom.first) / toIdx dom.stride, 1, intr.length⟩

/-- `normalize` (domain_utils.hpp l.333-335) -/
def normalize (d : Dom) : Dom := Dom.ofLen d.length

/-- `apply_intr` for D-dimensional domains (domain_utils.hpp l.243-260). -/
def applyIntrN : List Dom → List Dom → List Dom → List Dom
  | x :: xs, y :: ys, i :: is => applyIntr x y i :: applyIntrN xs ys is
  | _, _, _ => []

/-- `subset_from_intr` for D-dimensional domains (domain_utils.hpp l.280-295). -/
def subsetFromIntrN : List Dom → List Dom → List Dom
  | d :: ds, i :: is => subsetFromIntr d i :: subsetFromIntrN ds is
  | _, _ => []

/-- `domain_nth` (domain_utils.hpp l.346-354) -/
def domainNth : List Dom → List Nat → List Nat
  | d :: ds, i :: is => d.nth i :: domainNth ds is
  | _, _ => []

end Verif
