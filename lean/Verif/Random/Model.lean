import Mathlib.Data.ZMod.Basic
import Verif.Expr.Model
/-!
Model of the random number generators of `/repo/src/vsip/random.hpp`.

`uint_type` is `unsigned int`, 32 bits: arithmetic modulo `2^32`.  The conversion of a 32-bit integer `x` to the value type,
`T(x / 4294967296.0)`, is modelled for `double` (exact) and for `float` (rounding to nearest even, l.190, 209, 225, 240); elsewhere the
value type and its arithmetic are arbitrary.
-/
namespace Verif.Rng

/-- `uint_type` -/
abbrev U32 := ZMod 4294967296

def A0 : U32 := 1664525
def C0 : U32 := 1013904223
def A1 : U32 := 69069

/-- one step of a congruential generator, `X = a * X + c` -/
def lcg (a c x : U32) : U32 := a * x + c

/-- members of `Rand_base` (l.48-56) -/
structure State where
  a : U32
  c : U32
  a1 : U32
  c1 : U32
  X : U32
  X1 : U32
  X2 : U32
  portable : Bool
deriving DecidableEq

/-- `for (i = 0; i < n; i++) f` -/
def iter {α : Type} (f : α → α) : Nat → α → α
  | 0, x => x
  | n + 1, x => iter f n (f x)

/-- `while ((k0 % 2) == 0) { k0 = k0 / 2; n++; }` (l.83-89), for `k0 ≠ 0` -/
def split2 (k0 n : Nat) : Nat × Nat :=
  if h : k0 ≠ 0 ∧ k0 % 2 = 0 then split2 (k0 / 2) (n + 1) else (k0, n)
termination_by k0
decreasing_by omega

/-- non-portable constructor (l.75-127); `k` is `numprocs`, not zero (with zero the loop of l.85 does not end) -/
def initNonPortable (seed k id : Nat) : State :=
  let x0 := iter (lcg A0 C0) id (seed : U32)
  let (k0, n) := split2 k 0
  let a := iter (fun a => a * A0) (k - 1) A0
  let t := iter (fun t => t * A0) k0 1
  let (c, _) := iter (fun (p : U32 × U32) => (p.1 * (p.2 + 1), p.2 * p.2)) n ((1 : U32), t)
  let (t, _) := iter (fun (p : U32 × U32) => (p.1 + p.2, p.2 * A0)) (k0 - 1) ((1 : U32), A0)
  { a := a, c := c * (t * C0), a1 := 0, c1 := 0, X := x0, X1 := 0, X2 := 0, portable := false }

/-- the 100 prime numbers (l.132-142) -/
def primes : List Nat :=
  [3, 5, 7, 11, 13, 17, 19, 23, 29, 31, 37, 41, 43, 47, 53, 59, 61, 67, 71, 73, 79, 83, 89, 97, 101, 103, 107, 109, 113, 127,
   131, 137, 139, 149, 151, 157, 163, 167, 173, 179, 181, 191, 193, 197, 199, 211, 223, 227, 229, 233, 239, 241, 251, 257, 263, 269, 271,
   277, 281, 283, 293, 307, 311, 313, 317, 331, 337, 347, 349, 353, 359, 367, 373, 379, 383, 389, 397, 401, 409, 419, 421, 431, 433, 439,
   443, 449, 457, 461, 463, 467, 479, 487, 491, 499, 503, 509, 521, 523, 541, 547]

/-- loop over the bits of `skip` (l.154-163): bits from `i` on, `n` of them; `mask & skip` is a test of bit `i` -/
def skipLoop (skip : Nat) : Nat → Nat → U32 → U32 → U32 → U32
  | _, 0, _, _, x0 => x0
  | i, n + 1, a0, c0, x0 => skipLoop skip (i + 1) n (a0 * a0) ((a0 + 1) * c0) (if skip.testBit i then a0 * x0 + c0 else x0)

/-- portable constructor (l.130-173); `none` = `id` out of bounds (assertions, l.65 and l.131) or division by zero -/
def initPortable (seed k id : Nat) : Option State :=
  if 0 < id ∧ id ≤ 100 ∧ k % 4294967296 ≠ 0 then
    let x0 : U32 := seed
    let x0 := if 1 < id then
        let skip := (4294967295 / (k % 4294967296) * (id - 1)) % 4294967296
        skipLoop skip 0 32 A0 C0 x0
      else x0
    some { a := A0, c := C0, a1 := A1, c1 := (primes.getD (id - 1) 0 : Nat), X := x0, X1 := 1, X2 := 1, portable := true }
  else none

/-- one draw: the 32-bit number and the new state (l.189, l.201-208, l.224, l.232-239) -/
def draw (s : State) : U32 × State :=
  if s.portable = false then
    let X := s.a * s.X + s.c
    (X, { s with X := X })
  else
    let X := s.X * s.a + s.c
    let X1 := s.X1 * s.a1 + s.c1
    let itemp := X - X1
    if X1 = s.X2 then (itemp, { s with X := X, X1 := X1 + 1, X2 := s.X2 + 1 })
    else (itemp, { s with X := X, X1 := X1 })

/-- `n` draws -/
def draws : Nat → State → List U32 × State
  | 0, s => ([], s)
  | n + 1, s =>
    let (x, s') := draw s
    let (l, s'') := draws n s'
    (x :: l, s'')

section
variable {T : Type}

/-- `randu()` (l.216-242); `conv x` is `T(x / 4294967296.0)` -/
def randu (conv : U32 → T) (s : State) : T × State :=
  let (x, s') := draw s
  (conv x, s')

/-- the loop of `randn()` (l.187-191 and l.199-210) -/
def sumLoop (conv : U32 → T) (add : T → T → T) : Nat → T → State → T × State
  | 0, rp, s => (rp, s)
  | n + 1, rp, s =>
    let (x, s') := draw s
    sumLoop conv add n (add rp (conv x)) s'

/-- `randn()` (l.176-214); `sub6` is `rp - 6.0`, `from6` is `6.0 - rp` -/
def randn (conv : U32 → T) (add : T → T → T) (zero : T) (sub6 from6 : T → T) (s : State) : T × State :=
  let (rp, s') := sumLoop conv add 12 zero s
  (if s.portable then from6 rp else sub6 rp, s')

/-- `randn_complex()` (l.244-308): real and imaginary part -/
def randnComplex (conv : U32 → T) (add sub : T → T → T) (zero three : T) (s : State) : (T × T) × State :=
  let (re, s1) := sumLoop conv add 3 zero s
  let (t2, s2) := sumLoop conv add 3 zero s1
  ((sub (sub three t2) re, sub re t2), s2)

/-- complex `randu()` (l.330-335) -/
def randuComplex (conv : U32 → T) (s : State) : (T × T) × State :=
  let (re, s1) := randu conv s
  let (im, s2) := randu conv s1
  ((re, im), s2)

/-- Assigning `r.randu(n…)` or `r.randn(n…)` (l.348-366, l.420-465) to a view: the generator block draws when an element is read, so numbers
are drawn in the order in which the loops of the assignment visit the elements of the left-hand side. -/
def fill {I : Type} [DecidableEq I] (gen : State → T × State) (m : I → T) (s : State) : List I → (I → T) × State
  | [] => (m, s)
  | i :: l =>
    let (x, s') := gen s
    fill gen (Function.update m i x) s' l

end

/-- rounding of a natural number to a significand of 24 bits, to nearest even; for numbers below `2^32` -/
def round24 (n : Nat) : Nat :=
  let e := n.log2 - 23
  let q := n / 2 ^ e
  let r := n % 2 ^ e
  (if 2 * r > 2 ^ e ∨ (2 * r = 2 ^ e ∧ q % 2 = 1) then q + 1 else q) * 2 ^ e

/-- numerator over `2^32` of `double(x / 4294967296.0)`: exact -/
def convDouble (x : U32) : Nat := x.val
/-- numerator over `2^32` of `float(x / 4294967296.0)`: the exact quotient is rounded to 24 bits -/
def convFloat (x : U32) : Nat := round24 x.val

end Verif.Rng
