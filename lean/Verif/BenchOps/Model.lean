import Verif.BenchOps.Spec
import Verif.Filter.Model
import Verif.TestRef.Model

/-! # Operations of the benchmarks

Model of `benchmarks/create_map.hpp`, `dist_vmul.cpp` (maps), `fir.cpp`, `stream.cpp`, `vmmul.cpp`, `maxval.cpp` and
`simd/memwrite.cpp`. Times are not modelled. Arithmetic is exact, except that the values of `stream.cpp` overflow and indices are
rounded in `maxval.cpp`; an access outside of a view is `none`. -/

namespace Verif.Bops

open Verif.Filt

/-! ## Maps -/

/-- `for (i = 0; i < cnt; ++i) pset.put(i, i+1)` on a vector of `len` elements; `none`: `put` outside of it -/
def putRange (len cnt : ℕ) : Option (List ℕ) :=
  (List.range cnt).foldlM (fun l i => if i < l.length then some (l.set i (i + 1)) else none) (List.replicate len 0)

/-- `Create_map<1, Map>::exec` (create_map.hpp l.38-69): the processor set -/
def createMap (np : ℕ) (c : Char) : Option (List ℕ) :=
  if c = '1' then some [0]
  else if c = '2' then some [np - 1]
  else if c = 'b' then putRange (np - 1) np
  else some (List.range np)

/-- `create_map` (dist_vmul.cpp l.30-62); for one processor `np-2` is the largest `length_type`, more than can be allocated -/
def distMap (np : ℕ) (c : Char) : Option (List ℕ) :=
  if c = '1' then some [0]
  else if c = '2' then some [np - 1]
  else if c = 'b' then putRange (np - 1) (np - 1)
  else if c = 'w' then if np < 2 then none else putRange (np - 2) (np - 2)
  else some (List.range np)

/-! ## FIR filters -/

/-- element `k` of `ramp(0, 1, size)` (fir.cpp l.62) -/
def rampIn (size k : ℕ) : ℚ := ((k % size : ℕ) : ℚ)

/-- the loop of `t_fir1` (fir.cpp l.64-67): the output vector, of which every call replaces as many elements as it computes, and the
state of the filter -/
def firLoop (F : Fir ℚ) (x : ℕ → ℚ) (out : List ℚ) : ℕ → List ℚ × FirState ℚ
  | 0 => (out, .initial)
  | n + 1 => ((F.apply (firLoop F x out n).2 x).1 ++ (firLoop F x out n).1.drop (F.apply (firLoop F x out n).2 x).1.length,
      (F.apply (firLoop F x out n).2 x).2)

/-- `t_fir1<state_save>` (fir.cpp l.48-80): does the check pass? `none`: a coefficient out of range or a precondition of `Fir` that
does not hold; `g` is what the new output vector holds -/
def fir1 (k size dec loop : ℕ) (g : ℚ) : Option Bool :=
  if k < 2 then none
  else (Fir.make .nonsym true (fun j => if j = 1 then 1 else 0) k size dec).bind fun F =>
    some (TRef.diffBelow 10 ((List.range ((size - 1) / dec)).map fun i => some (rampIn size (dec - 1 + i * dec)))
      ((List.range ((size - 1) / dec)).map fun i =>
        (firLoop F (rampIn size) (List.replicate ((size + dec - 1) / dec) g) loop).1[1 + i]?))

/-- `t_fir2` (fir.cpp l.141-153): the elements of `in` and `out` that the filter is called with, `Domain<1>(pos, 0, block_size)` for
`pos = b * block_size` -/
def fir2Elems (total block : ℕ) : List ℕ :=
  (List.range ((total + block - 1) / block)).flatMap fun b => (List.range block).map fun i => b * block + 0 * i

/-! ## STREAM -/

/-- a positive floating point number, infinity or not a number -/
inductive Fl where
  | fin (q : ℚ)
  | inf
  | nan

/-- results from `M` on are infinite -/
def rnd (M q : ℚ) : Fl := if q < M then .fin q else .inf

def Fl.add (M : ℚ) : Fl → Fl → Fl
  | .nan, _ => .nan
  | _, .nan => .nan
  | .fin a, .fin b => rnd M (a + b)
  | _, _ => .inf

def Fl.mul (M : ℚ) : Fl → Fl → Fl
  | .nan, _ => .nan
  | _, .nan => .nan
  | .fin a, .fin b => rnd M (a * b)
  | .inf, .fin b => if b = 0 then .nan else .inf
  | .fin a, .inf => if a = 0 then .nan else .inf
  | .inf, .inf => .inf

/-- conversion to the type used for checking -/
def Fl.conv (M : ℚ) : Fl → Fl
  | .fin q => rnd M q
  | .inf => .inf
  | .nan => .nan

/-- `std::abs(a-asum)/asum <= epsilon` (stream.cpp l.179-185) -/
def Fl.close (eps : ℚ) : Fl → Fl → Bool
  | .fin a, .fin s => if s = 0 then false else |a - s| / s ≤ eps
  | _, _ => false

/-- the four operations with `s = 3` (stream.cpp l.98-113, 160-166), on one element -/
def streamStep (M : ℚ) (v : Fl × Fl × Fl) : Fl × Fl × Fl :=
  let c := v.1
  let b := Fl.mul M (.fin 3) c
  let c := Fl.add M v.1 b
  (Fl.add M b (Fl.mul M (.fin 3) c), b, c)

def streamRun (M : ℚ) (v : Fl × Fl × Fl) : ℕ → Fl × Fl × Fl
  | 0 => v
  | n + 1 => streamStep M (streamRun M v n)

/-- the sum of `size` elements, in the type used for checking (stream.cpp l.170-178) -/
def sumTo (M' : ℚ) (v : Fl) : ℕ → Fl
  | 0 => .fin 0
  | n + 1 => Fl.add M' (sumTo M' v n) (v.conv M')

/-- the check of `t_composite_vpp` (stream.cpp l.156-186) after `n` loops; `M` bounds the numbers of the element type, `M'` those of the
type used for checking; `gb` and `gc` are what the new vectors hold (all elements are computed alike) -/
def streamCheck (M M' eps : ℚ) (size n : ℕ) (gb gc : Fl) : Bool :=
  let v := streamRun M (.fin 2, gb, gc) n
  let w := streamRun M' (.fin 2, .fin 2, .fin 0) n
  Fl.close eps (Fl.mul M' w.1 (.fin size)) (sumTo M' v.1 size) &&
    Fl.close eps (Fl.mul M' w.2.1 (.fin size)) (sumTo M' v.2.1 size) &&
    Fl.close eps (Fl.mul M' w.2.2 (.fin size)) (sumTo M' v.2.2 size)

/-- the same with `int` elements (stream.cpp l.48-54, case 3): element of `A` after `n` loops, `none` when a sum or product is no `int` -/
def streamInt : ℕ → Option ℤ
  | 0 => some 2
  | n + 1 => (streamInt n).bind fun a =>
      if 3 * a < 2 ^ 31 ∧ a + 3 * a < 2 ^ 31 ∧ 3 * (a + 3 * a) < 2 ^ 31 ∧ 3 * a + 3 * (a + 3 * a) < 2 ^ 31 then
        some (3 * a + 3 * (a + 3 * a)) else none

/-- `std::abs(a-asum)/asum <= 0` for `int` -/
def intClose (a s : ℤ) : Bool := Int.tdiv |a - s| s ≤ 0

/-! ## Products of vector and matrix -/

/-- a `size_t` as `int` -/
def toInt (n : ℕ) : ℤ := if n % 2 ^ 32 < 2 ^ 31 then (n % 2 ^ 32 : ℕ) else ((n % 2 ^ 32 : ℕ) : ℤ) - 2 ^ 32

/-- `t_vmmul_fix_rows::ops_per_point` (vmmul.cpp l.52-53, 237-238): `ops` is an `int`, which the division makes a `size_t` -/
def vmmulOps (rows cols mul : ℕ) : ℕ := (toInt (rows * cols * mul) % 2 ^ 64).toNat / cols

/-- `riob_per_point`, `wiob_per_point` of `t_vmmul_fix_rows` (vmmul.cpp l.240-246), in elements: the same formula -/
def vmmulElems (byRow : Bool) (rows cols : ℕ) : ℕ := if byRow then rows + 1 else rows + rows / cols

/-- the check of `t_vmmul<T, Impl_op, SD>` (vmmul.cpp l.74-91) on a processor that has `lr` rows from row `off` on, and all columns;
`z` and `a` are the matrices, `w` the vector; `none`: an element outside of the local view -/
def vmmulCheck (byRow : Bool) (rows cols off lr : ℕ) (w : ℕ → ℚ) (a z : ℕ → ℕ → ℚ) : Option Bool :=
  if byRow then some ((List.range lr).all fun r => (List.range cols).all fun c => z (off + r) c == w c * a (off + r) c)
  else if 0 < cols ∧ lr < rows then none
  else some ((List.range cols).all fun c => (List.range rows).all fun r => z (off + r) c == w r * a (off + r) c)

/-! ## SIMD stores -/

/-- `S::store(ptr, reg)` of `vs` elements -/
def store {V : Type} (vs p : ℕ) (val : V) (m : ℕ → V) (a : ℕ) : V := if p ≤ a ∧ a < p + vs then val else m a

/-- the loop of `t_memwrite_simd` (simd/memwrite.cpp l.61-67) -/
def simdWrite {V : Type} (vs size : ℕ) (val : V) : ℕ → ℕ → (ℕ → V) → ℕ → V
  | 0, _, m => m
  | fuel + 1, i, m => if i < size then simdWrite vs size val fuel (i + vs) (store vs i val m) else m

/-- the second loop of `t_memwrite_simd_r4` (simd/memwrite.cpp l.127-132): `n` elements are left from `p` on -/
def simdOnes {V : Type} (vs : ℕ) (val : V) : ℕ → ℕ → ℕ → (ℕ → V) → ℕ → V
  | 0, _, _, m => m
  | fuel + 1, n, p, m => if vs ≤ n then simdOnes vs val fuel (n - vs) (p + vs) (store vs p val m) else m

/-- both loops of `t_memwrite_simd_r4` (simd/memwrite.cpp l.112-132) -/
def simdFours {V : Type} (vs : ℕ) (val : V) : ℕ → ℕ → ℕ → (ℕ → V) → ℕ → V
  | 0, n, p, m => simdOnes vs val n n p m
  | fuel + 1, n, p, m =>
    if 4 * vs ≤ n then
      simdFours vs val fuel (n - 4 * vs) (p + 4 * vs)
        (store vs (p + 3 * vs) val (store vs (p + 2 * vs) val (store vs (p + 1 * vs) val (store vs (p + 0 * vs) val m))))
    else simdOnes vs val n n p m

/-! ## Maxima -/

/-- a natural number as `float`: 24 significant bits, ties to even -/
def fl24 (n : ℕ) : ℕ :=
  if n < 2 ^ 24 then n
  else
    let u := 2 ^ (Nat.log2 n - 23)
    if 2 * (n % u) < u ∨ (2 * (n % u) = u ∧ n / u % 2 = 0) then n / u * u else (n / u + 1) * u

/-- `maxval` with an index, of a vector (reductions_idx.hpp l.33-56): the first of the largest elements -/
def firstMax (f : ℕ → ℤ) : ℕ → ℕ
  | 0 => 0
  | n + 1 => if f n > f (firstMax f n) then n else firstMax f n

/-- the check of `t_maxval1` (maxval.cpp l.138-152) for `ramp(0, 1, size)`: value and index -/
def maxvalRamp (size : ℕ) : Bool :=
  fl24 (firstMax (fun i => fl24 i) size) == fl24 (size - 1) && firstMax (fun i => fl24 i) size == size - 1

/-- for `ramp(size-1, -1, size)`, `size` up to `2^24` (the difference is exact then) -/
def maxvalReverse (size : ℕ) : Bool :=
  ((fl24 (size - 1) : ℤ) - fl24 (firstMax (fun i => (fl24 (size - 1) : ℤ) - fl24 i) size) == fl24 (size - 1)) &&
    firstMax (fun i => (fl24 (size - 1) : ℤ) - fl24 i) size == 0

end Verif.Bops
