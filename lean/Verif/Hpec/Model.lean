import Verif.Signal.Model
import Verif.Dft.Spec
import Mathlib.Algebra.Group.Pi.Basic
import Mathlib.Algebra.Group.Basic
import Mathlib.Algebra.Ring.Rat
import Mathlib.Algebra.Field.Rat
import Mathlib.Algebra.Order.Ring.Unbundled.Rat
import Mathlib.Logic.Function.Basic

/-!
# The HPEC kernels and fast convolution

Model of `/repo/benchmarks/hpec_kernel/cfar.cpp` (detection), `/repo/benchmarks/hpec_kernel/firbank.cpp` (filter banks) and `/repo/benchmarks/fastconv.cpp` (fast
convolution).  Numbers are exact.  One turn of the timing loops is modelled.  `cfar_c.cpp` contains the same steps written with pointers and is not modelled.
-/

namespace Verif.Hpec

open Verif.Sig

section
variable {T : Type} [AddCommGroup T]

/-- What the loops leave: the running sum, and for every gate done its number, `gates_used` and the sum. -/
abbrev Tr (T : Type) := T × List (ℕ × ℕ × T)

/-- cfar.cpp l.260-289 without the comparison: cases 0, 1 and 2 (l.112-143 with matrices for `T`, l.441-480 with four numbers) -/
def left (p : Vec T) (g c : ℕ) (st : Tr T) (k : ℕ) : Option (Tr T) :=
  if k = 0 then (loop c st.1 fun s l => (p.get (1 + (g + l))).map (s + ·)).map fun s => (s, st.2 ++ [(k, c, s)])
  else if k < g + 1 then do
    let a ← p.get (k + g + c)
    let b ← p.get (k + g)
    some (st.1 + (a - b), st.2 ++ [(k, c, st.1 + (a - b))])
  else do
    let a ← p.get (k + g + c)
    let b ← p.get (k + g)
    let d ← p.get (k - (g + 1))
    some (st.1 + (a - b + d), st.2 ++ [(k, c + k - (g + 1), st.1 + (a - b + d))])

/-- Case 3 (l.291-303; l.145-160, l.482-502) -/
def middle (p : Vec T) (g c : ℕ) (st : Tr T) (k : ℕ) : Option (Tr T) := do
  let a ← p.get (k + g + c)
  let b ← p.get (k + g)
  let d ← p.get (k - (g + 1))
  let e ← p.get (k - (c + g + 1))
  some (st.1 + (a - b + d - e), st.2 ++ [(k, 2 * c, st.1 + (a - b + d - e))])

/-- Cases 4 and 5 (l.305-326; l.162-186, l.504-536) -/
def right (p : Vec T) (g c : ℕ) (st : Tr T) (k : ℕ) : Option (Tr T) :=
  if k + g < p.n then do
    let b ← p.get (k + g)
    let d ← p.get (k - (g + 1))
    let e ← p.get (k - (c + g + 1))
    some (st.1 + (-b + d - e), st.2 ++ [(k, c + p.n - (k + g), st.1 + (-b + d - e))])
  else do
    let d ← p.get (k - (g + 1))
    let e ← p.get (k - (c + g + 1))
    some (st.1 + (d - e), st.2 ++ [(k, c, st.1 + (d - e))])

/-- The three loops; `none` also if the condition of the driver (l.698) does not hold -/
def trace (p : Vec T) (g c : ℕ) : Option (List (ℕ × ℕ × T)) :=
  if 2 * (c + g) < p.n then do
    let s1 ← loop (g + c + 1) ((0 : T), []) fun st k => left p g c st k
    let s2 ← loop (p.n - (g + c) - (g + c + 1)) s1 fun st k => middle p g c st (g + c + 1 + k)
    let s3 ← loop (g + c) s2 fun st k => right p g c st (p.n - (g + c) + k)
    some s3.2
  else none
end

/-- The comparison (l.284-287): `inv_gates = 1.0 / gates_used` -/
def hit (eps mu pk : ℚ) (used : ℕ) (sum : ℚ) : Bool := decide (pk / max (sum * (1 / (used : ℚ))) eps > mu)

/-- `located` and `count`: row `k` is the list of the first `count(k)` elements of row `k` of `located` -/
abbrev Loc := ℕ → List (ℕ × ℕ)

/-- `located.row(k).put(count(k)++, Index<2>(i, j))`; `none` if the row is full -/
def put (cap : ℕ) (st : Loc) (w : ℕ × ℕ × ℕ) : Option Loc :=
  if (st w.1).length < cap then some (Function.update st w.1 (st w.1 ++ [w.2])) else none

/-- The cube: `x i j k` for beam `i`, doppler bin `j`, gate `k`. -/
structure Cube where
  beams : ℕ
  dbins : ℕ
  gates : ℕ
  x : ℕ → ℕ → ℕ → ℚ

/-- `ImplVector` (l.237-327) -/
def detectVector (eps mu : ℚ) (g c cap : ℕ) (q : Cube) : Option Loc :=
  loop q.beams (fun _ => []) fun st i => loop q.dbins st fun st j =>
    (trace (⟨q.gates, fun k => q.x i j k * q.x i j k⟩ : Vec ℚ) g c).bind fun tr =>
      tr.foldlM (fun st t => if hit eps mu (q.x i j t.1 * q.x i j t.1) t.2.1 t.2.2 then put cap st (t.1, i, j) else some st) st

/-- `ImplHybrid` (l.417-537): four bins at a time; the four elements of each gate are read with `get`, `none` outside of the cube -/
def detectHybrid (eps mu : ℚ) (g c cap : ℕ) (q : Cube) : Option Loc :=
  loop q.beams (fun _ => []) fun st i => loop ((q.dbins + 3) / 4) st fun st t =>
    if 4 * t + 3 < q.dbins ∨ q.gates = 0 then
      (trace (⟨q.gates, fun k a => q.x i (4 * t + a) k * q.x i (4 * t + a) k⟩ : Vec (Fin 4 → ℚ)) g c).bind fun tr =>
        tr.foldlM (fun st r => (List.finRange 4).foldlM (fun st (a : Fin 4) =>
          if hit eps mu (q.x i (4 * t + a) r.1 * q.x i (4 * t + a) r.1) r.2.1 (r.2.2 a) then put cap st (r.1, i, 4 * t + a) else some st) st) st
    else none

/-- `ImplSlice` (l.97-187): for every gate the count and the row of `located`.  `indexbool` counts all cells and stores as many as the row has room for (C44). -/
def detectSlice (eps mu : ℚ) (g c cap : ℕ) (q : Cube) : Option (List (ℕ × List (ℕ × ℕ))) :=
  (trace (⟨q.gates, fun k i j => q.x i j k * q.x i j k⟩ : Vec (ℕ → ℕ → ℚ)) g c).map fun tr => tr.map fun t =>
    let l := (List.range q.beams).flatMap fun i =>
      (List.range q.dbins).flatMap fun j => if hit eps mu (q.x i j t.1 * q.x i j t.1) t.2.1 (t.2.2 i j) then [(i, j)] else []
    (l.length, l.take cap)

/-! ### Filter banks -/

/-- A forward transform in place or not, scale 1 (C61) -/
noncomputable def fwd (N : ℕ) (x : ℕ → ℂ) : ℕ → ℂ := Dft.dft1 true N x

/-- An inverse transform, scale `1 / N` -/
noncomputable def inv (N : ℕ) (x : ℕ → ℂ) : ℕ → ℂ := fun n => 1 / (N : ℂ) * Dft.dft1 false N x n

/-- `for (p = 0; p < M; ++p) row(p) = f(p, row(p))` -/
def rows (M : ℕ) (f : ℕ → (ℕ → ℂ) → ℕ → ℂ) (d : ℕ → ℕ → ℂ) : ℕ → ℕ → ℂ := (List.range M).foldl (fun d p => Function.update d p (f p (d p))) d

/-- `response(Domain<2>(local_M, K)) = filters` on zeros (firbank.cpp l.241-242, 342-343); `none` if the columns do not exist -/
def padded (N K : ℕ) (filters : ℕ → ℕ → ℂ) : Option (ℕ → ℕ → ℂ) := if K ≤ N then some fun i k => if k < K then filters i k else 0 else none

/-- `ImplFast` (l.217-261) -/
noncomputable def bankFast (M N K : ℕ) (filters inputs outputs : ℕ → ℕ → ℂ) : Option (ℕ → ℕ → ℂ) :=
  (padded N K filters).map fun response =>
    let response := rows M (fun _ r => fwd N r) response
    rows M (fun i _ => inv N fun w => fwd N (inputs i) w * response 0 w) outputs

/-- `ImplExpr` (l.320-354) -/
noncomputable def bankExpr (M N K : ℕ) (filters inputs outputs : ℕ → ℕ → ℂ) : Option (ℕ → ℕ → ℂ) :=
  (padded N K filters).map fun response =>
    let response := rows M (fun _ r => fwd N r) response
    rows M (fun i _ => inv N fun w => response i w * fwd N (inputs i) w) outputs

/-! ### Fast convolution -/

/-- `Impl1op` (fastconv.cpp l.103-105), also `Impl3` (l.725-727): out of place, one phase after the other -/
noncomputable def conv1op (M N : ℕ) (replica : ℕ → ℂ) (data tmp : ℕ → ℕ → ℂ) : ℕ → ℕ → ℂ :=
  let tmp := rows M (fun p _ => fwd N (data p)) tmp
  let tmp := rows M (fun _ r w => replica w * r w) tmp
  rows M (fun p _ => inv N (tmp p)) data

/-- `Impl1ip` (l.157-159), `Impl1pip1` (l.212-216), `Impl1pip2` (l.286-296): in place, one phase after the other -/
noncomputable def conv1ip (M N : ℕ) (replica : ℕ → ℂ) (data : ℕ → ℕ → ℂ) : ℕ → ℕ → ℂ :=
  rows M (fun _ => inv N) (rows M (fun _ r w => replica w * r w) (rows M (fun _ => fwd N) data))

/-- `Impl2op` (l.423-428), `Impl2ip` (l.518-523), `Impl2ip_tmp` (l.613-620): row by row -/
noncomputable def conv2 (M N : ℕ) (replica : ℕ → ℂ) (data : ℕ → ℕ → ℂ) : ℕ → ℕ → ℂ :=
  rows M (fun _ r => inv N fun w => fwd N r w * replica w) data

/-- `Impl4mc` (l.917): one row of coefficients for every row -/
noncomputable def conv4mc (M N : ℕ) (replica : ℕ → ℕ → ℂ) (data : ℕ → ℕ → ℂ) : ℕ → ℕ → ℂ :=
  rows M (fun p r => inv N fun w => replica p w * fwd N r w) data

end Verif.Hpec
