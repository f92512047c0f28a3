import Mathlib.Algebra.BigOperators.Group.Finset.Basic
import Mathlib.Algebra.Ring.Defs
import Mathlib.Logic.Function.Basic
/-!
Model of the FIR filter (`/repo/src/ovxx/signal/fir.hpp`, `/repo/src/vsip/impl/signal/fir.hpp`) and the IIR filter
(`/repo/src/vsip/impl/signal/iir.hpp`).

Samples and coefficients are elements of a ring: rounding (and with it the order of summation in `dot`) is not modelled.  The input of a
call is a function of the sample number below the input size; strides are a matter of the views (C22).  Only the generic backend is
modelled.
-/
namespace Verif.Filt
open Finset

/-- `symmetry_type` -/
inductive Sym where
  | nonsym | evenLenOdd | evenLenEven
deriving DecidableEq, Repr

/-- `Fir_backend::order(k)` (fir.hpp l.26-27): number of coefficients of the unpacked kernel -/
def order (s : Sym) (k : Nat) : Nat :=
  k * (1 + if s ≠ .nonsym then 1 else 0) - if s = .evenLenOdd then 1 else 0

section
variable {T : Type} [Semiring T]

/-- the unpacked kernel (l.83-87): `kernel_(Domain<1>(order_, -1, k)) = tmp`, and `kernel_(Domain<1>(k)) = tmp` when symmetric -/
def unpack (s : Sym) (k : Nat) (h : Nat → T) : Nat → T :=
  let M := order s k - 1
  let K := (List.range k).foldl (fun K j => Function.update K (M - j) (h j)) (fun _ => 0)
  if s ≠ .nonsym then (List.range k).foldl (fun K j => Function.update K j (h j)) K else K

/-- members of `Fir` (l.61-65, 168-172); `inputSize`, `M` (`order_`), `dec`, `kernel` do not change -/
structure Fir (T : Type) where
  inputSize : Nat
  M : Nat
  dec : Nat
  kernel : Nat → T
  save : Bool

structure FirState (T : Type) where
  skip : Nat
  saved : Nat
  state : Nat → T

/-- constructor (l.29-38 and l.74-89); `none` = failed precondition -/
def Fir.make (s : Sym) (save : Bool) (h : Nat → T) (k inputSize dec : Nat) : Option (Fir T) :=
  let M := order s k - 1
  if 0 < inputSize ∧ 0 < dec ∧ dec < M + 1 ∧ M ≤ inputSize ∧ (if s = .nonsym then 1 else 0) < k then
    some ⟨inputSize, M, dec, unpack s k h, save⟩
  else none

/-- initial state (l.76-79) -/
def FirState.initial : FirState T := ⟨0, 0, fun _ => 0⟩

/-- `reset` (l.162-166) -/
def FirState.reset (S : FirState T) : FirState T := { S with saved := 0, skip := 0, state := fun _ => 0 }

/-- `for (; i < bound; i += dec) output(f(i))`: the values put and the final `i` (at most `fuel` iterations) -/
def steps (dec bound : Nat) (f : Nat → T) : Nat → Nat → List T × Nat
  | 0, i => ([], i)
  | fuel + 1, i =>
    if i < bound then
      let (l, i') := steps dec bound f fuel (i + dec)
      (f i :: l, i')
    else ([], i)

/-- `dot(kernel(Domain<1>(ks, 1, n)), v(Domain<1>(vs, 1, n)))` -/
def dot (K v : Nat → T) (ks vs n : Nat) : T := ∑ t ∈ range n, K (ks + t) * v (vs + t)

/-- `Fir::apply` (l.100-160): the values put at output positions 0, 1, …, their number being the return value, and the new state -/
def Fir.apply (F : Fir T) (S : FirState T) (input : Nat → T) : List T × FirState T :=
  let m := F.M
  let (o1, i) := steps F.dec (m - S.skip) (fun i =>
      let sum := dot F.kernel input (m - S.skip - i) 0 (i + S.skip + 1)
      if F.save = true ∧ i < S.saved then sum + dot F.kernel S.state 0 i (S.saved - i) else sum) (m - S.skip) 0
  let start := i - (m - S.skip)
  let (o2, e) := steps F.dec F.inputSize (fun p => dot F.kernel input 0 (p - m) (m + 1)) F.inputSize (start + m)
  let start := e - m
  let S' := if F.save then
      let newSave := F.inputSize - start
      ⟨start + m - F.inputSize, newSave, fun k => if k < newSave then input (start + k) else S.state k⟩
    else S
  (o1 ++ o2, S')

/-- a sequence of calls: outputs of all calls and the final state -/
def Fir.run (F : Fir T) : FirState T → List (Nat → T) → List (List T) × FirState T
  | S, [] => ([], S)
  | S, x :: xs =>
    let (o, S') := F.apply S x
    let (os, S'') := F.run S' xs
    (o :: os, S'')

end

section
variable {T : Type} [Ring T]

/-- coefficients of one second-order section (rows of `a_` and `b_`) -/
structure Sec (T : Type) where
  a1 : T
  a2 : T
  b0 : T
  b1 : T
  b2 : T

/-- body of the inner loop (iir.hpp l.123-132) for a section with state `(w1, w2)` -/
def Sec.step (s : Sec T) (w : T × T) (val : T) : T × (T × T) :=
  let w0 := val - s.a1 * w.1 - s.a2 * w.2
  (s.b0 * w0 + s.b1 * w.1 + s.b2 * w.2, (w0, w.1))

/-- the inner loop (l.121-133): one sample through all sections -/
def sample : List (Sec T) → List (T × T) → T → T × List (T × T)
  | s :: ss, w :: ws, val =>
    let (v, w') := s.step w val
    let (v', ws') := sample ss ws v
    (v', w' :: ws')
  | _, _, val => (val, [])

/-- the outer loop (l.117-136) -/
def frame (ss : List (Sec T)) : List (T × T) → List T → List T × List (T × T)
  | ws, [] => ([], ws)
  | ws, x :: xs =>
    let (y, ws') := sample ss ws x
    let (ys, ws'') := frame ss ws' xs
    (y :: ys, ws'')

/-- initial `w_` (l.32) and `reset` (l.84) -/
def wInit (ss : List (Sec T)) : List (T × T) := ss.map fun _ => (0, 0)

/-- `Iir::operator()` (l.99-142) -/
def iir (save : Bool) (ss : List (Sec T)) (ws : List (T × T)) (xs : List T) : List T × List (T × T) :=
  let (ys, ws') := frame ss ws xs
  (ys, if save then ws' else wInit ss)

/-- a sequence of calls -/
def iirRun (save : Bool) (ss : List (Sec T)) : List (T × T) → List (List T) → List (List T) × List (T × T)
  | ws, [] => ([], ws)
  | ws, x :: xs =>
    let (y, ws') := iir save ss ws x
    let (ys, ws'') := iirRun save ss ws' xs
    (y :: ys, ws'')

end

end Verif.Filt
