import Verif.Dft.Model
import Verif.Domain.Model

/-!
# Transforms by value: sizes, and results that are computed late

Model of `src/ovxx/signal/fft/util.hpp` (`io_size`, `is_power_of_two`), of `fft::Interface` and the checks of `Fft` and `Fftm` in `src/ovxx/signal/fft.hpp`,
of `expr::op::fft::Functor` (`src/ovxx/signal/fft/functor.hpp`), of the non-elementwise `expr::Unary` (`src/ovxx/expr/unary.hpp` l.79-157) and of the assignment
of such a block (`src/ovxx/assign/rbo.hpp`).

Simplifications.  Memory is one map from addresses to values.  A cache is the function of its values: `refcounted_ptr` shares it between copies, and as nothing
writes to it after `evaluate`, sharing and copying are the same.  Results have one index.
-/

namespace Verif.Rbo

open Verif.Dft (Cm Dir loop sum1 phi)

/-! ## Sizes -/

/-- Which of the two value types are complex. -/
inductive Kind | cc | rc | cr
  deriving DecidableEq

/-- `io_size<D, complex<T>, T, A>::size`, util.hpp l.67-77. -/
def half {D : ℕ} (A : Fin D) (dom : Fin D → Dom) : Fin D → Dom := Function.update dom A ⟨0, 1, (dom A).length / 2 + 1⟩

/-- `input_size_`, fft.hpp l.90: `io_size<D, I, O, A>::size(dom)`. -/
def inputSize {D : ℕ} (k : Kind) (A : Fin D) (dom : Fin D → Dom) : Fin D → Dom := if k = .cr then half A dom else dom

/-- `output_size_`, fft.hpp l.91: `io_size<D, O, I, A>::size(dom)`. -/
def outputSize {D : ℕ} (k : Kind) (A : Fin D) (dom : Fin D → Dom) : Fin D → Dom := if k = .rc then half A dom else dom

/-- `is_power_of_two(unsigned)`, util.hpp l.28-31, given a `length_type` as in l.37: the argument is taken modulo 2^32, and so is `size - 1`. -/
def isPowerOfTwo (size : ℕ) : Bool :=
  let s := size % 2 ^ 32
  decide (s &&& ((s + 2 ^ 32 - 1) % 2 ^ 32) = 0)

/-- `Functor::local`, functor.hpp l.68-90, for `fftm`: the size of the result on a processor holding `sub` of the argument; `axis` is `BE::axis`. -/
def localSize (axis : Fin 2) (out sub : Fin 2 → ℕ) : Fin 2 → ℕ :=
  if axis = 0 then ![if sub 1 = 0 then 0 else out 0, sub 1] else ![sub 0, if sub 0 = 0 then 0 else out 1]

/-- The checks of `Fftm<..., by_reference>::operator()` for distributed matrices, fft.hpp l.404-414: number of subblocks along the axis, and the global domains of
the first patch of the local subblock.  `false` is the exception `unimplemented`, thrown from a function declared not to throw. -/
def fftmAccepts (inSub outSub : ℕ) (inDom outDom : Fin 2 → Dom) : Bool := decide (inSub = 1 ∧ outSub = 1 ∧ inDom = outDom)

/-! ## Late evaluation -/

variable {A V : Type} [DecidableEq A]

/-- A functor with its bound argument: `apply` to a new block, and `apply` to a block in the same memory, given by its addresses. -/
structure Functor (A V : Type) where
  fresh : (A → V) → ℕ → V
  into : (ℕ → A) → (A → V) → A → V
  size : ℕ

/-- `Unary<Operation, Block, false>`. -/
structure Node (A V : Type) where
  op : Functor A V
  cache : Option (ℕ → V)

/-- `Unary(Operation const &)`. -/
def Node.make (op : Functor A V) : Node A V := ⟨op, none⟩

/-- `evaluate`, unary.hpp l.125-132. -/
def Node.evaluate (n : Node A V) (m : A → V) : Node A V := match n.cache with
  | some _ => n
  | none => { n with cache := some (n.op.fresh m) }

/-- `get`, unary.hpp l.105-121, with the block afterwards. -/
def Node.get (n : Node A V) (m : A → V) (i : ℕ) : Option V × Node A V :=
  let n' := n.evaluate m
  (n'.cache.map (· i), n')

/-- `assign<dim>(result, *cache_)`, element by element. -/
def store (dst : ℕ → A) (size : ℕ) (v : ℕ → V) (m : A → V) : A → V := loop size (fun i m => Function.update m (dst i) (v i)) m

/-- `apply`, unary.hpp l.134-141; assignment of the block, rbo.hpp l.32. -/
def Node.apply (n : Node A V) (dst : ℕ → A) (m : A → V) : A → V := match n.cache with
  | some c => store dst n.op.size c m
  | none => n.op.into dst m

/-- What a program does with memory and the views it has. -/
inductive Cmd (A V : Type)
  /-- a call of `Fft::operator()` -/
  | make (op : Functor A V)
  /-- a copy of a view -/
  | copy (v : ℕ)
  | get (v i : ℕ)
  /-- `lhs = view` -/
  | assign (dst : ℕ → A) (v : ℕ)
  | put (a : A) (x : V)

/-- Memory, views, and what was read. -/
structure State (A V : Type) where
  mem : A → V
  views : List (Node A V)
  read : List (Option V)

/-- One step; commands on views that do not exist do nothing. -/
def step (s : State A V) : Cmd A V → State A V
  | .make op => { s with views := s.views ++ [.make op] }
  | .copy v => match s.views[v]? with
    | some n => { s with views := s.views ++ [n] }
    | none => s
  | .get v i => match s.views[v]? with
    | some n => { s with views := s.views.set v (n.get s.mem i).2, read := s.read ++ [(n.get s.mem i).1] }
    | none => s
  | .assign dst v => match s.views[v]? with
    | some n => { s with mem := n.apply dst s.mem }
    | none => s
  | .put a x => { s with mem := Function.update s.mem a x }

/-- A program. -/
def run (s : State A V) (p : List (Cmd A V)) : State A V := p.foldl step s

/-! ## The default transform, input and output in one memory -/

/-- 1-D complex, out of place (dft.hpp l.92-105), for two blocks of one memory that may overlap. -/
noncomputable def selfC2C (S : Dir) (ib is ob os : ℤ) (l : ℕ) (m : Cm) : Cm :=
  loop l (fun w m => Function.update m (ob + (w : ℤ) * os) (sum1 (phi S l) m ib is l w)) m

/-- The same for any addresses of the output. -/
noncomputable def selfInto (S : Dir) (ib is : ℤ) (l : ℕ) (dst : ℕ → ℤ) (m : Cm) : Cm :=
  loop l (fun w m => Function.update m (dst w) (sum1 (phi S l) m ib is l w)) m

/-- The functor of a 1-D complex `Fft` on the block at `ib` with stride `is`, with scale 1. -/
noncomputable def dftFunctor (S : Dir) (ib is : ℤ) (l : ℕ) : Functor ℤ ℂ where
  fresh m w := sum1 (phi S l) m ib is l w
  into dst m := selfInto S ib is l dst m
  size := l

end Verif.Rbo
