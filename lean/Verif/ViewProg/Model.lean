import Verif.Views.Model
/-!
Model of programs made of views: `/repo/src/vsip/impl/vector.hpp`, `/repo/src/vsip/matrix.hpp`, `/repo/src/vsip/tensor.hpp`,
`/repo/src/ovxx/view/view.hpp`, `/repo/src/ovxx/view/utils.hpp`, `/repo/src/ovxx/element_proxy.hpp`, `/repo/src/ovxx/block_traits.hpp`.

A state has a heap of reference-counted stored blocks, view variables, and references to elements.  A view variable holds its block the
way `block_traits<B>::ptr_type` says: a stored block through a counted pointer, a derived block (subset, slice, transposition,
permutation, diagonal, expression) by value.  A derived block holds its parent the same way; an expression block holds its operands by
`expr_type`, which is a plain C++ reference for stored blocks and a copy for all others (block_traits.hpp l.172-186).  Accessing a freed block
or a destroyed view is undefined behaviour and makes the step `none`.

Simplified: names of variables are positions in a list and never reused; element types are one type `V`; the traversal order of a loop is a
parameter of the statement (any enumeration of the index space: the code picks the one of the destination's dimension order); assignment is
the element loop (other strategies: C28, C29); `OVXX_PRECONDITION`s on sizes are checked by the loops only (all are off in a release build).
-/
namespace Verif.VP
open Verif Verif.Vw

variable {V : Type}

/-- one derived block: what it adds to its parent -/
inductive Layer where
  | subset (dom : List Dom)
  | sliced (d i : Nat)
  | sliced2 (d1 d2 i j : Nat)
  | transposed
  | permuted (p : List Nat)
  | diag (off : Int)

/-- the block with this layer on top (subset.hpp, sliced.hpp, transposed.hpp, permuted.hpp, diag.hpp: model of C22) -/
def Layer.on : Layer → View → View
  | subset dom, v => .subset dom v
  | sliced d i, v => .sliced d i v
  | sliced2 d1 d2 i j, v => .sliced2 d1 d2 i j v
  | transposed, v => .transposed v
  | permuted p, v => .permuted p v
  | diag off, v => .diag off v

/-- index translation of `get` and `put` -/
def Layer.toParent (l : Layer) (i : List Nat) : List Nat := (l.on (.base [] [] 0)).toParent i

/-- `size(dim, d)` from the sizes of the parent -/
def Layer.sizes (l : Layer) (s : List Nat) : List Nat := (l.on (.base s [] 0)).sizes

/-- an index is inside an extent -/
def inR : List Nat → List Nat → Bool
  | [], [] => true
  | n :: s, k :: i => decide (k < n) && inR s i
  | _, _ => false

/-- all indices of an extent, last dimension fastest -/
def indices : List Nat → List (List Nat)
  | [] => [[]]
  | n :: s => (List.range n).flatMap fun k => (indices s).map (k :: ·)

/-- a block as a view holds it -/
inductive Blk (V : Type) where
  /-- counted pointer to the stored block `a` -/
  | stored (a : Nat)
  /-- subset, slice, … of a block -/
  | derived (l : Layer) (b : Blk V)
  /-- element-wise expression of two blocks (expr/binary.hpp l.56-128) -/
  | bin (f : V → V → V) (x y : Blk V)
  /-- a number seen as a block; the number is copied (expr/scalar.hpp l.52-62) -/
  | scalar (v : V)

/-- a stored block: reference count, extent, whether it is split complex (or distributed) so that elements have no address, elements -/
structure Cell (V : Type) where
  rc : Nat
  ext : List Nat
  split : Bool
  data : List Nat → V

abbrev Heap (V : Type) := List (Option (Cell V))

/-- the live block `a` -/
def cell (h : Heap V) (a : Nat) : Option (Cell V) := h.getD a none

/-- a reference to an element: an address, or an `element_proxy` with a C++ reference to the block inside the view variable `x`
(element_proxy.hpp l.19-61) -/
inductive Ref where
  | direct (a : Nat) (i : List Nat)
  | proxy (x : Nat) (i : List Nat)

structure St (V : Type) where
  heap : Heap V := []
  vars : List (Option (Blk V)) := []
  refs : List Ref := []

/-- `size(dim, d)`: stored in the block, asked from the parent, or from the left operand (binary.hpp l.92-97) -/
def Blk.sizes (h : Heap V) : Blk V → Option (List Nat)
  | stored a => (cell h a).map Cell.ext
  | derived l b => (b.sizes h).map l.sizes
  | bin _ x _ => x.sizes h
  | scalar _ => some []

/-- `get(i…)` -/
def Blk.get (h : Heap V) : Blk V → List Nat → Option V
  | stored a, i => (cell h a).bind fun c => if inR c.ext i then some (c.data i) else none
  | derived l b, i => b.get h (l.toParent i)
  | bin f x y, i => (x.get h i).bind fun v => (y.get h i).map fun w => f v w
  | scalar v, _ => some v

/-- set one element of a stored block -/
def putCell (h : Heap V) (a : Nat) (i : List Nat) (v : V) : Option (Heap V) :=
  (cell h a).bind fun c =>
    if inR c.ext i then some (h.set a (some { c with data := fun j => if j = i then v else c.data j })) else none

/-- the stored block and index an index of a block leads to -/
def Blk.resolve : Blk V → List Nat → Option (Nat × List Nat)
  | stored a, i => some (a, i)
  | derived l b, i => b.resolve (l.toParent i)
  | bin _ _ _, _ => none
  | scalar _, _ => none

/-- `put(i…, v)` -/
def Blk.put (h : Heap V) (b : Blk V) (i : List Nat) (v : V) : Option (Heap V) :=
  (b.resolve i).bind fun p => putCell h p.1 p.2 v

/-- `expr_type` of a stored block is a plain reference -/
def Blk.isStored : Blk V → Bool
  | stored _ => true
  | _ => false

/-- the stored blocks on which holding this block keeps a count, with multiplicity (block_traits.hpp l.134-191) -/
def Blk.own : Blk V → List Nat
  | stored a => [a]
  | derived _ b => b.own
  | bin _ x y => (if x.isStored then [] else x.own) ++ (if y.isStored then [] else y.own)
  | scalar _ => []

/-- `lvalue_factory_type`: elements have addresses (`ref_factory`) for stored blocks that are neither split nor distributed, and for subsets,
transpositions, permutations and double slices of such; a single slice or a diagonal always uses `proxy_factory`, since the
specialisation asks the parent, which has one dimension more, for the dimension of the slice (strided.hpp l.322-346, dense.hpp l.417-420,
subset.hpp l.309-320, diag.hpp l.136-147, sliced.hpp l.596-620, transposed.hpp l.148-159, permuted.hpp l.163-174) -/
def Blk.addr (h : Heap V) : Blk V → Bool
  | stored a => match cell h a with
    | some c => !c.split
    | none => false
  | derived (.subset _) b => b.addr h
  | derived .transposed b => b.addr h
  | derived (.permuted _) b => b.addr h
  | derived (.sliced2 _ _ _ _) b => b.addr h
  | derived (.sliced _ _) _ => false
  | derived (.diag _) _ => false
  | bin _ _ _ => false
  | scalar _ => false

/-- one more counted pointer to `a` -/
def incr (h : Heap V) (a : Nat) : Option (Heap V) := (cell h a).map fun c => h.set a (some { c with rc := c.rc + 1 })

/-- one counted pointer to `a` less; the last one frees the block -/
def decr (h : Heap V) (a : Nat) : Option (Heap V) :=
  (cell h a).map fun c => h.set a (if c.rc - 1 = 0 then none else some { c with rc := c.rc - 1 })

def incrs (h : Heap V) (l : List Nat) : Option (Heap V) := l.foldlM incr h
def decrs (h : Heap V) (l : List Nat) : Option (Heap V) := l.foldlM decr h

/-- the block of a live view variable -/
def St.live (m : St V) (x : Nat) : Option (Blk V) := m.vars.getD x none

/-- a new view variable holding a copy of the block -/
def St.declare (m : St V) (b : Blk V) : Option (St V) :=
  (incrs m.heap b.own).map fun h => { m with heap := h, vars := m.vars ++ [some b] }

/-- `for i in tr: dst.put(i, rd(i))` -/
def storeLoop (h : Heap V) (dst : Blk V) (rd : Heap V → List Nat → Option V) (tr : List (List Nat)) : Option (Heap V) :=
  tr.foldlM (fun h i => (rd h i).bind fun v => dst.put h i v) h

/-- the loop of an assignment to the view `b`: `tr` enumerates its indices -/
def St.store (m : St V) (b : Blk V) (rd : Heap V → List Nat → Option V) (tr : List (List Nat)) : Option (St V) :=
  (b.sizes m.heap).bind fun s =>
    if tr.isPerm (indices s) then (storeLoop m.heap b rd tr).map fun h => { m with heap := h } else none

/-- read through a reference: the address, or `get` of the block inside the view variable -/
def refGet (vars : List (Option (Blk V))) (h : Heap V) : Ref → Option V
  | .direct a i => (Blk.stored a).get h i
  | .proxy x i => (vars.getD x none).bind fun b => b.get h i

/-- write through a reference -/
def refPut (vars : List (Option (Blk V))) (h : Heap V) (v : V) : Ref → Option (Heap V)
  | .direct a i => putCell h a i v
  | .proxy x i => (vars.getD x none).bind fun b => b.put h i v

/-- what `view(i…)` returns: an address if elements have addresses; otherwise a proxy, whose block is on the heap for a stored block and
inside the view object for a derived one (element_proxy.hpp l.119-147) -/
def mkRef (h : Heap V) (b : Blk V) (x : Nat) (i : List Nat) : Option Ref :=
  if b.addr h || b.isStored then (b.resolve i).map fun p => .direct p.1 p.2 else some (.proxy x i)

/-- statements on views -/
inductive Op (V : Type) where
  /-- `View x(sizes, v)` (vector.hpp l.52-57, matrix.hpp l.175-182, tensor.hpp l.82-89): a new block with count 1 -/
  | new (ext : List Nat) (split : Bool) (v : V)
  /-- `View y(x)` with the same block type: the same block (vector.hpp l.59-61, 173; matrix.hpp l.184-185; tensor.hpp l.91, 294) -/
  | copy (x : Nat)
  /-- a subview -/
  | sub (x : Nat) (l : Layer)
  /-- `f(x, y)`, not yet evaluated; the comparison of the sizes is commented out (binary.hpp l.71-84) -/
  | expr (f : V → V → V) (x y : Nat)
  /-- end of the life of a view variable -/
  | destroy (x : Nat)
  | put (x : Nat) (i : List Nat) (v : V)
  | get (x : Nat) (i : List Nat)
  /-- `x = y` (vector.hpp l.198-231, tensor.hpp l.337-380) -/
  | assign (x y : Nat) (tr : List (List Nat))
  /-- `x = v` (vector.hpp l.205-217: through a scalar block; tensor.hpp l.346-362: by `put`s) -/
  | fill (x : Nat) (v : V) (tr : List (List Nat))
  /-- `x f= y` (vector.hpp l.107-124: `*this = *this f y`; tensor.hpp l.488-507: the loop) -/
  | update (x : Nat) (f : V → V → V) (y : Nat) (tr : List (List Nat))
  /-- `x f= v` -/
  | updateVal (x : Nat) (f : V → V → V) (v : V) (tr : List (List Nat))
  /-- `x f= r` with a reference to an element: vectors and matrices copy the number into a scalar block (vector.hpp l.100-101), tensors read the
  reference in every pass of the loop (tensor.hpp l.482-486) -/
  | updateRef (x : Nat) (f : V → V → V) (r : Nat) (tr : List (List Nat))
  /-- `View z(y)` with another block type: a new block, assigned from `y` (vector.hpp l.174-177, 193-196; matrix.hpp l.186-188; tensor.hpp l.295-302); `d` is what the
  fresh memory happens to hold -/
  | deep (y : Nat) (d : V) (tr : List (List Nat))
  /-- keep `x(i…)` -/
  | ref (x : Nat) (i : List Nat)
  /-- copy a kept reference -/
  | rcopy (r : Nat)
  | rget (r : Nat)
  | rput (r : Nat) (v : V)
  /-- `r = s` for two references: the element is assigned (element_proxy.hpp l.40-42) -/
  | rassign (r s : Nat)

/-- one statement; the list holds the numbers read by the program -/
def St.step (m : St V) : Op V → Option (St V × List V)
  | .new ext split v => some ({ m with heap := m.heap ++ [some ⟨1, ext, split, fun _ => v⟩], vars := m.vars ++ [some (.stored m.heap.length)] }, [])
  | .copy x => (m.live x).bind fun b => (m.declare b).map fun m => (m, [])
  | .sub x l => (m.live x).bind fun b => (m.declare (.derived l b)).map fun m => (m, [])
  | .expr f x y => (m.live x).bind fun b => (m.live y).bind fun c => (m.declare (.bin f b c)).map fun m => (m, [])
  | .destroy x => (m.live x).bind fun b => (decrs m.heap b.own).map fun h => ({ m with heap := h, vars := m.vars.set x none }, [])
  | .put x i v => (m.live x).bind fun b => (b.put m.heap i v).map fun h => ({ m with heap := h }, [])
  | .get x i => (m.live x).bind fun b => (b.get m.heap i).map fun v => (m, [v])
  | .assign x y tr => (m.live x).bind fun b => (m.live y).bind fun c => (m.store b (fun h i => c.get h i) tr).map fun m => (m, [])
  | .fill x v tr => (m.live x).bind fun b => (m.store b (fun h i => (Blk.scalar v).get h i) tr).map fun m => (m, [])
  | .update x f y tr => (m.live x).bind fun b => (m.live y).bind fun c =>
      (m.store b (fun h i => (Blk.bin f b c).get h i) tr).map fun m => (m, [])
  | .updateVal x f v tr => (m.live x).bind fun b => (m.store b (fun h i => (Blk.bin f b (.scalar v)).get h i) tr).map fun m => (m, [])
  | .updateRef x f r tr => (m.live x).bind fun b => (m.refs[r]?).bind fun q => (b.sizes m.heap).bind fun s =>
      if s.length = 3 then
        (m.store b (fun h i => (b.get h i).bind fun v => (refGet m.vars h q).map fun w => f v w) tr).map fun m => (m, [])
      else
        (refGet m.vars m.heap q).bind fun w => (m.store b (fun h i => (Blk.bin f b (.scalar w)).get h i) tr).map fun m => (m, [])
  | .deep y d tr => (m.live y).bind fun c => (c.sizes m.heap).bind fun s =>
      let m' : St V := { m with heap := m.heap ++ [some ⟨1, s, false, fun _ => d⟩], vars := m.vars ++ [some (.stored m.heap.length)] }
      (m'.store (.stored m.heap.length) (fun h i => c.get h i) tr).map fun m => (m, [])
  | .ref x i => (m.live x).bind fun b => (mkRef m.heap b x i).map fun q => ({ m with refs := m.refs ++ [q] }, [])
  | .rcopy r => (m.refs[r]?).map fun q => ({ m with refs := m.refs ++ [q] }, [])
  | .rget r => (m.refs[r]?).bind fun q => (refGet m.vars m.heap q).map fun v => (m, [v])
  | .rput r v => (m.refs[r]?).bind fun q => (refPut m.vars m.heap v q).map fun h => ({ m with heap := h }, [])
  | .rassign r s => (m.refs[r]?).bind fun q => (m.refs[s]?).bind fun p => (refGet m.vars m.heap p).bind fun v =>
      (refPut m.vars m.heap v q).map fun h => ({ m with heap := h }, [])

/-- a program; all numbers it reads, in order -/
def St.run (m : St V) : List (Op V) → Option (St V × List V)
  | [] => some (m, [])
  | op :: p => (m.step op).bind fun r => (r.1.run p).map fun q => (q.1, r.2 ++ q.2)

/-! ### Details of single functions -/

/-- the map of the new view when a view is constructed from a view with another block type.  `dim`: dimension; `cst`: the source is a const
view; `src`: map of its block; `dflt`: `map_type()` (vector.hpp l.174-177, 193-196; matrix.hpp l.186-188; tensor.hpp l.295-302) -/
def convMap {M : Type} (dim : Nat) (cst : Bool) (src dflt : M) : M := if dim = 1 ∧ cst = false then dflt else src

/-- whether `as_local_view<V>::type` is a const view, for a view that has to be copied (view/utils.hpp l.82-86) -/
def localConst (cst : Bool) : Bool := if cst then false else true

/-- memory offset of `view(i…)` of a dense row-major view in a build with checks; `none` if the check fails (vector.hpp l.72-76, matrix.hpp
l.79-84 check; tensor.hpp l.113-115, 332-335 do not) -/
def elemOffset : List Nat → List Nat → Option Nat
  | [n], [i] => if i < n then some i else none
  | [n, m], [i, j] => if i < n ∧ j < m then some (i * m + j) else none
  | [_, m, o], [i, j, k] => some ((i * m + j) * o + k)
  | _, _ => none

/-- the checked access `get(i…)` (vector.hpp l.65-69, matrix.hpp l.71-76, tensor.hpp l.104-110) -/
def getOffset : List Nat → List Nat → Option Nat
  | [n], [i] => if i < n then some i else none
  | [n, m], [i, j] => if i < n ∧ j < m then some (i * m + j) else none
  | [n, m, o], [i, j, k] => if i < n ∧ j < m ∧ k < o then some ((i * m + j) * o + k) else none
  | _, _ => none

end Verif.VP
