import Verif.Domain.Model
/-!
Small vocabulary types of /repo/src/ovxx: `vertex.hpp`, `length.hpp`, `order_traits.hpp`, `is_same_ptr.hpp`, `detail/endian.hpp`.
-/
namespace Verif.Voc
open Verif

/-! ## Vertices and lengths; `Vertex<T, D>` is the list of its `D` coordinates, `D` from 1 to 3 -/

/-- what indexing gives: a value, a failed assertion, or an access after the end of the array -/
inductive Ans (T : Type) where
  | val (x : T)
  | stop
  | bad
deriving DecidableEq

/-- `operator[]` (vertex.hpp l.25-26 for one coordinate, which ignores its argument; l.72-86, 97-111 for others); `chk`: assertions are on -/
def Vertex.at {T : Type} (chk : Bool) (v : List T) (d : Nat) : Ans T :=
  match v with
  | [x] => .val x
  | _ => match v[d]? with
    | some x => .val x
    | none => if chk then .stop else .bad

/-- `operator==` (vertex.hpp l.113-155) -/
def Vertex.eq {T : Type} [BEq T] : List T → List T → Bool
  | [a], [x] => a == x
  | [a, b], [x, y] => a == x && b == y
  | [a, b, c], [x, y, z] => a == x && b == y && c == z
  | _, _ => false

/-- `operator!=` -/
def Vertex.ne {T : Type} [BEq T] (a b : List T) : Bool := !Vertex.eq a b

/-- the default constructors (vertex.hpp l.22, 37, 52) -/
def Vertex.default (D : Nat) : List Nat := List.replicate D 0

/-- `extent` (length.hpp l.43-51), `size` being `block.size` -/
def extent (D : Nat) (size : Nat → Nat → Nat) : List Nat :=
  (List.range D).foldl (fun l d => l.set d (size D d)) (Vertex.default D)

/-- `total_size` (length.hpp l.54-62): `size *= len[d]` as `size_t` -/
def totalSize : List Nat → Nat
  | [] => 0
  | n :: ns => ns.foldl (fun s l => s * l % W₆₄) n

/-! ## Orders -/

/-- `dim_of<tuple<D0, D1, D2>, D>` (order_traits.hpp l.17-36) -/
def dimOf (o : Nat × Nat × Nat) : Nat → Option Nat
  | 0 => some o.1
  | 1 => some o.2.1
  | 2 => some o.2.2
  | _ => none

/-- `is_order_valid` (order_traits.hpp l.38-60); `row1_type` and `row2_type` are `tuple<0, 1, 2>`, `col2_type` is `tuple<1, 0, 2>` (vsip/support.hpp l.125-131) -/
def orderValid (D : Nat) (o : Nat × Nat × Nat) : Bool :=
  match D with
  | 1 => o == (0, 1, 2)
  | 2 => o == (0, 1, 2) || o == (1, 0, 2)
  | 3 => o == (0, 1, 2) || o == (0, 2, 1) || o == (1, 0, 2) || o == (1, 2, 0) || o == (2, 0, 1) || o == (2, 1, 0)
  | _ => false

/-! ## Pointers -/

/-- a pointer: the type it points to, is that `const`, the address -/
structure Ptr where
  ty : Nat
  isConst : Bool
  addr : Nat

/-- `is_same_ptr` for pointers (is_same_ptr.hpp l.16-37): `const` is added to both types, then other types never compare equal -/
def samePtr (p q : Ptr) : Bool := if p.ty = q.ty then p.addr == q.addr else false

/-- `is_same_ptr` for pairs (is_same_ptr.hpp l.39-47) -/
def samePair (p q : Ptr × Ptr) : Bool := samePtr p.1 q.1 && samePtr p.2 q.2

/-! ## Byte order -/

inductive Order where
  | little
  | big
  | pdp
deriving DecidableEq

/-- how the header finds the byte order: from `<endian.h>`, from the BSDs' header, or from macros that name the processor -/
inductive Via where
  | glibc
  | bsd
  | cpu
deriving DecidableEq

/-- the macro that ends up defined, as nothing (endian.hpp l.11-62); `none`: `#error`.  Middle-endian processors have no macro in the last list. -/
def marker (v : Via) (o : Order) : Option Order :=
  match v, o with
  | .cpu, .pdp => none
  | _, o => some o

/-- the value of `#if M` when `M` is not defined (0), or defined as nothing: `#if` without an expression is an error -/
def hashIf (defined : Bool) : Option Bool := if defined then none else some false

/-- `is_big_endian` (endian.hpp l.64-72); `none`: the header does not compile -/
def isBigEndian (v : Via) (o : Order) : Option Bool := (marker v o).bind fun m => hashIf (m == .big)

end Verif.Voc
