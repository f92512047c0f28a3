import Verif.UserElt.Spec
import Verif.Reduce.Model
/-!
Model of `/repo/src/vsip/impl/fns_userelt.hpp` (`unary`, `binary`, `ternary` with user-supplied functions), of the types that
`/repo/src/ovxx/view/operators.hpp` l.25-59 and `view/functors.hpp` l.68-98 give to their results, and of `sumval`
(`/repo/src/vsip/impl/reductions/reductions.hpp` l.48-54, `ovxx/reductions/reductions.hpp` l.196-270) on such results.
A call that does not compile is `none`.  Only the element types `Ty` are modelled; sizes of the arguments of `binary` and `ternary` are
not compared, as in the code.
-/
namespace Verif.Ue

/-- what is passed as the function: a function pointer; an object with `result_type` and `argument_type`s (`std::unary_function`, the
result of `std::ptr_fun`); any other object with `operator()` -/
inductive Kind | ptr | adaptable | object
  deriving DecidableEq

/-- A user function: its declared parameters and result (of `operator()` for objects). -/
structure Fn where
  kind : Kind
  args : List Ty
  res : Ty
  body : List ℚ → ℚ

/-- calling it -/
def Fn.call (f : Fn) (xs : List ℚ) : ℚ := callValue f.args f.res f.body xs

/-- A view `V<nom, B>`: its second template argument is a block with `B::value_type = blk`.  `ro` says whether `V` is the read-only view
(`const_Vector`) or the writable one (`Vector`): the two are different templates. -/
structure Vw where
  nom : Ty
  blk : Ty
  ro : Bool
  size : Nat
  get : Nat → ℚ

/-- the specialisation of `unary_traits`, `binary_traits`, `ternary_traits` (l.26-134) -/
inductive Traits | primary | adaptable | pointer
  deriving DecidableEq

/-- `unary_traits<R, F>` l.26-62 and `binary_traits<R, F>` l.64-100: which specialisation is taken. -/
def traits12 (R : Ty) (f : Fn) : Traits :=
  match f.kind with
  | .ptr => if f.res = R then .pointer else .primary
  | .adaptable => if f.res = R then .adaptable else .primary
  | .object => .primary

/-- `ternary_traits<R, F>` l.102-134 has no specialisation for adaptable objects. -/
def traits3 (R : Ty) (f : Fn) : Traits :=
  match f.kind with
  | .ptr => if f.res = R then .pointer else .primary
  | _ => .primary

/-- `result_type` of `Type<…>`: `R` l.30, 68, 111, `F::result_type` l.44, 82, `R` of the pointer l.58, 96, 128. -/
def Traits.res (t : Traits) (R : Ty) (f : Fn) : Ty :=
  match t with
  | .primary => R
  | .adaptable => f.res
  | .pointer => f.res

/-- `operator()` of `Type<A…>` where `As` are the template arguments (element types of the blocks). -/
def Traits.apply (t : Traits) (R : Ty) (f : Fn) (As : List Ty) (xs : List ℚ) : ℚ :=
  match t with
  | .primary => into R (f.call (List.zipWith into As xs))
  | .adaptable => into f.res (f.call (List.zipWith into f.args xs))
  | .pointer => f.call xs

/-- the overload that is called: l.193-206 / 242-251 / 279-302 with an explicit result type, l.208-223 / 253-263 / 304-333 for pointers,
l.225-240 / 265-277 for adaptable objects -/
inductive Overload | explicit | pointer | adaptable
  deriving DecidableEq

/-- Overload resolution for `unary` and `binary`: `R` is the explicit template argument if there is one, `ts` are the nominal element types
of the views.  Without an explicit type the parameters of a pointer are deduced, so they have to be exactly `ts`; where both the first and the
second overload fit the second is more specialised. -/
def overload12 (R : Option Ty) (f : Fn) (ts : List Ty) : Option Overload :=
  match R, f.kind with
  | none, .ptr => if f.args = ts then some .pointer else none
  | none, .adaptable => some .adaptable
  | none, .object => none
  | some R, .ptr => if f.args = ts ∧ f.res = R then some .pointer else some .explicit
  | some _, _ => some .explicit

/-- Overload resolution for `ternary`, which has no overload for adaptable objects. -/
def overload3 (R : Option Ty) (f : Fn) (ts : List Ty) : Option Overload :=
  match R, f.kind with
  | none, .ptr => if f.args = ts then some .pointer else none
  | none, _ => none
  | some R, .ptr => if f.args = ts ∧ f.res = R then some .pointer else some .explicit
  | some _, _ => some .explicit

/-- the `R` of the traits: the explicit one or that of the function -/
def resTy (o : Overload) (R : Option Ty) (f : Fn) : Ty :=
  match o with
  | .explicit => R.getD f.res
  | _ => f.res

/-- `unary(f, v)` and `unary<R>(f, v)`, l.193-240.  The function object has type `Type<T>` with the nominal type `T` of the view, the block wants
a `Type<Block::value_type>` (`ovxx/expr/unary.hpp` l.41-54), and there is no conversion between two of these types.  The overload for
adaptable objects passes `std::ptr_fun(f)` (l.239), which exists for pointers only.  The result has the nominal type of the argument
(`operators.hpp` l.30-32). -/
def unary (R : Option Ty) (f : Fn) (v : Vw) : Option Vw :=
  if f.args.length = 1 then
    match overload12 R f [v.nom] with
    | none => none
    | some .adaptable => none
    | some o =>
      if v.nom = v.blk then
        some ⟨v.nom, (traits12 (resTy o R f) f).res (resTy o R f) f, true, v.size,
          fun i => (traits12 (resTy o R f) f).apply (resTy o R f) f [v.blk] [v.get i]⟩
      else none
  else none

/-- `binary(f, v, w)` and `binary<R>(f, v, w)`, l.155-172 and 242-277.  Both views are of the same template.  `operator_type` is built from the types of
the blocks. -/
def binary (R : Option Ty) (f : Fn) (v w : Vw) : Option Vw :=
  if f.args.length = 2 then
    if v.ro = w.ro then
      match overload12 R f [v.nom, w.nom] with
      | none => none
      | some o => some ⟨(traits12 (resTy o R f) f).res (resTy o R f) f, (traits12 (resTy o R f) f).res (resTy o R f) f, true, v.size,
          fun i => (traits12 (resTy o R f) f).apply (resTy o R f) f [v.blk, w.blk] [v.get i, w.get i]⟩
    else none
  else none

/-- `ternary(f, u, v, w)` and `ternary<R>(f, u, v, w)`, l.279-333; the function object has the nominal types, the block the types of the blocks
(`ovxx/expr/ternary.hpp` l.65-68). -/
def ternary (R : Option Ty) (f : Fn) (u v w : Vw) : Option Vw :=
  if f.args.length = 3 then
    if u.ro = v.ro ∧ v.ro = w.ro then
      match overload3 R f [u.nom, v.nom, w.nom] with
      | none => none
      | some o =>
        if [u.nom, v.nom, w.nom] = [u.blk, v.blk, w.blk] then
          some ⟨(traits3 (resTy o R f) f).res (resTy o R f) f, (traits3 (resTy o R f) f).res (resTy o R f) f, true, u.size,
            fun i => (traits3 (resTy o R f) f).apply (resTy o R f) f [u.blk, v.blk, w.blk] [u.get i, v.get i, w.get i]⟩
        else none
    else none
  else none

/-- `sumval(V<T, B>)`: `reduce` accumulates in the element type of the block (`ovxx/reductions/reductions.hpp` l.254-270), `sumval` returns
`Sum_value<T>::result_type`, which is the nominal type (`vsip/impl/reductions/reductions.hpp` l.48-54). -/
def sumval (v : Vw) : Option ℚ :=
  (Red.reduce1 (Red.sum (into v.blk)) ⟨[v.size], fun i => v.get (i.headD 0)⟩).map (into v.nom)

/-- `Vector<t> r = v`: element `i` of a new vector of type `t` that is initialised from the view. -/
def assigned (t : Ty) (v : Vw) (i : Nat) : ℚ := into t (v.get i)

/-- a vector in memory: nominal type and element type agree -/
def vec (t : Ty) (n : Nat) (g : Nat → ℚ) : Vw := ⟨t, t, false, n, fun i => into t (g i)⟩

end Verif.Ue
