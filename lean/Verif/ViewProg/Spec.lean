import Verif.ViewProg.Model
/-!
What programs of views mean, without blocks, counts or lifetimes: arrays are never freed, a view is a table that says for each index which
element of which array it is (or which formula over elements), and an assignment computes all its values before it stores any.
-/
namespace Verif.VP
open Verif

variable {V : Type}

/-- a formula over elements of arrays -/
inductive Tm (V : Type) where
  | at (a : Nat) (i : List Nat)
  | app (f : V → V → V) (s t : Tm V)
  | num (v : V)

def Tm.eval (mem : Nat → List Nat → V) : Tm V → V
  | .at a i => mem a i
  | .app f s t => f (s.eval mem) (t.eval mem)
  | .num v => v

/-- the elements a formula reads -/
def Tm.locs : Tm V → List (Nat × List Nat)
  | .at a i => [(a, i)]
  | .app _ s t => s.locs ++ t.locs
  | .num _ => []

/-- a view: its sizes, the array it is a view of (`none` for an unevaluated expression), the arrays its elements come from, its elements -/
structure SView (V : Type) where
  sizes : List Nat
  arr : Option Nat
  uses : List Nat
  el : List Nat → Tm V

/-- the element at an index, for a view of an array -/
def SView.loc (v : SView V) (i : List Nat) : Option (Nat × List Nat) :=
  match v.el i with
  | .at a j => some (a, j)
  | _ => none

structure SSt (V : Type) where
  /-- extents of the arrays -/
  exts : List (List Nat) := []
  mem : Nat → List Nat → V
  views : List (Option (SView V)) := []
  /-- kept references: the view they were made from, the element -/
  refs : List (Nat × Nat × List Nat) := []

/-- conditions on programs beyond what the meaning of the statements needs -/
structure Checks where
  /-- no statement reads an element at one index after having stored it at another -/
  overlap : Bool
  /-- an unevaluated expression is read only while there are views of all its arrays; a reference is used only while the view it was
  made from exists -/
  life : Bool

def SSt.live (s : SSt V) (x : Nat) : Option (SView V) := s.views.getD x none

/-- some view of the array exists -/
def SSt.alive (s : SSt V) (a : Nat) : Bool := s.views.any fun o => match o with
  | some v => v.arr == some a
  | none => false

/-- set one element -/
def upd (mem : Nat → List Nat → V) (a : Nat) (i : List Nat) (v : V) : Nat → List Nat → V :=
  fun b j => if b = a ∧ j = i then v else mem b j

/-- for all indices of the list at once: the element `loc i` becomes `val i` -/
def assignMem (mem : Nat → List Nat → V) (l : List (List Nat)) (loc : List Nat → Option (Nat × List Nat)) (val : List Nat → V) :
    Nat → List Nat → V :=
  fun a j => match l.find? (fun i => loc i == some (a, j)) with
  | some i => val i
  | none => mem a j

/-- storing at one index does not disturb what is read for another -/
def undisturbed (l : List (List Nat)) (loc : List Nat → Option (Nat × List Nat)) (t : List Nat → Tm V) : Bool :=
  l.all fun i => l.all fun j => i == j || (t j).locs.all fun p => loc i != some p

/-- the view `v` becomes, at every index, the value of `t`; `rd` are the formulas that are read while storing -/
def SSt.store (ck : Checks) (s : SSt V) (v : SView V) (t rd : List Nat → Tm V) (tr : List (List Nat)) : Option (SSt V) :=
  if v.arr.isSome && tr.isPerm (indices v.sizes) && decide ((indices v.sizes).map v.loc).Nodup
      && (!ck.overlap || undisturbed (indices v.sizes) v.loc rd) then
    some { s with mem := assignMem s.mem (indices v.sizes) v.loc fun i => (t i).eval s.mem }
  else none

/-- a view may be read -/
def SSt.readable (ck : Checks) (s : SSt V) (v : SView V) : Bool := !ck.life || v.uses.all s.alive

/-- a reference may be used -/
def SSt.usable (ck : Checks) (s : SSt V) (x : Nat) : Bool := !ck.life || (s.live x).isSome

def SSt.step (ck : Checks) (s : SSt V) : Op V → Option (SSt V × List V)
  | .new ext _ v => some ({ s with
      exts := s.exts ++ [ext]
      mem := fun a i => if a = s.exts.length then v else s.mem a i
      views := s.views ++ [some ⟨ext, some s.exts.length, [s.exts.length], fun i => .at s.exts.length i⟩] }, [])
  | .copy x => (s.live x).map fun v => ({ s with views := s.views ++ [some v] }, [])
  | .sub x l => (s.live x).bind fun v =>
      if (indices (l.sizes v.sizes)).all fun i => inR v.sizes (l.toParent i) then
        some ({ s with views := s.views ++ [some ⟨l.sizes v.sizes, v.arr, v.uses, fun i => v.el (l.toParent i)⟩] }, [])
      else none
  | .expr f x y => (s.live x).bind fun v => (s.live y).bind fun w =>
      if v.sizes = w.sizes then
        some ({ s with views := s.views ++ [some ⟨v.sizes, none, v.uses ++ w.uses, fun i => .app f (v.el i) (w.el i)⟩] }, [])
      else none
  | .destroy x => (s.live x).map fun _ => ({ s with views := s.views.set x none }, [])
  | .put x i val => (s.live x).bind fun v => (v.loc i).bind fun p =>
      if inR v.sizes i && v.arr.isSome then some ({ s with mem := upd s.mem p.1 p.2 val }, []) else none
  | .get x i => (s.live x).bind fun v => if inR v.sizes i && s.readable ck v then some (s, [(v.el i).eval s.mem]) else none
  | .assign x y tr => (s.live x).bind fun v => (s.live y).bind fun w =>
      if v.sizes = w.sizes ∧ s.readable ck w then (s.store ck v w.el w.el tr).map fun s => (s, []) else none
  | .fill x val tr => (s.live x).bind fun v => (s.store ck v (fun _ => .num val) (fun _ => .num val) tr).map fun s => (s, [])
  | .update x f y tr => (s.live x).bind fun v => (s.live y).bind fun w =>
      if v.sizes = w.sizes ∧ s.readable ck w then
        (s.store ck v (fun i => .app f (v.el i) (w.el i)) (fun i => .app f (v.el i) (w.el i)) tr).map fun s => (s, [])
      else none
  | .updateVal x f val tr => (s.live x).bind fun v =>
      (s.store ck v (fun i => .app f (v.el i) (.num val)) (fun i => .app f (v.el i) (.num val)) tr).map fun s => (s, [])
  | .updateRef x f r tr => (s.live x).bind fun v => (s.refs[r]?).bind fun q =>
      if s.usable ck q.1 then
        (s.store ck v (fun i => .app f (v.el i) (.num (s.mem q.2.1 q.2.2)))
          (fun i => if v.sizes.length = 3 then .app f (v.el i) (.at q.2.1 q.2.2) else v.el i) tr).map fun s => (s, [])
      else none
  | .deep y d tr => (s.live y).bind fun w =>
      if s.readable ck w && tr.isPerm (indices w.sizes) then
        some ({ s with
          exts := s.exts ++ [w.sizes]
          mem := fun a i => if a = s.exts.length then (if inR w.sizes i then (w.el i).eval s.mem else d) else s.mem a i
          views := s.views ++ [some ⟨w.sizes, some s.exts.length, [s.exts.length], fun i => .at s.exts.length i⟩] }, [])
      else none
  | .ref x i => (s.live x).bind fun v => (v.loc i).bind fun p =>
      if inR v.sizes i && v.arr.isSome then some ({ s with refs := s.refs ++ [(x, p)] }, []) else none
  | .rcopy r => (s.refs[r]?).map fun q => ({ s with refs := s.refs ++ [q] }, [])
  | .rget r => (s.refs[r]?).bind fun q => if s.usable ck q.1 then some (s, [s.mem q.2.1 q.2.2]) else none
  | .rput r v => (s.refs[r]?).bind fun q => if s.usable ck q.1 then some ({ s with mem := upd s.mem q.2.1 q.2.2 v }, []) else none
  | .rassign r t => (s.refs[r]?).bind fun q => (s.refs[t]?).bind fun p =>
      if s.usable ck q.1 ∧ s.usable ck p.1 then some ({ s with mem := upd s.mem q.2.1 q.2.2 (s.mem p.2.1 p.2.2) }, []) else none

def SSt.run (ck : Checks) (s : SSt V) : List (Op V) → Option (SSt V × List V)
  | [] => some (s, [])
  | op :: p => (s.step ck op).bind fun r => (r.1.run ck p).map fun q => (q.1, r.2 ++ q.2)

end Verif.VP
