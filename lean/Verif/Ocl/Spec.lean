import Verif.Ocl.Model
/-!
What handles, information texts and accesses should do, without reference counts and without copies on the host.
-/
namespace Verif.Ocl

/-- what each variable refers to, and how many references the rest of the program has to each object -/
structure Ref where
  ext : Nat → Nat
  next : Nat
  vars : List (Option (Option Nat))

/-- number of variables that refer to object `o` -/
def holders (vars : List (Option (Option Nat))) (o : Nat) : Nat := (vars.filter fun x => x = some (some o)).length

/-- references to object `o` in all -/
def Ref.refs (r : Ref) (o : Nat) : Nat := r.ext o + holders r.vars o

/-- what a program may do: copy variables, destroy variables with a null handle, assign -/
structure Allow where
  copy : Bool
  null : Bool
  assign : Bool

/-- meaning of an operation by references alone; `none`: the program is wrong (it uses a destroyed variable, an object nobody refers to, a null handle, or gives away a reference it has not got) or not allowed -/
def sem (al : Allow) (r : Ref) : Op → Option Ref
  | .dflt => some { r with vars := r.vars ++ [some none] }
  | .adopt o true => if 0 < r.refs o then some { r with vars := r.vars ++ [some (some o)] } else none
  | .adopt o false => if 0 < r.ext o then some { r with vars := r.vars ++ [some (some o)], ext := fun x => if x = o then r.ext x - 1 else r.ext x } else none
  | .create => some { r with vars := r.vars ++ [some (some r.next)], next := r.next + 1 }
  | .copy v => match r.vars[v]? with
    | some (some h) => if al.copy then some { r with vars := r.vars ++ [some h] } else none
    | _ => none
  | .assign v w => match r.vars[v]?, r.vars[w]? with
    | some (some _), some (some b) => if al.assign then some { r with vars := r.vars.set v (some b) } else none
    | _, _ => none
  | .destroy v => match r.vars[v]? with
    | some (some h) => if h = none ∧ al.null = false then none else some { r with vars := r.vars.set v none }
    | _ => none
  | .use v => match r.vars[v]? with
    | some (some (some _)) => some r
    | _ => none
  | .rawCreate => some { r with ext := (fun x => if x = r.next then 1 else r.ext x), next := r.next + 1 }
  | .rawRetain o => if 0 < r.refs o then some { r with ext := fun x => if x = o then r.ext x + 1 else r.ext x } else none
  | .rawRelease o => if 0 < r.ext o then some { r with ext := fun x => if x = o then r.ext x - 1 else r.ext x } else none
  | .report _ => none

def sems (al : Allow) : Ref → List Op → Option Ref
  | r, [] => some r
  | r, op :: l => (sem al r op).bind fun r => sems al r l

def Ref.init : Ref := ⟨fun _ => 0, 0, []⟩

/-- the handles do what references should: every variable holds what it refers to, and an object is counted once for each reference -/
def Counts (s : St) (r : Ref) : Prop := s.vars = r.vars ∧ ∀ o, s.cnt o = r.refs o

/-- `l` are the words of the text: maximal parts without white space -/
inductive Splits : List Char → List (List Char) → Prop
  | blank (t) : (∀ c ∈ t, c.isWhitespace = true) → Splits t []
  | word (sp w rest l) : (∀ c ∈ sp, c.isWhitespace = true) → w ≠ [] → (∀ c ∈ w, c.isWhitespace = false) →
      (∀ c, rest.head? = some c → c.isWhitespace = true) → Splits rest l → Splits (sp ++ w ++ rest) (w :: l)

/-- block and device only -/
structure Two (V : Type) where
  blk : V
  dev : V

def twoStep {V : Type} (inn out : Bool) (m : Two V) : AOp V → Two V
  | .kernel g => { m with dev := g m.dev }
  | .write g => { m with blk := g m.blk }
  | .syncIn => if inn then { m with dev := m.blk } else m
  | .syncOut => if out then { m with blk := m.dev } else m

/-- the block when the access ends -/
def twoEnd {V : Type} (out : Bool) (m : Two V) : V := if out then m.dev else m.blk

def twoStart {V : Type} (inn : Bool) (blk junk : V) : Two V := ⟨blk, if inn then blk else junk⟩

def AOp.isWrite {V : Type} : AOp V → Bool
  | .write _ => true
  | _ => false

/-- offset of element `(i, j)` in a matrix with `r` rows and `c` columns in row-major or column-major order -/
def offset (row : Bool) (r c i j : Nat) : Nat := if row then i * c + j else j * r + i

end Verif.Ocl
