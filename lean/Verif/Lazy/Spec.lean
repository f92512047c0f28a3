import Verif.Lazy.Model
/-! What expressions mean, without caches. -/
namespace Verif.Lz
variable {A V : Type}

/-- the value of element `i` on memory `m` -/
def den (m : A → V) : E A V → Nat → V
  | .leaf a, i => m (a i)
  | .scalar v, _ => v
  | .un _ f x, i => f (den m x i)
  | .bin _ f x y, i => f (den m x i) (den m y i)
  | .view _ g x, i => den m x (g i)
  | .other g x, i => den m x (g i)
  | .op _ F x _, i => F (den m x) i
  | .op2 _ F x y _, i => F (den m x) (den m y) i

/-- nothing has been evaluated yet -/
def Fresh : E A V → Prop
  | .leaf _ | .scalar _ => True
  | .un _ _ x | .view _ _ x | .other _ x => Fresh x
  | .bin _ _ x y => Fresh x ∧ Fresh y
  | .op _ _ x c => c = none ∧ Fresh x
  | .op2 _ _ x y c => c = none ∧ Fresh x ∧ Fresh y

/-- the number of operations in the expression -/
def ops : E A V → Nat
  | .leaf _ | .scalar _ => 0
  | .un _ _ x | .view _ _ x | .other _ x => ops x
  | .bin _ _ x y => ops x + ops y
  | .op _ _ x _ => 1 + ops x
  | .op2 _ _ x y _ => 1 + (ops x + ops y)

/-- what element `i` reads from memory outside the arguments of operations -/
def touches : E A V → Nat → List A
  | .leaf a, i => [a i]
  | .scalar _, _ => []
  | .un _ _ x, i => touches x i
  | .bin _ _ x y, i => touches x i ++ touches y i
  | .view _ g x, i => touches x (g i)
  | .other g x, i => touches x (g i)
  | .op .., _ | .op2 .., _ => []

/-- operations with a result have read their arguments -/
def Coherent : E A V → Prop
  | .leaf _ | .scalar _ => True
  | .un _ _ x | .view _ _ x | .other _ x => Coherent x
  | .bin _ _ x y => Coherent x ∧ Coherent y
  | .op _ _ x c => (c ≠ none → cost x = 0) ∧ Coherent x
  | .op2 _ _ x y c => (c ≠ none → cost x = 0 ∧ cost y = 0) ∧ Coherent x ∧ Coherent y

/-- every operation that is not below another one has its result -/
def Ready : E A V → Prop
  | .leaf _ | .scalar _ => True
  | .un _ _ x | .view _ _ x | .other _ x => Ready x
  | .bin _ _ x y => Ready x ∧ Ready y
  | .op _ _ _ c | .op2 _ _ _ _ c => c ≠ none

/-- what the traversal comes to: an operation that is the block itself or an argument; below that, arguments of blocks whose types are
not `const` and that it knows -/
def Reached : E A V → Prop
  | .leaf _ | .scalar _ | .op .. | .op2 .. => True
  | .other _ x => Ready x
  | .un _ _ x | .view _ _ x => if x.const then (∃ k F y c, x = .op k F y c) ∨ (∃ k F y z c, x = .op2 k F y z c) ∨ Ready x else Reached x
  | .bin _ _ x y =>
    (if x.const then (∃ k F y c, x = .op k F y c) ∨ (∃ k F y z c, x = .op2 k F y z c) ∨ Ready x else Reached x) ∧
    (if y.const then (∃ k F z c, y = .op k F z c) ∨ (∃ k F z w c, y = .op2 k F z w c) ∨ Ready y else Reached y)

/-- nothing is written before it is read element by element, and nothing is written twice -/
def Safe (lhs : Nat → A) (e : E A V) (l : List Nat) : Prop :=
  l.Pairwise (fun j i => lhs j ∉ touches e i ∧ lhs j ≠ lhs i)

end Verif.Lz
