import Verif.Turn.Model
/-!
What a corner turn must do.
-/
namespace Verif.Turn

variable {V : Type}

/-- the source buffer of the process with rows `s * nr … s * nr + nr - 1` of the matrix `A`, which has `cols` columns -/
def IsSource (A : Nat → Nat → V) (nr cols s : Nat) (m : List V) : Prop :=
  m.length = nr * cols ∧ ∀ r c, r < nr → c < cols → m[r * cols + c]? = some (A (s * nr + r) c)

/-- the destination buffer of the process with columns `d * nc … d * nc + nc - 1`, stored by columns or by rows -/
def IsDest (A : Nat → Nat → V) (col : Bool) (rows nc d : Nat) (m : List V) : Prop :=
  m.length = rows * nc ∧ ∀ r c, r < rows → c < nc → m[if col then r + c * rows else r * nc + c]? = some (A r (d * nc + c))

/-- total number of instructions -/
def total {α : Type} (prog : Nat → List α) : Nat → Nat
  | 0 => 0
  | n + 1 => total prog n + (prog n).length

/-- However the processes `0 … np - 1` are interleaved, from start buffers `init`: they make no more steps than there are instructions; none does anything wrong; as long
as they are not all finished one of them can go on; and when all have finished the buffers are `good`. -/
def Works (np : Nat) (prog : Nat → List (Ins V)) (src init : Nat → List V) (good : (Nat → List V) → Prop) : Prop :=
  ∀ l n, run prog src ⟨fun _ => 0, init⟩ l = some n →
    l.length ≤ total prog np ∧ (∀ p, step prog src n p ≠ .bad) ∧
    ((∃ p n', step prog src n p = .next n') ∨ ((∀ p, step prog src n p = .done) ∧ good n.mem))

end Verif.Turn
