import Mathlib.Data.Nat.Notation
import Mathlib.Data.Int.Notation
import Mathlib.Data.List.Nodup
/-!
What groups, communicators and tasks are supposed to be, without the classes.
-/
namespace Verif.Mpi

/-- `rs` are different ranks of a group of `n` processes -/
def Ranks (n : Nat) (rs : List Int) : Prop := rs.Nodup ∧ ∀ r ∈ rs, 0 ≤ r ∧ r < (n : Int)

instance (n : Nat) (rs : List Int) : Decidable (Ranks n rs) := by unfold Ranks; infer_instance

/-- the processes of `l` with ranks `rs`, in the order of `rs` -/
def Chosen (l : List Nat) (rs : List Int) (r : List Nat) : Prop :=
  r.length = rs.length ∧ ∀ (i : Nat) (k : Int), rs[i]? = some k → r[i]? = l[k.toNat]?

/-- the processes of `l` whose ranks are not in `rs`, in the order of `l` -/
def Others (l : List Nat) (rs : List Int) (r : List Nat) : Prop :=
  r.Sublist l ∧ ∀ (k p : Nat), l[k]? = some p → (p ∈ r ↔ (k : Int) ∉ rs)

/-- `r` are the processes of `l` with property `P`, in the order of `l` -/
def Part (l : List Nat) (P : Nat → Prop) (r : List Nat) : Prop := r.Sublist l ∧ ∀ p, p ∈ r ↔ p ∈ l ∧ P p

/-- a way to obtain a group; `gen`: with iterators other than `int *` -/
inductive GExpr where
  /-- all processes -/
  | all
  | incl (gen : Bool) (e : GExpr) (rs : List Int)
  | excl (gen : Bool) (e : GExpr) (rs : List Int)
  | union (a b : GExpr)
  | inter (a b : GExpr)
  | diff (a b : GExpr)

/-- the expression denotes the processes `l` in this order, with `n` processes in all -/
inductive Denotes (n : Nat) : GExpr → List Nat → Prop where
  | all : Denotes n .all (List.range n)
  | incl {gen : Bool} {e : GExpr} {rs : List Int} {l r : List Nat} : Denotes n e l → Ranks l.length rs → Chosen l rs r → Denotes n (.incl gen e rs) r
  | excl {gen : Bool} {e : GExpr} {rs : List Int} {l r : List Nat} : Denotes n e l → Ranks l.length rs → Others l rs r → Denotes n (.excl gen e rs) r
  | union {a b : GExpr} {l m r : List Nat} : Denotes n a l → Denotes n b m → Part m (· ∉ l) r → Denotes n (.union a b) (l ++ r)
  | inter {a b : GExpr} {l m r : List Nat} : Denotes n a l → Denotes n b m → Part l (· ∈ m) r → Denotes n (.inter a b) r
  | diff {a b : GExpr} {l m r : List Nat} : Denotes n a l → Denotes n b m → Part l (· ∉ m) r → Denotes n (.diff a b) r

/-- which processes of the present ones work on a task: those with these ranks, or all others -/
inductive Sel where
  | these (rs : List Int)
  | others (rs : List Int)
  deriving DecidableEq

/-- a program of nested tasks, the same in all processes -/
inductive Prog where
  | skip
  | seq (a b : Prog)
  /-- a collective call through the default communicator; `k` says which -/
  | call (k : Nat)
  /-- a task (task.cpp l.51-78) around `b` -/
  | task (s : Sel) (b : Prog)
  /-- `if (default_communicator()) b` (task.cpp l.66) -/
  | guarded (b : Prog)
  deriving DecidableEq

/-- the processes selected -/
def sel (l : List Nat) : Sel → List Nat
  | .these rs => rs.filterMap fun r => l[r.toNat]?
  | .others rs => (l.zipIdx.filter fun x => ¬(x.2 : Int) ∈ rs).map (·.1)

/-- what process `me` has to do of the program begun by the processes `l`: the calls and the processes that take part in each -/
def calls (me : Nat) : List Nat → Prog → List (Nat × List Nat)
  | _, .skip => []
  | l, .seq a b => calls me l a ++ calls me l b
  | l, .call k => [(k, l)]
  | l, .task s b => if me ∈ sel l s then calls me (sel l s) b else []
  | l, .guarded b => calls me l b

/-- the program can be run by `n` processes: ranks are different and in range, and the body of a task makes calls or opens tasks only behind a test; `null`: the default communicator may be null here -/
def Sound : Bool → Nat → Prog → Prop
  | _, _, .skip => True
  | c, n, .seq a b => Sound c n a ∧ Sound c n b
  | c, _, .call _ => c = false
  | c, n, .task s b => c = false ∧ match s with
    | .these rs => Ranks n rs ∧ Sound true rs.length b
    | .others rs => Ranks n rs ∧ Sound true (n - rs.length) b
  | _, n, .guarded b => Sound false n b

instance decSound : (c : Bool) → (n : Nat) → (p : Prog) → Decidable (Sound c n p)
  | _, _, .skip => isTrue trivial
  | c, n, .seq a b => @instDecidableAnd _ _ (decSound c n a) (decSound c n b)
  | c, _, .call _ => inferInstanceAs (Decidable (c = false))
  | c, n, .task (.these rs) b => @instDecidableAnd _ _ (inferInstanceAs (Decidable (c = false))) (@instDecidableAnd _ _ inferInstance (decSound true rs.length b))
  | c, n, .task (.others rs) b => @instDecidableAnd _ _ (inferInstanceAs (Decidable (c = false))) (@instDecidableAnd _ _ inferInstance (decSound true (n - rs.length) b))
  | _, n, .guarded b => decSound false n b

/-! ### Collective calls of all processes together -/

section
variable {E : Type}

/-- `T p` are the calls process `p` still has to make, each with the processes it needs.  A call takes place when it is the next one of all processes it needs -/
inductive Fire (mem : E → List Nat) : (Nat → List E) → (Nat → List E) → Prop where
  | mk {T T' : Nat → List E} (e : E) (ne : mem e ≠ []) (hd : ∀ p ∈ mem e, ∃ l, T p = e :: l) (tl : ∀ p, T' p = if p ∈ mem e then (T p).tail else T p) : Fire mem T T'

/-- states that calls can lead to -/
inductive Reach (mem : E → List Nat) (T : Nat → List E) : (Nat → List E) → Prop where
  | refl : Reach mem T T
  | step {U V : Nat → List E} : Reach mem T U → Fire mem U V → Reach mem T V

/-- nobody ever waits for ever: whatever has happened, all calls are made or one can take place -/
def NoDeadlock (mem : E → List Nat) (T : Nat → List E) : Prop := ∀ U, Reach mem T U → (∀ p, U p = []) ∨ ∃ V, Fire mem U V

end

end Verif.Mpi
