import Verif.Distributed.Net
import Mathlib.Tactic.ByContra
import Mathlib.Data.Nat.Find
import Mathlib.Tactic.Push
/-!
Programs of several communicating statements.

The processes of a communicator run the same sequence of statements (`/repo/src/ovxx/parallel/assign.hpp` l.24-97,
`/repo/src/ovxx/parallel/expr.hpp` l.308-343); no statement ends with a barrier, so a fast process may already send the messages of a
later statement while a slow one still works on an earlier one.  All messages carry the same tag, and each process has a single channel
to each other process (`/repo/src/ovxx/mpi/communicator.hpp`, see `Verif.Distributed.Net`).

Every process has one memory per array.  An action of a communicating statement reads the array `src` and writes the array `dst`;
a local statement changes the process's memory by a function.  Each action and each message carries the number of its statement,
which no rule looks at (it is there for the proofs): a receive takes the first message of the channel, whichever statement sent it.
-/
set_option linter.unusedSectionVars false
namespace Verif.Spmd
open Verif.Par

variable {A V : Type} [DecidableEq A]

/-- memory of one process -/
abbrev Mem (A V : Type) := A → Int → V

inductive MAct (A V : Type) where
  | net (dst src : A) (a : Act)
  | loc (f : Mem A V → Mem A V)

/-- state of the processes: actions left, messages under way, memories -/
structure MSt (A V : Type) where
  todo : Nat → List (Nat × MAct A V)
  chan : Nat → Nat → List (Nat × List V)
  mem : Nat → Mem A V

/-- one step of process `p`.  As in `Par.Step`, `MPI_Wait` may or may not wait until the messages have been taken. -/
inductive MStep (eager : Bool) (s : MSt A V) (p : Nat) : MSt A V → Prop
  | send (j : Nat) (d r : A) (q : Nat) (offs : List Int) (as : List (Nat × MAct A V)) (h : s.todo p = (j, .net d r (.send q offs)) :: as) :
      MStep eager s p
        { todo := Function.update s.todo p as
          chan := Function.update s.chan p (Function.update (s.chan p) q (s.chan p q ++ [(j, offs.map (s.mem p r))]))
          mem := s.mem }
  | copy (j : Nat) (d r : A) (src dst : List Int) (as : List (Nat × MAct A V)) (h : s.todo p = (j, .net d r (.copy src dst)) :: as) :
      MStep eager s p
        { s with
          todo := Function.update s.todo p as
          mem := Function.update s.mem p (Function.update (s.mem p) d (scatter (s.mem p d) dst (src.map (s.mem p r)))) }
  | recv (j : Nat) (d r : A) (q : Nat) (offs : List Int) (as : List (Nat × MAct A V)) (t : Nat) (vals : List V) (vs : List (Nat × List V))
      (h : s.todo p = (j, .net d r (.recv q offs)) :: as) (hc : s.chan q p = (t, vals) :: vs) (hl : vals.length ≤ offs.length) :
      MStep eager s p
        { todo := Function.update s.todo p as
          chan := Function.update s.chan q (Function.update (s.chan q) p vs)
          mem := Function.update s.mem p (Function.update (s.mem p) d (scatter (s.mem p d) offs vals)) }
  | wait (j : Nat) (d r : A) (as : List (Nat × MAct A V)) (h : s.todo p = (j, .net d r .wait) :: as)
      (hd : eager = true ∨ ∀ q, s.chan p q = []) :
      MStep eager s p { s with todo := Function.update s.todo p as }
  | loc (j : Nat) (f : Mem A V → Mem A V) (as : List (Nat × MAct A V)) (h : s.todo p = (j, .loc f) :: as) :
      MStep eager s p
        { s with
          todo := Function.update s.todo p as
          mem := Function.update s.mem p (f (s.mem p)) }

/-- states reached by any interleaving of the processes of the communicator -/
inductive MReach (eager : Bool) (P : List Nat) (s0 : MSt A V) : MSt A V → Prop
  | refl : MReach eager P s0 s0
  | step {s s' : MSt A V} {p : Nat} (h : MReach eager P s0 s) (hp : p ∈ P) (hs : MStep eager s p s') : MReach eager P s0 s'

def MSt.final (P : List Nat) (s : MSt A V) : Prop := ∀ p ∈ P, s.todo p = []

/-- a statement as run by every process: a communicating one, or a local one -/
inductive Stage (A V : Type) where
  | net (dst src : A) (prog : Nat → List Act)
  | loc (f : Nat → Mem A V → Mem A V)

/-- the actions of process `p` -/
def Stage.acts (P : List Nat) : Stage A V → Nat → List (MAct A V)
  | .net d r prog, p => if p ∈ P then (prog p).map (.net d r) else []
  | .loc f, p => if p ∈ P then [.loc (f p)] else []

/-- the whole program of process `p`: the statements one after the other, numbered from `k` -/
def tagged (P : List Nat) (p : Nat) : Nat → List (Stage A V) → List (Nat × MAct A V)
  | _, [] => []
  | k, st :: sts => (st.acts P p).map (fun a => (k, a)) ++ tagged P p (k + 1) sts

/-- all processes at their beginning -/
def MSt.init (P : List Nat) (sts : List (Stage A V)) (mem : Nat → Mem A V) : MSt A V :=
  ⟨fun p => tagged P p 0 sts, fun _ _ => [], mem⟩

/-! ### Effect of the statements run one after the other -/

/-- the program of a statement as far as the communicator is concerned -/
def inside (P : List Nat) (prog : Nat → List Act) (p : Nat) : List Act := if p ∈ P then prog p else []

/-- effect of one statement when all messages arrive -/
def Stage.effect (P : List Nat) : Stage A V → (Nat → Mem A V) → (Nat → Mem A V)
  | .net d r prog, M => fun p => Function.update (M p) d
      (run (M p r) (fun q => (sendsTo p (inside P prog q)).map fun o => o.map (M q r)) (M p d) (inside P prog p))
  | .loc f, M => fun p => if p ∈ P then f p (M p) else M p

/-- effect of the statements in order -/
def effects (P : List Nat) (sts : List (Stage A V)) (M : Nat → Mem A V) : Nat → Mem A V :=
  sts.foldl (fun M st => st.effect P M) M

/-- a communicating statement whose messages match: every process sends, copies, receives and waits in this order, the messages for
each process are those it expects from the sender, no longer than it expects; source and destination are different arrays -/
def Stage.Good (P : List Nat) : Stage A V → Prop
  | .net d r prog => d ≠ r ∧ (∀ p, (prog p).Pairwise fun a b => a.phase ≤ b.phase) ∧
      ∀ p q, List.Forall₂ (fun (o v : List Int) => v.length ≤ o.length) (recvsFrom p (inside P prog q)) (sendsTo q (inside P prog p))
  | .loc _ => True

/-! ### Proof machinery -/

def MAct.phase : MAct A V → Nat
  | .net _ _ a => a.phase
  | .loc _ => 0

/-- the memories before each statement -/
def before (P : List Nat) (sts : List (Stage A V)) (M : Nat → Mem A V) (j : Nat) : Nat → Mem A V := effects P (sts.take j) M

theorem before_succ {P : List Nat} {sts : List (Stage A V)} {M : Nat → Mem A V} {j : Nat} {st : Stage A V} (h : sts[j]? = some st) :
    before P sts M (j + 1) = st.effect P (before P sts M j) := by
  unfold before effects
  rw [List.take_add_one, h, List.foldl_append]
  rfl

/-- the messages that remain to be sent from `r` to `p`, when `r`'s memory before statement `j` is `M j r` -/
def fut (M : Nat → Nat → Mem A V) (p r : Nat) : List (Nat × MAct A V) → List (Nat × List V)
  | [] => []
  | (j, .net _ a (.send q o)) :: as => if q = p then (j, o.map (M j r a)) :: fut M p r as else fut M p r as
  | _ :: as => fut M p r as

def recvsT (p : Nat) : List (Nat × MAct A V) → List (Nat × List Int)
  | [] => []
  | (j, .net _ _ (.recv q o)) :: as => if q = p then (j, o) :: recvsT p as else recvsT p as
  | _ :: as => recvsT p as

def inb (M : Nat → Nat → Mem A V) (s : MSt A V) (p r : Nat) : List (Nat × List V) := s.chan r p ++ fut M p r (s.todo r)

/-- the messages of statement `j` -/
def ofTag (j : Nat) (l : List (Nat × List V)) : List (List V) := (l.filter fun m => m.1 = j).map Prod.snd

/-- process `p` is in statement `k`, of which `rem` is left -/
def Cur (_P : List Nat) (sts : List (Stage A V)) (M : Nat → Nat → Mem A V) (s : MSt A V) (p k : Nat) (rem : List (MAct A V)) : Prop :=
  match sts[k]? with
  | none => rem = [] ∧ s.mem p = M k p
  | some (.net d r _) => ∃ l, rem = l.map (.net d r) ∧ (∀ a, a ≠ d → s.mem p a = M k p a) ∧
      run (M k p r) (fun q => ofTag k (inb M s p q)) (s.mem p d) l = M (k + 1) p d
  | some (.loc _) => (∃ f, rem = [.loc f] ∧ s.mem p = M k p ∧ f (s.mem p) = M (k + 1) p) ∨ (rem = [] ∧ s.mem p = M (k + 1) p)

/-- the messages under way and to come of the later statements are all of that statement's -/
def Later (P : List Nat) (sts : List (Stage A V)) (M : Nat → Nat → Mem A V) (s : MSt A V) (p k : Nat) : Prop :=
  ∀ j d r prog, k < j → sts[j]? = some (.net d r prog) →
    run (M j p r) (fun q => ofTag j (inb M s p q)) (M j p d) (inside P prog p) = M (j + 1) p d

structure MInv (P : List Nat) (sts : List (Stage A V)) (M : Nat → Nat → Mem A V) (s : MSt A V) : Prop where
  outside : ∀ p, p ∉ P → s.todo p = []
  sorted : ∀ p, (s.todo p).Pairwise fun a b => a.1 < b.1 ∨ (a.1 = b.1 ∧ a.2.phase ≤ b.2.phase)
  matched : ∀ p q, List.Forall₂ (fun (o : Nat × List Int) (v : Nat × List V) => o.1 = v.1 ∧ v.2.length ≤ o.2.length)
    (recvsT p (s.todo q)) (inb M s q p)
  old : ∀ p q, ∀ m ∈ s.chan p q, ∀ a ∈ s.todo p, m.1 ≤ a.1
  place : ∀ p, ∃ k rem, k ≤ sts.length ∧ s.todo p = rem.map (fun a => (k, a)) ++ tagged P p (k + 1) (sts.drop (k + 1)) ∧
    Cur P sts M s p k rem ∧ Later P sts M s p k

theorem effect_nil {P : List Nat} {st : Stage A V} {M : Nat → Mem A V} {p : Nat} (h : st.acts P p = []) : st.effect P M p = M p := by
  cases st with
  | net d r prog =>
    simp only [Stage.acts] at h
    simp only [Stage.effect, inside]
    split at h
    · rename_i hp
      rw [List.map_eq_nil_iff] at h
      simp [h, run]
    · rename_i hp
      simp [hp, run]
  | loc f =>
    simp only [Stage.acts] at h
    simp only [Stage.effect]
    split at h
    · cases h
    · rename_i hp
      simp [hp]

theorem acts_net {P : List Nat} {d r : A} {prog : Nat → List Act} (p : Nat) :
    (Stage.net d r prog : Stage A V).acts P p = (inside P prog p).map (.net d r) := by
  simp only [Stage.acts, inside]
  split <;> rfl

/-- move to the next statement when the present one is done -/
theorem cur_next {P : List Nat} {sts : List (Stage A V)} {M : Nat → Nat → Mem A V} {s : MSt A V} {p k : Nat}
    (hM : ∀ j st, sts[j]? = some st → M (j + 1) = st.effect P (M j))
    (hk : k < sts.length) (hc : Cur P sts M s p k []) (hl : Later P sts M s p k) :
    s.mem p = M (k + 1) p ∧ Later P sts M s p (k + 1) ∧ (∀ st, sts[k + 1]? = some st → Cur P sts M s p (k + 1) (st.acts P p)) := by
  have hmem : s.mem p = M (k + 1) p := by
    unfold Cur at hc
    have hst : sts[k]? = some sts[k] := List.getElem?_eq_getElem hk
    rw [hst] at hc
    cases hv : sts[k] with
    | net d r prog =>
      rw [hv] at hc
      obtain ⟨l, h1, h2, h3⟩ := hc
      have : l = [] := by simpa using h1.symm
      subst this
      simp only [run] at h3
      funext a
      by_cases ha : a = d
      · rw [ha]; exact h3
      · rw [h2 a ha, hM k _ hst, hv]
        simp only [Stage.effect]
        rw [Function.update_of_ne ha]
    | loc f =>
      rw [hv] at hc
      rcases hc with ⟨f, h, -⟩ | ⟨-, h⟩
      · cases h
      · exact h
  refine ⟨hmem, fun j d r prog hj h => hl j d r prog (by omega) h, ?_⟩
  intro st hst
  unfold Cur
  rw [hst]
  cases st with
  | net d r prog =>
    refine ⟨inside P prog p, acts_net p, fun a _ => by rw [hmem], ?_⟩
    rw [hmem]
    exact hl (k + 1) d r prog (by omega) hst
  | loc f =>
    simp only [Stage.acts]
    have := congrFun (hM (k + 1) _ hst) p
    simp only [Stage.effect] at this
    by_cases hp : p ∈ P
    · simp only [hp, if_true] at this ⊢
      exact .inl ⟨_, rfl, hmem, by rw [hmem, this]⟩
    · simp only [hp, if_false] at this ⊢
      exact .inr ⟨trivial, by rw [hmem, this]⟩

/-- a process is either done, with the final memory, or at an action of some statement -/
theorem norm {P : List Nat} {sts : List (Stage A V)} {M : Nat → Nat → Mem A V} {s : MSt A V} {p : Nat}
    (hM : ∀ j st, sts[j]? = some st → M (j + 1) = st.effect P (M j)) : ∀ (n k : Nat) (rem : List (MAct A V)), n + k = sts.length →
    s.todo p = rem.map (fun a => (k, a)) ++ tagged P p (k + 1) (sts.drop (k + 1)) → Cur P sts M s p k rem → Later P sts M s p k →
    (s.todo p = [] ∧ s.mem p = M sts.length p) ∨
    ∃ k a rem, s.todo p = (k, a) :: (rem.map (fun a => (k, a)) ++ tagged P p (k + 1) (sts.drop (k + 1))) ∧ k < sts.length ∧
      Cur P sts M s p k (a :: rem) ∧ Later P sts M s p k
  | 0, k, rem, hk, ht, hc, hl => by
      have : sts[k]? = none := by rw [List.getElem?_eq_none_iff]; omega
      unfold Cur at hc
      rw [this] at hc
      obtain ⟨rfl, h⟩ := hc
      left
      rw [ht, List.drop_of_length_le (by omega)]
      simp only [Nat.zero_add] at hk
      subst hk
      exact ⟨rfl, h⟩
  | n + 1, k, a :: rem, hk, ht, hc, hl => by
      right
      exact ⟨k, a, rem, by simpa using ht, by omega, hc, hl⟩
  | n + 1, k, [], hk, ht, hc, hl => by
      obtain ⟨h1, h2, h3⟩ := cur_next hM (by omega) hc hl
      by_cases hlt : k + 1 < sts.length
      · rw [List.drop_eq_getElem_cons hlt] at ht
        simp only [List.map_nil, List.nil_append, tagged] at ht
        exact norm hM n (k + 1) _ (by omega) ht (h3 _ (List.getElem?_eq_getElem hlt)) h2
      · left
        rw [List.drop_of_length_le (by omega)] at ht
        have : k + 1 = sts.length := by omega
        rw [← this]
        exact ⟨ht, h1⟩

theorem tagged_ge {P : List Nat} {p : Nat} : ∀ {sts : List (Stage A V)} {k : Nat}, ∀ x ∈ tagged P p k sts, k ≤ x.1
  | [], _, _, h => by simp [tagged] at h
  | st :: sts, k, x, h => by
      simp only [tagged, List.mem_append, List.mem_map] at h
      rcases h with ⟨a, -, rfl⟩ | h
      · exact Nat.le_refl _
      · exact Nat.le_of_succ_le (tagged_ge x h)

theorem cur_congr {P : List Nat} {sts : List (Stage A V)} {M : Nat → Nat → Mem A V} {s s' : MSt A V} {p k : Nat} {rem : List (MAct A V)}
    (hm : s'.mem p = s.mem p) (hi : ∀ q, inb M s' p q = inb M s p q) (h : Cur P sts M s p k rem) : Cur P sts M s' p k rem := by
  unfold Cur at h ⊢
  rw [hm]
  simp only [hi]
  exact h

theorem later_congr {P : List Nat} {sts : List (Stage A V)} {M : Nat → Nat → Mem A V} {s s' : MSt A V} {p k : Nat}
    (hi : ∀ q j, k < j → ofTag j (inb M s' p q) = ofTag j (inb M s p q)) (h : Later P sts M s p k) : Later P sts M s' p k := by
  intro j d r prog hj hst
  have := h j d r prog hj hst
  have e : (fun q => ofTag j (inb M s' p q)) = fun q => ofTag j (inb M s p q) := funext fun q => hi q j hj
  rw [e]
  exact this

/-- the bookkeeping common to all steps: `p` has executed its first action, the inboxes of other processes are unchanged -/
theorem inv_common {P : List Nat} {sts : List (Stage A V)} {M : Nat → Nat → Mem A V} {s s' : MSt A V} {p k : Nat} {a : MAct A V}
    {rem : List (MAct A V)}
    (hp : p ∈ P) (hk : k ≤ sts.length) (h : MInv P sts M s) (ht : s.todo p = (k, a) :: (rem.map (fun a => (k, a)) ++ tagged P p (k + 1) (sts.drop (k + 1))))
    (ht' : s'.todo = Function.update s.todo p (rem.map (fun a => (k, a)) ++ tagged P p (k + 1) (sts.drop (k + 1))))
    (hm : ∀ q, q ≠ p → s'.mem q = s.mem q)
    (hi : ∀ q, q ≠ p → ∀ r, inb M s' q r = inb M s q r)
    (hmt : ∀ r, List.Forall₂ (fun (o : Nat × List Int) (v : Nat × List V) => o.1 = v.1 ∧ v.2.length ≤ o.2.length)
      (recvsT r (s'.todo p)) (inb M s' p r))
    (hold : ∀ r q, ∀ m ∈ s'.chan r q, m ∈ s.chan r q ∨ (r = p ∧ m.1 = k))
    (hcur : Cur P sts M s' p k rem) (hlat : Later P sts M s' p k) : MInv P sts M s' := by
  have tp : s'.todo p = rem.map (fun a => (k, a)) ++ tagged P p (k + 1) (sts.drop (k + 1)) := by rw [ht', Function.update_self]
  have tq : ∀ q, q ≠ p → s'.todo q = s.todo q := fun q hq => by rw [ht', Function.update_of_ne hq]
  have sp := h.sorted p
  rw [ht] at sp
  refine ⟨?_, ?_, ?_, ?_, ?_⟩
  · intro q hq
    rw [tq q (fun e => hq (e ▸ hp))]
    exact h.outside q hq
  · intro q
    by_cases hq : q = p
    · subst hq
      rw [tp]
      exact sp.tail
    · rw [tq q hq]; exact h.sorted q
  · intro r q
    by_cases hq : q = p
    · subst hq; exact hmt r
    · rw [tq q hq, hi q hq]; exact h.matched r q
  · intro r q m hm' x hx
    rcases hold r q m hm' with hm' | ⟨rfl, hk⟩
    · by_cases hr : r = p
      · subst hr
        rw [tp] at hx
        exact h.old r q m hm' x (by rw [ht]; exact List.mem_cons_of_mem _ hx)
      · rw [tq r hr] at hx
        exact h.old r q m hm' x hx
    · rw [tp] at hx
      rcases List.mem_append.1 hx with hx | hx
      · obtain ⟨y, -, rfl⟩ := List.mem_map.1 hx
        exact Nat.le_of_eq hk
      · have := tagged_ge x hx
        omega
  · intro q
    by_cases hq : q = p
    · subst hq
      exact ⟨k, rem, hk, tp, hcur, hlat⟩
    · obtain ⟨k', rem', h0, h1, h2, h3⟩ := h.place q
      exact ⟨k', rem', h0, by rw [tq q hq, h1], cur_congr (hm q hq) (hi q hq) h2, later_congr (fun r j _ => by rw [hi q hq]) h3⟩

theorem cur_cons_net {P : List Nat} {sts : List (Stage A V)} {M : Nat → Nat → Mem A V} {s : MSt A V} {p k : Nat} {d r : A} {a : Act}
    {rem : List (MAct A V)} (h : Cur P sts M s p k (.net d r a :: rem)) : ∃ prog l, sts[k]? = some (.net d r prog) ∧ rem = l.map (.net d r) ∧
      (∀ a, a ≠ d → s.mem p a = M k p a) ∧ run (M k p r) (fun q => ofTag k (inb M s p q)) (s.mem p d) (a :: l) = M (k + 1) p d := by
  unfold Cur at h
  split at h
  · cases h.1
  · rename_i d' r' prog hst
    obtain ⟨l, h1, h2, h3⟩ := h
    cases l with
    | nil => cases h1
    | cons b l =>
      simp only [List.map_cons, List.cons.injEq, MAct.net.injEq] at h1
      obtain ⟨⟨rfl, rfl, rfl⟩, h1⟩ := h1
      exact ⟨prog, l, hst, h1, h2, h3⟩
  · rcases h with ⟨f, h, -⟩ | ⟨h, -⟩
    · simp at h
    · cases h

theorem cur_net {P : List Nat} {sts : List (Stage A V)} {M : Nat → Nat → Mem A V} {s : MSt A V} {p k : Nat} {d r : A}
    {prog : Nat → List Act} {l : List Act} (hst : sts[k]? = some (.net d r prog)) (h2 : ∀ a, a ≠ d → s.mem p a = M k p a)
    (h3 : run (M k p r) (fun q => ofTag k (inb M s p q)) (s.mem p d) l = M (k + 1) p d) : Cur P sts M s p k (l.map (.net d r)) := by
  unfold Cur
  rw [hst]
  exact ⟨l, rfl, h2, h3⟩

theorem minv_step {eager : Bool} {P : List Nat} {sts : List (Stage A V)} {M : Nat → Nat → Mem A V} {s s' : MSt A V} {p : Nat}
    (hM : ∀ j st, sts[j]? = some st → M (j + 1) = st.effect P (M j)) (hg : ∀ st ∈ sts, st.Good P) (hp : p ∈ P)
    (h : MInv P sts M s) (hs : MStep eager s p s') : MInv P sts M s' := by
  obtain ⟨k0, rem0, hk0, p1, p2, p3⟩ := h.place p
  have hn := norm hM (sts.length - k0) k0 rem0 (by omega) p1 p2 p3
  rcases hn with ⟨hn, -⟩ | ⟨k, a, rem, ht, hk, hc, hl⟩
  · exfalso
    cases hs <;> simp_all
  have hmp := fun r => h.matched r p
  simp only [ht] at hmp
  cases hs with
  | send j d r q offs as ht0 =>
    rw [ht] at ht0
    simp only [List.cons.injEq, Prod.mk.injEq] at ht0
    obtain ⟨⟨rfl, rfl⟩, rfl⟩ := ht0
    obtain ⟨prog, l, hst, rfl, c1, c2⟩ := cur_cons_net hc
    have hrd : r ≠ d := fun e => ((hg _ (List.mem_of_getElem? hst)).1 e.symm)
    have key : ∀ q' p', inb M (MSt.mk (Function.update s.todo p ((l.map (MAct.net d r)).map (fun a => (k, a)) ++ tagged P p (k + 1) (sts.drop (k + 1))))
        (Function.update s.chan p (Function.update (s.chan p) q (s.chan p q ++ [(k, offs.map (s.mem p r))]))) s.mem) q' p' = inb M s q' p' := by
      intro q' p'
      simp only [inb]
      by_cases hp' : p' = p
      · subst hp'
        simp only [Function.update_self, ht, fut]
        by_cases hq : q' = q
        · subst hq
          simp only [Function.update_self, if_true, List.append_assoc, List.singleton_append]
          rw [c1 r hrd]
        · rw [Function.update_of_ne hq, if_neg (fun e => hq e.symm)]
      · rw [Function.update_of_ne hp', Function.update_of_ne hp']
    refine inv_common hp (Nat.le_of_lt hk) h ht rfl (fun _ _ => rfl) (fun q' _ r' => key q' r') ?_ ?_ ?_ ?_
    · intro r'
      rw [key]
      simp only [Function.update_self]
      have := hmp r'
      simpa only [recvsT] using this
    · intro r' q' m hm
      by_cases hr : r' = p
      · subst hr
        simp only [Function.update_self] at hm
        by_cases hq : q' = q
        · subst hq
          simp only [Function.update_self, List.mem_append, List.mem_singleton] at hm
          rcases hm with hm | rfl
          · exact .inl hm
          · exact .inr ⟨rfl, rfl⟩
        · rw [Function.update_of_ne hq] at hm; exact .inl hm
      · simp only [Function.update_of_ne hr] at hm; exact .inl hm
    · refine cur_net hst c1 ?_
      simp only [key]
      simpa only [run] using c2
    · exact later_congr (fun q' j _ => by rw [key]) hl
  | copy j d r src dst as ht0 =>
    rw [ht] at ht0
    simp only [List.cons.injEq, Prod.mk.injEq] at ht0
    obtain ⟨⟨rfl, rfl⟩, rfl⟩ := ht0
    obtain ⟨prog, l, hst, rfl, c1, c2⟩ := cur_cons_net hc
    have hrd : r ≠ d := fun e => ((hg _ (List.mem_of_getElem? hst)).1 e.symm)
    have key : ∀ (mem : Nat → Mem A V) q' p', inb M (MSt.mk (Function.update s.todo p ((l.map (MAct.net d r)).map (fun a => (k, a)) ++ tagged P p (k + 1) (sts.drop (k + 1))))
        s.chan mem) q' p' = inb M s q' p' := by
      intro mem q' p'
      simp only [inb]
      by_cases hp' : p' = p
      · subst hp'
        simp only [Function.update_self, ht, fut]
      · rw [Function.update_of_ne hp']
    refine inv_common hp (Nat.le_of_lt hk) h ht rfl (fun q hq => by simp only [Function.update_of_ne hq]) (fun q' _ r' => key _ q' r') ?_ (fun _ _ _ hm => .inl hm) ?_ ?_
    · intro r'
      rw [key]
      simp only [Function.update_self]
      have := hmp r'
      simpa only [recvsT] using this
    · refine cur_net hst ?_ ?_
      · intro a ha
        simp only [Function.update_self, Function.update_of_ne ha]
        exact c1 a ha
      · simp only [key, Function.update_self]
        rw [c1 r hrd]
        simpa only [run] using c2
    · exact later_congr (fun q' j _ => by rw [key]) hl
  | recv j d r q offs as t vals vs ht0 hch hlen =>
    rw [ht] at ht0
    simp only [List.cons.injEq, Prod.mk.injEq] at ht0
    obtain ⟨⟨rfl, rfl⟩, rfl⟩ := ht0
    obtain ⟨prog, l, hst, rfl, c1, c2⟩ := cur_cons_net hc
    have hfut : ∀ q' p', fut M q' p' (Function.update s.todo p ((l.map (MAct.net d r)).map (fun a => (k, a)) ++ tagged P p (k + 1) (sts.drop (k + 1))) p') =
        fut M q' p' (s.todo p') := by
      intro q' p'
      by_cases hp' : p' = p
      · subst hp'
        simp only [Function.update_self, ht, fut]
      · rw [Function.update_of_ne hp']
    have hib : inb M s p q = (t, vals) :: (vs ++ fut M p q (s.todo q)) := by simp [inb, hch]
    have key : ∀ (mem : Nat → Mem A V) q' p', inb M (MSt.mk (Function.update s.todo p ((l.map (MAct.net d r)).map (fun a => (k, a)) ++ tagged P p (k + 1) (sts.drop (k + 1))))
        (Function.update s.chan q (Function.update (s.chan q) p vs)) mem) q' p' =
        if q' = p ∧ p' = q then (inb M s p q).tail else inb M s q' p' := by
      intro mem q' p'
      simp only [inb, hfut]
      by_cases hp' : p' = q
      · subst hp'
        simp only [Function.update_self]
        by_cases hq : q' = p
        · subst hq; simp [hch]
        · rw [Function.update_of_ne hq]; simp [hq]
      · rw [Function.update_of_ne hp']; simp [hp']
    have hmq := hmp q
    simp only [recvsT, if_true] at hmq
    rw [hib] at hmq
    have hmt : k = t ∧ List.Forall₂ (fun (o : Nat × List Int) (v : Nat × List V) => o.1 = v.1 ∧ v.2.length ≤ o.2.length)
        (recvsT q ((l.map (MAct.net d r)).map (fun a => (k, a)) ++ tagged P p (k + 1) (sts.drop (k + 1)))) (vs ++ fut M p q (s.todo q)) := by
      cases hmq with
      | cons h1 h2 => exact ⟨h1.1, h2⟩
    obtain ⟨rfl, hmt⟩ := hmt
    refine inv_common hp (Nat.le_of_lt hk) h ht rfl (fun q hq => by simp only [Function.update_of_ne hq])
      (fun q' hq' r' => by rw [key, if_neg (by simp [hq'])]) ?_ ?_ ?_ ?_
    · intro r'
      rw [key]
      simp only [Function.update_self]
      by_cases hr : r' = q
      · subst hr
        simp only [and_self, if_true, hib, List.tail_cons]
        exact hmt
      · rw [if_neg (by simp [hr])]
        have := hmp r'
        simp only [recvsT] at this
        rwa [if_neg (fun e => hr e.symm)] at this
    · intro r' q' m hm
      left
      by_cases hr : r' = q
      · subst hr
        simp only [Function.update_self] at hm
        by_cases hq : q' = p
        · subst hq
          rw [Function.update_self] at hm
          rw [hch]; exact List.mem_cons_of_mem _ hm
        · rwa [Function.update_of_ne hq] at hm
      · simpa only [Function.update_of_ne hr] using hm
    · refine cur_net hst ?_ ?_
      · intro a ha
        simp only [Function.update_self, Function.update_of_ne ha]
        exact c1 a ha
      · simp only [Function.update_self]
        simp only [run] at c2
        have e1 : (ofTag k (inb M s p q)).headD [] = vals := by rw [hib]; simp [ofTag]
        rw [e1] at c2
        rw [← c2]
        congr 1
        funext q'
        rw [key]
        by_cases hq : q' = q
        · subst hq
          simp only [and_self, if_true, Function.update_self]
          rw [hib]
          simp [ofTag]
        · rw [if_neg (by simp [hq]), Function.update_of_ne hq]
    · refine later_congr (fun q' j hj => ?_) hl
      rw [key]
      by_cases hq : q' = q
      · subst hq
        simp only [and_self, if_true, hib, List.tail_cons]
        have : k ≠ j := by omega
        simp [ofTag, this]
      · rw [if_neg (by simp [hq])]
  | wait j d r as ht0 hd =>
    rw [ht] at ht0
    simp only [List.cons.injEq, Prod.mk.injEq] at ht0
    obtain ⟨⟨rfl, rfl⟩, rfl⟩ := ht0
    obtain ⟨prog, l, hst, rfl, c1, c2⟩ := cur_cons_net hc
    have key : ∀ (mem : Nat → Mem A V) q' p', inb M (MSt.mk (Function.update s.todo p ((l.map (MAct.net d r)).map (fun a => (k, a)) ++ tagged P p (k + 1) (sts.drop (k + 1))))
        s.chan mem) q' p' = inb M s q' p' := by
      intro mem q' p'
      simp only [inb]
      by_cases hp' : p' = p
      · subst hp'
        simp only [Function.update_self, ht, fut]
      · rw [Function.update_of_ne hp']
    refine inv_common hp (Nat.le_of_lt hk) h ht rfl (fun _ _ => rfl) (fun q' _ r' => key _ q' r') ?_ (fun _ _ _ hm => .inl hm) ?_ ?_
    · intro r'
      rw [key]
      simp only [Function.update_self]
      have := hmp r'
      simpa only [recvsT] using this
    · refine cur_net hst c1 ?_
      simp only [key]
      simpa only [run] using c2
    · exact later_congr (fun q' j _ => by rw [key]) hl
  | loc j f as ht0 =>
    rw [ht] at ht0
    simp only [List.cons.injEq, Prod.mk.injEq] at ht0
    obtain ⟨⟨rfl, rfl⟩, rfl⟩ := ht0
    have key : ∀ (mem : Nat → Mem A V) q' p', inb M (MSt.mk (Function.update s.todo p (rem.map (fun a => (k, a)) ++ tagged P p (k + 1) (sts.drop (k + 1))))
        s.chan mem) q' p' = inb M s q' p' := by
      intro mem q' p'
      simp only [inb]
      by_cases hp' : p' = p
      · subst hp'
        simp only [Function.update_self, ht, fut]
      · rw [Function.update_of_ne hp']
    refine inv_common hp (Nat.le_of_lt hk) h ht rfl (fun q hq => by simp only [Function.update_of_ne hq]) (fun q' _ r' => key _ q' r') ?_ (fun _ _ _ hm => .inl hm) ?_ ?_
    · intro r'
      rw [key]
      simp only [Function.update_self]
      have := hmp r'
      simpa only [recvsT] using this
    · unfold Cur at hc ⊢
      split at hc
      · cases hc.1
      · obtain ⟨l, h1, -⟩ := hc
        cases l <;> simp at h1
      · rcases hc with ⟨f', h1, h2, h3⟩ | ⟨h1, -⟩
        · simp only [List.cons.injEq, MAct.loc.injEq] at h1
          obtain ⟨rfl, rfl⟩ := h1
          exact .inr ⟨rfl, by simp only [Function.update_self]; exact h3⟩
        · cases h1
    · exact later_congr (fun q' j _ => by rw [key]) hl

theorem pairwise_tag {P : List Nat} {p : Nat} : ∀ {sts : List (Stage A V)} {k : Nat}, (∀ st ∈ sts, st.Good P) →
    (tagged P p k sts).Pairwise fun a b => a.1 < b.1 ∨ (a.1 = b.1 ∧ a.2.phase ≤ b.2.phase)
  | [], _, _ => List.Pairwise.nil
  | st :: sts, k, h => by
      rw [tagged, List.pairwise_append]
      refine ⟨?_, pairwise_tag (fun s hs => h s (List.mem_cons_of_mem _ hs)), ?_⟩
      · rw [List.pairwise_map]
        have hg := h st (by simp)
        cases st with
        | net d r prog =>
          rw [acts_net, List.pairwise_map]
          unfold inside
          split
          · exact (hg.2.1 p).imp (fun hab => .inr ⟨rfl, hab⟩)
          · exact List.Pairwise.nil
        | loc f =>
          simp only [Stage.acts]
          split <;> simp
      · intro a ha b hb
        obtain ⟨x, -, rfl⟩ := List.mem_map.1 ha
        left
        exact tagged_ge b hb

theorem recvsT_append (p : Nat) : ∀ (a b : List (Nat × MAct A V)), recvsT p (a ++ b) = recvsT p a ++ recvsT p b
  | [], b => rfl
  | (j, .loc f) :: as, b => by simp only [List.cons_append, recvsT]; exact recvsT_append p as b
  | (j, .net d r (.send q o)) :: as, b => by simp only [List.cons_append, recvsT]; exact recvsT_append p as b
  | (j, .net d r (.copy q o)) :: as, b => by simp only [List.cons_append, recvsT]; exact recvsT_append p as b
  | (j, .net d r .wait) :: as, b => by simp only [List.cons_append, recvsT]; exact recvsT_append p as b
  | (j, .net d r (.recv q o)) :: as, b => by
      simp only [List.cons_append, recvsT]
      split
      · rw [recvsT_append p as b]; rfl
      · exact recvsT_append p as b

theorem fut_append (M : Nat → Nat → Mem A V) (p r : Nat) : ∀ (a b : List (Nat × MAct A V)), fut M p r (a ++ b) = fut M p r a ++ fut M p r b
  | [], b => rfl
  | (j, .loc f) :: as, b => by simp only [List.cons_append, fut]; exact fut_append M p r as b
  | (j, .net d x (.recv q o)) :: as, b => by simp only [List.cons_append, fut]; exact fut_append M p r as b
  | (j, .net d x (.copy q o)) :: as, b => by simp only [List.cons_append, fut]; exact fut_append M p r as b
  | (j, .net d x .wait) :: as, b => by simp only [List.cons_append, fut]; exact fut_append M p r as b
  | (j, .net d x (.send q o)) :: as, b => by
      simp only [List.cons_append, fut]
      split
      · rw [fut_append M p r as b]; rfl
      · exact fut_append M p r as b

theorem recvsT_net (p k : Nat) (d r : A) : ∀ l : List Act,
    recvsT p ((l.map (MAct.net d r : Act → MAct A V)).map fun a => (k, a)) = (recvsFrom p l).map fun o => (k, o)
  | [] => rfl
  | .send _ _ :: as => by simp only [List.map_cons, recvsT, recvsFrom]; exact recvsT_net p k d r as
  | .copy _ _ :: as => by simp only [List.map_cons, recvsT, recvsFrom]; exact recvsT_net p k d r as
  | .wait :: as => by simp only [List.map_cons, recvsT, recvsFrom]; exact recvsT_net p k d r as
  | .recv _ _ :: as => by
      simp only [List.map_cons, recvsT, recvsFrom]
      split
      · simp only [List.map_cons]; rw [recvsT_net p k d r as]
      · exact recvsT_net p k d r as

theorem fut_net (M : Nat → Nat → Mem A V) (p q k : Nat) (d r : A) : ∀ l : List Act,
    fut M p q ((l.map (MAct.net d r : Act → MAct A V)).map fun a => (k, a)) = (sendsTo p l).map fun o => (k, o.map (M k q r))
  | [] => rfl
  | .recv _ _ :: as => by simp only [List.map_cons, fut, sendsTo]; exact fut_net M p q k d r as
  | .copy _ _ :: as => by simp only [List.map_cons, fut, sendsTo]; exact fut_net M p q k d r as
  | .wait :: as => by simp only [List.map_cons, fut, sendsTo]; exact fut_net M p q k d r as
  | .send _ _ :: as => by
      simp only [List.map_cons, fut, sendsTo]
      split
      · simp only [List.map_cons]; rw [fut_net M p q k d r as]
      · exact fut_net M p q k d r as

theorem matched_tag {P : List Nat} (M : Nat → Nat → Mem A V) (p q : Nat) : ∀ {sts : List (Stage A V)} {k : Nat}, (∀ st ∈ sts, st.Good P) →
    List.Forall₂ (fun (o : Nat × List Int) (v : Nat × List V) => o.1 = v.1 ∧ v.2.length ≤ o.2.length)
      (recvsT p (tagged P q k sts)) (fut M q p (tagged P p k sts))
  | [], _, _ => by simp [tagged, recvsT, fut]
  | st :: sts, k, h => by
      rw [tagged, tagged, recvsT_append, fut_append]
      refine List.rel_append ?_ (matched_tag M p q (fun s hs => h s (List.mem_cons_of_mem _ hs)))
      have hg := h st (by simp)
      cases st with
      | net d r prog =>
        rw [acts_net, acts_net, recvsT_net, fut_net, List.forall₂_map_left_iff, List.forall₂_map_right_iff]
        exact (hg.2.2 p q).imp (fun a b hab => ⟨rfl, by simpa using hab⟩)
      | loc f =>
        have e : ∀ x, recvsT p (((Stage.loc f : Stage A V).acts P x).map fun a => (k, a)) = [] := by
          intro x; simp only [Stage.acts]; split <;> simp [recvsT]
        have e' : ∀ x y, fut M x y (((Stage.loc f : Stage A V).acts P y).map fun a => (k, a)) = [] := by
          intro x y; simp only [Stage.acts]; split <;> simp [fut]
        rw [e, e']
        exact List.Forall₂.nil

theorem fut_ge {P : List Nat} (M : Nat → Nat → Mem A V) (p q : Nat) : ∀ (l : List (Nat × MAct A V)), ∀ x ∈ fut M p q l, ∃ a ∈ l, x.1 = a.1
  | [], x, h => by simp [fut] at h
  | (j, .loc f) :: as, x, h => by
      simp only [fut] at h; obtain ⟨a, h1, h2⟩ := fut_ge (P := P) M p q as x h; exact ⟨a, List.mem_cons_of_mem _ h1, h2⟩
  | (j, .net d y (.recv _ o)) :: as, x, h => by
      simp only [fut] at h; obtain ⟨a, h1, h2⟩ := fut_ge (P := P) M p q as x h; exact ⟨a, List.mem_cons_of_mem _ h1, h2⟩
  | (j, .net d y (.copy _ o)) :: as, x, h => by
      simp only [fut] at h; obtain ⟨a, h1, h2⟩ := fut_ge (P := P) M p q as x h; exact ⟨a, List.mem_cons_of_mem _ h1, h2⟩
  | (j, .net d y .wait) :: as, x, h => by
      simp only [fut] at h; obtain ⟨a, h1, h2⟩ := fut_ge (P := P) M p q as x h; exact ⟨a, List.mem_cons_of_mem _ h1, h2⟩
  | (j, .net d y (.send _ o)) :: as, x, h => by
      simp only [fut] at h
      split at h
      · rcases List.mem_cons.1 h with rfl | h
        · exact ⟨_, List.mem_cons_self, rfl⟩
        · obtain ⟨a, h1, h2⟩ := fut_ge (P := P) M p q as x h; exact ⟨a, List.mem_cons_of_mem _ h1, h2⟩
      · obtain ⟨a, h1, h2⟩ := fut_ge (P := P) M p q as x h; exact ⟨a, List.mem_cons_of_mem _ h1, h2⟩

/-- the messages of statement `j` among those of the whole program -/
theorem ofTag_tagged {P : List Nat} (M : Nat → Nat → Mem A V) (p q : Nat) {d r : A} {prog : Nat → List Act} {j : Nat} :
    ∀ (sts : List (Stage A V)) (k : Nat), k ≤ j → sts[j - k]? = some (.net d r prog) →
    ofTag j (fut M p q (tagged P q k sts)) = (sendsTo p (inside P prog q)).map fun o => o.map (M j q r)
  | [], k, _, h => by simp at h
  | st :: sts, k, hk, h => by
      rw [tagged, fut_append]
      simp only [ofTag, List.filter_append, List.map_append]
      by_cases hj : k = j
      · subst hj
        simp only [Nat.sub_self, List.getElem?_cons_zero, Option.some.injEq] at h
        subst h
        rw [acts_net, fut_net]
        have e : (fut M p q (tagged P q (k + 1) sts)).filter (fun m => m.1 = k) = [] := by
          rw [List.filter_eq_nil_iff]
          intro x hx
          obtain ⟨a, ha, hxa⟩ := fut_ge (P := P) M p q _ x hx
          have := tagged_ge a ha
          simp only [decide_eq_true_eq]
          omega
        rw [e]
        simp [List.filter_map, Function.comp_def]
      · have e : (fut M p q ((st.acts P q).map fun a => (k, a))).filter (fun m => m.1 = j) = [] := by
          rw [List.filter_eq_nil_iff]
          intro x hx
          obtain ⟨a, ha, hxa⟩ := fut_ge (P := P) M p q _ x hx
          obtain ⟨y, -, rfl⟩ := List.mem_map.1 ha
          simp only [decide_eq_true_eq]
          simp only at hxa
          omega
        rw [e]
        simp only [List.map_nil, List.nil_append]
        have e2 : j - k = (j - (k + 1)) + 1 := by omega
        rw [e2, List.getElem?_cons_succ] at h
        exact ofTag_tagged M p q sts (k + 1) (by omega) h

theorem tagged_outside {P : List Nat} {p : Nat} (hp : p ∉ P) : ∀ (sts : List (Stage A V)) (k : Nat), tagged P p k sts = []
  | [], _ => rfl
  | st :: sts, k => by
      rw [tagged, tagged_outside hp sts (k + 1)]
      cases st <;> simp [Stage.acts, hp]

theorem minv_init {P : List Nat} {sts : List (Stage A V)} {M : Nat → Nat → Mem A V}
    (hM : ∀ j st, sts[j]? = some st → M (j + 1) = st.effect P (M j)) (hg : ∀ st ∈ sts, st.Good P) : MInv P sts M (MSt.init P sts (M 0)) := by
  have hinb : ∀ p q, inb M (MSt.init P sts (M 0)) p q = fut M p q (tagged P q 0 sts) := by
    intro p q; simp [inb, MSt.init]
  refine ⟨fun p hp => tagged_outside hp _ _, fun p => pairwise_tag hg, ?_, ?_, ?_⟩
  · intro p q
    rw [hinb]
    exact matched_tag M p q hg
  · intro p q m hm; simp [MSt.init] at hm
  · intro p
    have net : ∀ j d r prog, sts[j]? = some (.net d r prog) →
        run (M j p r) (fun q => ofTag j (inb M (MSt.init P sts (M 0)) p q)) (M j p d) (inside P prog p) = M (j + 1) p d := by
      intro j d r prog hst
      have : (fun q => ofTag j (inb M (MSt.init P sts (M 0)) p q)) = fun q => (sendsTo p (inside P prog q)).map fun o => o.map (M j q r) := by
        funext q
        rw [hinb]
        exact ofTag_tagged M p q sts 0 (Nat.zero_le _) (by simpa using hst)
      rw [this, hM j _ hst]
      simp only [Stage.effect, Function.update_self]
    cases sts with
    | nil =>
      refine ⟨0, [], Nat.zero_le _, rfl, ⟨rfl, rfl⟩, ?_⟩
      intro j d r prog _ hst; simp at hst
    | cons st sts =>
      refine ⟨0, st.acts P p, Nat.zero_le _, rfl, ?_, fun j d r prog _ hst => net j d r prog hst⟩
      unfold Cur
      simp only [List.getElem?_cons_zero]
      cases st with
      | net d r prog => exact ⟨inside P prog p, acts_net p, fun _ _ => rfl, net 0 d r prog rfl⟩
      | loc f =>
        have := congrFun (hM 0 _ rfl) p
        simp only [Stage.effect] at this
        simp only [Stage.acts]
        by_cases hp : p ∈ P
        · simp only [hp, if_true] at this ⊢
          exact .inl ⟨_, rfl, rfl, this.symm⟩
        · simp only [hp, if_false] at this ⊢
          exact .inr ⟨trivial, this.symm⟩

theorem minv_reach {eager : Bool} {P : List Nat} {sts : List (Stage A V)} {M : Nat → Nat → Mem A V} {s0 s : MSt A V}
    (hM : ∀ j st, sts[j]? = some st → M (j + 1) = st.effect P (M j)) (hg : ∀ st ∈ sts, st.Good P) (h : MInv P sts M s0)
    (hr : MReach eager P s0 s) : MInv P sts M s := by
  induction hr with
  | refl => exact h
  | step _ hp hs ih => exact minv_step hM hg hp ih hs

theorem minv_final {P : List Nat} {sts : List (Stage A V)} {M : Nat → Nat → Mem A V} {s : MSt A V}
    (hM : ∀ j st, sts[j]? = some st → M (j + 1) = st.effect P (M j)) (h : MInv P sts M s) (hf : s.final P) (p : Nat) :
    s.mem p = M sts.length p := by
  have ht : s.todo p = [] := by
    by_cases hp : p ∈ P
    · exact hf p hp
    · exact h.outside p hp
  obtain ⟨k, rem, hk, h1, h2, h3⟩ := h.place p
  rcases norm hM (sts.length - k) k rem (by omega) h1 h2 h3 with h | ⟨k, a, rem, h, -⟩
  · exact h.2
  · rw [ht] at h; cases h

theorem recvsT_mem {p : Nat} : ∀ {l : List (Nat × MAct A V)} {x : Nat × List Int}, x ∈ recvsT p l → ∃ d r, (x.1, MAct.net d r (.recv p x.2)) ∈ l
  | [], x, h => by simp [recvsT] at h
  | (j, .loc f) :: as, x, h => by
      simp only [recvsT] at h; obtain ⟨d, r, h1⟩ := recvsT_mem h; exact ⟨d, r, List.mem_cons_of_mem _ h1⟩
  | (j, .net d y (.send _ o)) :: as, x, h => by
      simp only [recvsT] at h; obtain ⟨d, r, h1⟩ := recvsT_mem h; exact ⟨d, r, List.mem_cons_of_mem _ h1⟩
  | (j, .net d y (.copy _ o)) :: as, x, h => by
      simp only [recvsT] at h; obtain ⟨d, r, h1⟩ := recvsT_mem h; exact ⟨d, r, List.mem_cons_of_mem _ h1⟩
  | (j, .net d y .wait) :: as, x, h => by
      simp only [recvsT] at h; obtain ⟨d, r, h1⟩ := recvsT_mem h; exact ⟨d, r, List.mem_cons_of_mem _ h1⟩
  | (j, .net d y (.recv q o)) :: as, x, h => by
      simp only [recvsT] at h
      split at h
      · rename_i hq
        subst hq
        rcases List.mem_cons.1 h with rfl | h
        · exact ⟨d, y, List.mem_cons_self⟩
        · obtain ⟨d, r, h1⟩ := recvsT_mem h; exact ⟨d, r, List.mem_cons_of_mem _ h1⟩
      · obtain ⟨d, r, h1⟩ := recvsT_mem h; exact ⟨d, r, List.mem_cons_of_mem _ h1⟩

theorem fut_mem {M : Nat → Nat → Mem A V} {p q : Nat} : ∀ {l : List (Nat × MAct A V)} {x : Nat × List V}, x ∈ fut M p q l →
    ∃ d r o, (x.1, MAct.net d r (.send p o)) ∈ l
  | [], x, h => by simp [fut] at h
  | (j, .loc f) :: as, x, h => by
      simp only [fut] at h; obtain ⟨d, r, o, h1⟩ := fut_mem h; exact ⟨d, r, o, List.mem_cons_of_mem _ h1⟩
  | (j, .net d y (.recv _ o)) :: as, x, h => by
      simp only [fut] at h; obtain ⟨d, r, o, h1⟩ := fut_mem h; exact ⟨d, r, o, List.mem_cons_of_mem _ h1⟩
  | (j, .net d y (.copy _ o)) :: as, x, h => by
      simp only [fut] at h; obtain ⟨d, r, o, h1⟩ := fut_mem h; exact ⟨d, r, o, List.mem_cons_of_mem _ h1⟩
  | (j, .net d y .wait) :: as, x, h => by
      simp only [fut] at h; obtain ⟨d, r, o, h1⟩ := fut_mem h; exact ⟨d, r, o, List.mem_cons_of_mem _ h1⟩
  | (j, .net d y (.send z o)) :: as, x, h => by
      simp only [fut] at h
      split at h
      · rename_i hz
        subst hz
        rcases List.mem_cons.1 h with rfl | h
        · exact ⟨d, y, o, List.mem_cons_self⟩
        · obtain ⟨d, r, o, h1⟩ := fut_mem h; exact ⟨d, r, o, List.mem_cons_of_mem _ h1⟩
      · obtain ⟨d, r, o, h1⟩ := fut_mem h; exact ⟨d, r, o, List.mem_cons_of_mem _ h1⟩

/-- no deadlock -/
theorem minv_progress {eager : Bool} {P : List Nat} {sts : List (Stage A V)} {M : Nat → Nat → Mem A V} {s : MSt A V} (h : MInv P sts M s)
    (hn : ¬ s.final P) : ∃ p ∈ P, ∃ s', MStep eager s p s' := by
  classical
  have hex : ∃ j, ∃ p ∈ P, ∃ a as, s.todo p = (j, a) :: as := by
    unfold MSt.final at hn
    push Not at hn
    obtain ⟨p, hp, hne⟩ := hn
    cases ht : s.todo p with
    | nil => exact absurd ht hne
    | cons x as => exact ⟨x.1, p, hp, x.2, as, ht⟩
  obtain ⟨j, ⟨p0, hp0, a0, as0, ht0⟩, hmin⟩ : ∃ j, (∃ p ∈ P, ∃ a as, s.todo p = (j, a) :: as) ∧ ∀ i, (∃ p ∈ P, ∃ a as, s.todo p = (i, a) :: as) → j ≤ i :=
    ⟨Nat.find hex, Nat.find_spec hex, fun i hi => Nat.find_min' hex hi⟩
  -- every action left belongs to statement `j` or a later one
  have hge : ∀ q, ∀ x ∈ s.todo q, j ≤ x.1 := by
    intro q x hx
    by_cases hq : q ∈ P
    · cases ht : s.todo q with
      | nil => rw [ht] at hx; simp at hx
      | cons y as =>
        have h1 := hmin y.1 ⟨q, hq, y.2, as, ht⟩
        rw [ht] at hx
        rcases List.mem_cons.1 hx with rfl | hx
        · exact h1
        · have hs := h.sorted q
          rw [ht] at hs
          have := List.rel_of_pairwise_cons hs hx
          omega
    · rw [h.outside q hq] at hx; simp at hx
  -- actions of statement `j` come in the order of their phases
  have hph : ∀ q a as, s.todo q = (j, a) :: as → ∀ b, (j, b) ∈ s.todo q → a.phase ≤ b.phase := by
    intro q a as ht b hb
    have hs := h.sorted q
    rw [ht] at hs hb
    rcases List.mem_cons.1 hb with he | hb
    · injection he with _ he; subst he; exact Nat.le_refl _
    · have := List.rel_of_pairwise_cons hs hb
      simp only [Nat.lt_irrefl, false_or, true_and] at this
      exact this
  -- a process whose list contains an action of `j` starts with one
  have hhd : ∀ q b, (j, b) ∈ s.todo q → q ∈ P ∧ ∃ a as, s.todo q = (j, a) :: as := by
    intro q b hb
    have hq : q ∈ P := by
      by_contra hq
      rw [h.outside q hq] at hb; simp at hb
    refine ⟨hq, ?_⟩
    cases ht : s.todo q with
    | nil => rw [ht] at hb; simp at hb
    | cons y as =>
      have h1 := hmin y.1 ⟨q, hq, y.2, as, ht⟩
      have hs := h.sorted q
      rw [ht] at hs hb
      rcases List.mem_cons.1 hb with rfl | hb
      · exact ⟨b, as, rfl⟩
      · have := List.rel_of_pairwise_cons hs hb
        have : y.1 = j := by simp only at this; omega
        exact ⟨y.2, as, by rw [← this]⟩
  by_cases h1 : ∃ p ∈ P, ∃ a as, s.todo p = (j, a) :: as ∧ a.phase ≤ 1
  · obtain ⟨p, hp, a, as, ha, hpa⟩ := h1
    cases a with
    | loc f => exact ⟨p, hp, _, .loc j f as ha⟩
    | net d r a =>
      cases a with
      | send q o => exact ⟨p, hp, _, .send j d r q o as ha⟩
      | copy a b => exact ⟨p, hp, _, .copy j d r a b as ha⟩
      | recv => simp [MAct.phase, Act.phase] at hpa
      | wait => simp [MAct.phase, Act.phase] at hpa
  have nosend : ∀ q r, ∀ x ∈ fut M q r (s.todo r), x.1 ≠ j := by
    intro q r x hx hj
    obtain ⟨d, y, o, hm⟩ := fut_mem hx
    rw [hj] at hm
    obtain ⟨hr, a, as, ht⟩ := hhd r _ hm
    have : a.phase ≤ 0 := hph r a as ht _ hm
    exact h1 ⟨r, hr, a, as, ht, by omega⟩
  by_cases h2 : ∃ p ∈ P, ∃ d r q o as, s.todo p = (j, .net d r (.recv q o)) :: as
  · obtain ⟨p, hp, d, r, q, o, as, ha⟩ := h2
    have hm := h.matched q p
    rw [ha] at hm
    simp only [recvsT, if_true, inb] at hm
    cases hc : s.chan q p with
    | nil =>
      rw [hc, List.nil_append] at hm
      cases hf : fut M p q (s.todo q) with
      | nil => rw [hf] at hm; cases hm
      | cons v vs =>
        rw [hf] at hm
        cases hm with
        | cons hl _ => exact absurd hl.1.symm (nosend p q v (by rw [hf]; simp))
    | cons v vs =>
      rw [hc] at hm
      cases hm with
      | cons hl _ => exact ⟨p, hp, _, .recv j d r q o as v.1 v.2 vs ha hc hl.2⟩
  -- only waits are left in statement `j`
  have hwait : ∀ q ∈ P, ∀ a as, s.todo q = (j, a) :: as → a.phase = 3 := by
    intro q hq a as ht
    have h1' : ¬ a.phase ≤ 1 := fun hle => h1 ⟨q, hq, a, as, ht, hle⟩
    cases a with
    | loc f => simp [MAct.phase] at h1'
    | net d r a =>
      cases a with
      | send => simp [MAct.phase, Act.phase] at h1'
      | copy => simp [MAct.phase, Act.phase] at h1'
      | recv x o => exact absurd ⟨q, hq, d, r, x, o, as, ht⟩ h2
      | wait => rfl
  have hw := hwait p0 hp0 a0 as0 ht0
  cases a0 with
  | loc f => simp [MAct.phase] at hw
  | net d r a =>
    cases a with
    | send => simp [MAct.phase, Act.phase] at hw
    | copy => simp [MAct.phase, Act.phase] at hw
    | recv => simp [MAct.phase, Act.phase] at hw
    | wait =>
      refine ⟨p0, hp0, _, .wait j d r as0 ht0 (.inr ?_)⟩
      intro q
      cases hc : s.chan p0 q with
      | nil => rfl
      | cons m ms =>
        exfalso
        have hle : m.1 ≤ j := h.old p0 q m (by rw [hc]; simp) _ (by rw [ht0]; exact List.mem_cons_self)
        have hm := h.matched p0 q
        simp only [inb, hc, List.cons_append] at hm
        cases hr : recvsT p0 (s.todo q) with
        | nil => rw [hr] at hm; cases hm
        | cons x xs =>
          rw [hr] at hm
          have hx : x.1 = m.1 := by cases hm with | cons hl _ => exact hl.1
          obtain ⟨d', r', hmem⟩ := recvsT_mem (p := p0) (l := s.todo q) (x := x) (by rw [hr]; simp)
          have hgex := hge q _ hmem
          have hxj : x.1 = j := by simp only at hgex; omega
          rw [hxj] at hmem
          obtain ⟨hq, a, as, ht⟩ := hhd q _ hmem
          have e1 := hwait q hq a as ht
          have e2 : a.phase ≤ 2 := hph q a as ht _ hmem
          omega

end Verif.Spmd
