import Mathlib.Logic.Function.Basic
import Mathlib.Data.List.Forall2
import Mathlib.Data.List.Flatten
import Mathlib.Algebra.BigOperators.Group.List.Basic
import Mathlib.Algebra.Order.BigOperators.Group.List
/-!
Processes that exchange messages: the part of MPI that distributed assignment relies on
(`/repo/src/ovxx/mpi/communicator.hpp`, `Communicator::send/recv/wait`; all messages carry tag 0, so messages of one
sender are received in the order sent).

Each process runs a list of actions.  A send (`MPI_Isend`) puts the gathered values into the channel; a receive
(`MPI_Recv`) blocks until its sender's channel holds a message and scatters it; a wait (`MPI_Wait`) may be delayed by the MPI
library until the receiver has taken the message (`eager = false`), or may return at once (`eager = true`).  A message
longer than the receive buffer is an error, modelled as a process that cannot go on.

Memory cells are indexed by integers (an offset from the block's data pointer).  Source memory is never written.
-/
namespace Verif.Par

/-- one `MPI_Type_vector` entry of a chain: `len` items at `off, off + stride, …` -/
structure Rec where
  off : Int
  stride : Int
  len : Nat
deriving DecidableEq, Repr

/-- the offset of the `i`-th item -/
def Rec.at (r : Rec) (i : Nat) : Int := r.off + r.stride * i

/-- the offsets an MPI struct type made of these entries walks through, in order -/
def Rec.offs (rs : List Rec) : List Int := rs.flatMap fun r => (List.range r.len).map r.at

inductive Act where
  | send (dst : Nat) (offs : List Int)
  | copy (src dst : List Int)
  | recv (src : Nat) (offs : List Int)
  | wait
deriving DecidableEq, Repr

variable {V : Type}

/-- write `vals` to `offs`, in order -/
def scatter (mem : Int → V) : List Int → List V → (Int → V)
  | o :: os, v :: vs => scatter (Function.update mem o v) os vs
  | _, _ => mem

structure St (V : Type) where
  todo : Nat → List Act
  chan : Nat → Nat → List (List V)
  mem : Nat → Int → V

/-- one step of process `p`; `rhs p` is the source memory of process `p` -/
inductive Step (eager : Bool) (rhs : Nat → Int → V) (s : St V) (p : Nat) : St V → Prop
  | send (q : Nat) (offs : List Int) (as : List Act) (h : s.todo p = .send q offs :: as) :
      Step eager rhs s p
        { todo := Function.update s.todo p as
          chan := Function.update s.chan p (Function.update (s.chan p) q (s.chan p q ++ [offs.map (rhs p)]))
          mem := s.mem }
  | copy (src dst : List Int) (as : List Act) (h : s.todo p = .copy src dst :: as) :
      Step eager rhs s p
        { s with
          todo := Function.update s.todo p as
          mem := Function.update s.mem p (scatter (s.mem p) dst (src.map (rhs p))) }
  | recv (r : Nat) (offs : List Int) (as : List Act) (vals : List V) (vs : List (List V))
      (h : s.todo p = .recv r offs :: as) (hc : s.chan r p = vals :: vs) (hl : vals.length ≤ offs.length) :
      Step eager rhs s p
        { todo := Function.update s.todo p as
          chan := Function.update s.chan r (Function.update (s.chan r) p vs)
          mem := Function.update s.mem p (scatter (s.mem p) offs vals) }
  | wait (as : List Act) (h : s.todo p = .wait :: as) (hd : eager = true ∨ ∀ q, s.chan p q = []) :
      Step eager rhs s p { s with todo := Function.update s.todo p as }

/-- states reached by any interleaving of the processes of the communicator `P` -/
inductive Reach (eager : Bool) (P : List Nat) (rhs : Nat → Int → V) (s0 : St V) : St V → Prop
  | refl : Reach eager P rhs s0 s0
  | step {s s' : St V} {p : Nat} (h : Reach eager P rhs s0 s) (hp : p ∈ P) (hs : Step eager rhs s p s') :
      Reach eager P rhs s0 s'

/-- all processes have finished -/
def St.final (P : List Nat) (s : St V) : Prop := ∀ p ∈ P, s.todo p = []

/-- initial state -/
def St.init (prog : Nat → List Act) (mem : Nat → Int → V) : St V := ⟨prog, fun _ _ => [], mem⟩

/-- number of actions still to be executed -/
def St.left (P : List Nat) (s : St V) : Nat := (P.map fun p => (s.todo p).length).sum

/-! ### Proof machinery -/

/-- the offset lists of the messages to `q` in a list of actions -/
def sendsTo (q : Nat) : List Act → List (List Int)
  | [] => []
  | .send d o :: as => if d = q then o :: sendsTo q as else sendsTo q as
  | _ :: as => sendsTo q as

def recvsFrom (p : Nat) : List Act → List (List Int)
  | [] => []
  | .recv d o :: as => if d = p then o :: recvsFrom p as else recvsFrom p as
  | _ :: as => recvsFrom p as

/-- phase of an action: sends, copies, receives, waits -/
def Act.phase : Act → Nat
  | .send _ _ => 0 | .copy _ _ => 1 | .recv _ _ => 2 | .wait => 3

/-- effect on the destination memory, when the messages from each process are `inbox` -/
def run (rhs : Int → V) : (Nat → List (List V)) → (Int → V) → List Act → (Int → V)
  | _, mem, [] => mem
  | inbox, mem, .send _ _ :: as => run rhs inbox mem as
  | inbox, mem, .wait :: as => run rhs inbox mem as
  | inbox, mem, .copy src dst :: as => run rhs inbox (scatter mem dst (src.map rhs)) as
  | inbox, mem, .recv p offs :: as =>
      run rhs (Function.update inbox p (inbox p).tail) (scatter mem offs ((inbox p).headD [])) as

/-- what is still to arrive at `q` from `p` -/
def inbox (rhs : Nat → Int → V) (s : St V) (q p : Nat) : List (List V) :=
  s.chan p q ++ (sendsTo q (s.todo p)).map (fun o => o.map (rhs p))

structure Inv (P : List Nat) (rhs : Nat → Int → V) (F : Nat → Int → V) (s : St V) : Prop where
  sorted : ∀ p, (s.todo p).Pairwise (fun a b => a.phase ≤ b.phase)
  outside : ∀ p, p ∉ P → s.todo p = []
  matched : ∀ p q, List.Forall₂ (fun (o : List Int) (v : List V) => v.length ≤ o.length) (recvsFrom p (s.todo q)) (inbox rhs s q p)
  result : ∀ q, run (rhs q) (inbox rhs s q) (s.mem q) (s.todo q) = F q

theorem sendsTo_tail_of {q : Nat} {a : Act} {as : List Act} (h : a.phase ≠ 0) : sendsTo q (a :: as) = sendsTo q as := by
  cases a <;> simp [sendsTo, Act.phase] at *

theorem recvsFrom_tail_of {q : Nat} {a : Act} {as : List Act} (h : a.phase ≠ 2) : recvsFrom q (a :: as) = recvsFrom q as := by
  cases a <;> simp [recvsFrom, Act.phase] at *

theorem sendsTo_none {q : Nat} : ∀ {as : List Act}, (∀ a ∈ as, a.phase ≠ 0) → sendsTo q as = []
  | [], _ => rfl
  | a :: as, h => by
      rw [sendsTo_tail_of (h a (by simp)), sendsTo_none (fun b hb => h b (by simp [hb]))]

theorem recvsFrom_none {q : Nat} : ∀ {as : List Act}, (∀ a ∈ as, a.phase ≠ 2) → recvsFrom q as = []
  | [], _ => rfl
  | a :: as, h => by
      rw [recvsFrom_tail_of (h a (by simp)), recvsFrom_none (fun b hb => h b (by simp [hb]))]

theorem inv_init {P : List Nat} {rhs F : Nat → Int → V} {prog : Nat → List Act} {mem : Nat → Int → V}
    (hs : ∀ p, (prog p).Pairwise (fun a b => a.phase ≤ b.phase)) (ho : ∀ p, p ∉ P → prog p = [])
    (hm : ∀ p q, List.Forall₂ (fun (o v : List Int) => v.length ≤ o.length) (recvsFrom p (prog q)) (sendsTo q (prog p)))
    (hr : ∀ q, run (rhs q) (fun p => (sendsTo q (prog p)).map (fun o => o.map (rhs p))) (mem q) (prog q) = F q) :
    Inv P rhs F (St.init prog mem) := by
  refine ⟨hs, ho, ?_, ?_⟩
  · intro p q
    simp only [inbox, St.init, List.nil_append]
    rw [List.forall₂_map_right_iff]
    exact (hm p q).imp (fun a b h => by simpa using h)
  · intro q
    have : inbox rhs (St.init prog mem) q = fun p => (sendsTo q (prog p)).map (fun o => o.map (rhs p)) := by
      funext p; simp [inbox, St.init]
    rw [this]
    exact hr q

theorem inv_step {eager : Bool} {P : List Nat} {rhs F : Nat → Int → V} {s s' : St V} {p : Nat} (hp : p ∈ P)
    (h : Inv P rhs F s) (hs : Step eager rhs s p s') : Inv P rhs F s' := by
  have upd : ∀ (as : List Act) (a : Act), s.todo p = a :: as →
      (∀ r, (Function.update s.todo p as r).Pairwise (fun a b => a.phase ≤ b.phase)) ∧
      (∀ r, r ∉ P → Function.update s.todo p as r = []) := by
    intro as a ha
    constructor
    · intro r
      by_cases hr : r = p
      · subst hr
        rw [Function.update_self]
        have := h.sorted r
        rw [ha] at this
        exact this.tail
      · rw [Function.update_of_ne hr]; exact h.sorted r
    · intro r hr
      have : r ≠ p := by rintro rfl; exact hr hp
      rw [Function.update_of_ne this]; exact h.outside r hr
  cases hs with
  | send q offs as ht =>
    obtain ⟨u1, u2⟩ := upd as _ ht
    have key : ∀ q' p', inbox rhs (St.mk (Function.update s.todo p as)
        (Function.update s.chan p (Function.update (s.chan p) q (s.chan p q ++ [offs.map (rhs p)]))) s.mem) q' p' = inbox rhs s q' p' := by
      intro q' p'
      simp only [inbox]
      by_cases hp' : p' = p
      · subst hp'
        simp only [Function.update_self, ht, sendsTo]
        by_cases hq : q' = q
        · subst hq; simp
        · rw [Function.update_of_ne hq, if_neg (fun e => hq e.symm)]
      · rw [Function.update_of_ne hp', Function.update_of_ne hp']
    refine ⟨u1, u2, ?_, ?_⟩
    · intro p' q'
      rw [key]
      have := h.matched p' q'
      by_cases hq : q' = p
      · subst hq
        simp only [Function.update_self]
        rw [ht, recvsFrom_tail_of (by simp [Act.phase])] at this
        exact this
      · simp only [Function.update_of_ne hq]; exact this
    · intro q'
      have hf : inbox rhs (St.mk (Function.update s.todo p as)
        (Function.update s.chan p (Function.update (s.chan p) q (s.chan p q ++ [offs.map (rhs p)]))) s.mem) q' = inbox rhs s q' := by
        funext p'; exact key q' p'
      rw [hf]
      have := h.result q'
      by_cases hq : q' = p
      · subst hq
        simp only [Function.update_self]
        rw [ht] at this
        simpa only [run] using this
      · simp only [Function.update_of_ne hq]; exact this
  | copy src dst as ht =>
    obtain ⟨u1, u2⟩ := upd as _ ht
    have key : ∀ q' p', inbox rhs (St.mk (Function.update s.todo p as) s.chan
        (Function.update s.mem p (scatter (s.mem p) dst (src.map (rhs p))))) q' p' = inbox rhs s q' p' := by
      intro q' p'
      simp only [inbox]
      by_cases hp' : p' = p
      · subst hp'
        simp only [Function.update_self, ht]
        rw [sendsTo_tail_of (by simp [Act.phase])]
      · rw [Function.update_of_ne hp']
    refine ⟨u1, u2, ?_, ?_⟩
    · intro p' q'
      rw [key]
      have := h.matched p' q'
      by_cases hq : q' = p
      · subst hq
        simp only [Function.update_self]
        rw [ht, recvsFrom_tail_of (by simp [Act.phase])] at this
        exact this
      · simp only [Function.update_of_ne hq]; exact this
    · intro q'
      have hf : inbox rhs (St.mk (Function.update s.todo p as) s.chan
        (Function.update s.mem p (scatter (s.mem p) dst (src.map (rhs p))))) q' = inbox rhs s q' := by
        funext p'; exact key q' p'
      rw [hf]
      have := h.result q'
      by_cases hq : q' = p
      · subst hq
        simp only [Function.update_self]
        rw [ht] at this
        simpa only [run] using this
      · simp only [Function.update_of_ne hq]; exact this
  | recv r offs as vals vs ht hc hl =>
    obtain ⟨u1, u2⟩ := upd as _ ht
    have hib : inbox rhs s p r = vals :: (vs ++ (sendsTo p (s.todo r)).map (fun o => o.map (rhs r))) := by
      simp [inbox, hc]
    have hst : ∀ q' p', sendsTo q' (Function.update s.todo p as p') = sendsTo q' (s.todo p') := by
      intro q' p'
      by_cases hp' : p' = p
      · subst hp'
        rw [Function.update_self, ht, sendsTo_tail_of (by simp [Act.phase])]
      · rw [Function.update_of_ne hp']
    have key : ∀ q' p', inbox rhs (St.mk (Function.update s.todo p as)
        (Function.update s.chan r (Function.update (s.chan r) p vs))
        (Function.update s.mem p (scatter (s.mem p) offs vals))) q' p' =
        if q' = p ∧ p' = r then (inbox rhs s p r).tail else inbox rhs s q' p' := by
      intro q' p'
      simp only [inbox, hst]
      by_cases hp' : p' = r
      · subst hp'
        simp only [Function.update_self]
        by_cases hq : q' = p
        · subst hq; simp [hc]
        · rw [Function.update_of_ne hq]; simp [hq]
      · rw [Function.update_of_ne hp']; simp [hp']
    refine ⟨u1, u2, ?_, ?_⟩
    · intro p' q'
      rw [key]
      have := h.matched p' q'
      by_cases hq : q' = p
      · subst hq
        simp only [Function.update_self]
        rw [ht] at this
        simp only [recvsFrom] at this
        by_cases hp' : p' = r
        · subst hp'
          simp only [if_true] at this
          rw [hib] at this
          simp only [and_self, if_true, hib, List.tail_cons]
          cases this with
          | cons _ h2 => exact h2
        · rw [if_neg (fun e => hp' e.symm)] at this
          simp [hp', this]
      · simp only [Function.update_of_ne hq]
        rw [if_neg (by simp [hq])]; exact this
    · intro q'
      have := h.result q'
      by_cases hq : q' = p
      · subst hq
        simp only [Function.update_self]
        rw [ht] at this
        simp only [run, hib, List.headD_cons] at this
        rw [← this]
        congr 1
        funext p'
        rw [key]
        by_cases hp' : p' = r
        · subst hp'; simp [hib]
        · rw [if_neg (by simp [hp']), Function.update_of_ne hp']
      · simp only [Function.update_of_ne hq]
        have hf : inbox rhs (St.mk (Function.update s.todo p as)
            (Function.update s.chan r (Function.update (s.chan r) p vs))
            (Function.update s.mem p (scatter (s.mem p) offs vals))) q' = inbox rhs s q' := by
          funext p'; rw [key, if_neg (by simp [hq])]
        rw [hf]; exact this
  | wait as ht hd =>
    obtain ⟨u1, u2⟩ := upd as _ ht
    have key : ∀ q' p', inbox rhs (St.mk (Function.update s.todo p as) s.chan s.mem) q' p' = inbox rhs s q' p' := by
      intro q' p'
      simp only [inbox]
      by_cases hp' : p' = p
      · subst hp'
        simp only [Function.update_self, ht]
        rw [sendsTo_tail_of (by simp [Act.phase])]
      · rw [Function.update_of_ne hp']
    refine ⟨u1, u2, ?_, ?_⟩
    · intro p' q'
      rw [key]
      have := h.matched p' q'
      by_cases hq : q' = p
      · subst hq
        simp only [Function.update_self]
        rw [ht, recvsFrom_tail_of (by simp [Act.phase])] at this
        exact this
      · simp only [Function.update_of_ne hq]; exact this
    · intro q'
      have hf : inbox rhs (St.mk (Function.update s.todo p as) s.chan s.mem) q' = inbox rhs s q' := by
        funext p'; exact key q' p'
      rw [hf]
      have := h.result q'
      by_cases hq : q' = p
      · subst hq
        simp only [Function.update_self]
        rw [ht] at this
        simpa only [run] using this
      · simp only [Function.update_of_ne hq]; exact this

theorem phase_tail {a : Act} {as : List Act} (h : (a :: as).Pairwise (fun a b => a.phase ≤ b.phase)) :
    ∀ b ∈ a :: as, a.phase ≤ b.phase := by
  intro b hb
  rcases List.mem_cons.1 hb with rfl | hb
  · exact Nat.le_refl _
  · exact List.rel_of_pairwise_cons h hb

/-- no deadlock -/
theorem inv_progress {eager : Bool} {P : List Nat} {rhs F : Nat → Int → V} {s : St V} (h : Inv P rhs F s)
    (hn : ¬ s.final P) : ∃ p ∈ P, ∃ s', Step eager rhs s p s' := by
  -- every process has an empty list or a head
  by_cases h1 : ∃ p ∈ P, ∃ a as, s.todo p = a :: as ∧ a.phase ≤ 1
  · obtain ⟨p, hp, a, as, ha, hph⟩ := h1
    cases a with
    | send q o => exact ⟨p, hp, _, .send q o as ha⟩
    | copy a b => exact ⟨p, hp, _, .copy a b as ha⟩
    | recv => simp [Act.phase] at hph
    | wait => simp [Act.phase] at hph
  have nosend : ∀ q r, sendsTo q (s.todo r) = [] := by
    intro q r
    apply sendsTo_none
    by_cases hr : r ∈ P
    · cases hd : s.todo r with
      | nil => simp
      | cons a as =>
        have hs := h.sorted r
        rw [hd] at hs
        intro b hb
        have := phase_tail hs b hb
        have : ¬ a.phase ≤ 1 := fun hle => h1 ⟨r, hr, a, as, hd, hle⟩
        omega
    · rw [h.outside r hr]; simp
  by_cases h2 : ∃ p ∈ P, ∃ r o as, s.todo p = .recv r o :: as
  · obtain ⟨p, hp, r, o, as, ha⟩ := h2
    have hm := h.matched r p
    rw [ha] at hm
    simp only [recvsFrom, if_true, inbox, nosend, List.map_nil, List.append_nil] at hm
    cases hc : s.chan r p with
    | nil => rw [hc] at hm; cases hm
    | cons v vs =>
      rw [hc] at hm
      cases hm with
      | cons hl _ => exact ⟨p, hp, _, .recv r o as v vs ha hc hl⟩
  have norecv : ∀ q r, recvsFrom q (s.todo r) = [] := by
    intro q r
    apply recvsFrom_none
    by_cases hr : r ∈ P
    · cases hd : s.todo r with
      | nil => simp
      | cons a as =>
        have hs := h.sorted r
        rw [hd] at hs
        intro b hb
        have := phase_tail hs b hb
        have h1' : ¬ a.phase ≤ 1 := fun hle => h1 ⟨r, hr, a, as, hd, hle⟩
        have h2' : a.phase ≠ 2 := by
          intro he
          cases a with
          | recv x y => exact h2 ⟨r, hr, x, y, as, hd⟩
          | _ => simp [Act.phase] at he
        omega
    · rw [h.outside r hr]; simp
  unfold St.final at hn
  push Not at hn
  obtain ⟨p, hp, hne⟩ := hn
  cases hd : s.todo p with
  | nil => exact absurd hd hne
  | cons a as =>
    cases a with
    | send q o => exact absurd ⟨p, hp, _, as, hd, by simp [Act.phase]⟩ h1
    | copy a b => exact absurd ⟨p, hp, _, as, hd, by simp [Act.phase]⟩ h1
    | recv x y => exact absurd ⟨p, hp, x, y, as, hd⟩ h2
    | wait =>
      refine ⟨p, hp, _, .wait as hd (Or.inr ?_)⟩
      intro q
      have hm := h.matched p q
      rw [norecv] at hm
      simp only [inbox, nosend, List.map_nil, List.append_nil] at hm
      cases hc : s.chan p q with
      | nil => rfl
      | cons => rw [hc] at hm; cases hm

theorem inv_reach {eager : Bool} {P : List Nat} {rhs F : Nat → Int → V} {s0 s : St V} (h0 : Inv P rhs F s0)
    (h : Reach eager P rhs s0 s) : Inv P rhs F s := by
  induction h with
  | refl => exact h0
  | step _ hp hs ih => exact inv_step hp ih hs

theorem inv_final {P : List Nat} {rhs F : Nat → Int → V} {s : St V} (h : Inv P rhs F s) (hf : s.final P) (q : Nat) :
    s.mem q = F q := by
  have : s.todo q = [] := by
    by_cases hq : q ∈ P
    · exact hf q hq
    · exact h.outside q hq
  have hr := h.result q
  rw [this] at hr
  exact hr

/-- every step executes one action -/
theorem step_left {eager : Bool} {P : List Nat} {rhs : Nat → Int → V} {s s' : St V} {p : Nat} (hn : P.Nodup) (hp : p ∈ P)
    (hs : Step eager rhs s p s') : s'.left P + 1 = s.left P := by
  have key : ∀ (a : Act) (as : List Act) (t : Nat → List Act), s.todo p = a :: as → t = Function.update s.todo p as →
      (P.map fun r => (t r).length).sum + 1 = (P.map fun r => (s.todo r).length).sum := by
    intro a as t ha ht
    subst ht
    clear hs
    induction P with
    | nil => simp at hp
    | cons r P ih =>
      simp only [List.map_cons, List.sum_cons]
      have hr := List.nodup_cons.1 hn
      rcases List.mem_cons.1 hp with rfl | hp'
      · have : (P.map fun r => (Function.update s.todo p as r).length) = P.map fun r => (s.todo r).length := by
          apply List.map_congr_left
          intro x hx
          rw [Function.update_of_ne]
          rintro rfl; exact hr.1 hx
        rw [this, Function.update_self, ha]
        simp only [List.length_cons]
        omega
      · have hne : r ≠ p := by rintro rfl; exact hr.1 hp'
        have := ih hr.2 hp'
        rw [Function.update_of_ne hne]
        omega
  cases hs with
  | send q o as h => exact key _ _ _ h rfl
  | copy a b as h => exact key _ _ _ h rfl
  | recv r o as v vs h => exact key _ _ _ h rfl
  | wait as h => exact key _ _ _ h rfl

/-! ### What a run leaves in memory -/

theorem scatter_spec (Good : Int → V → Prop) : ∀ (offs : List Int) (vals : List V) (mem : Int → V),
    vals.length = offs.length → (∀ x ∈ offs.zip vals, Good x.1 x.2) →
    (∀ x ∈ offs, Good x (scatter mem offs vals x)) ∧ (∀ x, x ∉ offs → scatter mem offs vals x = mem x)
  | [], [], mem, _, _ => by simp [scatter]
  | o :: os, v :: vs, mem, hl, hg => by
      obtain ⟨h1, h2⟩ := scatter_spec Good os vs (Function.update mem o v) (by simpa using hl)
        (fun x hx => hg x (by simp [hx]))
      refine ⟨?_, ?_⟩
      · intro x hx
        simp only [scatter]
        by_cases hxs : x ∈ os
        · exact h1 x hxs
        · rcases List.mem_cons.1 hx with rfl | hx
          · rw [h2 x hxs, Function.update_self]
            exact hg (x, v) (by simp)
          · exact absurd hx hxs
      · intro x hx
        simp only [List.mem_cons, not_or] at hx
        simp only [scatter]
        rw [h2 x hx.2, Function.update_of_ne hx.1]
  | [], _ :: _, _, h, _ => by simp at h
  | _ :: _, [], _, h, _ => by simp at h

/-- offsets written by a list of actions -/
def touched : List Act → List Int
  | [] => []
  | .copy _ dst :: as => dst ++ touched as
  | .recv _ o :: as => o ++ touched as
  | _ :: as => touched as

theorem run_spec (Good : Int → V → Prop) (rhs : Int → V) : ∀ (as : List Act) (ib : Nat → List (List V)) (mem : Int → V),
    (∀ p, List.Forall₂ (fun (o : List Int) (v : List V) => v.length = o.length ∧ ∀ x ∈ o.zip v, Good x.1 x.2)
      (recvsFrom p as) (ib p)) →
    (∀ src dst, Act.copy src dst ∈ as → src.length = dst.length ∧ ∀ x ∈ dst.zip (src.map rhs), Good x.1 x.2) →
    (∀ x ∈ touched as, Good x (run rhs ib mem as x)) ∧ (∀ x, x ∉ touched as → run rhs ib mem as x = mem x)
  | [], ib, mem, _, _ => by simp [touched, run]
  | .send d o :: as, ib, mem, hr, hc => by
      simp only [touched, run]
      exact run_spec Good rhs as ib mem (fun p => hr p) (fun s d h => hc s d (by simp [h]))
  | .wait :: as, ib, mem, hr, hc => by
      simp only [touched, run]
      exact run_spec Good rhs as ib mem (fun p => hr p) (fun s d h => hc s d (by simp [h]))
  | .copy src dst :: as, ib, mem, hr, hc => by
      obtain ⟨h1, h2⟩ := run_spec Good rhs as ib (scatter mem dst (src.map rhs)) (fun p => hr p)
        (fun s d h => hc s d (by simp [h]))
      obtain ⟨c1, c2⟩ := hc src dst (by simp)
      obtain ⟨g1, g2⟩ := scatter_spec Good dst (src.map rhs) mem (by simpa using c1) c2
      simp only [touched, run]
      refine ⟨?_, ?_⟩
      · intro x hx
        by_cases hxs : x ∈ touched as
        · exact h1 x hxs
        · rw [h2 x hxs]
          rcases List.mem_append.1 hx with hx | hx
          · exact g1 x hx
          · exact absurd hx hxs
      · intro x hx
        simp only [List.mem_append, not_or] at hx
        rw [h2 x hx.2, g2 x hx.1]
  | .recv p o :: as, ib, mem, hr, hc => by
      have hp := hr p
      simp only [recvsFrom, if_true] at hp
      cases hib : ib p with
      | nil => rw [hib] at hp; cases hp
      | cons v vs =>
        rw [hib] at hp
        cases hp with
        | cons hv hvs =>
          obtain ⟨h1, h2⟩ := run_spec Good rhs as (Function.update ib p vs) (scatter mem o v)
            (by
              intro q
              by_cases hq : q = p
              · subst hq; rw [Function.update_self]; exact hvs
              · rw [Function.update_of_ne hq]
                have := hr q
                simp only [recvsFrom] at this
                rwa [if_neg (fun e => hq e.symm)] at this)
            (fun s d h => hc s d (by simp [h]))
          obtain ⟨g1, g2⟩ := scatter_spec Good o v mem hv.1 hv.2
          simp only [touched, run, hib, List.tail_cons, List.headD_cons]
          refine ⟨?_, ?_⟩
          · intro x hx
            by_cases hxs : x ∈ touched as
            · exact h1 x hxs
            · rw [h2 x hxs]
              rcases List.mem_append.1 hx with hx | hx
              · exact g1 x hx
              · exact absurd hx hxs
          · intro x hx
            simp only [List.mem_append, not_or] at hx
            rw [h2 x hx.2, g2 x hx.1]

end Verif.Par
