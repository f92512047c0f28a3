import Verif.Library.Model
import Mathlib.Algebra.BigOperators.Group.Finset.Basic
import Mathlib.Algebra.BigOperators.Group.Finset.Piecewise
import Mathlib.Algebra.Order.BigOperators.Group.Finset
import Mathlib.Data.Nat.Basic
/-!
C57: initialisation and finalisation of the library.
-/
namespace Verif.Props
open Verif.Lib

/-! ### One call at a time -/

inductive LibOp where
  | init (t : Nat)
  | fin (t : Nat)
deriving DecidableEq

def libOp (mpi : Bool) (s : St) : LibOp → Option St
  | .init t => Lib.init mpi s t
  | .fin t => Lib.fin mpi s t

def libRun (mpi : Bool) : St → List LibOp → Option St
  | s, [] => some s
  | s, op :: ops => (libOp mpi s op).bind fun s => libRun mpi s ops

/-- objects of thread `t` after a history, counted down from the end -/
def objects (t : Nat) : List LibOp → Int
  | [] => 0
  | .init u :: ops => (if u = t then 1 else 0) + objects t ops
  | .fin u :: ops => (if u = t then -1 else 0) + objects t ops

/-- all objects -/
def allObjects : List LibOp → Int
  | [] => 0
  | .init _ :: ops => 1 + allObjects ops
  | .fin _ :: ops => -1 + allObjects ops

/-- no thread destroys an object it does not have -/
def LibLegal (ops : List LibOp) : Prop := ∀ k t, 0 ≤ objects t (ops.take k)

/-- how often the number of objects goes from zero to one and back -/
def sessions : Int → List LibOp → Nat × Nat
  | _, [] => (0, 0)
  | n, .init _ :: ops => let r := sessions (n + 1) ops; (r.1 + if n = 0 then 1 else 0, r.2)
  | n, .fin _ :: ops => let r := sessions (n - 1) ops; (r.1, r.2 + if n = 1 then 1 else 0)

structure LibInv (s : St) (n : Nat) : Prop where
  g : s.g = n
  idle : ∀ t, s.pc t = .idle
  alloc : ∀ t, 0 < s.tl t → s.alloc t = true

theorem upd_self {α : Type} (f : Nat → α) (t : Nat) (v : α) : Function.update f t v t = v := by simp

theorem init_eq {s : St} {n : Nat} (hI : LibInv s n) (t : Nat) : ∃ s', Lib.init false s t = some s' ∧ LibInv s' (n + 1) ∧
    s'.tl = Function.update s.tl t (s.tl t + 1) ∧ s'.ups = s.ups + (if n = 0 ∧ s.tl t = 0 then 1 else 0) ∧ s'.downs = s.downs := by
  by_cases h0 : s.tl t = 0
  · refine ⟨{ s with
      g := s.g + 1
      tl := Function.update s.tl t (s.tl t + 1)
      ups := if s.g + 1 = 1 then s.ups + 1 else s.ups
      alloc := Function.update s.alloc t true
      pc := Function.update (Function.update (Function.update (Function.update s.pc t .i2) t .i3) t .i4) t .idle }, ?_, ⟨?_, ?_, ?_⟩, rfl, ?_, rfl⟩
    · simp [Lib.init, initCall, finish, step, h0]
    · show s.g + 1 = n + 1; rw [hI.g]
    · intro u
      simp only [Function.update_apply]
      split <;> [rfl; exact hI.idle u]
    · intro u hu
      simp only [Function.update_apply] at hu ⊢
      split
      · rfl
      · rename_i hne; rw [if_neg hne] at hu; exact hI.alloc u hu
    · show (if s.g + 1 = 1 then s.ups + 1 else s.ups) = _
      rw [hI.g]; by_cases hn : n = 0 <;> simp [hn, h0]
  · refine ⟨{ s with g := s.g + 1, tl := Function.update s.tl t (s.tl t + 1), pc := Function.update (Function.update s.pc t .i2) t .idle },
      ?_, ⟨?_, ?_, ?_⟩, rfl, by simp [h0], rfl⟩
    · simp [Lib.init, initCall, finish, step, h0]
    · show s.g + 1 = n + 1; rw [hI.g]
    · intro u
      simp only [Function.update_apply]
      split <;> [rfl; exact hI.idle u]
    · intro u hu
      simp only [Function.update_apply] at hu
      split at hu
      · rename_i e; subst e; exact hI.alloc u (by omega)
      · exact hI.alloc u hu

theorem fin_eq {s : St} {n : Nat} (hI : LibInv s n) (t : Nat) : ∃ s', Lib.fin false s t = some s' ∧ LibInv s' (n - 1) ∧
    s'.tl = Function.update s.tl t (s.tl t - 1) ∧ s'.ups = s.ups ∧ s'.downs = s.downs + (if n - 1 = 0 then 1 else 0) := by
  refine ⟨{ s with
      g := s.g - 1
      tl := Function.update s.tl t (s.tl t - 1)
      downs := if s.g - 1 = 0 then s.downs + 1 else s.downs
      pc := Function.update (Function.update (Function.update (Function.update s.pc t .f2) t .f3) t .f4) t .idle }, ?_, ⟨?_, ?_, ?_⟩, rfl, rfl, ?_⟩
  · simp [Lib.fin, finCall, finish, step]
  · show s.g - 1 = n - 1; rw [hI.g]
  · intro u
    simp only [Function.update_apply]
    split <;> [rfl; exact hI.idle u]
  · intro u hu
    simp only [Function.update_apply] at hu
    split at hu
    · rename_i e; subst e; exact hI.alloc u (by omega)
    · exact hI.alloc u hu
  · show (if s.g - 1 = 0 then s.downs + 1 else s.downs) = _
    rw [hI.g]; split <;> rfl

theorem lib_run : ∀ (ops : List LibOp) (s : St) (n : Nat), LibInv s n → (∀ t, s.tl t ≤ n) →
    (∀ k t, 0 ≤ (s.tl t : Int) + objects t (ops.take k)) →
    (∀ k t, (s.tl t : Int) + objects t (ops.take k) ≤ n + allObjects (ops.take k)) →
    ∃ s' n', libRun false s ops = some s' ∧ LibInv s' n' ∧ (n' : Int) = n + allObjects ops ∧ (∀ t, (s'.tl t : Int) = s.tl t + objects t ops) ∧
      s'.ups = s.ups + (sessions n ops).1 ∧ s'.downs = s.downs + (sessions n ops).2
  | [], s, n, hI, _, _, _ => ⟨s, n, rfl, hI, by simp [allObjects], by simp [objects], by simp [sessions], by simp [sessions]⟩
  | .init t :: ops, s, n, hI, hn, hL, hle => by
    obtain ⟨s1, e, i, h1, h2, h3⟩ := init_eq hI t
    have tl1 : ∀ u, (s1.tl u : Int) = s.tl u + if t = u then 1 else 0 := fun u => by
      rw [h1, Function.update_apply]
      by_cases e : u = t
      · subst e; simp
      · simp [e, Ne.symm e]
    have hL' : ∀ k u, 0 ≤ (s1.tl u : Int) + objects u (ops.take k) := fun k u => by
      have := hL (k + 1) u
      rw [List.take_succ_cons, objects] at this
      rw [tl1]; omega
    have hle' : ∀ k u, (s1.tl u : Int) + objects u (ops.take k) ≤ ((n + 1 : Nat) : Int) + allObjects (ops.take k) := fun k u => by
      have := hle (k + 1) u
      rw [List.take_succ_cons, objects, allObjects] at this
      rw [tl1]; push_cast; omega
    obtain ⟨s', n', e', i', a', b', c', d'⟩ := lib_run ops s1 (n + 1) i (fun u => by
      have := hle' 0 u; simp [objects, allObjects] at this; omega) hL' hle'
    refine ⟨s', n', by simp [libRun, libOp, e, e'], i', by rw [a', allObjects]; push_cast; omega, fun u => by rw [b', tl1, objects]; omega, ?_, ?_⟩
    · rw [c', h2]
      simp only [sessions]
      push_cast
      have : (n = 0 ∧ s.tl t = 0) ↔ (n : Int) = 0 := ⟨fun h => by omega, fun h => ⟨by omega, by have := hn t; omega⟩⟩
      by_cases hz : (n : Int) = 0
      · rw [if_pos (this.mpr hz), if_pos hz]; omega
      · rw [if_neg (fun h => hz (this.mp h)), if_neg hz]; omega
    · rw [d', h3]; simp only [sessions]; push_cast; rfl
  | .fin t :: ops, s, n, hI, hn, hL, hle => by
    obtain ⟨s1, e, i, h1, h2, h3⟩ := fin_eq hI t
    have hpos : 0 < s.tl t := by
      have := hL 1 t
      simp [objects] at this
      omega
    have hnp : 0 < n := Nat.lt_of_lt_of_le hpos (hn t)
    have tl1 : ∀ u, (s1.tl u : Int) = s.tl u + if t = u then -1 else 0 := fun u => by
      rw [h1, Function.update_apply]
      by_cases e : u = t
      · subst e; simp; omega
      · simp [e, Ne.symm e]
    have hL' : ∀ k u, 0 ≤ (s1.tl u : Int) + objects u (ops.take k) := fun k u => by
      have := hL (k + 1) u
      rw [List.take_succ_cons, objects] at this
      rw [tl1]; omega
    have hle' : ∀ k u, (s1.tl u : Int) + objects u (ops.take k) ≤ ((n - 1 : Nat) : Int) + allObjects (ops.take k) := fun k u => by
      have := hle (k + 1) u
      rw [List.take_succ_cons, objects, allObjects] at this
      rw [tl1]; omega
    obtain ⟨s', n', e', i', a', b', c', d'⟩ := lib_run ops s1 (n - 1) i (fun u => by
      have := hle' 0 u; simp [objects, allObjects] at this; omega) hL' hle'
    have hcast : ((n - 1 : Nat) : Int) = (n : Int) - 1 := by omega
    refine ⟨s', n', by simp [libRun, libOp, e, e'], i', by rw [a', allObjects]; omega, fun u => by rw [b', tl1, objects]; omega, ?_, ?_⟩
    · rw [c', h2]; simp only [sessions, hcast]
    · rw [d', h3]
      simp only [sessions, hcast]
      by_cases hz : (n : Int) = 1
      · rw [if_pos (show n - 1 = 0 by omega), if_pos hz]; omega
      · rw [if_neg (show ¬ n - 1 = 0 by omega), if_neg hz]; omega

/-- the number of objects is the sum over the threads -/
theorem all_sum (N : Nat) : ∀ ops : List LibOp, (∀ t, LibOp.init t ∈ ops ∨ LibOp.fin t ∈ ops → t < N) →
    allObjects ops = ∑ t ∈ Finset.range N, objects t ops
  | [], _ => by simp [allObjects, objects]
  | .init u :: ops, h => by
    have hu : u < N := h u (Or.inl (List.mem_cons_self))
    simp only [allObjects, objects, Finset.sum_add_distrib]
    rw [all_sum N ops fun t ht => h t (ht.imp (List.mem_cons_of_mem _) (List.mem_cons_of_mem _)),
      Finset.sum_ite_eq, if_pos (Finset.mem_range.mpr hu)]
  | .fin u :: ops, h => by
    have hu : u < N := h u (Or.inr (List.mem_cons_self))
    simp only [allObjects, objects, Finset.sum_add_distrib]
    rw [all_sum N ops fun t ht => h t (ht.imp (List.mem_cons_of_mem _) (List.mem_cons_of_mem _)),
      Finset.sum_ite_eq, if_pos (Finset.mem_range.mpr hu)]

theorem threads_bounded : ∀ ops : List LibOp, ∃ N, ∀ t, LibOp.init t ∈ ops ∨ LibOp.fin t ∈ ops → t < N
  | [] => ⟨0, by simp⟩
  | op :: ops => by
    obtain ⟨N, hN⟩ := threads_bounded ops
    have key : ∀ u, op = .init u ∨ op = .fin u → ∃ N, ∀ t, LibOp.init t ∈ op :: ops ∨ LibOp.fin t ∈ op :: ops → t < N := fun u hu => by
      refine ⟨N + u + 1, fun t ht => ?_⟩
      rcases ht with ht | ht <;> rcases List.mem_cons.mp ht with e | e
      · rw [← e] at hu; rcases hu with hu | hu <;> injection hu; omega
      · have := hN t (Or.inl e); omega
      · rw [← e] at hu; rcases hu with hu | hu <;> injection hu; omega
      · have := hN t (Or.inr e); omega
    cases op with
    | init u => exact key u (Or.inl rfl)
    | fin u => exact key u (Or.inr rfl)

theorem objects_absent (t : Nat) : ∀ ops : List LibOp, ¬ (LibOp.init t ∈ ops ∨ LibOp.fin t ∈ ops) → objects t ops = 0
  | [], _ => rfl
  | .init u :: ops, h => by
    have hne : u ≠ t := fun e => h (Or.inl (by rw [e]; exact List.mem_cons_self))
    rw [objects, if_neg hne, objects_absent t ops fun h' => h (h'.imp (List.mem_cons_of_mem _) (List.mem_cons_of_mem _))]; rfl
  | .fin u :: ops, h => by
    have hne : u ≠ t := fun e => h (Or.inr (by rw [e]; exact List.mem_cons_self))
    rw [objects, if_neg hne, objects_absent t ops fun h' => h (h'.imp (List.mem_cons_of_mem _) (List.mem_cons_of_mem _))]; rfl

theorem objects_le_all (t : Nat) (ops : List LibOp) (h : ∀ u, 0 ≤ objects u ops) : objects t ops ≤ allObjects ops := by
  obtain ⟨N, hN⟩ := threads_bounded ops
  rw [all_sum N ops hN]
  by_cases ht : t < N
  · exact Finset.single_le_sum (fun u _ => h u) (Finset.mem_range.mpr ht)
  · rw [objects_absent t ops fun h' => ht (hN t h')]
    exact Finset.sum_nonneg fun u _ => h u

theorem sessions_diff : ∀ (ops : List LibOp) (n : Int), (∀ k, 0 ≤ n + allObjects (ops.take k)) →
    ((sessions n ops).1 : Int) + (if 0 < n then 1 else 0) = (sessions n ops).2 + (if 0 < n + allObjects ops then 1 else 0)
  | [], n, _ => by simp [sessions, allObjects]
  | .init t :: ops, n, h => by
    have h0 : 0 ≤ n := by have := h 0; simp [allObjects] at this; exact this
    have ih := sessions_diff ops (n + 1) fun k => by
      have := h (k + 1); rw [List.take_succ_cons, allObjects] at this; omega
    rw [if_pos (show 0 < n + 1 by omega), show n + 1 + allObjects ops = n + allObjects (.init t :: ops) by rw [allObjects]; omega] at ih
    simp only [sessions]
    by_cases hz : n = 0
    · rw [if_pos hz, if_neg (show ¬ 0 < n by omega)]; push_cast; omega
    · rw [if_neg hz, if_pos (show 0 < n by omega)]; push_cast; omega
  | .fin t :: ops, n, h => by
    have h0 : 1 ≤ n := by have := h 1; simp [allObjects] at this; omega
    have ih := sessions_diff ops (n - 1) fun k => by
      have := h (k + 1); rw [List.take_succ_cons, allObjects] at this; omega
    rw [show n - 1 + allObjects ops = n + allObjects (.fin t :: ops) by rw [allObjects]; omega] at ih
    simp only [sessions]
    by_cases hz : n = 1
    · rw [if_neg (show ¬ 0 < n - 1 by omega)] at ih
      rw [if_pos hz, if_pos (show 0 < n by omega)]; push_cast; omega
    · rw [if_pos (show 0 < n - 1 by omega)] at ih
      rw [if_neg hz, if_pos (show 0 < n by omega)]; push_cast; omega

/-- C57, without MPI: when the calls run one at a time – from any number of threads, in any order, as often as one likes – the global parts are set
up each time the first object appears and torn down each time the last goes, and at no other time; so they are up exactly while there is an object.
A thread that has an object has its default allocator.
Missing: simultaneous calls, see `C57_race_init_false`, `C57_race_fin_false`; MPI, see `C57_mpi_again_false`. -/
theorem C57_serial_partial (ops : List LibOp) (hL : LibLegal ops) : ∃ s, libRun false start ops = some s ∧
    s.ups = (sessions 0 ops).1 ∧ s.downs = (sessions 0 ops).2 ∧
    (s.ups : Int) = s.downs + (if 0 < allObjects ops then 1 else 0) ∧
    ∀ t, 0 < objects t ops → s.alloc t = true := by
  obtain ⟨s, n, e, i, a, b, c, d⟩ := lib_run ops start 0 ⟨rfl, fun _ => rfl, fun t h => by simp [start] at h⟩ (fun t => by simp [start])
    (fun k t => by have := hL k t; simpa [start] using this)
    (fun k t => by have := objects_le_all t (ops.take k) (hL k); simpa [start] using this)
  refine ⟨s, e, by simpa [start] using c, by simpa [start] using d, ?_, fun t ht => ?_⟩
  · have hc : s.ups = (sessions 0 ops).1 := by simpa [start] using c
    have hd : s.downs = (sessions 0 ops).2 := by simpa [start] using d
    have := sessions_diff ops 0 fun k => by
      have h1 := hL k 0
      have h2 := objects_le_all 0 (ops.take k) (hL k)
      omega
    rw [hc, hd]; simpa using this
  · refine i.alloc t ?_
    have := b t
    simp [start] at this; omega

/-- two threads, nested objects, and a second session -/
example : LibLegal [.init 0, .init 1, .init 0, .fin 0, .fin 0, .fin 1, .init 2] := by
  intro k t
  match k with
  | 0 | 1 | 2 | 3 | 4 | 5 | 6 => simp [objects] <;> (repeat' split) <;> omega
  | k + 7 => simp [objects] <;> (repeat' split) <;> omega

example : sessions 0 [.init 0, .init 1, .init 0, .fin 0, .fin 0, .fin 1, .init 2] = (2, 1) := by decide

/-! ### Any interleaving, while one thread holds an object -/

inductive Move where
  /-- the thread enters the constructor, the destructor, or makes its next step -/
  | init (t : Nat)
  | fin (t : Nat)
  | step (t : Nat)
deriving DecidableEq

def move (mpi : Bool) (s : St) : Move → Option St
  | .init t => some (initCall s t)
  | .fin t => some (finCall s t)
  | .step t => step mpi s t

/-- what the threads may do: a thread outside the library may make an object, or destroy one it has; thread 0 keeps one -/
def MoveOk (N : Nat) (s : St) : Move → Prop
  | .init t => t < N ∧ s.pc t = .idle
  | .fin t => t < N ∧ s.pc t = .idle ∧ (if t = 0 then 2 else 1) ≤ s.tl t
  | .step t => t < N

def movesOk (mpi : Bool) (N : Nat) : St → List Move → Prop
  | _, [] => True
  | s, m :: ms => MoveOk N s m ∧ ∀ s', move mpi s m = some s' → movesOk mpi N s' ms

def moves (mpi : Bool) : St → List Move → Option St
  | s, [] => some s
  | s, m :: ms => (move mpi s m).bind fun s => moves mpi s ms

/-- what a thread contributes to `global_count` -/
def share (s : St) (t : Nat) : Nat := match s.pc t with | .i2 => s.tl t + 1 | .f2 => s.tl t - 1 | _ => s.tl t

/-- the thread is between the two counters -/
def fresh (p : PC) : Prop := p = .i3 ∨ p = .i4

structure HeldInv (mpi : Bool) (N : Nat) (s : St) : Prop where
  sum : s.g = ∑ t ∈ Finset.range N, share s t
  pos : 0 < N
  hold : 1 ≤ share s 0
  keep : 1 ≤ s.tl 0
  main : ¬ fresh (s.pc 0)
  one : ∀ t, fresh (s.pc t) → s.tl t = 1
  some : ∀ t, s.pc t = .f2 → 1 ≤ s.tl t
  ups : s.ups = 1
  downs : s.downs = 0
  alloc : ∀ t, 0 < s.tl t → ¬ fresh (s.pc t) → s.alloc t = true
  comm : mpi = true → ∀ t, 0 < s.tl t → ¬ fresh (s.pc t) → s.comm t = true
  buf : s.buf = if mpi then .live else .null

theorem share_change {N : Nat} {s s' : St} {t : Nat} (ht : t < N) (h : ∀ u, u ≠ t → s'.pc u = s.pc u ∧ s'.tl u = s.tl u) :
    ∑ u ∈ Finset.range N, share s' u + share s t = ∑ u ∈ Finset.range N, share s u + share s' t := by
  have hm := Finset.mem_range.mpr ht
  rw [← Finset.add_sum_erase _ _ hm, ← Finset.add_sum_erase (Finset.range N) (share s) hm]
  have : ∑ u ∈ (Finset.range N).erase t, share s' u = ∑ u ∈ (Finset.range N).erase t, share s u :=
    Finset.sum_congr rfl fun u hu => by
      have := h u (Finset.ne_of_mem_erase hu)
      simp only [share, this.1, this.2]
  rw [this]; omega

theorem share_two {N : Nat} {s : St} {t : Nat} (ht : t < N) (h0 : t ≠ 0) : share s 0 + share s t ≤ ∑ u ∈ Finset.range N, share s u := by
  have hm := Finset.mem_range.mpr ht
  have h0m : 0 ∈ (Finset.range N).erase t := Finset.mem_erase.mpr ⟨Ne.symm h0, Finset.mem_range.mpr (by omega)⟩
  rw [← Finset.add_sum_erase _ _ hm]
  have := Finset.single_le_sum (f := share s) (fun u _ => Nat.zero_le _) h0m
  omega

theorem share_one {N : Nat} {s : St} (h : 0 < N) : share s 0 ≤ ∑ u ∈ Finset.range N, share s u :=
  Finset.single_le_sum (f := share s) (fun u _ => Nat.zero_le _) (Finset.mem_range.mpr h)

theorem held_update {mpi : Bool} {N : Nat} {s s' : St} {t : Nat} (hI : HeldInv mpi N s) (ht : t < N)
    (ho : ∀ u, u ≠ t → (s'.pc u = s.pc u ∧ s'.tl u = s.tl u) ∧ s'.alloc u = s.alloc u ∧ s'.comm u = s.comm u)
    (hg : s'.g + share s t = s.g + share s' t) (h0 : t = 0 → (1 ≤ share s' t ∧ 1 ≤ s'.tl t) ∧ ¬ fresh (s'.pc t))
    (h1 : fresh (s'.pc t) → s'.tl t = 1) (h2 : s'.pc t = .f2 → 1 ≤ s'.tl t) (hu : s'.ups = s.ups) (hd : s'.downs = s.downs)
    (ha : 0 < s'.tl t → ¬ fresh (s'.pc t) → s'.alloc t = true) (hc : mpi = true → 0 < s'.tl t → ¬ fresh (s'.pc t) → s'.comm t = true)
    (hb : s'.buf = s.buf) : HeldInv mpi N s' := by
  have hsh := share_change ht fun u hu => (ho u hu).1
  refine ⟨by have := hI.sum; omega, hI.pos, ?_, ?_, ?_, fun u => ?_, fun u => ?_, hu.trans hI.ups, hd.trans hI.downs, fun u => ?_,
    fun hm u => ?_, hb.trans hI.buf⟩
  · by_cases e : t = 0
    · subst e; exact (h0 rfl).1.1
    · have := ho 0 (Ne.symm e)
      have h := hI.hold
      simp only [share, this.1.1, this.1.2] at h ⊢
      exact h
  · by_cases e : t = 0
    · subst e; exact (h0 rfl).1.2
    · rw [(ho 0 (Ne.symm e)).1.2]; exact hI.keep
  · by_cases e : t = 0
    · subst e; exact (h0 rfl).2
    · rw [(ho 0 (Ne.symm e)).1.1]; exact hI.main
  · by_cases e : u = t
    · subst e; exact h1
    · rw [(ho u e).1.1, (ho u e).1.2]; exact hI.one u
  · by_cases e : u = t
    · subst e; exact h2
    · rw [(ho u e).1.1, (ho u e).1.2]; exact hI.some u
  · by_cases e : u = t
    · subst e; exact ha
    · rw [(ho u e).1.1, (ho u e).1.2, (ho u e).2.1]; exact hI.alloc u
  · by_cases e : u = t
    · subst e; exact hc hm
    · rw [(ho u e).1.1, (ho u e).1.2, (ho u e).2.2]; exact hI.comm hm u

theorem held_move {mpi : Bool} {N : Nat} {s : St} (hI : HeldInv mpi N s) (m : Move) (hm : MoveOk N s m) :
    ∃ s', move mpi s m = some s' ∧ HeldInv mpi N s' := by
  have hgpos : 1 ≤ s.g := by
    have := share_one (s := s) hI.pos
    have := hI.sum; have := hI.hold; omega
  cases m with
  | init t =>
    obtain ⟨ht, hp⟩ := hm
    refine ⟨_, rfl, held_update hI ht (fun u hu => ⟨⟨Function.update_of_ne hu .., rfl⟩, rfl, rfl⟩) ?_ (fun e => ?_) ?_ ?_ rfl rfl ?_ ?_ rfl⟩
    · simp [share, initCall, hp]; omega
    · subst e; simp [share, initCall, fresh]; exact hI.keep
    · simp [initCall, fresh]
    · simp [initCall]
    · intro h _; exact hI.alloc t h (by rw [hp]; simp [fresh])
    · intro hm h _; exact hI.comm hm t h (by rw [hp]; simp [fresh])
  | fin t =>
    obtain ⟨ht, hp, hl⟩ := hm
    have hl1 : 1 ≤ s.tl t := by split at hl <;> omega
    refine ⟨_, rfl, held_update hI ht (fun u hu => ⟨⟨Function.update_of_ne hu .., rfl⟩, rfl, rfl⟩) ?_ (fun e => ?_) ?_ ?_ rfl rfl ?_ ?_ rfl⟩
    · simp [share, finCall, hp]; omega
    · rw [if_pos e] at hl
      simp [share, finCall, fresh]; omega
    · simp [finCall, fresh]
    · simp [finCall]; omega
    · intro h _; exact hI.alloc t h (by rw [hp]; simp [fresh])
    · intro hm h _; exact hI.comm hm t h (by rw [hp]; simp [fresh])
  | step t =>
    have ht : t < N := hm
    have hold0 : ∀ e : t = 0, 1 ≤ share s t := fun e => by subst e; exact hI.hold
    have keep0 : ∀ e : t = 0, 1 ≤ s.tl t := fun e => by subst e; exact hI.keep
    have main0 : ∀ e : t = 0, ¬ fresh (s.pc t) := fun e => by subst e; exact hI.main
    simp only [move, step]
    cases hp : s.pc t with
    | idle => exact ⟨s, rfl, hI⟩
    | i2 =>
      by_cases hz : s.tl t = 0
      · refine ⟨_, rfl, held_update hI ht (fun u hu => ⟨⟨Function.update_of_ne hu .., Function.update_of_ne hu ..⟩, rfl, rfl⟩)
          ?_ (fun e => ?_) ?_ ?_ rfl rfl ?_ ?_ rfl⟩
        · simp [share, hp, hz]
        · exact absurd hz (by have := keep0 e; omega)
        · simp [hz]
        · simp [hz]
        · simp [hz, fresh]
        · simp [hz, fresh]
      · refine ⟨_, rfl, held_update hI ht (fun u hu => ⟨⟨Function.update_of_ne hu .., Function.update_of_ne hu ..⟩, rfl, rfl⟩)
          ?_ (fun e => ?_) ?_ ?_ rfl rfl ?_ ?_ rfl⟩
        · simp [share, hp, hz]
        · simp [share, hz, fresh]
        · simp [hz, fresh]
        · simp [hz]
        · intro _ _; exact hI.alloc t (by omega) (by rw [hp]; simp [fresh])
        · intro hm _ _; exact hI.comm hm t (by omega) (by rw [hp]; simp [fresh])
    | i3 =>
      have h1 := hI.one t (by rw [hp]; exact Or.inl rfl)
      have hne : t ≠ 0 := fun e => main0 e (by rw [hp]; exact Or.inl rfl)
      have h2 := share_two (s := s) ht hne
      have hst : share s t = 1 := by simp [share, hp, h1]
      have hg2 : ¬ s.g = 1 := by have := hI.sum; have := hI.hold; omega
      refine ⟨_, rfl, held_update hI ht (fun u hu => ⟨⟨Function.update_of_ne hu .., rfl⟩, rfl, rfl⟩) ?_ (fun e => absurd e hne) ?_ ?_
        (if_neg hg2) rfl ?_ ?_ rfl⟩
      · simp [share, hp]
      · intro _; exact h1
      · simp
      · simp [fresh]
      · simp [fresh]
    | i4 =>
      have h1 := hI.one t (by rw [hp]; exact Or.inr rfl)
      have hne : t ≠ 0 := fun e => main0 e (by rw [hp]; exact Or.inr rfl)
      refine ⟨_, rfl, held_update hI ht (fun u hu => ⟨⟨Function.update_of_ne hu .., rfl⟩, ?_, ?_⟩) ?_ (fun e => absurd e hne) ?_ ?_ rfl rfl ?_ ?_ ?_⟩
      · simp [h1, hu]
      · cases mpi <;> simp [h1, hu]
      · simp [share, hp]
      · simp [fresh]
      · simp
      · simp [h1]
      · intro hm; simp [h1, hm]
      · have := hI.buf
        cases mpi <;> simp [h1] at this ⊢
        rw [this]; simp
    | f2 =>
      have h1 := hI.some t hp
      refine ⟨_, rfl, held_update hI ht (fun u hu => ⟨⟨Function.update_of_ne hu .., Function.update_of_ne hu ..⟩, rfl, rfl⟩)
          ?_ (fun e => ?_) ?_ ?_ rfl rfl ?_ ?_ rfl⟩
      · simp [share, hp]
      · have := hold0 e
        simp [share, hp, fresh] at this ⊢; exact this
      · simp [fresh]
      · simp
      · intro _ _; exact hI.alloc t (by omega) (by rw [hp]; simp [fresh])
      · intro hm _ _; exact hI.comm hm t (by omega) (by rw [hp]; simp [fresh])
    | f3 =>
      by_cases hz : s.tl t = 0 ∧ mpi = true
      · simp only [if_pos hz, if_neg (show ¬ s.g = 0 by omega)]
        have hne : t ≠ 0 := fun e => by have := hold0 e; simp [share, hp] at this; omega
        refine ⟨_, rfl, held_update hI ht (fun u hu => ⟨⟨Function.update_of_ne hu .., rfl⟩, ?_, ?_⟩) ?_ (fun e => absurd e hne) ?_ ?_ rfl rfl ?_ ?_ rfl⟩
        · simp [hu]
        · simp [hu]
        · simp [share, hp]
        · simp [fresh]
        · simp
        · intro h; exact absurd h (by simp [hz.1])
        · intro _ h; exact absurd h (by simp [hz.1])
      · simp only [if_neg hz]
        refine ⟨_, rfl, held_update hI ht (fun u hu => ⟨⟨Function.update_of_ne hu .., rfl⟩, rfl, rfl⟩) ?_ (fun e => ?_) ?_ ?_ rfl rfl ?_ ?_ rfl⟩
        · simp [share, hp]
        · have := hold0 e
          simp [share, hp, fresh] at this ⊢; exact this
        · simp [fresh]
        · simp
        · intro h _; exact hI.alloc t h (by rw [hp]; simp [fresh])
        · intro hm h _; exact hI.comm hm t h (by rw [hp]; simp [fresh])
    | f4 =>
      refine ⟨_, rfl, held_update hI ht (fun u hu => ⟨⟨Function.update_of_ne hu .., rfl⟩, rfl, rfl⟩) ?_ (fun e => ?_) ?_ ?_ rfl
        (if_neg (show ¬ s.g = 0 by omega)) ?_ ?_ rfl⟩
      · simp [share, hp]
      · have := hold0 e
        simp [share, hp, fresh] at this ⊢; exact this
      · simp [fresh]
      · simp
      · intro h _; exact hI.alloc t h (by rw [hp]; simp [fresh])
      · intro hm h _; exact hI.comm hm t h (by rw [hp]; simp [fresh])

theorem held_moves {mpi : Bool} {N : Nat} : ∀ (ms : List Move) (s : St), HeldInv mpi N s → movesOk mpi N s ms →
    ∃ s', moves mpi s ms = some s' ∧ HeldInv mpi N s'
  | [], s, hI, _ => ⟨s, rfl, hI⟩
  | m :: ms, s, hI, h => by
    obtain ⟨s1, e, i⟩ := held_move hI m h.1
    obtain ⟨s', e', i'⟩ := held_moves ms s1 i (h.2 s1 e)
    exact ⟨s', by simp [moves, e, e'], i'⟩

/-- the state after thread 0 has made its object, before any other thread has begun -/
def afterMain (mpi : Bool) : St :=
  ⟨1, Function.update (fun _ => 0) 0 1, fun _ => .idle, 1, 0, Function.update (fun _ => false) 0 true,
    if mpi then Function.update (fun _ => false) 0 true else fun _ => false, if mpi then .live else .null⟩

theorem init_main (mpi : Bool) : Lib.init mpi start 0 = some (afterMain mpi) := by
  cases mpi <;> simp [Lib.init, initCall, finish, step, start, afterMain]

theorem held_start (mpi : Bool) {N : Nat} (hN : 0 < N) : HeldInv mpi N (afterMain mpi) := by
  have hs : share (afterMain mpi) = Function.update (fun _ => 0) 0 1 := by funext t; simp [share, afterMain]
  refine ⟨?_, hN, by simp [hs], by simp [afterMain], by simp [afterMain, fresh], by simp [afterMain, fresh], by simp [afterMain], rfl, rfl, ?_, ?_, rfl⟩
  · rw [hs, Finset.sum_update_of_mem (Finset.mem_range.mpr hN)]; simp [afterMain]
  · intro t h _
    by_cases e : t = 0
    · simp [afterMain, e]
    · simp [afterMain, e] at h
  · intro hm t h _
    by_cases e : t = 0
    · simp [afterMain, e, hm]
    · simp [afterMain, e] at h

/-- C57, with or without MPI, and any interleaving of the threads' steps: once thread 0 has made its object, and while it keeps one, the other threads
may make and destroy objects as they like: the global parts are set up exactly once and not torn down, nothing is undefined, and a thread whose
constructor has returned has its allocator and (with MPI) its communicator.
Missing: threads that race for the first or the last object, see `C57_race_init_false`, `C57_race_fin_false`. -/
theorem C57_interleaved_partial (mpi : Bool) (N : Nat) (hN : 0 < N) (ms : List Move) (s0 : St) (h0 : Lib.init mpi start 0 = some s0)
    (hm : movesOk mpi N s0 ms) : ∃ s, moves mpi s0 ms = some s ∧ s.ups = 1 ∧ s.downs = 0 ∧ 0 < s.g ∧
      ∀ t, 0 < s.tl t → ¬ (s.pc t = .i3 ∨ s.pc t = .i4) → s.alloc t = true ∧ (mpi = true → s.comm t = true) := by
  rw [init_main] at h0; cases h0
  obtain ⟨s, e, i⟩ := held_moves ms _ (held_start mpi hN) hm
  have := share_one (s := s) i.pos
  exact ⟨s, e, i.ups, i.downs, by have := i.sum; have := i.hold; omega, fun t h1 h2 => ⟨i.alloc t h1 h2, fun hm => i.comm hm t h1 h2⟩⟩

/-- C57, continued: when the other threads have destroyed their objects and thread 0 destroys its last, the global parts are torn down exactly once,
and with MPI the thread's allocator and communicator are gone.
Missing: as above; without MPI the allocator stays, see `C57_allocator_false`. -/
theorem C57_end_partial (mpi : Bool) (N : Nat) (hN : 0 < N) (ms : List Move) (s0 s : St) (h0 : Lib.init mpi start 0 = some s0)
    (hm : movesOk mpi N s0 ms) (hs : moves mpi s0 ms = some s) (hidle : ∀ t, s.pc t = .idle) (hz : ∀ t, t ≠ 0 → s.tl t = 0) (h1 : s.tl 0 = 1) :
    ∃ s', Lib.fin mpi s 0 = some s' ∧ s'.ups = 1 ∧ s'.downs = 1 ∧ s'.g = 0 ∧ (mpi = true → s'.alloc 0 = false ∧ s'.comm 0 = false) := by
  rw [init_main] at h0; cases h0
  obtain ⟨s2, e, i⟩ := held_moves ms _ (held_start mpi hN) hm
  rw [hs] at e; cases e
  have hg : s.g = 1 := by
    rw [i.sum, Finset.sum_eq_single 0]
    · simp [share, hidle, h1]
    · intro t _ ht; simp [share, hidle, hz t ht]
    · intro h; exact absurd (Finset.mem_range.mpr hN) h
  have hu := i.ups
  have hd := i.downs
  have hb := i.buf
  cases mpi
  · simp [Lib.fin, finCall, finish, step, hg, h1, hu, hd]
  · simp [Lib.fin, finCall, finish, step, hg, h1, hu, hd, show s.buf = .live from by simpa using hb]

/-- Threads 1 and 2 enter the constructor together, thread 1 leaves and destroys its object while thread 2 is still inside. -/
def libMoves : List Move :=
  [.init 1, .init 2, .step 2, .step 1, .step 1, .step 2, .step 1, .fin 1, .step 1, .step 2, .step 1, .step 1, .fin 2, .step 2, .step 2, .step 2]

example : movesOk true 3 (afterMain true) libMoves := by
  simp [libMoves, movesOk, MoveOk, move, initCall, finCall, step, afterMain, Function.update_apply]

example : (moves true (afterMain true) libMoves).isSome ∧ ((moves true (afterMain true) libMoves).map fun s => (s.tl 0, s.tl 1, s.tl 2)) = some (1, 0, 0) := by
  decide

/-! ### Where it fails -/

/-- Two threads that make the first two objects at the same time: both add to `global_count` before either tests it (l.53-61, the test is outside the
lock), so the global parts are never set up though both constructors have returned. -/
theorem C57_race_init_false : ∃ s, moves false start [.init 0, .init 1, .step 0, .step 0, .step 0, .step 1, .step 1, .step 1] = some s ∧
    s.pc 0 = .idle ∧ s.pc 1 = .idle ∧ s.tl 0 = 1 ∧ s.tl 1 = 1 ∧ s.ups = 0 := by
  exact ⟨_, rfl, rfl, rfl, rfl, rfl, rfl⟩

/-- Two threads that destroy the last two objects at the same time: both see zero (l.137, outside the lock), so the global parts are torn down
twice. -/
theorem C57_race_fin_false : ∃ s, (libRun false start [.init 0, .init 1]).bind
      (fun s => moves false s [.fin 0, .fin 1, .step 0, .step 0, .step 0, .step 1, .step 1, .step 1]) = some s ∧
    s.ups = 1 ∧ s.downs = 2 := by
  exact ⟨_, rfl, rfl, rfl⟩

/-- Without MPI the default allocator outlives the last object: `allocator::finalize` is called only with MPI (l.130-136), so a second session replaces
the pointer and the first allocator is lost. -/
theorem C57_allocator_false : ∃ s, libRun false start [.init 0, .fin 0] = some s ∧ s.g = 0 ∧ s.alloc 0 = true := by
  exact ⟨_, rfl, rfl, rfl⟩

/-- With MPI a second session ends in undefined behaviour: `mpi::finalize` deletes the buffer but leaves the pointer (service.cpp l.57-67), so
`mpi::initialize` does not start MPI again and the second `finalize` deletes the buffer again. -/
theorem C57_mpi_again_false : LibLegal [.init 0, .fin 0, .init 0, .fin 0] ∧ (libRun true start [.init 0, .fin 0, .init 0]).isSome ∧
    libRun true start [.init 0, .fin 0, .init 0, .fin 0] = none := by
  refine ⟨?_, by decide, by rfl⟩
  intro k t
  match k with
  | 0 | 1 | 2 | 3 => simp [objects] <;> (repeat' split) <;> omega
  | k + 4 => simp [objects] <;> (repeat' split) <;> omega

end Verif.Props
