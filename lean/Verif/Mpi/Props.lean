import Verif.Mpi.Lemmas
import Mathlib.Order.Basic
/-!
Property C85.
-/
namespace Verif.Props
open Verif Verif.Mpi

/-! ### Groups -/

/-- **C85, partial (groups).** A computation with groups succeeds exactly if all ranks given are different and in range, and then has the processes it denotes in the order it denotes.  Missing: an empty range
given to `exclude` with other iterators than pointers to `int`, see `C85_exclude_false`. -/
theorem C85_groups_partial (n : Nat) (e : GExpr) (h : NoEmpty e) (l : List Nat) : (∃ g, eval n e = .ok g ∧ g.mem = l) ↔ Denotes n e l := by
  constructor
  · rintro ⟨g, h1, rfl⟩
    exact eval_sound n e h g h1
  · exact fun d => eval_complete n d h

/-- all but ranks 1 and 2 of six processes, and rank 2 -/
example : ∃ g, eval 6 (.union (.excl false .all [1, 2]) (.incl true .all [2])) = .ok g ∧ g.mem = [0, 3, 4, 5, 2] := ⟨_, rfl, by decide⟩
example : NoEmpty (.union (.excl false .all [1, 2]) (.incl true .all [2])) := ⟨⟨by decide, trivial⟩, trivial⟩

/-- **C85 is false (excluding nothing).** `exclude` with an empty range of iterators of a `std::vector` gives the group without processes (group.hpp l.92) instead of the whole group; with pointers it gives the whole group. -/
theorem C85_exclude_false : ∃ n e l, Denotes n e l ∧ ¬∃ g, eval n e = .ok g ∧ g.mem = l := by
  refine ⟨2, .excl true .all [], [0, 1], ?_, ?_⟩
  · refine .excl (l := [0, 1]) .all ⟨List.nodup_nil, by simp⟩ ⟨List.Sublist.refl _, ?_⟩
    intro k p h
    simp only [List.not_mem_nil, not_false_eq_true, iff_true]
    exact List.mem_of_getElem? h
  · rintro ⟨g, h1, h2⟩
    have h1 : Res.ok (⟨none⟩ : Group) = Res.ok g := h1
    cases h1
    cases h2

/-- The processes of a task are those with the ranks given, in this order, or all others in the order of the communicator. -/
theorem C85_selection (l : List Nat) (hl : l.Nodup) (rs : List Int) (h : Ranks l.length rs) : Chosen l rs (sel l (.these rs)) ∧ Others l rs (sel l (.others rs)) :=
  ⟨chosen_filterMap l rs h.2, others_ok hl rs⟩

example : sel [4, 5, 6, 7] (.these [2, 0]) = [6, 4] ∧ sel [4, 5, 6, 7] (.others [2, 0]) = [5, 7] := by decide

theorem mpi_idx {l : List Nat} (hl : l.Nodup) {p i : Nat} (h : l[i]? = some p) : l.idxOf p = i := by
  have hm : p ∈ l := List.mem_of_getElem? h
  have : l[l.idxOf p]? = some p := List.getElem?_idxOf hm
  exact nodup_get hl this h

/-- `rank` is the position of the process in the group, and `no_rank` for other processes; `size` is the number of processes. -/
theorem C85_rank (n : Nat) (e : GExpr) (g : Group) (l : List Nat) (he : eval n e = .ok g) (hd : Denotes n e l) (hg : g.mem = l) (hn : l.length < 2 ^ 31) (me : Nat) :
    g.size = l.length ∧ (∀ i : Nat, l[i]? = some me → g.rank me = i) ∧ (me ∉ l → g.rank me = 2 ^ 64 - 1) := by
  subst hg
  have nd := denotes_nodup hd
  unfold Group.mem at *
  refine ⟨?_, ?_, ?_⟩
  · unfold Group.size
    cases g.impl <;> rfl
  · intro i hi
    unfold Group.rank
    cases hq : g.impl with
    | none => rw [hq] at hi; simp at hi
    | some m =>
      rw [hq] at hi hn nd
      simp only [Option.getD_some] at hi hn nd
      have hm : me ∈ m := List.mem_of_getElem? hi
      have hl : i < m.length := (List.getElem?_eq_some_iff.mp hi).1
      have e1 : mpiRank m me = (i : Int) := by rw [mpiRank, if_pos hm, mpi_idx nd hi]
      simp only [e1]
      rw [if_neg (by unfold undefinedRank; omega)]
      unfold toIdx
      omega
  · intro hi
    unfold Group.rank
    cases hq : g.impl with
    | none => rfl
    | some m =>
      rw [hq] at hi
      have e1 : mpiRank m me = undefinedRank := by rw [mpiRank, if_neg (by simpa using hi)]
      simp only [e1, if_true]
      rfl

example : (Group.of [6, 4]).rank 4 = 1 ∧ (Group.of [6, 4]).rank 5 = 2 ^ 64 - 1 ∧ (Group.of []).rank 5 = 2 ^ 64 - 1 := by decide

/-- **C85, partial (translated ranks).** Ranks of processes that are in both groups are translated to the ranks of the same processes.  Missing: processes that are not in the other group, see
`C85_translate_false`. -/
theorem C85_translate_partial (g h : Group) (hg : g.mem.Nodup) (hh : h.mem.Nodup) (rs : List Nat) (hr : ∀ r ∈ rs, ∃ p, g.mem[r]? = some p ∧ p ∈ h.mem) :
    ∃ out : List Nat, translate g h (rs.map fun r : Nat => (r : Int)) = .ok (out.map fun r : Nat => (r : Int)) ∧ out.length = rs.length ∧
      ∀ (i r k : Nat), rs[i]? = some r → out[i]? = some k → g.mem[r]? = h.mem[k]? := by
  have _ := hg
  refine ⟨rs.map fun r => h.mem.idxOf (g.mem.getD r 0), ?_, by simp, ?_⟩
  · unfold translate
    by_cases hn : rs = []
    · subst hn; rfl
    · rw [if_neg (by simpa using hn), if_pos]
      · congr 1
        rw [List.map_map, List.map_map]
        apply List.map_congr_left
        intro r hrm
        obtain ⟨p, h1, h2⟩ := hr r hrm
        have : g.mem.getD r 0 = p := by rw [List.getD_eq_getElem?_getD, h1]; rfl
        simp only [Function.comp, Int.toNat_natCast, this, mpiRank, if_pos h2]
      · intro z hz
        obtain ⟨r, hrm, rfl⟩ := List.mem_map.mp hz
        obtain ⟨p, h1, _⟩ := hr r hrm
        have := (List.getElem?_eq_some_iff.mp h1).1
        omega
  · intro i r k h1 h2
    rw [List.getElem?_map, h1] at h2
    simp only [Option.map_some, Option.some.injEq] at h2
    obtain ⟨p, h3, h4⟩ := hr r (List.mem_of_getElem? h1)
    have : g.mem.getD r 0 = p := by rw [List.getD_eq_getElem?_getD, h3]; rfl
    rw [this] at h2
    rw [h3, ← h2, List.getElem?_idxOf h4]

example : translate (Group.of [3, 5, 7]) (Group.of [7, 3]) [2, 0] = .ok [0, 1] := by decide

/-- **C85 is false (translated ranks).** For a process that is not in the other group `translate_ranks` gives the value of MPI_UNDEFINED, not `no_rank` as `rank` does (group.hpp l.41, 121-122): as `index_type` it is
18446744073709518850. -/
theorem C85_translate_false : ∃ g h : Group, ∃ z : Int, translate g h [0] = .ok [z] ∧ (∀ p, g.mem[0]? = some p → p ∉ h.mem) ∧ toIdx z ≠ noRank :=
  ⟨Group.of [3], Group.of [7], undefinedRank, by decide, by decide, by decide⟩

/-! ### Communicators -/

theorem mpi_find (r : Nat) : ∀ (n i : Nat), r < n → findProc (r + i) (List.range' i n) i = .ok (r + i) := by
  induction r with
  | zero =>
    intro n i h
    obtain ⟨m, rfl⟩ : ∃ m, n = m + 1 := ⟨n - 1, by omega⟩
    simp [List.range'_succ, findProc]
  | succ r ih =>
    intro n i h
    obtain ⟨m, rfl⟩ : ∃ m, n = m + 1 := ⟨n - 1, by omega⟩
    rw [List.range'_succ, findProc, if_neg (by omega)]
    have := ih m (i + 1) (by omega)
    rw [show r + 1 + i = r + (i + 1) by omega]
    exact this

/-- **C85, partial (own index).** With a default communicator made from an MPI communicator or a subgroup, `num_processors`, `local_processor` and `local_processor_index` are the number of its processes and the
position of the own one.  Missing: a communicator of the default constructor, and a null one, see `C85_index_false`. -/
theorem C85_index_partial (c : Comm) (hc : c.mem.Nodup) (me r : Nat) (h : c.mem[r]? = some me) :
    numProcessors (Communicator.of (some c)) = .ok c.mem.length ∧ localProcessor me (Communicator.of (some c)) = .ok r ∧ localProcessorIndex me (Communicator.of (some c)) = .ok r := by
  have e := mpi_idx hc h
  have l : r < c.mem.length := (List.getElem?_eq_some_iff.mp h).1
  refine ⟨rfl, by simp only [localProcessor, Communicator.of, Communicator.rank, e, Res.noThrow], ?_⟩
  simp only [localProcessorIndex, localProcessor, Communicator.of, Communicator.rank, e, Res.noThrow, Res.bind]
  rw [List.range_eq_range']
  exact mpi_find r _ 0 l

example : localProcessorIndex 7 (Communicator.of (some ⟨[3], [4, 7, 2]⟩)) = .ok 1 := by decide

/-- **C85 is false (own index).** With the communicator of the default constructor, which has no processors in its list (communicator.cpp l.28-31), as default communicator `local_processor_index` runs off its end; with a
null communicator, as processes outside a task have, `num_processors` throws though declared not to. -/
theorem C85_index_false : (∀ n me, me < n → localProcessorIndex me (Communicator.dflt n) = .ub ∧ numProcessors (Communicator.dflt n) = .ok n) ∧
    numProcessors (Communicator.of none) = .terminate := by
  refine ⟨fun n me _ => ⟨rfl, ?_⟩, rfl⟩
  simp [numProcessors, Communicator.size, Communicator.dflt, world, Res.noThrow]

/-- **C85, partial (comparison).** Two communicators are equal exactly if they are the same.  Missing: null communicators, see `C85_equal_false`. -/
theorem C85_equal_partial (a b : Comm) : (Communicator.of (some a)).eq (Communicator.of (some b)) = .ok (decide (a.name = b.name)) := rfl

/-- **C85 is false (comparison).** Comparing a null communicator with itself throws: MPI_Comm_compare does not accept MPI_COMM_NULL. -/
theorem C85_equal_false : ∃ c : Communicator, c.eq c = .throws := ⟨Communicator.of none, rfl⟩

/-- `split` gives each color a communicator with exactly its processes, ordered by key and, with equal keys, as before. -/
theorem C85_split (me : Nat) (c : Comm) (color : Nat → Option Nat) (key : Nat → Int) (nm : List Nat) (k : Nat) (hk : color me = some k) :
    ∃ d : Comm, (Communicator.of (some c)).split me color key nm = .ok (Communicator.of (some d)) ∧ (∀ p, p ∈ d.mem ↔ p ∈ c.mem ∧ color p = some k) ∧
      d.mem.Pairwise (fun p q => key p ≤ key q) ∧ ∀ z : Int, Part c.mem (fun p => color p = some k ∧ key p = z) (d.mem.filter fun p => key p = z) := by
  refine ⟨⟨nm ++ [k], (c.mem.filter fun p => color p = some k).mergeSort fun p q => key p ≤ key q⟩, ?_, ?_, ?_, ?_⟩
  · simp only [Communicator.split, Communicator.of, hk]
  · intro p
    simp [List.mem_mergeSort]
  · have := List.pairwise_mergeSort (le := fun p q => decide (key p ≤ key q)) (by intro a b c; simp; exact fun h1 h2 => Int.le_trans h1 h2) (by intro a b; simp; exact Int.le_total _ _)
      (c.mem.filter fun p => color p = some k)
    simpa using this
  · intro z
    have sub : ((c.mem.filter fun p => color p = some k).filter fun p => key p = z).Sublist ((c.mem.filter fun p => color p = some k).mergeSort fun p q => key p ≤ key q) := by
      apply List.sublist_mergeSort (by intro a b c; simp; exact fun h1 h2 => Int.le_trans h1 h2) (by intro a b; simp; exact Int.le_total _ _)
      · rw [List.pairwise_filter]
        have : ∀ x y : Nat, decide (key x = z) = true → decide (key y = z) = true → decide (key x ≤ key y) = true := by
          intro x y h1 h2
          simp only [decide_eq_true_eq] at h1 h2 ⊢
          omega
        exact List.Pairwise.imp (fun {x y} _ => this x y) (List.pairwise_of_forall (R := fun _ _ => True) (fun _ _ => trivial))
      · exact List.filter_sublist
    have sub2 := sub.filter fun p => decide (key p = z)
    rw [List.filter_filter] at sub2
    simp only [Bool.and_self] at sub2
    have len : ((c.mem.filter fun p => color p = some k).filter fun p => key p = z).length = (((c.mem.filter fun p => color p = some k).mergeSort fun p q => key p ≤ key q).filter fun p => key p = z).length :=
      (((List.mergeSort_perm _ _).filter _).length_eq).symm
    have eq := sub2.eq_of_length len
    show Part c.mem _ (((c.mem.filter fun p => color p = some k).mergeSort fun p q => key p ≤ key q).filter fun p => key p = z)
    rw [← eq]
    refine ⟨List.filter_sublist.trans List.filter_sublist, ?_⟩
    intro p
    simp only [List.mem_filter, decide_eq_true_eq, and_assoc]

theorem mpi_ranks_sorted {l : List Nat} (hl : l.Nodup) : l.Pairwise (fun p q => (l.idxOf p : Int) ≤ (l.idxOf q : Int)) := by
  rw [List.pairwise_iff_getElem]
  intro i j hi hj hij
  rw [mpi_idx hl (List.getElem?_eq_getElem hi), mpi_idx hl (List.getElem?_eq_getElem hj)]
  omega

/-- `split` without key keeps the order. -/
theorem C85_split_order (me : Nat) (c : Comm) (hc : c.mem.Nodup) (color : Nat → Option Nat) (nm : List Nat) (k : Nat) (hk : color me = some k) :
    ∃ d : Comm, (Communicator.of (some c)).split1 me color nm = .ok (Communicator.of (some d)) ∧ Part c.mem (fun p => color p = some k) d.mem := by
  refine ⟨⟨nm ++ [k], c.mem.filter fun p => color p = some k⟩, ?_, part_filter _ _⟩
  have : ((c.mem.filter fun p => color p = some k).mergeSort fun p q => decide ((c.mem.idxOf p : Int) ≤ (c.mem.idxOf q : Int))) = c.mem.filter fun p => color p = some k := by
    apply List.mergeSort_of_pairwise
    have := (mpi_ranks_sorted hc).sublist (List.filter_sublist (p := fun p => decide (color p = some k)))
    simpa using this
  simp only [Communicator.split1, Communicator.split, Communicator.of, hk]
  rw [this]

example : (Communicator.of (some (world 6))).split1 3 (fun p => if p = 1 then none else some (p % 2)) [] = .ok (Communicator.of (some ⟨[1], [3, 5]⟩)) := by
  simp [Communicator.split1, Communicator.split, Communicator.of, world, List.range, List.range.loop, List.mergeSort, List.MergeSort.Internal.splitInTwo]
example : (Communicator.of (some (world 6))).split 2 (fun p => some (p % 2)) (fun p => -p) [] = .ok (Communicator.of (some ⟨[0], [4, 2, 0]⟩)) := by
  simp [Communicator.split, Communicator.of, world, List.range, List.range.loop, List.mergeSort, List.MergeSort.Internal.splitInTwo]

/-! ### Tasks -/

/-- A sound program of nested tasks runs without error in every process and restores the default communicator; there is one sequence of collective calls of which each process makes exactly those on communicators it
belongs to, so the calls of all processes match; no two communicators have the same name. -/
theorem C85_tasks (n : Nat) (p : Prog) (h : Sound false n p) :
    ∃ G : List Event, (∀ me, me < n → run me p (start n) = .ok ⟨(start n).dflt, G.filter fun e => me ∈ e.1.mem⟩) ∧ (∀ e ∈ G, ∀ q ∈ e.1.mem, q < n) ∧
      (created G).Nodup := by
  refine ⟨ext p (world n) [], ?_, ?_, created_nodup p _ _⟩
  · intro me hm
    have := run_mem me p false (world n) [] (by simpa [world] using hm) (by simpa [world] using h)
    exact this
  · intro e he q hq
    simpa [world] using ext_mem p (world n) [] e he q hq

/-- nested tasks: processes 0, 2, 3 of five, and of these all but the first -/
def mpiNested : Prog := .seq (.task (.these [0, 2, 3]) (.guarded (.seq (.call 1) (.task (.others [0]) (.guarded (.call 2)))))) (.call 3)

example : Sound false 5 mpiNested := by decide
example : run 2 mpiNested (start 5) = .ok ⟨(start 5).dflt, [(world 5, .create ⟨[0], [0, 2, 3]⟩), (⟨[0], [0, 2, 3]⟩, .call 1), (⟨[0], [0, 2, 3]⟩, .create ⟨[0, 1], [2, 3]⟩), (⟨[0, 1], [2, 3]⟩, .call 2),
    (⟨[0, 1], [2, 3]⟩, .free), (⟨[0], [0, 2, 3]⟩, .free), (world 5, .call 3)]⟩ := by decide +kernel
example : run 1 mpiNested (start 5) = .ok ⟨(start 5).dflt, [(world 5, .create ⟨[0], [0, 2, 3]⟩), (world 5, .call 3)]⟩ := by decide +kernel

/-- The processes of such a program never wait for each other for ever, in whatever order collective calls take place. -/
theorem C85_deadlock (n : Nat) (p : Prog) (h : Sound false n p) (T : Nat → List Event) (hT : ∀ me, me < n → ∃ s, run me p (start n) = .ok s ∧ T me = s.trace) (hO : ∀ me, n ≤ me → T me = []) :
    NoDeadlock (fun e : Event => e.1.mem) T := by
  obtain ⟨G, h1, h2, _⟩ := C85_tasks n p h
  apply seq_noDeadlock
  refine ⟨G.filter fun e => e.1.mem ≠ [], by intro e he; simpa using (List.mem_filter.mp he).2, ?_⟩
  intro me
  rw [List.filter_filter]
  rcases Nat.lt_or_ge me n with hm | hm
  · obtain ⟨s, hs, ht⟩ := hT me hm
    rw [h1 me hm] at hs
    cases hs
    rw [ht]
    apply List.filter_congr
    intro e _
    by_cases hq : me ∈ e.1.mem
    · have : e.1.mem ≠ [] := List.ne_nil_of_mem hq
      simp [hq, this]
    · simp [hq]
  · rw [hO me hm]
    symm
    rw [List.filter_eq_nil_iff]
    intro e he
    have : me ∉ e.1.mem := fun hq => by have := h2 e he me hq; omega
    simp [this]

/-- a sequence that does wait for ever: two processes call on two communicators in different order -/
example : ¬NoDeadlock (fun e : Event => e.1.mem) (fun me => if me = 0 then [(⟨[0], [0, 1]⟩, .call 0), (⟨[1], [0, 1]⟩, .call 0)] else if me = 1 then [(⟨[1], [0, 1]⟩, .call 0), (⟨[0], [0, 1]⟩, .call 0)] else []) := by
  intro h
  rcases h _ .refl with h | ⟨V, f⟩
  · have := h 0
    simp at this
  · obtain ⟨e, ne, hd, _⟩ := f
    have hm : ∀ p ∈ e.1.mem, p = 0 ∨ p = 1 := by
      intro p hp
      obtain ⟨l, hl⟩ := hd p hp
      by_contra hc
      rw [if_neg (by omega), if_neg (by omega)] at hl
      cases hl
    obtain ⟨p, hp⟩ := List.exists_mem_of_ne_nil _ ne
    obtain ⟨l, hl⟩ := hd p hp
    rcases hm p hp with rfl | rfl
    · simp only [if_true, List.cons.injEq] at hl
      have h1 : 1 ∈ e.1.mem := by rw [← hl.1]; decide
      obtain ⟨l', hl'⟩ := hd 1 h1
      simp only [Nat.one_ne_zero, if_false, if_true, List.cons.injEq] at hl'
      rw [← hl.1] at hl'
      simp at hl'
    · simp only [Nat.one_ne_zero, if_false, if_true, List.cons.injEq] at hl
      have h0 : 0 ∈ e.1.mem := by rw [← hl.1]; decide
      obtain ⟨l', hl'⟩ := hd 0 h0
      simp only [if_true, List.cons.injEq] at hl'
      rw [← hl.1] at hl'
      simp at hl'

/-- Each process makes the calls of the tasks it was selected for, each together with exactly the selected processes. -/
theorem C85_work (n : Nat) (p : Prog) (h : Sound false n p) (me : Nat) (hm : me < n) (s : St) (hs : run me p (start n) = .ok s) : callsOf s.trace = calls me (List.range n) p := by
  have := run_mem me p false (world n) [] (by simpa [world] using hm) (by simpa [world] using h)
  have e : run me p (start n) = .ok ⟨Communicator.of (some (world n)), mine me (ext p (world n) [])⟩ := this
  rw [e] at hs
  cases hs
  exact ext_calls me p (world n) [] (by simpa [world] using hm)

example : calls 3 (List.range 5) mpiNested = [(1, [0, 2, 3]), (2, [2, 3]), (3, [0, 1, 2, 3, 4])] ∧ calls 0 (List.range 5) mpiNested = [(1, [0, 2, 3]), (3, [0, 1, 2, 3, 4])] := by decide

/-- Every communicator of a task is freed exactly once by each of its processes, and not used afterwards. -/
theorem C85_freed (n : Nat) (p : Prog) (h : Sound false n p) (me : Nat) (hm : me < n) (s : St) (hs : run me p (start n) = .ok s) (a d : Comm) (hd : (a, Ev.create d) ∈ s.trace) (hmem : me ∈ d.mem) :
    ∃ l r, s.trace = l ++ (d, .free) :: r ∧ (d, .free) ∉ l ∧ ∀ e ∈ r, e.1 ≠ d := by
  have := run_mem me p false (world n) [] (by simpa [world] using hm) (by simpa [world] using h)
  have e : run me p (start n) = .ok ⟨Communicator.of (some (world n)), mine me (ext p (world n) [])⟩ := this
  rw [e] at hs
  cases hs
  have hd' : (a, Ev.create d) ∈ ext p (world n) [] := (List.mem_filter.mp hd).1
  obtain ⟨l, r, h1, h2, h3⟩ := ext_freed p (world n) [] a d hd'
  refine ⟨mine me l, mine me r, ?_, fun hq => h2 (List.mem_filter.mp hq).1, fun e he => h3 e (List.mem_filter.mp he).1⟩
  show mine me (ext p (world n) []) = _
  rw [h1, mine_append]
  congr 1
  exact List.filter_cons_of_pos (by simpa using hmem)

/-- **C85 is false (calls outside a task).** A call in a task without the test for a null communicator fails in the processes that do not take part, and so does a task directly inside another one. -/
theorem C85_null_false : ∃ n me b, me < n ∧ Sound false n (.seq (.task (.these [0]) .skip) b) ∧ run me (.task (.these [0]) b) (start n) = .throws ∧
    ∃ b', Sound false 1 b' ∧ run me (.task (.these [0]) b') (start n) = .throws ∧ ∃ s c, b' = .task s c :=
  ⟨2, 1, .call 1, by decide, by decide, by decide +kernel, .task (.these [0]) (.guarded (.call 1)), by decide, by decide +kernel, _, _, rfl⟩

theorem mpi_rest (n : Nat) (hn : 2 ≤ n) : sel (List.range n) (.others [0, 1]) = List.range' 2 (n - 2) := by
  apply others_unique List.nodup_range (others_ok List.nodup_range _)
  refine ⟨?_, ?_⟩
  · have : List.range n = [0, 1] ++ List.range' 2 (n - 2) := by
      rw [List.range_eq_range']
      have := List.range'_append_1 (s := 0) (m := 2) (n := n - 2)
      rw [show 0 + 2 = 2 from rfl, show 2 + (n - 2) = n by omega] at this
      rw [← this]
      rfl
    rw [this]
    exact List.sublist_append_right _ _
  · intro k p hk
    have hl : k < n := by have := (List.getElem?_eq_some_iff.mp hk).1; simpa using this
    rw [List.getElem?_range hl] at hk
    simp only [Option.some.injEq] at hk
    subst hk
    simp only [List.mem_range'_1, List.mem_cons, List.not_mem_nil, or_false]
    omega

/-- The example program: with two or more processes, processes 0 and 1 work on the first task together, all others on the second one together, and the default communicator is the same again at the end. -/
theorem C85_example (n : Nat) (hn : 2 ≤ n) (me : Nat) (hm : me < n) :
    ∃ s, taskMain me n = .ok s ∧ s.dflt = (start n).dflt ∧ callsOf s.trace = if me < 2 then [(1, [0, 1])] else [(2, List.range' 2 (n - 2))] := by
  have hr : Ranks n [0, 1] := ⟨by decide, by intro r hr; simp only [List.mem_cons, List.not_mem_nil, or_false] at hr; rcases hr with rfl | rfl <;> omega⟩
  have sd : Sound false n (.seq (.task (.these [0, 1]) (.guarded (.call 1))) (.task (.others [0, 1]) (.guarded (.call 2)))) := ⟨⟨rfl, hr, rfl⟩, ⟨rfl, hr, rfl⟩⟩
  obtain ⟨G, h1, _, _⟩ := C85_tasks n _ sd
  refine ⟨⟨(start n).dflt, G.filter fun e => me ∈ e.1.mem⟩, ?_, rfl, ?_⟩
  · rw [taskMain, if_neg (by omega)]
    exact h1 me hm
  · rw [C85_work n _ sd me hm _ (h1 me hm)]
    have e1 : sel (List.range n) (.these [0, 1]) = [0, 1] := by
      have a0 : (List.range n)[(0 : Int).toNat]? = some 0 := List.getElem?_range (by simp; omega)
      have a1 : (List.range n)[(1 : Int).toNat]? = some 1 := List.getElem?_range (by simp; omega)
      simp only [sel, List.filterMap_cons, a0, a1, List.filterMap_nil]
    simp only [calls, e1, mpi_rest n hn]
    by_cases h2 : me < 2
    · rw [if_pos h2, if_pos (by simp; omega), if_neg (by simp [List.mem_range'_1]; omega)]
      rfl
    · rw [if_neg h2, if_neg (by simp; omega), if_pos (by simp [List.mem_range'_1]; omega)]
      rfl

example : ∃ s, taskMain 3 4 = .ok s ∧ callsOf s.trace = [(2, [2, 3])] := ⟨_, rfl, by decide +kernel⟩

/-! ### What is kept -/

/-- **C85, partial (maps and the default communicator).** While the default communicator is the one a map was made with, messages for its subblocks go to the first processes of it.  Missing: maps used in a task they were
made outside of, see `C85_map_false`. -/
theorem C85_map_partial (c : Comm) (k i : Nat) (hi : i < k) (hk : k ≤ c.mem.length) : (MapData.mk' (Communicator.of (some c)) k).target (Communicator.of (some c)) i = c.mem[i]? := by
  have h : ((List.range c.mem.length).take k)[i]? = some i := by
    rw [List.getElem?_take, if_pos hi, List.getElem?_range (by omega)]
  simp only [MapData.target, MapData.mk', Communicator.of]
  rw [h]
  rfl

example : (MapData.mk' (Communicator.of (some ⟨[3], [4, 7, 2]⟩)) 3).target (Communicator.of (some ⟨[3], [4, 7, 2]⟩)) 1 = some 7 := by decide

/-- **C85 is false (maps and the default communicator).** A map keeps a reference to the default communicator (map.hpp l.143), not the communicator it was made with: used inside a task it sends to other processes than
outside, or to none; and maps made for different processes compare equal. -/
theorem C85_map_false : ∃ (outer inner : Communicator) (m : MapData), m = MapData.mk' outer 4 ∧ m.target outer 0 = some 0 ∧ m.target inner 0 = some 2 ∧ m.target outer 3 = some 3 ∧ m.target inner 3 = none ∧
    ∃ a b : MapData, a = MapData.mk' outer 2 ∧ b = MapData.mk' inner 2 ∧ a.target outer 0 ≠ b.target inner 0 ∧ a.eq b inner = .ok true :=
  ⟨Communicator.of (some (world 4)), Communicator.of (some ⟨[0], [2, 3]⟩), _, rfl, by decide, by decide, by decide, by decide, _, _, rfl, rfl, by decide, by decide⟩

theorem mpi_psets (l : List Nat) : ∀ ds : List Communicator, processorSets (some l) ds = ds.map fun _ => l
  | [] => rfl
  | _ :: ds => by simp only [processorSets, processorSet, List.map_cons, mpi_psets l ds]

/-- **C85, partial (set of processors).** As long as the default communicator has the same number of processes, `processor_set` gives all its processors.  Missing: other sizes, see `C85_processor_set_false`. -/
theorem C85_processor_set_partial (cs : List Comm) (n : Nat) (h : ∀ c ∈ cs, c.mem.length = n) :
    processorSets none (cs.map fun c => Communicator.of (some c)) = cs.map fun _ => List.range n := by
  cases cs with
  | nil => rfl
  | cons c cs =>
    simp only [List.map_cons, processorSets, processorSet, Communicator.of, h c List.mem_cons_self]
    rw [mpi_psets, List.map_map]
    rfl

example : processorSets none ([world 3, ⟨[0], [2, 1, 0]⟩].map fun c => Communicator.of (some c)) = [[0, 1, 2], [0, 1, 2]] := by decide

/-- **C85 is false (set of processors).** `processor_set` keeps its first result (vsip/impl/parallel.hpp l.22-36): in a task of two of four processes it has four elements if it was called before the task. -/
theorem C85_processor_set_false : ∃ outer inner : Communicator, processorSets none [outer, inner] = [[0, 1, 2, 3], [0, 1, 2, 3]] ∧ numProcessors inner = .ok 2 :=
  ⟨Communicator.of (some (world 4)), Communicator.of (some ⟨[0], [2, 3]⟩), by decide, by decide⟩

/-! ### Reductions and broadcasts -/

/-- Every reduction declared as supported is one that MPI allows for the datatype. -/
theorem C85_supported (r : Rdx) (t : Ty) (h : supported r t = true) : ∃ op, mpiOp r = some op ∧ allowed op (datatype t) = true := by
  cases r <;> cases t <;> first | exact absurd h (by decide) | exact ⟨_, rfl, by decide⟩

/-- **C85 is false (reductions of other types).** Sums of `signed char`, `char` and complex numbers have an MPI datatype but are refused, as are sums of `bool`; means and the like are not handled. -/
theorem C85_supported_false : (∀ v vs, allreduce .sum .schar v vs = .throws ∧ allreduce .sum .complex v vs = .throws ∧ allreduce .sum .bool v vs = .throws ∧ allreduce .mean .float v vs = .ub) ∧
    allowed .sum .schar = true := ⟨fun _ _ => ⟨rfl, rfl, rfl, rfl⟩, rfl⟩

theorem mpi_and_bool (v : BitVec 32) (h : v = 0 ∨ v = 1) (w : BitVec 32) (h' : w = 0 ∨ w = 1) :
    (v &&& w = if v ≠ 0 ∧ w ≠ 0 then 1 else 0) ∧ (v &&& w = 0 ∨ v &&& w = 1) ∧ (v ||| w = if v ≠ 0 ∨ w ≠ 0 then 1 else 0) ∧ (v ||| w = 0 ∨ v ||| w = 1) := by
  rcases h with rfl | rfl <;> rcases h' with rfl | rfl <;> decide

theorem mpi_foldl_and : ∀ (vs : List (BitVec 32)) (v : BitVec 32), (v = 0 ∨ v = 1) → (∀ x ∈ vs, x = 0 ∨ x = 1) → vs.foldl (fun a b => a &&& b) v = vs.foldl (update .allTrueBool) v
  | [], _, _, _ => rfl
  | x :: vs, v, hv, h => by
    have q := mpi_and_bool v hv x (h x List.mem_cons_self)
    rw [List.foldl_cons, List.foldl_cons, mpi_foldl_and vs _ q.2.1 (fun y hy => h y (List.mem_cons_of_mem _ hy)), q.1]
    rfl

theorem mpi_foldl_or : ∀ (vs : List (BitVec 32)) (v : BitVec 32), (v = 0 ∨ v = 1) → (∀ x ∈ vs, x = 0 ∨ x = 1) → vs.foldl (fun a b => a ||| b) v = vs.foldl (update .anyTrueBool) v
  | [], _, _, _ => rfl
  | x :: vs, v, hv, h => by
    have q := mpi_and_bool v hv x (h x List.mem_cons_self)
    rw [List.foldl_cons, List.foldl_cons, mpi_foldl_or vs _ q.2.2.2 (fun y hy => h y (List.mem_cons_of_mem _ hy)), q.2.2.1]
    rfl

/-- **C85, partial (reductions).** Sums of `int` and the logical reductions of `bool` over all processes are those of a view with the values of all processes.  Missing: `all_true` and `any_true` of `int`, see
`C85_allreduce_false`; sums of `float` depend on the order. -/
theorem C85_allreduce_partial (v : BitVec 32) (vs : List (BitVec 32)) :
    allreduce .sum .int v vs = .ok (reduceView .sum (v :: vs)) ∧
      ((∀ x ∈ v :: vs, x = 0 ∨ x = 1) → allreduce .allTrueBool .bool v vs = .ok (reduceView .allTrueBool (v :: vs)) ∧ allreduce .anyTrueBool .bool v vs = .ok (reduceView .anyTrueBool (v :: vs))) := by
  refine ⟨?_, ?_⟩
  · show Res.ok (vs.foldl (fun a b => a + b) v) = Res.ok (vs.foldl (fun a b => a + b) (0 + v))
    rw [show (0 : BitVec 32) + v = v from BitVec.zero_add v]
  · intro h
    have hv := h v List.mem_cons_self
    have ht : ∀ x ∈ vs, x = 0 ∨ x = 1 := fun x hx => h x (List.mem_cons_of_mem _ hx)
    refine ⟨?_, ?_⟩
    · show Res.ok (vs.foldl (fun a b => a &&& b) v) = Res.ok (vs.foldl (update .allTrueBool) (update .allTrueBool 1 v))
      rw [mpi_foldl_and vs v hv ht]
      rcases hv with rfl | rfl <;> rfl
    · show Res.ok (vs.foldl (fun a b => a ||| b) v) = Res.ok (vs.foldl (update .anyTrueBool) (update .anyTrueBool 0 v))
      rw [mpi_foldl_or vs v hv ht]
      rcases hv with rfl | rfl <;> rfl

example : allreduce .sum .int 5 [7, 30] = .ok 42 ∧ allreduce .allTrueBool .bool 1 [1, 0] = .ok 0 ∧ allreduce .anyTrueBool .bool 0 [0, 1] = .ok 1 := by decide

/-- **C85 is false (reductions of integers).** `alltrue` and `anytrue` of integers are bitwise (reductions/functors.hpp l.38-39, 76-77), but `allreduce` uses the logical operations of MPI: 6 and 3 on two processes give 1, not 2;
2 and 4 give 1, not 6. -/
theorem C85_allreduce_false : (allreduce .allTrue .int 6 [3] = .ok 1 ∧ reduceView .allTrue [6, 3] = 2) ∧ (allreduce .anyTrue .int 2 [4] = .ok 1 ∧ reduceView .anyTrue [2, 4] = 6) := by decide

theorem mpi_foldl_max : ∀ (vs : List (BitVec 32)) (v : BitVec 32), vs.foldl MOp.max.apply v ∈ v :: vs ∧ ∀ x ∈ v :: vs, x.toInt ≤ (vs.foldl MOp.max.apply v).toInt
  | [], v => ⟨List.mem_cons_self, by intro x hx; simp only [List.mem_cons, List.not_mem_nil, or_false] at hx; rw [hx]; exact Int.le_refl _⟩
  | w :: vs, v => by
    have ih := mpi_foldl_max vs (MOp.max.apply v w)
    have e : MOp.max.apply v w = if v.toInt ≤ w.toInt then w else v := rfl
    rw [List.foldl_cons]
    have hle : v.toInt ≤ (MOp.max.apply v w).toInt ∧ w.toInt ≤ (MOp.max.apply v w).toInt ∧ (MOp.max.apply v w = v ∨ MOp.max.apply v w = w) := by
      rw [e]; split
      · next h => exact ⟨h, Int.le_refl _, .inr rfl⟩
      · next h => exact ⟨Int.le_refl _, by omega, .inl rfl⟩
    have h0 := ih.2 _ List.mem_cons_self
    refine ⟨?_, ?_⟩
    · rcases List.mem_cons.mp ih.1 with h | h
      · rw [h]; rcases hle.2.2 with h | h <;> rw [h] <;> simp
      · simp [h]
    · intro x hx
      rcases List.mem_cons.mp hx with rfl | hx
      · omega
      rcases List.mem_cons.mp hx with rfl | hx
      · omega
      · exact ih.2 x (List.mem_cons_of_mem _ hx)

theorem mpi_foldl_min : ∀ (vs : List (BitVec 32)) (v : BitVec 32), vs.foldl MOp.min.apply v ∈ v :: vs ∧ ∀ x ∈ v :: vs, (vs.foldl MOp.min.apply v).toInt ≤ x.toInt
  | [], v => ⟨List.mem_cons_self, by intro x hx; simp only [List.mem_cons, List.not_mem_nil, or_false] at hx; rw [hx]; exact Int.le_refl _⟩
  | w :: vs, v => by
    have ih := mpi_foldl_min vs (MOp.min.apply v w)
    have e : MOp.min.apply v w = if v.toInt ≤ w.toInt then v else w := rfl
    rw [List.foldl_cons]
    have hle : (MOp.min.apply v w).toInt ≤ v.toInt ∧ (MOp.min.apply v w).toInt ≤ w.toInt ∧ (MOp.min.apply v w = v ∨ MOp.min.apply v w = w) := by
      rw [e]; split
      · next h => exact ⟨Int.le_refl _, h, .inl rfl⟩
      · next h => exact ⟨by omega, Int.le_refl _, .inr rfl⟩
    have h0 := ih.2 _ List.mem_cons_self
    refine ⟨?_, ?_⟩
    · rcases List.mem_cons.mp ih.1 with h | h
      · rw [h]; rcases hle.2.2 with h | h <;> rw [h] <;> simp
      · simp [h]
    · intro x hx
      rcases List.mem_cons.mp hx with rfl | hx
      · omega
      rcases List.mem_cons.mp hx with rfl | hx
      · omega
      · exact ih.2 x (List.mem_cons_of_mem _ hx)

/-- The extreme values of `int` over all processes are values of processes that none exceeds. -/
theorem C85_extremes (v : BitVec 32) (vs : List (BitVec 32)) : ∃ a b, allreduce .max .int v vs = .ok a ∧ allreduce .min .int v vs = .ok b ∧ a ∈ v :: vs ∧ b ∈ v :: vs ∧
    ∀ x ∈ v :: vs, b.toInt ≤ x.toInt ∧ x.toInt ≤ a.toInt :=
  ⟨_, _, rfl, rfl, (mpi_foldl_max vs v).1, (mpi_foldl_min vs v).1, fun x hx => ⟨(mpi_foldl_min vs v).2 x hx, (mpi_foldl_max vs v).2 x hx⟩⟩

example : allreduce .max .int 5 [-7, 30] = .ok 30 ∧ allreduce .min .int 5 [-7, 30] = .ok (-7) := by decide

/-- **C85, partial (broadcast).** Up to 2^31-1 elements are broadcast from the process of the given rank to all others, and nothing else changes.  Missing: more elements, see `C85_broadcast_false`. -/
theorem C85_broadcast_partial {V : Type} (c : Comm) (root r : Nat) (hr : c.mem[root]? = some r) (d : Nat → Nat → V) (n : Nat) (hn : n < 2 ^ 31) :
    ∃ d', broadcast c root d n = .ok d' ∧ (∀ p ∈ c.mem, ∀ i, i < n → d' p i = d r i) ∧ ∀ p i, p ∉ c.mem ∨ n ≤ i → d' p i = d p i := by
  have e : toInt32 n = (n : Int) := by
    unfold toInt32
    rw [Nat.mod_eq_of_lt (by omega), if_pos hn]
  refine ⟨_, by rw [broadcast, hr]; simp only; rw [if_neg (by omega)], ?_, ?_⟩
  · intro p hp i hi
    rw [if_pos ⟨hp, by omega⟩]
  · intro p i h
    rw [if_neg]
    rintro ⟨h1, h2⟩
    rcases h with h | h
    · exact h h1
    · omega

example : ∃ d', broadcast (world 2) 1 (fun p i => 10 * p + i) 3 = .ok d' ∧ d' 0 2 = 12 ∧ d' 0 3 = 3 := ⟨_, rfl, by decide, by decide⟩

/-- **C85 is false (broadcast).** The number of elements is converted to `int`: 2^32 elements are not sent at all, 2^31 are an error. -/
theorem C85_broadcast_false : (∃ d', broadcast (world 2) 0 (fun p _ => p) (2 ^ 32) = .ok d' ∧ d' 1 0 = 1) ∧ broadcast (world 2) 0 (fun p _ => p) (2 ^ 31) = .throws :=
  ⟨⟨_, rfl, by decide +kernel⟩, rfl⟩

end Verif.Props
