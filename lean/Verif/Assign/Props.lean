import Verif.Assign.Model
import Mathlib.Tactic.Ring
import Mathlib.Tactic.LinearCombination
import Mathlib.Tactic.Linarith
/-! Property C28: copying assignment of vectors and matrices. -/
namespace Verif.Props
open Verif Asg

variable {V : Type}

/-- address of element `(i,j)` -/
def at2 (M : Mat) (i j : Nat) : Int := M.ptr + i * M.s0 + j * M.s1

/-- Specification of an assignment: every element of the left-hand side has the former value of the corresponding element of the right-hand
side, and no other memory has changed. -/
def Assigned2 (L R : Mat) (n0 n1 : Nat) (m m' : Mem V) : Prop :=
  (∀ i j, i < n0 → j < n1 → m' (at2 L i j) = m (at2 R i j)) ∧ ∀ a, (∀ i j, i < n0 → j < n1 → a ≠ at2 L i j) → m' a = m a

/-- distinct elements have distinct addresses -/
def Inj2 (L : Mat) (n0 n1 : Nat) : Prop :=
  ∀ i j i' j', i < n0 → j < n1 → i' < n0 → j' < n1 → at2 L i j = at2 L i' j' → i = i' ∧ j = j'

/-- the two matrices share no memory -/
def Disjoint2 (L R : Mat) (n0 n1 : Nat) : Prop :=
  ∀ i j i' j', i < n0 → j < n1 → i' < n0 → j' < n1 → at2 L i j ≠ at2 R i' j'

/-! ### Copies as lists of (destination, source) -/

def runCopies (m : Mem V) (l : List (Int × Int)) : Mem V := l.foldl (fun m p => Function.update m p.1 (m p.2)) m

theorem runCopies_append (m : Mem V) (l l' : List (Int × Int)) : runCopies m (l ++ l') = runCopies (runCopies m l) l' := by
  simp [runCopies]

theorem runCopies_other : ∀ (l : List (Int × Int)) (m : Mem V) (a : Int), (∀ p ∈ l, a ≠ p.1) → runCopies m l a = m a
  | [], _, _, _ => rfl
  | p :: l, m, a, h => by
      have := runCopies_other l (Function.update m p.1 (m p.2)) a (fun q hq => h q (by simp [hq]))
      rw [Function.update_of_ne (h p (by simp))] at this
      exact this

theorem runCopies_at : ∀ (l : List (Int × Int)) (m : Mem V), (∀ p ∈ l, ∀ q ∈ l, p.1 = q.1 → p.2 = q.2) → (∀ p ∈ l, ∀ q ∈ l, p.1 ≠ q.2) →
    ∀ p ∈ l, runCopies m l p.1 = m p.2
  | [], _, _, _, _, h => by simp at h
  | q :: l, m, hf, hd, p, hp => by
      have hstep : runCopies m (q :: l) = runCopies (Function.update m q.1 (m q.2)) l := rfl
      rw [hstep]
      by_cases hm : ∃ p' ∈ l, p'.1 = p.1
      · obtain ⟨p', hp', he⟩ := hm
        rw [← he, runCopies_at l _ (fun x hx y hy => hf x (by simp [hx]) y (by simp [hy])) (fun x hx y hy => hd x (by simp [hx]) y (by simp [hy])) p' hp',
          Function.update_of_ne (hd q (by simp) p' (by simp [hp'])).symm, hf p' (by simp [hp']) p hp he]
      · have hpq : p = q := by
          rcases List.mem_cons.1 hp with h | h
          · exact h
          · exact absurd ⟨p, h, rfl⟩ hm
        subst hpq
        rw [runCopies_other l _ _ (fun p' hp' he => hm ⟨p', hp', he.symm⟩), Function.update_self]

theorem scopy_eq : ∀ (n : Nat) (m : Mem V) (l ls r rs : Int),
    scopy m l ls r rs n = runCopies m ((List.range n).map fun (k : Nat) => (l + k * ls, r + k * rs))
  | 0, _, _, _, _, _ => rfl
  | n + 1, m, l, ls, r, rs => by
      rw [scopy, scopy_eq n, List.range_succ_eq_map, List.map_cons, List.map_map]
      show runCopies (Function.update m l (m r)) _ = runCopies (Function.update m (l + (0 : Nat) * ls) (m (r + (0 : Nat) * rs))) _
      have e1 : l + ((0 : Nat) : Int) * ls = l := by simp
      have e2 : r + ((0 : Nat) : Int) * rs = r := by simp
      rw [e1, e2]
      congr 1
      apply List.map_congr_left
      intro k _
      simp only [Function.comp, Prod.mk.injEq, Nat.succ_eq_add_one]
      push_cast
      constructor <;> ring

theorem rowLoop_eq (row : Mem V → Int → Int → Mem V) (f : Int → Int → List (Int × Int)) (h : ∀ m l r, row m l r = runCopies m (f l r)) :
    ∀ (n : Nat) (m : Mem V) (l ls r rs : Int),
      rowLoop row m l ls r rs n = runCopies m ((List.range n).flatMap fun (k : Nat) => f (l + k * ls) (r + k * rs))
  | 0, _, _, _, _, _ => rfl
  | n + 1, m, l, ls, r, rs => by
      rw [rowLoop, rowLoop_eq row f h n, h, List.range_succ_eq_map, List.flatMap_cons, runCopies_append]
      have e1 : l + ((0 : Nat) : Int) * ls = l := by simp
      have e2 : r + ((0 : Nat) : Int) * rs = r := by simp
      rw [e1, e2, List.flatMap_map]
      congr 1
      congr 1
      funext k
      have e3 : l + ls + (k : Int) * ls = l + ((k.succ : Nat) : Int) * ls := by push_cast; ring
      have e4 : r + rs + (k : Int) * rs = r + ((k.succ : Nat) : Int) * rs := by push_cast; ring
      rw [e3, e4]

/-- a strategy which performs the copies `(L(i,j), R(i,j))`, each at least once, assigns -/
theorem assigned_of_pairs (L R : Mat) (n0 n1 : Nat) (hL : Inj2 L n0 n1) (hd : Disjoint2 L R n0 n1) (m : Mem V) (l : List (Int × Int))
    (h : ∀ p, p ∈ l ↔ ∃ i j, i < n0 ∧ j < n1 ∧ p = (at2 L i j, at2 R i j)) : Assigned2 L R n0 n1 m (runCopies m l) := by
  constructor
  · intro i j hi hj
    refine runCopies_at l m ?_ ?_ (at2 L i j, at2 R i j) ((h _).2 ⟨i, j, hi, hj, rfl⟩)
    · intro p hp q hq he
      obtain ⟨i, j, hi, hj, rfl⟩ := (h p).1 hp
      obtain ⟨i', j', hi', hj', rfl⟩ := (h q).1 hq
      obtain ⟨rfl, rfl⟩ := hL i j i' j' hi hj hi' hj' he
      rfl
    · intro p hp q hq
      obtain ⟨i, j, hi, hj, rfl⟩ := (h p).1 hp
      obtain ⟨i', j', hi', hj', rfl⟩ := (h q).1 hq
      exact hd i j i' j' hi hj hi' hj'
  · intro a ha
    refine runCopies_other l m a ?_
    intro p hp
    obtain ⟨i, j, hi, hj, rfl⟩ := (h p).1 hp
    exact ha i j hi hj

theorem copy_assigned (L R : Mat) (n0 n1 : Nat) (hL : Inj2 L n0 n1) (hd : Disjoint2 L R n0 n1) (m : Mem V) :
    Assigned2 L R n0 n1 m (copy m L.ptr L.s0 L.s1 R.ptr R.s0 R.s1 n0 n1) := by
  have hmem : ∀ (a b c d e f : Int) (p : Int × Int), (p ∈ (List.range n0).flatMap fun (k : Nat) => (List.range n1).map fun (j : Nat) =>
        (a + k * b + j * c, d + k * e + j * f)) ↔ ∃ i j, i < n0 ∧ j < n1 ∧ p = (a + i * b + j * c, d + i * e + j * f) := by
    intro a b c d e f p
    simp only [List.mem_flatMap, List.mem_range, List.mem_map]
    constructor
    · rintro ⟨i, hi, j, hj, rfl⟩; exact ⟨i, j, hi, hj, rfl⟩
    · rintro ⟨i, j, hi, hj, rfl⟩; exact ⟨i, hi, j, hj, rfl⟩
  unfold copy
  by_cases h1 : L.s1 = 1 ∧ R.s1 = 1
  · rw [if_pos h1]
    by_cases h2 : L.s0 = n1 ∧ R.s0 = n1
    · rw [if_pos h2, memcpy, scopy_eq]
      apply assigned_of_pairs L R n0 n1 hL hd
      intro p
      simp only [List.mem_map, List.mem_range]
      constructor
      · rintro ⟨k, hk, rfl⟩
        have hn1 : 0 < n1 := by
          rcases Nat.eq_zero_or_pos n1 with h | h
          · subst h; simp at hk
          · exact h
        have hdm : (k : Int) = (k / n1 : Nat) * n1 + (k % n1 : Nat) := by
          have := Nat.div_add_mod k n1
          have : ((n1 * (k / n1) + k % n1 : Nat) : Int) = k := by rw [this]
          push_cast at this ⊢
          linarith
        refine ⟨k / n1, k % n1, Nat.div_lt_of_lt_mul (by rw [Nat.mul_comm]; exact hk), Nat.mod_lt _ hn1, ?_⟩
        simp only [at2, h1.1, h1.2, h2.1, h2.2, Prod.mk.injEq]
        constructor <;> linear_combination hdm
      · rintro ⟨i, j, hi, hj, rfl⟩
        refine ⟨i * n1 + j, ?_, ?_⟩
        · have : (i + 1) * n1 ≤ n0 * n1 := Nat.mul_le_mul_right _ hi
          rw [Nat.add_mul] at this
          omega
        · simp only [at2, h1.1, h1.2, h2.1, h2.2, Prod.mk.injEq]
          push_cast
          constructor <;> ring
    · rw [if_neg h2, rowLoop_eq (fun m l r => memcpy m l r n1) (fun l r => (List.range n1).map fun (j : Nat) => (l + j * 1, r + j * 1)) (fun m l r => scopy_eq n1 m l 1 r 1)]
      apply assigned_of_pairs L R n0 n1 hL hd
      intro p
      rw [hmem]
      simp only [at2, h1.1, h1.2]
  · rw [if_neg h1, rowLoop_eq _ (fun l r => (List.range n1).map fun (j : Nat) => (l + j * L.s1, r + j * R.s1)) (fun m l r => scopy_eq n1 m l L.s1 r R.s1)]
    apply assigned_of_pairs L R n0 n1 hL hd
    intro p
    rw [hmem]
    rfl

theorem foldl_runCopies {α : Type} (f : Mem V → α → Mem V) (g : α → List (Int × Int)) (h : ∀ m a, f m a = runCopies m (g a)) :
    ∀ (l : List α) (m : Mem V), l.foldl f m = runCopies m (l.flatMap g)
  | [], _ => rfl
  | a :: l, m => by rw [List.foldl_cons, foldl_runCopies f g h l, h, List.flatMap_cons, runCopies_append]

theorem transpose_eq (m : Mem V) (l lcs r rrs : Int) (rows cols : Nat) :
    transpose m l lcs r rrs rows cols =
      runCopies m ((List.range rows).flatMap fun (i : Nat) => (List.range cols).flatMap fun (c : Nat) => [(l + (i + c * lcs), r + (i * rrs + c))]) := by
  unfold transpose
  apply foldl_runCopies
  intro m i
  apply foldl_runCopies
  intro m c
  rfl

/-- the matrix with the roles of the dimensions exchanged -/
def tr (M : Mat) : Mat := ⟨M.ptr, M.s1, M.s0⟩

theorem at2_tr (M : Mat) (i j : Nat) : at2 (tr M) i j = at2 M j i := by simp only [at2, tr]; ring

theorem inj_tr {L : Mat} {n0 n1 : Nat} (h : Inj2 L n0 n1) : Inj2 (tr L) n1 n0 := by
  intro i j i' j' hi hj hi' hj' he
  rw [at2_tr, at2_tr] at he
  exact (h j i j' i' hj hi hj' hi' he).symm

theorem disj_tr {L R : Mat} {n0 n1 : Nat} (h : Disjoint2 L R n0 n1) : Disjoint2 (tr L) (tr R) n1 n0 := by
  intro i j i' j' hi hj hi' hj'
  rw [at2_tr, at2_tr]
  exact h j i j' i' hj hi hj' hi'

theorem assigned_tr {L R : Mat} {n0 n1 : Nat} {m m' : Mem V} (h : Assigned2 (tr L) (tr R) n1 n0 m m') : Assigned2 L R n0 n1 m m' := by
  constructor
  · intro i j hi hj
    have := h.1 j i hj hi
    rwa [at2_tr, at2_tr] at this
  · intro a ha
    refine h.2 a ?_
    intro i j hi hj
    rw [at2_tr]
    exact ha j i hj hi

theorem transpose_assigned (L R : Mat) (n0 n1 : Nat) (hL : Inj2 L n0 n1) (hd : Disjoint2 L R n0 n1) (hl : L.s0 = 1) (hr : R.s1 = 1) (m : Mem V) :
    Assigned2 L R n0 n1 m (transpose m L.ptr L.s1 R.ptr R.s0 n0 n1) := by
  rw [transpose_eq]
  apply assigned_of_pairs L R n0 n1 hL hd
  intro p
  simp only [List.mem_flatMap, List.mem_range, List.mem_singleton, at2, hl, hr]
  constructor
  · rintro ⟨i, hi, j, hj, rfl⟩
    refine ⟨i, j, hi, hj, ?_⟩
    simp only [Prod.mk.injEq]
    constructor <;> ring
  · rintro ⟨i, j, hi, hj, rfl⟩
    refine ⟨i, hi, j, hj, ?_⟩
    simp only [Prod.mk.injEq]
    constructor <;> ring

/-! ### In-place transposition -/

def runSwaps (m : Mem V) (l : List (Int × Int)) : Mem V := l.foldl (fun m p => swap m p.1 p.2) m

theorem runSwaps_append (m : Mem V) (l l' : List (Int × Int)) : runSwaps m (l ++ l') = runSwaps (runSwaps m l) l' := by simp [runSwaps]

theorem foldl_runSwaps {α : Type} (f : Mem V → α → Mem V) (g : α → List (Int × Int)) (h : ∀ m a, f m a = runSwaps m (g a)) :
    ∀ (l : List α) (m : Mem V), l.foldl f m = runSwaps m (l.flatMap g)
  | [], _ => rfl
  | a :: l, m => by rw [List.foldl_cons, foldl_runSwaps f g h l, h, List.flatMap_cons, runSwaps_append]

theorem swap_left (m : Mem V) (a b : Int) : swap m a b a = m b := by
  unfold swap
  by_cases h : a = b
  · subst h; simp
  · rw [Function.update_of_ne h, Function.update_self]

theorem swap_right (m : Mem V) (a b : Int) : swap m a b b = m a := by simp [swap]

theorem swap_other (m : Mem V) (a b x : Int) (h1 : x ≠ a) (h2 : x ≠ b) : swap m a b x = m x := by
  unfold swap; rw [Function.update_of_ne h2, Function.update_of_ne h1]

theorem runSwaps_other : ∀ (l : List (Int × Int)) (m : Mem V) (x : Int), (∀ p ∈ l, x ≠ p.1 ∧ x ≠ p.2) → runSwaps m l x = m x
  | [], _, _, _ => rfl
  | p :: l, m, x, h => by
      have := runSwaps_other l (swap m p.1 p.2) x (fun q hq => h q (by simp [hq]))
      rw [swap_other _ _ _ _ (h p (by simp)).1 (h p (by simp)).2] at this
      exact this

/-- no address is touched by two of the exchanges -/
def Apart (p q : Int × Int) : Prop := p.1 ≠ q.1 ∧ p.1 ≠ q.2 ∧ p.2 ≠ q.1 ∧ p.2 ≠ q.2

theorem runSwaps_at : ∀ (l : List (Int × Int)) (m : Mem V), l.Pairwise Apart → ∀ p ∈ l, runSwaps m l p.1 = m p.2 ∧ runSwaps m l p.2 = m p.1
  | [], _, _, _, h => by simp at h
  | q :: l, m, hp, p, h => by
      have hstep : runSwaps m (q :: l) = runSwaps (swap m q.1 q.2) l := rfl
      rw [List.pairwise_cons] at hp
      rw [hstep]
      rcases List.mem_cons.1 h with rfl | h
      · have o1 := runSwaps_other l (swap m p.1 p.2) p.1 (fun r hr => ⟨(hp.1 r hr).1, (hp.1 r hr).2.1⟩)
        have o2 := runSwaps_other l (swap m p.1 p.2) p.2 (fun r hr => ⟨(hp.1 r hr).2.2.1, (hp.1 r hr).2.2.2⟩)
        rw [o1, o2, swap_left, swap_right]
        exact ⟨rfl, rfl⟩
      · obtain ⟨a, b⟩ := runSwaps_at l (swap m q.1 q.2) hp.2 p h
        have ha := hp.1 p h
        rw [a, b, swap_other _ _ _ _ ha.2.1.symm ha.2.2.2.symm, swap_other _ _ _ _ ha.1.symm ha.2.2.1.symm]
        exact ⟨rfl, rfl⟩

theorem inplace_eq (m : Mem V) (p rs cs : Int) (n : Nat) : transposeInPlace m p rs cs n n =
    runSwaps m ((List.range n).flatMap fun (i : Nat) => ((List.range (n - i)).map (i + ·)).flatMap fun (j : Nat) =>
      [(p + (cs * i + rs * j), p + (cs * j + rs * i))]) := by
  unfold transposeInPlace
  apply foldl_runSwaps
  intro m i
  apply foldl_runSwaps
  intro m j
  rfl

theorem inplace_assigned (L R : Mat) (n : Nat) (hL : Inj2 L n n) (hp : L.ptr = R.ptr) (h0 : R.s0 = L.s1) (h1 : R.s1 = L.s0) (m : Mem V) :
    Assigned2 L R n n m (transposeInPlace m L.ptr L.s0 L.s1 n n) := by
  have hat : ∀ i j : Nat, L.ptr + (L.s1 * i + L.s0 * j) = at2 L j i := by intro i j; simp only [at2]; ring
  have hR : ∀ i j : Nat, at2 R i j = at2 L j i := by intro i j; simp only [at2, hp, h0, h1]; ring
  have hmem : ∀ q, q ∈ ((List.range n).flatMap fun (i : Nat) => ((List.range (n - i)).map (i + ·)).flatMap fun (j : Nat) =>
      [(L.ptr + (L.s1 * i + L.s0 * j), L.ptr + (L.s1 * j + L.s0 * i))]) ↔ ∃ i j, i ≤ j ∧ j < n ∧ q = (at2 L j i, at2 L i j) := by
    intro q
    simp only [List.mem_flatMap, List.mem_range, List.mem_map, List.mem_singleton]
    constructor
    · rintro ⟨i, hi, j, ⟨k, hk, rfl⟩, rfl⟩
      exact ⟨i, i + k, by omega, by omega, by rw [hat, hat]⟩
    · rintro ⟨i, j, hij, hj, rfl⟩
      exact ⟨i, by omega, j, ⟨j - i, by omega, by omega⟩, by rw [hat, hat]⟩
  have hpw : ((List.range n).flatMap fun (i : Nat) => ((List.range (n - i)).map (i + ·)).flatMap fun (j : Nat) =>
      [(L.ptr + (L.s1 * i + L.s0 * j), L.ptr + (L.s1 * j + L.s0 * i))]).Pairwise Apart := by
    have apart : ∀ i j i' j', i ≤ j → j < n → i' ≤ j' → j' < n → (i, j) ≠ (i', j') →
        Apart (at2 L j i, at2 L i j) (at2 L j' i', at2 L i' j') := by
      intro i j i' j' hij hj hij' hj' hne
      refine ⟨?_, ?_, ?_, ?_⟩ <;> intro he
      · obtain ⟨rfl, rfl⟩ := hL _ _ _ _ hj (by omega) hj' (by omega) he; exact hne rfl
      · obtain ⟨e1, e2⟩ := hL _ _ _ _ hj (by omega) (by omega) hj' he
        subst e1; subst e2
        have : i = j := by omega
        subst this
        exact hne rfl
      · obtain ⟨e1, e2⟩ := hL _ _ _ _ (by omega) hj hj' (by omega) he
        subst e1; subst e2
        have : i = j := by omega
        subst this
        exact hne rfl
      · obtain ⟨rfl, rfl⟩ := hL _ _ _ _ (by omega) hj (by omega) hj' he; exact hne rfl
    rw [List.pairwise_flatMap]
    constructor
    · intro i hi
      have hi := List.mem_range.1 hi
      rw [List.pairwise_flatMap]
      refine ⟨fun j _ => List.pairwise_singleton _ _, ?_⟩
      rw [List.pairwise_map]
      apply List.Pairwise.imp_of_mem _ (List.pairwise_lt_range (n := n - i))
      intro k k' hk hk' hlt x hx y hy
      simp only [List.mem_singleton] at hx hy
      have hk := List.mem_range.1 hk
      have hk' := List.mem_range.1 hk'
      subst hx; subst hy
      rw [hat, hat, hat, hat]
      exact apart i (i + k) i (i + k') (by omega) (by omega) (by omega) (by omega) (by simp; omega)
    · apply List.Pairwise.imp_of_mem _ (List.pairwise_lt_range (n := n))
      intro i i' hi hi' hlt x hx y hy
      have hi := List.mem_range.1 hi
      have hi' := List.mem_range.1 hi'
      simp only [List.mem_flatMap, List.mem_map, List.mem_range, List.mem_singleton] at hx hy
      obtain ⟨j, ⟨k, hk, rfl⟩, rfl⟩ := hx
      obtain ⟨j', ⟨k', hk', rfl⟩, rfl⟩ := hy
      rw [hat, hat, hat, hat]
      exact apart i (i + k) i' (i' + k') (by omega) (by omega) (by omega) (by omega) (by simp; omega)
  rw [inplace_eq]
  constructor
  · intro i j hi hj
    rw [hR]
    rcases Nat.le_total i j with hij | hij
    · exact (runSwaps_at _ m hpw (at2 L j i, at2 L i j) ((hmem _).2 ⟨i, j, hij, hj, rfl⟩)).2
    · exact (runSwaps_at _ m hpw (at2 L i j, at2 L j i) ((hmem _).2 ⟨j, i, hij, hi, rfl⟩)).1
  · intro a ha
    refine runSwaps_other _ m a ?_
    intro p hp
    obtain ⟨i, j, hij, hj, rfl⟩ := (hmem p).1 hp
    exact ⟨ha j i hj (by omega), ha i j (by omega) hj⟩

/-! ### C28 -/

/-- **C28** for matrices that share no memory, whichever strategy is picked, except the generic fallback from column-major to row-major for
matrices that are not square.
Missing: that fallback, see `C28_fallback_false`. -/
theorem C28_disjoint_partial (lrow rrow : Bool) (L R : Mat) (n0 n1 : Nat) (hn0 : 0 < n0) (hn1 : 0 < n1) (hL : Inj2 L n0 n1) (hd : Disjoint2 L R n0 n1)
    (hx : lrow = true → rrow = false → n0 = n1 ∨ (L.s1 = 1 ∧ R.s0 = 1)) (m : Mem V) :
    ∃ m', assign2 lrow rrow L R n0 n1 m = some m' ∧ Assigned2 L R n0 n1 m m' := by
  have hp : L.ptr ≠ R.ptr := by
    have := hd 0 0 0 0 hn0 hn1 hn0 hn1
    simpa [at2] using this
  match lrow, rrow with
  | true, true => exact ⟨_, rfl, copy_assigned L R n0 n1 hL hd m⟩
  | false, false => exact ⟨_, rfl, assigned_tr (copy_assigned (tr L) (tr R) n1 n0 (inj_tr hL) (disj_tr hd) m)⟩
  | false, true =>
    simp only [assign2, if_neg hp]
    by_cases h : L.s0 = 1 ∧ R.s1 = 1
    · rw [if_pos h]
      exact ⟨_, rfl, transpose_assigned L R n0 n1 hL hd h.1 h.2 m⟩
    · rw [if_neg h]
      exact ⟨_, rfl, copy_assigned L R n0 n1 hL hd m⟩
  | true, false =>
    simp only [assign2, if_neg hp]
    by_cases h : L.s1 = 1 ∧ R.s0 = 1
    · rw [if_pos h]
      exact ⟨_, rfl, assigned_tr (transpose_assigned (tr L) (tr R) n1 n0 (inj_tr hL) (disj_tr hd) h.1 h.2 m)⟩
    · rw [if_neg h]
      rcases hx rfl rfl with e | e
      · subst e
        exact ⟨_, rfl, copy_assigned L R n0 n0 hL hd m⟩
      · exact absurd e h

/-- **C28**, in place: assigning the transpose of a square matrix to itself.
Missing: other views that start at the same element, see `C28_same_ptr_false`. -/
theorem C28_inplace_partial (lrow : Bool) (L R : Mat) (n : Nat) (hL : Inj2 L n n) (hp : L.ptr = R.ptr) (h0 : R.s0 = L.s1) (h1 : R.s1 = L.s0) (m : Mem V) :
    ∃ m', assign2 lrow (!lrow) L R n n m = some m' ∧ Assigned2 L R n n m m' := by
  cases lrow
  · exact ⟨_, by simp [assign2, hp], inplace_assigned L R n hL hp h0 h1 m⟩
  · exact ⟨_, by simp [assign2, hp], inplace_assigned L R n hL hp h0 h1 m⟩

theorem inj_of_dense (p : Int) (n0 n1 s : Nat) (hs : n1 ≤ s) : Inj2 ⟨p, s, 1⟩ n0 n1 := by
  intro i j i' j' hi hj hi' hj' he
  simp only [at2] at he
  have : (i : Int) = i' := by
    by_contra hne
    rcases lt_or_gt_of_ne hne with h | h
    · have : ((i : Int) + 1) * s ≤ i' * s := Int.mul_le_mul_of_nonneg_right (by omega) (by omega)
      have : ((i : Int) + 1) * s = i * s + s := by ring
      omega
    · have : ((i' : Int) + 1) * s ≤ i * s := Int.mul_le_mul_of_nonneg_right (by omega) (by omega)
      have : ((i' : Int) + 1) * s = i' * s + s := by ring
      omega
  rw [this] at he
  omega

/-- an instance: 2x3 row-major := column-major, contiguous -/
example : ∃ L R : Mat, Inj2 L 2 3 ∧ Disjoint2 L R 2 3 ∧ L.s1 = 1 ∧ R.s0 = 1 := by
  refine ⟨⟨0, 3, 1⟩, ⟨100, 1, 2⟩, inj_of_dense 0 2 3 3 (by decide), ?_, rfl, rfl⟩
  intro i j i' j' hi hj hi' hj'
  simp only [at2]
  omega

/-- **C28, where it fails (1).** Assigning a column-major to a row-major matrix when neither has unit stride: the fallback passes the number of
columns as the number of rows.  For a 1x2 matrix the second element is not assigned and the memory behind the matrix is overwritten. -/
theorem C28_fallback_false : ∃ (L R : Mat) (m : Mem Nat), Inj2 L 1 2 ∧ Disjoint2 L R 1 2 ∧
    ∀ m', assign2 true false L R 1 2 m = some m' → ¬ Assigned2 L R 1 2 m m' := by
  refine ⟨⟨0, 100, 2⟩, ⟨1000, 200, 3⟩, fun a => a.toNat, ?_, ?_, ?_⟩
  · intro i j i' j' hi hj hi' hj' he
    simp only [at2] at he
    omega
  · intro i j i' j' hi hj hi' hj'
    simp only [at2]
    omega
  · intro m' hm ha
    have := ha.1 0 1 (by decide) (by decide)
    have hm := Option.some.inj hm
    subst hm
    revert this
    decide

/-- **C28, where it fails (2).** Equal pointers are taken to mean "transpose of itself".  A row-major view and a column-major view that start
at the same element but have other strides: here `A.col-major 2x2 = A'` where `A'` takes every second row. -/
theorem C28_same_ptr_false : ∃ (L R : Mat) (m : Mem Nat), Inj2 L 2 2 ∧ L.ptr = R.ptr ∧
    ∀ m', assign2 true false L R 2 2 m = some m' → ¬ Assigned2 L R 2 2 m m' := by
  refine ⟨⟨0, 4, 1⟩, ⟨0, 2, 8⟩, fun a => a.toNat, inj_of_dense 0 2 2 4 (by decide), rfl, ?_⟩
  intro m' hm ha
  have := ha.1 1 1 (by decide) (by decide)
  simp only [assign2, if_true, Option.some.injEq] at hm
  subst hm
  revert this
  decide

/-- **C28** for vectors. -/
theorem C28_vector (same : Bool) (l ls r rs : Int) (n : Nat) (hinj : ∀ i j : Nat, i < n → j < n → l + i * ls = l + j * ls → i = j)
    (hd : ∀ i j : Nat, i < n → j < n → l + i * ls ≠ r + j * rs) (m : Mem V) :
    (∀ i : Nat, i < n → assign1 same l ls r rs n m (l + i * ls) = m (r + i * rs)) ∧
    ∀ a, (∀ i : Nat, i < n → a ≠ l + i * ls) → assign1 same l ls r rs n m a = m a := by
  have e : assign1 same l ls r rs n m = scopy m l ls r rs n := by
    unfold assign1
    split
    · rename_i h; rw [h.2.1, h.2.2]; rfl
    · rfl
  rw [e, scopy_eq]
  constructor
  · intro i hi
    refine runCopies_at _ m ?_ ?_ (l + i * ls, r + i * rs) (List.mem_map.2 ⟨i, List.mem_range.2 hi, rfl⟩)
    · intro p hp q hq he
      obtain ⟨i, hi, rfl⟩ := List.mem_map.1 hp
      obtain ⟨j, hj, rfl⟩ := List.mem_map.1 hq
      rw [hinj i j (List.mem_range.1 hi) (List.mem_range.1 hj) he]
    · intro p hp q hq
      obtain ⟨i, hi, rfl⟩ := List.mem_map.1 hp
      obtain ⟨j, hj, rfl⟩ := List.mem_map.1 hq
      exact hd i j (List.mem_range.1 hi) (List.mem_range.1 hj)
  · intro a ha
    refine runCopies_other _ m a ?_
    intro p hp
    obtain ⟨i, hi, rfl⟩ := List.mem_map.1 hp
    exact ha i (List.mem_range.1 hi)

example : (∀ i j : Nat, i < 5 → j < 5 → (10 : Int) + i * -2 = 10 + j * -2 → i = j) ∧ (∀ i j : Nat, i < 5 → j < 5 → (10 : Int) + i * -2 ≠ 20 + j * 3) := by
  constructor <;> intro i j hi hj <;> omega

end Verif.Props
