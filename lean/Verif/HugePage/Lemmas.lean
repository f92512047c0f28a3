import Verif.HugePage.Model
import Mathlib.Data.List.Basic
import Mathlib.Data.List.Perm.Basic
import Mathlib.Algebra.BigOperators.Group.List.Basic
import Mathlib.Data.List.Pairwise
/-!
Lemmas for the pool allocator: blocks that tile the pool, and the free list in memory.
-/
namespace Verif.Props
open Verif.Huge

/-- a block: address and size -/
abbrev Blk := Nat × Nat

def BlkApart (a b : Blk) : Prop := a.1 + a.2 ≤ b.1 ∨ b.1 + b.2 ≤ a.1

theorem BlkApart.symm {a b : Blk} (h : BlkApart a b) : BlkApart b a := Or.symm h

def total (X : List Blk) : Nat := (X.map Prod.snd).sum

/-- the blocks fill the pool without overlap; sizes are multiples of 128 -/
structure Tiling (base size : Nat) (X : List Blk) : Prop where
  apart : X.Pairwise BlkApart
  inside : ∀ b ∈ X, base ≤ b.1 ∧ b.1 + b.2 ≤ base + size
  step : ∀ b ∈ X, 0 < b.2 ∧ b.2 % 128 = 0 ∧ (b.1 - base) % 128 = 0
  cover : ∀ x, base ≤ x → x < base + size → ∃ b ∈ X, b.1 ≤ x ∧ x < b.1 + b.2
  sum : total X = size

theorem Tiling.perm {base size : Nat} {X Y : List Blk} (h : Tiling base size X) (p : X.Perm Y) : Tiling base size Y where
  apart := (p.pairwise_iff fun h => BlkApart.symm h).mp h.apart
  inside := fun b hb => h.inside b (p.mem_iff.mpr hb)
  step := fun b hb => h.step b (p.mem_iff.mpr hb)
  cover := fun x h1 h2 => by obtain ⟨b, hb, h⟩ := h.cover x h1 h2; exact ⟨b, p.mem_iff.mp hb, h⟩
  sum := by rw [← h.sum, total, total]; exact ((p.map _).sum_eq).symm

theorem Tiling.split {base size a n k : Nat} {X : List Blk} (h : Tiling base size ((a, n) :: X)) (h0 : 0 < k) (hk : k < n) (hm : k % 128 = 0) :
    Tiling base size ((a, k) :: (a + k, n - k) :: X) := by
  obtain ⟨hap, hin, hst, hco, hsu⟩ := h
  obtain ⟨hX, hp⟩ := List.pairwise_cons.mp hap
  have ia := hin _ List.mem_cons_self
  have sa := hst _ List.mem_cons_self
  simp only at ia sa
  refine ⟨?_, ?_, ?_, ?_, ?_⟩
  · refine List.pairwise_cons.mpr ⟨fun b hb => ?_, List.pairwise_cons.mpr ⟨fun b hb => ?_, hp⟩⟩
    · rcases List.mem_cons.mp hb with e | e
      · subst e; exact Or.inl (Nat.le_refl _)
      · have := hX b e; simp only [BlkApart] at this ⊢; omega
    · have := hX b hb; simp only [BlkApart] at this ⊢; omega
  · intro b hb
    rcases List.mem_cons.mp hb with e | hb
    · subst e; simp only; omega
    · rcases List.mem_cons.mp hb with e | hb
      · subst e; simp only; omega
      · exact hin b (List.mem_cons_of_mem _ hb)
  · intro b hb
    rcases List.mem_cons.mp hb with e | hb
    · subst e; exact ⟨h0, hm, sa.2.2⟩
    · rcases List.mem_cons.mp hb with e | hb
      · subst e; simp only; omega
      · exact hst b (List.mem_cons_of_mem _ hb)
  · intro x h1 h2
    obtain ⟨b, hb, h3, h4⟩ := hco x h1 h2
    rcases List.mem_cons.mp hb with e | hb
    · subst e
      simp only at h3 h4
      by_cases hx : x < a + k
      · exact ⟨_, List.mem_cons_self, h3, hx⟩
      · exact ⟨_, List.mem_cons_of_mem _ List.mem_cons_self, by simp only; omega, by simp only; omega⟩
    · exact ⟨b, List.mem_cons_of_mem _ (List.mem_cons_of_mem _ hb), h3, h4⟩
  · rw [← hsu]; simp only [total, List.map_cons, List.sum_cons]; omega

theorem Tiling.merge {base size a k m : Nat} {X : List Blk} (h : Tiling base size ((a, k) :: (a + k, m) :: X)) :
    Tiling base size ((a, k + m) :: X) := by
  obtain ⟨hap, hin, hst, hco, hsu⟩ := h
  obtain ⟨h1, hp⟩ := List.pairwise_cons.mp hap
  obtain ⟨h2, hp⟩ := List.pairwise_cons.mp hp
  have ia := hin _ List.mem_cons_self
  have sa := hst _ List.mem_cons_self
  have ib := hin (a + k, m) (List.mem_cons_of_mem _ List.mem_cons_self)
  have sb := hst (a + k, m) (List.mem_cons_of_mem _ List.mem_cons_self)
  simp only at ia sa ib sb
  refine ⟨?_, ?_, ?_, ?_, ?_⟩
  · refine List.pairwise_cons.mpr ⟨fun b hb => ?_, hp⟩
    have c1 := h1 b (List.mem_cons_of_mem _ hb)
    have c2 := h2 b hb
    have c3 := hst b (List.mem_cons_of_mem _ (List.mem_cons_of_mem _ hb))
    simp only [BlkApart] at c1 c2 ⊢; omega
  · intro b hb
    rcases List.mem_cons.mp hb with e | hb
    · subst e; simp only; omega
    · exact hin b (List.mem_cons_of_mem _ (List.mem_cons_of_mem _ hb))
  · intro b hb
    rcases List.mem_cons.mp hb with e | hb
    · subst e; simp only; omega
    · exact hst b (List.mem_cons_of_mem _ (List.mem_cons_of_mem _ hb))
  · intro x h1 h2
    obtain ⟨b, hb, h3, h4⟩ := hco x h1 h2
    rcases List.mem_cons.mp hb with e | hb
    · subst e; exact ⟨_, List.mem_cons_self, h3, by simp only at h4 ⊢; omega⟩
    · rcases List.mem_cons.mp hb with e | hb
      · subst e; exact ⟨_, List.mem_cons_self, by simp only at h3 ⊢; omega, by simp only at h4 ⊢; omega⟩
      · exact ⟨b, List.mem_cons_of_mem _ hb, h3, h4⟩
  · rw [← hsu]; simp only [total, List.map_cons, List.sum_cons]; omega

/-! ### The free list in memory -/

/-- following the links from `p` along the blocks of `l` leads to `q` -/
def Seg (mem : Nat → Nat) : Nat → List Blk → Nat → Prop
  | p, [], q => p = q
  | p, b :: l, q => p = b.1 ∧ mem (b.1 + 8) = b.2 ∧ Seg mem (mem b.1) l q

theorem seg_append {mem : Nat → Nat} : ∀ (l1 l2 : List Blk) (p q : Nat), Seg mem p (l1 ++ l2) q ↔ ∃ m, Seg mem p l1 m ∧ Seg mem m l2 q
  | [], l2, p, q => by simp [Seg]
  | b :: l1, l2, p, q => by
    simp only [List.cons_append, Seg, seg_append l1 l2]
    constructor
    · rintro ⟨h1, h2, m, h3, h4⟩; exact ⟨m, ⟨h1, h2, h3⟩, h4⟩
    · rintro ⟨m, ⟨h1, h2, h3⟩, h4⟩; exact ⟨h1, h2, m, h3, h4⟩

theorem Seg.frame {mem mem' : Nat → Nat} : ∀ {l : List Blk} {p q : Nat}, Seg mem p l q → (∀ b ∈ l, mem' b.1 = mem b.1 ∧ mem' (b.1 + 8) = mem (b.1 + 8)) →
    Seg mem' p l q
  | [], _, _, h, _ => h
  | b :: l, p, q, h, hb => by
    have := hb b List.mem_cons_self
    exact ⟨h.1, this.2.trans h.2.1, this.1 ▸ Seg.frame h.2.2 fun c hc => hb c (List.mem_cons_of_mem _ hc)⟩

/-- a word that is no header of the blocks in `l` -/
def Off (l : List Blk) (w : Nat) : Prop := ∀ b ∈ l, w ≠ b.1 ∧ w ≠ b.1 + 8

theorem Seg.set {mem : Nat → Nat} {l : List Blk} {p q w v : Nat} (h : Seg mem p l q) (ho : Off l w) : Seg (Function.update mem w v) p l q :=
  h.frame fun b hb => ⟨Function.update_of_ne (Ne.symm (ho b hb).1) .., Function.update_of_ne (Ne.symm (ho b hb).2) ..⟩

/-- the block before: the last of `l`, or null -/
def lastOf (l : List Blk) : Nat := match l.getLast? with | some b => b.1 | none => 0

theorem lastOf_nil : lastOf [] = 0 := rfl
theorem lastOf_snoc (l : List Blk) (b : Blk) : lastOf (l ++ [b]) = b.1 := by simp [lastOf]

/-- the first of `l`, or null -/
def headOf (l : List Blk) : Nat := match l with | b :: _ => b.1 | [] => 0

theorem Seg.head {mem : Nat → Nat} {l : List Blk} {p : Nat} (h : Seg mem p l 0) : p = headOf l := by
  cases l with
  | nil => exact h
  | cons b l => exact h.1

theorem lastOf_cons (b : Blk) (l : List Blk) (h : l ≠ []) : lastOf (b :: l) = lastOf l := by
  obtain ⟨l', c, rfl⟩ : ∃ l' c, l = l' ++ [c] := ⟨_, _, (List.dropLast_append_getLast h).symm⟩
  rw [← List.cons_append, lastOf_snoc, lastOf_snoc]

theorem fit_spec {s : Pool} {size : Nat} : ∀ (l : List Blk) (fuel prev ptr : Nat), Seg s.mem ptr l 0 → (∀ b ∈ l, 0 < b.1 ∧ inPool s b.1 = true) →
    l.length < fuel → ∃ l1 l2, l = l1 ++ l2 ∧ (∀ b ∈ l1, b.2 < size) ∧ (∀ b ∈ l2.head?, size ≤ b.2) ∧
      fit s size fuel prev ptr = some (if l1 = [] then prev else lastOf l1, headOf l2)
  | [], fuel + 1, prev, ptr, h, _, _ => ⟨[], [], rfl, by simp, by simp, by simp [fit, show ptr = 0 from h, headOf]⟩
  | b :: l, fuel + 1, prev, ptr, h, hb, hf => by
    obtain ⟨hp, hs, ht⟩ := h
    have hpos := hb b List.mem_cons_self
    subst hp
    by_cases hlt : b.2 < size
    · obtain ⟨l1, l2, e, h1, h2, h3⟩ := fit_spec l fuel b.1 _ ht (fun c hc => hb c (List.mem_cons_of_mem _ hc)) (by simpa using hf)
      refine ⟨b :: l1, l2, by rw [e]; rfl, ?_, h2, ?_⟩
      · intro c hc
        rcases List.mem_cons.mp hc with e | hc
        · exact e ▸ hlt
        · exact h1 c hc
      · rw [fit, if_neg (by omega), if_pos hpos.2, hs, if_pos hlt, h3]
        by_cases e1 : l1 = []
        · simp [e1, lastOf]
        · simp [e1, lastOf_cons]
    · refine ⟨[], b :: l, rfl, by simp, by simp; omega, ?_⟩
      rw [fit, if_neg (by omega), if_pos hpos.2, hs, if_neg hlt]; rfl

theorem place_spec {s : Pool} {r : Nat} : ∀ (l : List Blk) (fuel prev ptr : Nat), Seg s.mem ptr l 0 → (∀ b ∈ l, 0 < b.1 ∧ inPool s b.1 = true) →
    l.length < fuel → ∃ l1 l2, l = l1 ++ l2 ∧ (∀ b ∈ l1, b.1 < r) ∧ (∀ b ∈ l2.head?, r ≤ b.1) ∧
      place s r fuel prev ptr = some (if l1 = [] then prev else lastOf l1, headOf l2)
  | [], fuel + 1, prev, ptr, h, _, _ => ⟨[], [], rfl, by simp, by simp, by simp [place, show ptr = 0 from h, headOf]⟩
  | b :: l, fuel + 1, prev, ptr, h, hb, hf => by
    obtain ⟨hp, hs, ht⟩ := h
    have hpos := hb b List.mem_cons_self
    subst hp
    by_cases hlt : b.1 < r
    · obtain ⟨l1, l2, e, h1, h2, h3⟩ := place_spec l fuel b.1 _ ht (fun c hc => hb c (List.mem_cons_of_mem _ hc)) (by simpa using hf)
      refine ⟨b :: l1, l2, by rw [e]; rfl, ?_, h2, ?_⟩
      · intro c hc
        rcases List.mem_cons.mp hc with e | hc
        · exact e ▸ hlt
        · exact h1 c hc
      · rw [place, if_pos ⟨by omega, hlt⟩, if_pos hpos.2, h3]
        by_cases e1 : l1 = []
        · simp [e1, lastOf]
        · simp [e1, lastOf_cons]
    · refine ⟨[], b :: l, rfl, by simp, by simp; omega, ?_⟩
      rw [place, if_neg (by omega)]; rfl

end Verif.Props
