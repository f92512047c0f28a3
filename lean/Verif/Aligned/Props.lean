import Verif.Aligned.Model
import Mathlib.Data.Nat.Bitwise
import Mathlib.Algebra.Order.Ring.Nat
/-!
C59: aligned allocation, and the class that owns such a block.
-/
namespace Verif.Aln

theorem mask_pow {k : Nat} (hk : k ≤ 63) : mask (2 ^ k) = W₆₄ - 2 ^ k := by
  have h1 : 1 ≤ 2 ^ k := Nat.one_le_two_pow
  have h2 : 2 ^ k ≤ 2 ^ 63 := Nat.pow_le_pow_right (by omega) hk
  simp only [mask]
  omega

theorem and_mask {k x : Nat} (hk : k ≤ 63) (hx : x < W₆₄) : x &&& mask (2 ^ k) = x / 2 ^ k * 2 ^ k := by
  rw [mask_pow hk]
  have h2 : 2 ^ k ≤ 2 ^ 63 := Nat.pow_le_pow_right (by omega) hk
  have h3 : W₆₄ - 2 ^ k = 2 ^ 64 - ((2 ^ k - 1) + 1) := by
    have : 1 ≤ 2 ^ k := Nat.one_le_two_pow
    omega
  apply Nat.eq_of_testBit_eq
  intro i
  rw [h3, Nat.testBit_and, Nat.testBit_two_pow_sub_succ (by omega), Nat.testBit_two_pow_sub_one, Nat.testBit_mul_two_pow, Nat.testBit_div_two_pow]
  by_cases hi : i < 64
  · by_cases hik : i < k
    · simp [hik, Nat.not_le.mpr hik]
    · simp [hi, hik, Nat.not_lt.mp hik]
  · have : x.testBit i = false := Nat.testBit_lt_two_pow (Nat.lt_of_lt_of_le hx (by
      show 2 ^ 64 ≤ 2 ^ i
      exact Nat.pow_le_pow_right (by omega) (by omega)))
    simp [hi, this]
    intro hki
    rw [show i - k + k = i by omega]; exact this

end Verif.Aln

namespace Verif.Props
open Verif.Aln

/-- C59: for every power-of-two alignment of at least 8 and every address `malloc` may give (a multiple of 8, the block inside the address space), the
result is a multiple of the alignment, the requested bytes and the hidden word before them lie inside the block, and after any stores to the requested
bytes `free_align` passes the address `malloc` gave to `free`. -/
theorem C59_align (malloc mem : Nat → Nat) (k size : Nat) (h3 : 3 ≤ k) (h63 : k ≤ 63) (p : Nat) (hp : malloc (size + 2 ^ k) = p) (h0 : 0 < p) (h8 : p % 8 = 0)
    (hend : p + (size + 2 ^ k) < W₆₄) : ∃ ret mem', allocBytes malloc mem (2 ^ k) size = .ok ret mem' (size + 2 ^ k) ∧
      2 ^ k ∣ ret ∧ p ≤ ret - 8 ∧ 8 ≤ ret ∧ ret + size ≤ p + (size + 2 ^ k) ∧
      (∀ w, w < p ∨ p + (size + 2 ^ k) < w + 8 → mem' w = mem w) ∧
      ∀ user : Nat → Nat, (∀ w, w + 8 ≤ ret → user w = mem' w) → freeArg user ret = some p := by
  have h1 : 8 ≤ 2 ^ k := by
    have : 2 ^ 3 ≤ 2 ^ k := Nat.pow_le_pow_right (by omega) h3
    omega
  have hdvd : (8 : Nat) ∣ 2 ^ k := by
    have : 2 ^ 3 ∣ 2 ^ k := Nat.pow_dvd_pow 2 h3
    exact this
  have hx : p + 2 ^ k < W₆₄ := by omega
  have hmod : (size + 2 ^ k) % W₆₄ = size + 2 ^ k := Nat.mod_eq_of_lt (by omega)
  have hret := and_mask h63 hx
  generalize hr : (p + 2 ^ k) / 2 ^ k * 2 ^ k = ret at hret
  have hd : 2 ^ k ∣ ret := hr ▸ Nat.dvd_mul_left _ _
  have hlow : ret ≤ p + 2 ^ k := hr ▸ Nat.div_mul_le_self _ _
  have hgt : p < ret := by
    have h := Nat.div_add_mod (p + 2 ^ k) (2 ^ k)
    have h' := Nat.mod_lt (p + 2 ^ k) (show 0 < 2 ^ k by omega)
    rw [Nat.mul_comm, hr] at h; omega
  have h8r : ret % 8 = 0 := Nat.mod_eq_zero_of_dvd (Nat.dvd_trans hdvd hd)
  refine ⟨ret, Function.update mem (ret - 8) p, ?_, hd, by omega, by omega, by omega, ?_, ?_⟩
  · simp only [allocBytes]
    rw [if_pos h1, hmod, hp, if_neg (by omega), Nat.mod_eq_of_lt hx, hret]
  · intro w hw
    rw [Function.update_of_ne]; omega
  · intro user hu
    rw [freeArg, if_pos (by omega), hu _ (by omega), Function.update_self]

example : ∃ mem', allocBytes (fun _ => 1000008) (fun _ => 0) (2 ^ 5) 100 = .ok 1000032 mem' 132 := ⟨_, rfl⟩

/-- C59: `aligned_allocator::allocate` gives at least one byte; nothing else changes the request. -/
theorem C59_allocator (malloc mem : Nat → Nat) (A n : Nat) (h : n < W₆₄) : allocate malloc mem A n = allocBytes malloc mem A (max n 1) := by
  simp only [allocate, alloc, Nat.mul_one]
  by_cases hn : n = 0
  · rw [if_pos hn, hn]; rfl
  · rw [if_neg hn, Nat.mod_eq_of_lt h, Nat.max_eq_left (by omega)]

/-- Sizes near 2^64 wrap in `size + align` (l.44): `malloc` is asked for 15 bytes and the block does not hold the bytes that were requested. -/
theorem C59_wrap_false : ∃ ret mem', allocBytes (fun _ => 1024) (fun _ => 0) 16 18446744073709551615 = .ok ret mem' 15 ∧
    ¬ ret + 18446744073709551615 ≤ 1024 + 15 := ⟨1040, _, rfl, by decide⟩

/-- `size * sizeof(T)` wraps in `alloc_align<T>` (l.64-70): 2^61 + 1 elements of 8 bytes are given 8 bytes. -/
theorem C59_count_false : ∃ ret mem', alloc (fun _ => 1024) (fun _ => 0) 16 8 2305843009213693953 = .ok ret mem' 24 := ⟨1040, _, rfl⟩

/-- The precondition admits alignments that are no powers of two; for those the result need not be a multiple. -/
theorem C59_power_false : ∃ ret mem', allocBytes (fun _ => 1040) (fun _ => 0) 24 100 = .ok ret mem' 124 ∧ ¬ 24 ∣ ret := ⟨1064, _, rfl, by decide⟩

/-! ### Ownership -/

inductive ArrOp where
  | new0 (o : Nat)
  | new (o p n : Nat)
  | copy (o src : Nat)
  | assign (o src : Nat)
  | assignRef (o src : Nat)
  | destroy (o : Nat)
deriving DecidableEq

def arrOp (h : Heap) : ArrOp → Option Heap
  | .new0 o => some (ctor0 h o)
  | .new o p n => some (ctor h o p n)
  | .copy o s => Aln.copy h o s
  | .assign o s => Aln.assign h o s
  | .assignRef o s => Aln.assignRef h o s
  | .destroy o => dtor h o

def arrRun : Heap → List ArrOp → Option Heap
  | h, [] => some h
  | h, op :: ops => (arrOp h op).bind fun h => arrRun h ops

/-- what each object owns: nothing there, an empty object (0, 0), or a block of some size -/
abbrev Own := Nat → Option (Nat × Nat)

def noBlock : Nat × Nat := (0, 0)

/-- ownership moves: the source is left empty, the target has what the source had -/
def ownOp (w : Own) : ArrOp → Own
  | .new0 o => Function.update w o (some noBlock)
  | .new o p n => Function.update w o (some (p, n))
  | .copy o s | .assign o s | .assignRef o s => Function.update (Function.update w s (some noBlock)) o (w s)
  | .destroy o => Function.update w o none

/-- objects are made where there is none and used where there is one; a new block is at an address that is not in use -/
def OwnOk (w : Own) : ArrOp → Prop
  | .new0 o => w o = none
  | .new o p _ => w o = none ∧ p ≠ 0 ∧ ∀ q n, w q ≠ some (p, n)
  | .copy o s => w o = none ∧ w s ≠ none
  | .assign o s | .assignRef o s => w o ≠ none ∧ w s ≠ none
  | .destroy o => w o ≠ none

def ownRun : Own → List ArrOp → Own
  | w, [] => w
  | w, op :: ops => ownRun (ownOp w op) ops

def ownOk : Own → List ArrOp → Prop
  | _, [] => True
  | w, op :: ops => OwnOk w op ∧ ownOk (ownOp w op) ops

structure OwnInv (h : Heap) (w : Own) : Prop where
  obj : ∀ o, h.obj o = (w o).map fun a => ⟨a.1, a.2⟩
  blk : ∀ p n, h.blk p = some n ↔ p ≠ 0 ∧ ∃ o, w o = some (p, n)
  null : ∀ o n, w o = some (0, n) → n = 0
  inj : ∀ o o' p n n', w o = some (p, n) → w o' = some (p, n') → p ≠ 0 → o = o'

theorem own_free {h : Heap} {w : Own} (hI : OwnInv h w) {o p n : Nat} (ho : w o = some (p, n)) :
    ∃ h', h.free p = some h' ∧ h'.obj = h.obj ∧ ∀ q m, h'.blk q = some m ↔ q ≠ 0 ∧ ∃ o', o' ≠ o ∧ w o' = some (q, m) := by
  by_cases hp : p = 0
  · refine ⟨h, if_pos hp, rfl, fun q m => (hI.blk q m).trans ⟨?_, ?_⟩⟩
    · rintro ⟨h1, o', h2⟩
      exact ⟨h1, o', fun e => by subst e; rw [ho] at h2; cases h2; exact h1 hp, h2⟩
    · rintro ⟨h1, o', _, h2⟩; exact ⟨h1, o', h2⟩
  · have hb := (hI.blk p n).mpr ⟨hp, o, ho⟩
    refine ⟨{ h with blk := Function.update h.blk p none }, ?_, rfl, fun q m => ?_⟩
    · rw [Heap.free, if_neg hp, if_pos (by rw [hb]; rfl)]
    · show Function.update h.blk p none q = some m ↔ _
      by_cases hq : q = p
      · subst hq
        rw [Function.update_self]
        refine ⟨fun h => (nomatch h), ?_⟩
        rintro ⟨-, o', h1, h2⟩
        exact absurd (hI.inj _ _ _ _ _ h2 ho hp) h1
      · rw [Function.update_of_ne hq, hI.blk q m]
        constructor
        · rintro ⟨h1, o', h2⟩
          exact ⟨h1, o', fun e => by subst e; rw [ho] at h2; cases h2; exact hq rfl, h2⟩
        · rintro ⟨h1, o', _, h2⟩; exact ⟨h1, o', h2⟩

/-- moving ownership keeps the invariant -/
theorem own_move {h : Heap} {w : Own} {o s p n : Nat} (hI : OwnInv h w) (hs : w s = some (p, n)) {h' : Heap}
    (hobj : ∀ q, h'.obj q = (Function.update (Function.update w s (some noBlock)) o (w s) q).map fun a => ⟨a.1, a.2⟩)
    (hblk : ∀ q m, h'.blk q = some m ↔ q ≠ 0 ∧ ∃ o', (o' ≠ o ∨ o = s) ∧ w o' = some (q, m)) :
    OwnInv h' (Function.update (Function.update w s (some noBlock)) o (w s)) := by
  have key : ∀ q a, Function.update (Function.update w s (some noBlock)) o (w s) q = some a → a.1 ≠ 0 →
      (q = o ∧ w s = some a) ∨ (q ≠ o ∧ q ≠ s ∧ w q = some a) := fun q a hq ha => by
    by_cases e : q = o
    · subst e; rw [Function.update_self] at hq; exact Or.inl ⟨rfl, hq⟩
    · rw [Function.update_of_ne e] at hq
      by_cases e' : q = s
      · subst e'; rw [Function.update_self] at hq; cases hq; exact absurd rfl ha
      · rw [Function.update_of_ne e'] at hq; exact Or.inr ⟨e, e', hq⟩
  refine ⟨hobj, fun q m => (hblk q m).trans ?_, fun q m hq => ?_, fun q q' a m m' h1 h2 ha => ?_⟩
  · constructor
    · rintro ⟨h1, o', h2, h3⟩
      refine ⟨h1, ?_⟩
      by_cases e : o' = s
      · exact ⟨o, by rw [Function.update_self, ← e, h3]⟩
      · by_cases e2 : o' = o
        · subst e2; rcases h2 with h2 | h2
          · exact absurd rfl h2
          · exact absurd h2 e
        · exact ⟨o', by rw [Function.update_of_ne e2, Function.update_of_ne e, h3]⟩
    · rintro ⟨h1, o', h2⟩
      rcases key o' (q, m) h2 h1 with ⟨e, h3⟩ | ⟨e, e', h3⟩
      · refine ⟨h1, s, ?_, h3⟩
        by_cases hos : o = s
        · exact Or.inr hos
        · exact Or.inl (Ne.symm hos)
      · exact ⟨h1, o', Or.inl e, h3⟩
  · by_cases e : q = o
    · subst e; rw [Function.update_self] at hq; exact hI.null _ _ hq
    · rw [Function.update_of_ne e] at hq
      by_cases e' : q = s
      · subst e'; rw [Function.update_self] at hq; cases hq; rfl
      · rw [Function.update_of_ne e'] at hq; exact hI.null _ _ hq
  · rcases key q (a, m) h1 ha with ⟨e1, k1⟩ | ⟨e1, e1', k1⟩ <;> rcases key q' (a, m') h2 ha with ⟨e2, k2⟩ | ⟨e2, e2', k2⟩
    · rw [e1, e2]
    · exact absurd (hI.inj _ _ _ _ _ k1 k2 ha) (Ne.symm e2')
    · exact absurd (hI.inj _ _ _ _ _ k1 k2 ha) e1'
    · exact hI.inj _ _ _ _ _ k1 k2 ha

theorem own_put {h : Heap} {w : Own} (hI : OwnInv h w) (s : Nat) (q : Nat) (a : Option (Nat × Nat)) :
    (Function.update h.obj s (a.map fun a => ⟨a.1, a.2⟩) : Nat → Option Arr) q = (Function.update w s a q).map fun a => ⟨a.1, a.2⟩ := by
  by_cases e : q = s
  · subst e; rw [Function.update_self, Function.update_self]
  · rw [Function.update_of_ne e, Function.update_of_ne e, hI.obj]

/-- `release` and `reset` in a row: the block of the target is freed, and the target has what the source had -/
theorem own_assignRef {h : Heap} {w : Own} (hI : OwnInv h w) {o s : Nat} (ho : w o ≠ none) (hs : w s ≠ none) :
    ∃ h', Aln.assignRef h o s = some h' ∧ OwnInv h' (Function.update (Function.update w s (some noBlock)) o (w s)) := by
  obtain ⟨⟨p, n⟩, hs⟩ := Option.ne_none_iff_exists'.mp hs
  obtain ⟨⟨po, no⟩, ho⟩ := Option.ne_none_iff_exists'.mp ho
  have hos : h.obj s = some ⟨p, n⟩ := by rw [hI.obj, hs]; rfl
  have hoo : h.obj o = some ⟨po, no⟩ := by rw [hI.obj, ho]; rfl
  by_cases e : o = s
  · subst e
    rw [hs] at ho; cases ho
    by_cases hp : p = 0
    · subst hp
      have := hI.null _ _ hs
      subst this
      refine ⟨h.put o (some ⟨0, 0⟩), ?_, own_move hI hs (fun q => ?_) (fun q m => ?_)⟩
      · simp [Aln.assignRef, release, hos, reset, Heap.put]
      · rw [hs]
        show Function.update h.obj o _ q = _
        by_cases e : q = o
        · subst e; simp
        · simp [e, hI.obj]
      · simp [Heap.put, hI.blk]
    · refine ⟨(h.put o (some ⟨0, 0⟩)).put o (some ⟨p, n⟩), ?_, own_move hI hs (fun q => ?_) (fun q m => ?_)⟩
      · simp [Aln.assignRef, release, hos, reset, Heap.put, hp, Heap.free]
      · rw [hs]
        show Function.update (Function.update h.obj o _) o _ q = _
        by_cases e : q = o
        · subst e; simp
        · simp [e, hI.obj]
      · simp [Heap.put, hI.blk]
  · by_cases hpp : p = po
    · -- both are empty
      have hp : p = 0 := by
        by_contra hne
        exact e (hI.inj o s p no n (hpp ▸ ho) hs hne)
      subst hp
      subst hpp
      have h1 := hI.null _ _ hs
      have h2 := hI.null _ _ ho
      subst h1 h2
      refine ⟨h.put s (some ⟨0, 0⟩), ?_, own_move hI hs (fun q => ?_) (fun q m => ?_)⟩
      · simp [Aln.assignRef, release, hos, reset, Heap.put, e, hoo]
      · rw [hs]
        show Function.update h.obj s _ q = _
        by_cases e1 : q = s
        · subst e1; rw [Function.update_self, Function.update_of_ne (Ne.symm e), Function.update_self]; rfl
        · by_cases e2 : q = o
          · subst e2; rw [Function.update_of_ne e1, hoo, Function.update_self]; rfl
          · simp [e1, e2, hI.obj]
      · rw [show (h.put s (some ⟨0, 0⟩)).blk = h.blk from rfl, hI.blk]
        constructor
        · rintro ⟨k1, o', k2⟩
          exact ⟨k1, o', Or.inl (fun e => by subst e; rw [ho] at k2; cases k2; exact k1 rfl), k2⟩
        · rintro ⟨k1, o', -, k2⟩; exact ⟨k1, o', k2⟩
    · obtain ⟨h1, f1, f2, f3⟩ := own_free hI ho
      have hfree : (h.put s (some ⟨0, 0⟩)).free po = some (h1.put s (some ⟨0, 0⟩)) := by
        simp only [Heap.free, Heap.put] at f1 ⊢
        by_cases hz : po = 0
        · rw [if_pos hz] at f1 ⊢; cases f1; rfl
        · rw [if_neg hz] at f1 ⊢
          by_cases hb : (h.blk po).isSome = true
          · rw [if_pos hb] at f1; cases f1; exact if_pos hb
          · rw [if_neg hb] at f1; cases f1
      refine ⟨(h1.put s (some ⟨0, 0⟩)).put o (some ⟨p, n⟩), ?_, own_move hI hs (fun q => ?_) (fun q m => ?_)⟩
      · simp only [Aln.assignRef, release, hos, Option.map_some, Option.bind_some, reset]
        rw [show (h.put s (some ⟨0, 0⟩)).obj o = some ⟨po, no⟩ by simp [Heap.put, e, hoo]]
        simp only [Option.bind_some]
        rw [if_pos hpp, hfree]; rfl
      · rw [hs]
        show Function.update (Function.update h1.obj s _) o _ q = _
        rw [f2]
        by_cases e2 : q = o
        · subst e2; simp
        · by_cases e1 : q = s
          · subst e1; simp [e2, noBlock]
          · simp [e1, e2, hI.obj]
      · rw [show ((h1.put s (some ⟨0, 0⟩)).put o (some ⟨p, n⟩)).blk = h1.blk from rfl, f3]
        constructor
        · rintro ⟨k1, o', k2, k3⟩; exact ⟨k1, o', Or.inl k2, k3⟩
        · rintro ⟨k1, o', k2, k3⟩; exact ⟨k1, o', k2.resolve_right e, k3⟩

theorem assign_eq {h : Heap} {w : Own} (hI : OwnInv h w) {o s : Nat} (ho : w o ≠ none) (hs : w s ≠ none) : Aln.assign h o s = Aln.assignRef h o s := by
  obtain ⟨⟨p, n⟩, hs⟩ := Option.ne_none_iff_exists'.mp hs
  obtain ⟨⟨po, no⟩, ho⟩ := Option.ne_none_iff_exists'.mp ho
  have hos : h.obj s = some ⟨p, n⟩ := by rw [hI.obj, hs]; rfl
  have hoo : h.obj o = some ⟨po, no⟩ := by rw [hI.obj, ho]; rfl
  simp only [Aln.assign, Aln.assignRef, release, hos, Option.map_some, Option.bind_some, reset]
  obtain ⟨c, hc, hcz⟩ : ∃ c, (h.put s (some ⟨0, 0⟩)).obj o = some c ∧ (p = c.data → c = ⟨p, n⟩) := by
    by_cases e : o = s
    · subst e
      refine ⟨⟨0, 0⟩, by simp [Heap.put], fun hp => ?_⟩
      simp only at hp; subst hp
      rw [hI.null _ _ hs]
    · refine ⟨⟨po, no⟩, by simp [Heap.put, e, hoo], fun hp => ?_⟩
      simp only at hp
      have hz : p = 0 := by
        by_contra hne
        exact e (hI.inj o s p no n (hp ▸ ho) hs hne)
      subst hz; subst hp
      rw [hI.null _ _ hs, hI.null _ _ ho]
  rw [hc]
  simp only [Option.bind_some]
  by_cases hp : p ≠ c.data
  · rw [if_pos hp, if_pos hp]
    cases (h.put s (some ⟨0, 0⟩)).free c.data with
    | none => rfl
    | some h2 => simp [Heap.put]
  · have hp' := Classical.not_not.mp hp
    rw [if_neg hp, if_neg hp]
    have hcc := hcz hp'
    simp only [Option.bind_some, hc, Option.map_some, hcc]
    rw [hcc] at hc
    refine congrArg some ?_
    have : Function.update (h.put s (some ⟨0, 0⟩)).obj o (some ⟨p, n⟩) = (h.put s (some ⟨0, 0⟩)).obj := by
      rw [← hc, Function.update_eq_self]
    show Heap.mk (Function.update (h.put s (some ⟨0, 0⟩)).obj o (some ⟨p, n⟩)) _ = _
    rw [this]

theorem own_op {h : Heap} {w : Own} (hI : OwnInv h w) (op : ArrOp) (hok : OwnOk w op) : ∃ h', arrOp h op = some h' ∧ OwnInv h' (ownOp w op) := by
  cases op with
  | new0 o =>
    have ho : w o = none := hok
    refine ⟨_, rfl, fun q => ?_, fun p n => (hI.blk p n).trans ?_, fun q n hq => ?_, fun q q' p n n' h1 h2 hp => ?_⟩
    · exact own_put hI o q (some noBlock)
    · refine and_congr_right fun hp => exists_congr fun q => ?_
      by_cases e : q = o
      · subst e; simp [ownOp, ho, noBlock, Ne.symm hp]
      · simp [ownOp, e]
    · by_cases e : q = o
      · subst e; simp [ownOp, noBlock] at hq; exact hq.symm
      · simp only [ownOp, Function.update_of_ne e] at hq; exact hI.null _ _ hq
    · have k : ∀ q m, ownOp w (.new0 o) q = some (p, m) → w q = some (p, m) := fun q m hq => by
        by_cases e : q = o
        · subst e; simp [ownOp, noBlock] at hq; exact absurd hq.1.symm hp
        · simp only [ownOp, Function.update_of_ne e] at hq; exact hq
      exact hI.inj _ _ _ _ _ (k _ _ h1) (k _ _ h2) hp
  | new o p n =>
    obtain ⟨ho, hp, hf⟩ := hok
    have hb : h.blk p = none := by
      cases hb : h.blk p with
      | none => rfl
      | some m => obtain ⟨-, q, hq⟩ := (hI.blk p m).mp hb; exact absurd hq (hf q m)
    refine ⟨_, rfl, fun q => ?_, fun q m => ?_, fun q m hq => ?_, fun q q' a m m' h1 h2 ha => ?_⟩
    · exact own_put hI o q (some (p, n))
    · show Function.update h.blk p (some n) q = some m ↔ _
      by_cases e : q = p
      · subst e
        rw [Function.update_self]
        constructor
        · intro h1; cases h1; exact ⟨hp, o, by simp [ownOp]⟩
        · rintro ⟨-, r, hr⟩
          by_cases e : r = o
          · subst e; simp [ownOp] at hr; rw [hr]
          · simp only [ownOp, Function.update_of_ne e] at hr; exact absurd hr (hf r m)
      · rw [Function.update_of_ne e, hI.blk q m]
        refine and_congr_right fun hp => exists_congr fun r => ?_
        by_cases e' : r = o
        · subst e'; simp [ownOp, ho, Ne.symm e]
        · simp [ownOp, e']
    · by_cases e : q = o
      · subst e; simp [ownOp] at hq; exact absurd hq.1 hp
      · simp only [ownOp, Function.update_of_ne e] at hq; exact hI.null _ _ hq
    · by_cases e : q = o <;> by_cases e' : q' = o
      · rw [e, e']
      · subst e
        simp only [ownOp, Function.update_self, Function.update_of_ne e'] at h1 h2
        cases h1; exact absurd h2 (hf _ _)
      · subst e'
        simp only [ownOp, Function.update_self, Function.update_of_ne e] at h1 h2
        cases h2; exact absurd h1 (hf _ _)
      · simp only [ownOp, Function.update_of_ne e, Function.update_of_ne e'] at h1 h2
        exact hI.inj _ _ _ _ _ h1 h2 ha
  | copy o s =>
    obtain ⟨ho, hs⟩ := hok
    obtain ⟨⟨p, n⟩, hs⟩ := Option.ne_none_iff_exists'.mp hs
    have hos : h.obj s = some ⟨p, n⟩ := by rw [hI.obj, hs]; rfl
    have hne : o ≠ s := fun e => by subst e; rw [ho] at hs; cases hs
    refine ⟨(h.put s (some ⟨0, 0⟩)).put o (some ⟨p, n⟩), by simp [arrOp, Aln.copy, release, hos], own_move hI hs (fun q => ?_) (fun q m => ?_)⟩
    · rw [hs]
      show Function.update (Function.update h.obj s _) o _ q = _
      by_cases e2 : q = o
      · subst e2; simp
      · by_cases e1 : q = s
        · subst e1; simp [e2, noBlock]
        · simp [e1, e2, hI.obj]
    · rw [show ((h.put s (some ⟨0, 0⟩)).put o (some ⟨p, n⟩)).blk = h.blk from rfl, hI.blk]
      constructor
      · rintro ⟨k1, o', k2⟩
        exact ⟨k1, o', Or.inl (fun e => by subst e; rw [ho] at k2; cases k2), k2⟩
      · rintro ⟨k1, o', -, k2⟩; exact ⟨k1, o', k2⟩
  | assign o s =>
    obtain ⟨h', e, i⟩ := own_assignRef hI hok.1 hok.2
    exact ⟨h', (assign_eq hI hok.1 hok.2).trans e, i⟩
  | assignRef o s => exact own_assignRef hI hok.1 hok.2
  | destroy o =>
    obtain ⟨⟨p, n⟩, ho⟩ := Option.ne_none_iff_exists'.mp (show w o ≠ none from hok)
    have hoo : h.obj o = some ⟨p, n⟩ := by rw [hI.obj, ho]; rfl
    obtain ⟨h1, f1, f2, f3⟩ := own_free hI ho
    refine ⟨h1.put o none, by simp [arrOp, dtor, hoo, f1], fun q => ?_, fun q m => (f3 q m).trans ?_, fun q m hq => ?_, fun q q' a m m' k1 k2 ha => ?_⟩
    · show Function.update h1.obj o none q = _
      rw [f2]; exact own_put hI o q none
    · refine and_congr_right fun _ => exists_congr fun r => ?_
      by_cases e : r = o
      · subst e; simp [ownOp]
      · simp [ownOp, e]
    · by_cases e : q = o
      · subst e; simp [ownOp] at hq
      · simp only [ownOp, Function.update_of_ne e] at hq; exact hI.null _ _ hq
    · by_cases e : q = o
      · subst e; simp [ownOp] at k1
      · by_cases e' : q' = o
        · subst e'; simp [ownOp] at k2
        · simp only [ownOp, Function.update_of_ne e, Function.update_of_ne e'] at k1 k2
          exact hI.inj _ _ _ _ _ k1 k2 ha

theorem own_run : ∀ (ops : List ArrOp) (h : Heap) (w : Own), OwnInv h w → ownOk w ops → ∃ h', arrRun h ops = some h' ∧ OwnInv h' (ownRun w ops)
  | [], h, w, hI, _ => ⟨h, rfl, hI⟩
  | op :: ops, h, w, hI, hok => by
    obtain ⟨h1, e, i⟩ := own_op hI op hok.1
    obtain ⟨h', e', i'⟩ := own_run ops h1 _ i hok.2
    exact ⟨h', by simp [arrRun, e, e'], i'⟩

/-- C59, ownership: over any history of making, copying, assigning (also to itself) and destroying arrays no block is freed twice, each object has
the block and size that moved to it, and the heap holds exactly the blocks some object owns: nothing is lost. -/
theorem C59_owner (ops : List ArrOp) (hok : ownOk (fun _ => none) ops) : ∃ h, arrRun ⟨fun _ => none, fun _ => none⟩ ops = some h ∧
    (∀ o, h.obj o = (ownRun (fun _ => none) ops o).map fun a => ⟨a.1, a.2⟩) ∧
    ∀ p n, h.blk p = some n ↔ p ≠ 0 ∧ ∃ o, ownRun (fun _ => none) ops o = some (p, n) := by
  obtain ⟨h, e, i⟩ := own_run ops ⟨fun _ => none, fun _ => none⟩ (fun _ => none)
    ⟨fun _ => rfl, fun p n => by simp, fun o n h => by simp at h, fun o o' p n n' h => by simp at h⟩ hok
  exact ⟨h, e, i.obj, i.blk⟩

/-- two blocks, a copy, an assignment that frees, one to itself, and the end -/
example : ownOk (fun _ => none) [.new 0 64 5, .new 1 128 7, .new0 2, .copy 3 0, .assign 3 1, .assign 3 3, .assignRef 2 3, .destroy 0, .destroy 2] := by
  simp [ownOk, OwnOk, ownOp, Function.update_apply, noBlock]

end Verif.Props
