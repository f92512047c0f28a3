import Verif.Rbo.Model
import Verif.Dft.Lemmas
import Mathlib.Data.Nat.Bitwise
import Mathlib.Data.Fin.VecNotation
import Mathlib.Tactic.IntervalCases
import Mathlib.Tactic.FinCases

/-!
# C69: sizes of transforms and results computed late
-/

namespace Verif.Rbo

open Verif.Dft

variable {A V : Type} [DecidableEq A]

theorem step_cached (s : State A V) (c : Cmd A V) (v : ℕ) (n : Node A V) (x : ℕ → V) (h : s.views[v]? = some n) (hc : n.cache = some x) :
    (step s c).views[v]? = some n := by
  have hv : v < s.views.length := by
    by_contra hh
    rw [List.getElem?_eq_none (by omega)] at h
    exact absurd h (by simp)
  cases c with
  | make op => simp only [step]; rw [List.getElem?_append_left hv, h]
  | copy w =>
    simp only [step]
    cases hw : s.views[w]? with
    | none => exact h
    | some k => simp only; rw [List.getElem?_append_left hv, h]
  | get w i =>
    simp only [step]
    cases hw : s.views[w]? with
    | none => exact h
    | some k =>
      simp only
      by_cases e : v = w
      · subst e
        rw [h] at hw
        cases hw
        rw [List.getElem?_set_self hv]
        simp [Node.get, Node.evaluate, hc]
      · rw [List.getElem?_set_ne (Ne.symm e), h]
  | assign dst w =>
    simp only [step]
    cases hw : s.views[w]? with
    | none => exact h
    | some k => exact h
  | put a y => exact h

theorem run_cached (p : List (Cmd A V)) : ∀ (s : State A V) (v : ℕ) (n : Node A V) (x : ℕ → V), s.views[v]? = some n → n.cache = some x →
    (run s p).views[v]? = some n := by
  induction p with
  | nil => intro s v n x h _; exact h
  | cons c p ih => intro s v n x h hc; exact ih (step s c) v n x (step_cached s c v n x h hc) hc

theorem store_at (dst : ℕ → A) (size : ℕ) (v : ℕ → V) (m : A → V) (hinj : ∀ i < size, ∀ j < size, dst i = dst j → i = j) :
    (∀ i < size, store dst size v m (dst i) = v i) ∧ ∀ a, (∀ i < size, a ≠ dst i) → store dst size v m a = m a := by
  unfold store
  have := loop_local size (fun i (m : A → V) => Function.update m (dst i) (v i)) (fun i a => a = dst i)
    (fun j _ m a ha => Function.update_of_ne ha _ _)
    (fun j _ m m' a ha _ => by subst ha; simp)
    (fun i hi j hj a h1 h2 => hinj i hi j hj (h1.symm.trans h2)) m
  exact ⟨fun i hi => by rw [this.1 i hi _ rfl]; simp, fun a ha => this.2 a fun j hj => ha j hj⟩

theorem selfInto_step (S : Dir) (ib is : ℤ) (l : ℕ) (dst : ℕ → ℤ) (m : Cm) (hinj : ∀ i < l, ∀ j < l, dst i = dst j → i = j) :
    ∀ n ≤ l, ∀ w < n, loop n (fun w m => Function.update m (dst w) (sum1 (phi S l) m ib is l w)) m (dst w) =
      dft1 S.neg l (fun k => loop w (fun w m => Function.update m (dst w) (sum1 (phi S l) m ib is l w)) m (ib + (k : ℤ) * is)) w := by
  intro n
  induction n with
  | zero => intro _ w hw; omega
  | succ n ih =>
    intro hn w hw
    rw [loop_succ]
    by_cases e : w = n
    · subst e
      rw [Function.update_self, sum1_eq]
    · rw [Function.update_of_ne (fun h => e (hinj w (by omega) n (by omega) h)), ih (by omega) w (by omega)]

theorem selfInto_off (S : Dir) (ib is : ℤ) (l : ℕ) (dst : ℕ → ℤ) (m : Cm) (a : ℤ) :
    ∀ n, (∀ w < n, a ≠ dst w) → loop n (fun w m => Function.update m (dst w) (sum1 (phi S l) m ib is l w)) m a = m a := by
  intro n
  induction n with
  | zero => intro _; rfl
  | succ n ih =>
    intro h
    rw [loop_succ, Function.update_of_ne (h n (by omega)), ih fun w hw => h w (by omega)]

theorem unit_zero (neg : Bool) (l w : ℕ) : unit neg l 0 w = 1 := by simp [Dft.unit]

theorem unit_zero' (neg : Bool) (l k : ℕ) : unit neg l k 0 = 1 := by simp [Dft.unit]

end Verif.Rbo

namespace Verif.Props

open Verif.Rbo Verif.Dft Finset

/-- **C69.** Input and output sizes: along the axis the complex side of a real transform has `n/2 + 1` values, all others have the size given; what a forward
transform produces is what the inverse transform of the same size takes, and the other way round. -/
theorem C69_sizes {D : ℕ} (A : Fin D) (dom : Fin D → Dom) (k : Kind) (d : Fin D) :
    (inputSize k A dom d).length = (if k = .cr ∧ d = A then (dom A).length / 2 + 1 else (dom d).length) ∧
    (outputSize k A dom d).length = (if k = .rc ∧ d = A then (dom A).length / 2 + 1 else (dom d).length) ∧
    outputSize .rc A dom = inputSize .cr A dom ∧ outputSize .cr A dom = inputSize .rc A dom ∧ outputSize .cc A dom = inputSize .cc A dom := by
  refine ⟨?_, ?_, by simp [inputSize, outputSize], by simp [inputSize, outputSize], by simp [inputSize, outputSize]⟩
  · unfold inputSize
    by_cases hk : k = .cr
    · by_cases hd : d = A
      · subst hd; simp [hk, half]
      · simp [hk, half, hd]
    · simp [hk]
  · unfold outputSize
    by_cases hk : k = .rc
    · by_cases hd : d = A
      · subst hd; simp [hk, half]
      · simp [hk, half, hd]
    · simp [hk]

example : (outputSize .rc (1 : Fin 2) ![Dom.ofLen 4, Dom.ofLen 7] 1).length = 4 := (C69_sizes 1 ![Dom.ofLen 4, Dom.ofLen 7] .rc 1).2.1

/-- **C69 is false (first index and stride).** `input_size` and `output_size` are documented to return domains with first index 0 and stride 1; they return the
domain given to the constructor, whatever its first index and stride. -/
theorem C69_domain_false : ∃ (dom : Fin 1 → Dom), (inputSize .cc 0 dom 0).first ≠ 0 ∧ (outputSize .cc 0 dom 0).stride ≠ 1 :=
  ⟨fun _ => ⟨5, 2, 8⟩, by decide, by decide⟩

/-- **C69.** `is_power_of_two` of sizes below 2^32: the powers of two, and 0. -/
theorem C69_power (n : ℕ) (hn : n < 2 ^ 32) : isPowerOfTwo n = true ↔ n = 0 ∨ ∃ k, n = 2 ^ k := by
  unfold isPowerOfTwo
  simp only [Nat.mod_eq_of_lt hn, decide_eq_true_eq]
  by_cases h0 : n = 0
  · subst h0; simp
  · rw [show (n + 2 ^ 32 - 1) % 2 ^ 32 = n - 1 by omega]
    simp only [h0, false_or]
    constructor
    · intro h
      have := (Nat.and_sub_one_eq_zero_iff_isPowerOfTwo h0).1 h
      exact this
    · rintro ⟨k, rfl⟩
      exact (Nat.and_sub_one_eq_zero_iff_isPowerOfTwo h0).2 ⟨k, rfl⟩

example : isPowerOfTwo 4096 = true := (C69_power 4096 (by decide)).2 (.inr ⟨12, rfl⟩)

/-- **C69 is false (`is_power_of_two`).** It takes an `unsigned`: of 3 * 2^32 it sees 0, which it counts as a power of two. -/
theorem C69_power_false : isPowerOfTwo 0 = true ∧ isPowerOfTwo (3 * 2 ^ 32) = true ∧ ¬ ∃ k, 3 * 2 ^ 32 = 2 ^ k := by
  refine ⟨by decide, by decide, ?_⟩
  rintro ⟨k, h⟩
  have : 3 ∣ 2 ^ k := ⟨2 ^ 32, h.symm⟩
  exact absurd (Nat.Prime.dvd_of_dvd_pow Nat.prime_three this) (by decide)

/-- **C69.** The local part of a row- or column-wise transform by value: as many lines as the processor holds of the argument, each as long as a line of the
result; no elements at all on processors that hold nothing. -/
theorem C69_local (axis : Fin 2) (out sub : Fin 2 → ℕ) : localSize axis out sub (1 - axis) = sub (1 - axis) ∧
    localSize axis out sub axis = (if sub (1 - axis) = 0 then 0 else out axis) := by
  fin_cases axis <;> simp [localSize]

example : localSize 1 ![8, 5] ![3, 8] 1 = 5 := (C69_local 1 ![8, 5] ![3, 8]).2

/-- **C69 is false (distributed real transforms).** A row-wise real transform of a distributed matrix whose rows are whole is rejected for every row length above
2, because the domains of input and output, which have `n` and `n/2 + 1` columns, are required to be equal. -/
theorem C69_fftm_real_false (r n : ℕ) (hn : 2 < n) (first : ℕ) :
    fftmAccepts 1 1 ![⟨first, 1, r⟩, Dom.ofLen n] (outputSize .rc (1 : Fin 2) ![⟨first, 1, r⟩, Dom.ofLen n]) = false := by
  unfold fftmAccepts
  rw [decide_eq_false_iff_not]
  rintro ⟨-, -, h⟩
  have := congrArg Dom.length (congrFun h 1)
  rw [(C69_sizes 1 ![⟨first, 1, r⟩, Dom.ofLen n] .rc 1).2.1] at this
  simp [Dom.ofLen] at this
  omega

variable {A V : Type} [DecidableEq A]

/-- **C69.** A result that has been looked at once is fixed: whatever the program does afterwards, including writing to the argument of the transform, every
later look finds the values of the transform at the time of the first look. -/
theorem C69_stable (s : State A V) (v i j : ℕ) (n : Node A V) (h : s.views[v]? = some n) (hc : n.cache = none) (p : List (Cmd A V)) :
    (run s (.get v i :: p ++ [.get v j])).read.getLast? = some (some (n.op.fresh s.mem j)) := by
  have hv : v < s.views.length := by
    by_contra hh
    rw [List.getElem?_eq_none (by omega)] at h
    exact absurd h (by simp)
  have h1 : (step s (.get v i)).views[v]? = some { n with cache := some (n.op.fresh s.mem) } := by
    simp only [step, h]
    rw [List.getElem?_set_self hv]
    simp [Node.get, Node.evaluate, hc]
  have h2 := run_cached p _ v _ _ h1 rfl
  have e : run s (.get v i :: p ++ [.get v j]) = step (run (step s (.get v i)) p) (.get v j) := by
    simp [run, List.foldl_append]
  rw [e]
  generalize run (step s (.get v i)) p = t at h2
  simp only [step, h2]
  simp [Node.get, Node.evaluate]

/-- **C69, partial (by value).** The values found are those of the transform at the time of the call if, until the first look, memory keeps the values the
transform reads.  Missing: the transform is not computed when it is called, see `C69_deferred_false`. -/
theorem C69_by_value_partial (s : State A V) (op : Functor A V) (p : List (Cmd A V)) (j : ℕ) (R : A → Prop)
    (hR : ∀ m m' : A → V, (∀ a, R a → m a = m' a) → op.fresh m = op.fresh m')
    (hkeep : ∀ a, R a → (run s (.make op :: p)).mem a = s.mem a)
    (hnot : (run s (.make op :: p)).views[s.views.length]? = some (.make op)) :
    (run s (.make op :: p ++ [.get s.views.length j])).read.getLast? = some (some (op.fresh s.mem j)) := by
  have e : run s (.make op :: p ++ [.get s.views.length j]) = step (run s (.make op :: p)) (.get s.views.length j) := by
    simp [run, List.foldl_append]
  rw [e]
  simp only [step, hnot]
  simp [Node.get, Node.evaluate, Node.make, hR _ _ hkeep]

/-- The transform that returns the element at address 0. -/
def rboId : Functor ℕ ℕ := ⟨fun m _ => m 0, fun dst m => Function.update m (dst 0) (m 0), 1⟩

example : (run ⟨fun _ => 3, [], []⟩ ([.make rboId, .put 5 9, .get 0 0] : List (Cmd ℕ ℕ))).read.getLast? = some (some 3) :=
  C69_by_value_partial ⟨fun _ => 3, [], []⟩ rboId [.put 5 9] 0 (· = 0) (fun m m' h => by funext; exact h 0 rfl)
    (fun a ha => by subst ha; rfl) rfl

example : (run ⟨fun _ => 3, [.make rboId], []⟩ ([.get 0 0, .put 0 9, .get 0 0] : List (Cmd ℕ ℕ))).read.getLast? = some (some 3) :=
  C69_stable ⟨fun _ => 3, [.make rboId], []⟩ 0 0 0 (.make rboId) rfl rfl [.put 0 9]

/-- **C69 is false (by value).** If the argument is changed after the call and before the first look at the result, the result is that of the changed argument;
and of two copies of one result, one looked at before and one after the change, the values differ. -/
theorem C69_deferred_false :
    (run ⟨fun _ => 3, [], []⟩ ([.make rboId, .put 0 9, .get 0 0] : List (Cmd ℕ ℕ))).read = [some 9] ∧
    (run ⟨fun _ => 3, [], []⟩ ([.make rboId, .copy 0, .get 0 0, .put 0 9, .get 1 0] : List (Cmd ℕ ℕ))).read = [some 3, some 9] :=
  ⟨rfl, rfl⟩

/-- **C69, partial (assignment).** `y = fft(x)`, with the default transform: if `y` has no element in common with `x`, it gets the transform of `x`, and nothing else
changes; if the result has been looked at before, `y` gets the values found then, whatever it overlaps.  Missing: overlapping blocks, see `C69_alias_false`. -/
theorem C69_assign_partial (S : Dir) (ib is : ℤ) (l : ℕ) (dst : ℕ → ℤ) (m : Cm) (hinj : ∀ i < l, ∀ j < l, dst i = dst j → i = j) :
    ((∀ i < l, ∀ k < l, dst i ≠ ib + (k : ℤ) * is) →
      ∀ w < l, (Node.make (dftFunctor S ib is l)).apply dst m (dst w) = dft1 (S = .fwd) l (fun k => m (ib + (k : ℤ) * is)) w) ∧
    (∀ a, (∀ i < l, a ≠ dst i) → (Node.make (dftFunctor S ib is l)).apply dst m a = m a) ∧
    (∀ m₀ : Cm, ∀ w < l, ((Node.make (dftFunctor S ib is l)).evaluate m₀).apply dst m (dst w) = dft1 (S = .fwd) l (fun k => m₀ (ib + (k : ℤ) * is)) w) := by
  have hS : ∀ S : Dir, (decide (S = .fwd)) = S.neg := by intro S; cases S <;> rfl
  refine ⟨fun hdis w hw => ?_, fun a ha => selfInto_off S ib is l dst m a l ha, fun m₀ w hw => ?_⟩
  · show loop l _ m (dst w) = _
    rw [selfInto_step S ib is l dst m hinj l le_rfl w hw, hS]
    unfold dft1
    refine sum_congr rfl fun k hk => ?_
    dsimp only
    rw [selfInto_off S ib is l dst m _ w fun i hi h => hdis i (by omega) k (mem_range.1 hk) h.symm]
  · show store dst l _ m (dst w) = _
    rw [(store_at dst l _ m hinj).1 w hw, hS]
    exact sum1_eq S m₀ ib is l w

example : (Node.make (dftFunctor .fwd 0 1 4)).apply (fun w => 10 + (w : ℤ) * 1) (fun a => a) 12 = dft1 true 4 (fun k => ((0 + (k : ℤ) * 1 : ℤ) : ℂ)) 2 :=
  (C69_assign_partial .fwd 0 1 4 (fun w => 10 + (w : ℤ) * 1) (fun a => a) (fun i _ j _ h => by simpa using h)).1
    (fun i hi k hk => by omega) 2 (by decide)

/-- **C69 is false (`x = fft(x)`).** Assigning the transform of a block to that block itself runs the out of place transform with input and output in the same
place.  With the default transform, of any length from 2 on, element 1 of the result is wrong whenever elements 1, 2, ... of `x` do not add up to 0: it is too
large by that sum. -/
theorem C69_alias_false (S : Dir) (b s : ℤ) (l : ℕ) (hl : 2 ≤ l) (hs : s ≠ 0) :
    (∀ m : Cm, (Node.make (dftFunctor S b s l)).apply (fun w => b + (w : ℤ) * s) m (b + s) =
      dft1 (S = .fwd) l (fun k => m (b + (k : ℤ) * s)) 1 + ∑ k ∈ (range l).erase 0, m (b + (k : ℤ) * s)) ∧
    ∃ m : Cm, (Node.make (dftFunctor S b s l)).apply (fun w => b + (w : ℤ) * s) m (b + s) ≠ dft1 (S = .fwd) l (fun k => m (b + (k : ℤ) * s)) 1 := by
  have hS : ∀ S : Dir, (decide (S = .fwd)) = S.neg := by intro S; cases S <;> rfl
  have hinj : ∀ i j : ℕ, b + (i : ℤ) * s = b + (j : ℤ) * s → i = j := by
    intro i j h
    have := mul_right_cancel₀ hs (add_left_cancel h)
    exact_mod_cast this
  have key : ∀ m : Cm, (Node.make (dftFunctor S b s l)).apply (fun w => b + (w : ℤ) * s) m (b + s) =
      dft1 (S = .fwd) l (fun k => m (b + (k : ℤ) * s)) 1 + ∑ k ∈ (range l).erase 0, m (b + (k : ℤ) * s) := by
    intro m
    have h0 : 0 ∈ range l := mem_range.2 (by omega)
    have := selfInto_step S b s l (fun w => b + (w : ℤ) * s) m (fun i _ j _ h => hinj i j h) l le_rfl 1 (by omega)
    simp only [Nat.cast_one, one_mul] at this
    refine Eq.trans this ?_
    rw [hS]
    unfold dft1
    rw [← add_sum_erase _ _ h0, ← add_sum_erase (range l) (fun k => m (b + (k : ℤ) * s) * Dft.unit S.neg l k 1) h0, loop_succ, loop_zero]
    simp only [Nat.cast_zero, zero_mul, add_zero, unit_zero, mul_one, Function.update_self]
    have e1 : ∑ k ∈ (range l).erase 0, Function.update m b (sum1 (phi S l) m b s l 0) (b + (k : ℤ) * s) * Dft.unit S.neg l k 1 =
        ∑ k ∈ (range l).erase 0, m (b + (k : ℤ) * s) * Dft.unit S.neg l k 1 := by
      refine sum_congr rfl fun k hk => ?_
      rw [Function.update_of_ne]
      intro h
      have h' : b + (k : ℤ) * s = b + ((0 : ℕ) : ℤ) * s := by simpa using h
      exact (mem_erase.1 hk).1 (hinj k 0 h')
    have e2 : sum1 (phi S l) m b s l 0 = m b + ∑ k ∈ (range l).erase 0, m (b + (k : ℤ) * s) := by
      rw [sum1_eq]
      unfold dft1
      rw [← add_sum_erase _ _ h0]
      simp [unit_zero']
    rw [e1, e2]
    ring
  refine ⟨key, fun a => if a = b + s then 1 else 0, ?_⟩
  rw [key]
  have : ∑ k ∈ (range l).erase 0, (if b + (k : ℤ) * s = b + s then (1 : ℂ) else 0) = 1 := by
    rw [sum_eq_single 1]
    · simp
    · intro k _ hk
      rw [if_neg]
      intro h
      exact hk (hinj k 1 (by simpa using h))
    · intro h
      exact absurd (mem_erase.2 ⟨one_ne_zero, mem_range.2 (by omega)⟩) h
  rw [this]
  intro h
  exact one_ne_zero (left_eq_add.1 h.symm)

/-- **C69, partial (two blocks of one memory).** The default transform from one strided block to another that shares no element with it stores the transform of the input, element by
element, and changes nothing else.  Missing: overlapping blocks, see `C69_alias_false`. -/
theorem C69_blocks_partial (S : Dir) (ib is ob os : ℤ) (l : ℕ) (m : Cm) (hos : os ≠ 0) (hdis : ∀ i < l, ∀ k < l, ob + (i : ℤ) * os ≠ ib + (k : ℤ) * is) :
    (∀ w < l, selfC2C S ib is ob os l m (ob + (w : ℤ) * os) = dft1 (S = .fwd) l (fun k => m (ib + (k : ℤ) * is)) w) ∧
    (∀ a, (∀ i < l, a ≠ ob + ((i : ℕ) : ℤ) * os) → selfC2C S ib is ob os l m a = m a) := by
  have hinj : ∀ i < l, ∀ j < l, ob + ((i : ℕ) : ℤ) * os = ob + ((j : ℕ) : ℤ) * os → i = j := by
    intro i _ j _ h
    have : ((i : ℤ) - j) * os = 0 := by rw [Int.sub_mul]; omega
    rcases Int.mul_eq_zero.1 this with h | h
    · omega
    · exact absurd h hos
  have key := C69_assign_partial S ib is l (fun w => ob + (w : ℤ) * os) m hinj
  exact ⟨key.1 hdis, key.2.1⟩

example : selfC2C .fwd 0 2 1 2 4 (fun a => a) 5 = dft1 true 4 (fun k => ((0 + (k : ℤ) * 2 : ℤ) : ℂ)) 2 :=
  (C69_blocks_partial .fwd 0 2 1 2 4 (fun a => a) (by decide) (fun i _ k _ => by omega)).1 2 (by decide)

end Verif.Props
