import Verif.Layout.Model
import Verif.Domain.Lemmas
import Mathlib.Tactic.Ring
import Mathlib.Tactic.FinCases
import Mathlib.Data.Fintype.Basic
import Mathlib.Data.Fintype.Defs
/-! Properties C19–C21: layouts. -/
namespace Verif.Lay
open Verif

/-! ### Specification -/

/-- index inside the extent -/
def Ok {D : Nat} (s i : Fin D → Nat) : Prop := ∀ d, i d < s d

/-- distinct indices have distinct offsets, all inside the storage -/
structure Sound {D : Nat} (s : Fin D → Nat) (a : App D) : Prop where
  size : a.size = s
  inj : ∀ i j, Ok s i → Ok s j → a.index i = a.index j → i = j
  bound : ∀ i, Ok s i → a.index i < a.total

/-- every offset is used -/
def Full {D : Nat} (s : Fin D → Nat) (a : App D) : Prop := ∀ o, o < a.total → ∃ i, Ok s i ∧ a.index i = o

/-- the offset is the sum of coordinate times stride -/
def Linear1 (s : Fin 1 → Nat) (a : App 1) : Prop := ∀ i, Ok s i → a.index i = i 0 * a.stride 0
def Linear2 (s : Fin 2 → Nat) (a : App 2) : Prop := ∀ i, Ok s i → a.index i = i 0 * a.stride 0 + i 1 * a.stride 1
def Linear3 (s : Fin 3 → Nat) (a : App 3) : Prop := ∀ i, Ok s i → a.index i = i 0 * a.stride 0 + i 1 * a.stride 1 + i 2 * a.stride 2

/-- `st` is the least multiple of `A` that is at least `n` -/
def LeastMul (A n st : Nat) : Prop := A ∣ st ∧ n ≤ st ∧ ∀ m, A ∣ m → n ≤ m → st ≤ m

/-! ### Lemmas -/

theorem w_of_lt {n : Nat} (h : n < W₆₄) : w n = n := Nat.mod_eq_of_lt h

theorem roundUp_spec {A n : Nat} (hA : 0 < A) (h : n + A < W₆₄) : LeastMul A n (roundUp A n) ∧ roundUp A n < n + A := by
  have hd := Nat.div_add_mod n A
  have hm := Nat.mod_lt n hA
  unfold roundUp
  split
  · rename_i h0
    rw [w_of_lt (by omega)]
    have e : n + (A - n % A) = A * (n / A + 1) := by
      rw [Nat.mul_add, Nat.mul_one]; omega
    refine ⟨⟨⟨_, e⟩, by omega, ?_⟩, by omega⟩
    rintro m ⟨k, rfl⟩ hle
    rw [e]
    apply Nat.mul_le_mul_left
    by_contra hc
    have : k ≤ n / A := by omega
    have := Nat.mul_le_mul_left A this
    omega
  · rename_i h0
    refine ⟨⟨Nat.dvd_of_mod_eq_zero (by omega), le_refl _, fun _ _ h => h⟩, by omega⟩

theorem radix {S a b c d : Nat} (hb : b < S) (hd : d < S) (h : a * S + b = c * S + d) : a = c ∧ b = d := by
  have hS : 0 < S := by omega
  have h1 : (a * S + b) / S = a := by
    rw [Nat.add_comm, Nat.add_mul_div_right _ _ hS, Nat.div_eq_of_lt hb]; omega
  have h2 : (c * S + d) / S = c := by
    rw [Nat.add_comm, Nat.add_mul_div_right _ _ hS, Nat.div_eq_of_lt hd]; omega
  have : a = c := by rw [← h1, h, h2]
  subst this
  exact ⟨rfl, by omega⟩

theorem radix_lt {S a b n : Nat} (ha : a < n) (hb : b < S) : a * S + b < n * S := by
  have : (a + 1) * S ≤ n * S := Nat.mul_le_mul_right _ ha
  rw [Nat.add_mul] at this
  omega

theorem radix3 {S2 S1 n0 n1 n2 a b c : Nat} (h : n1 * S1 ≤ S2) (hn : n2 ≤ S1) (ha : a < n0) (hb : b < n1) (hc : c < n2) :
    a * S2 + b * S1 + c < n0 * S2 ∧ b * S1 + c < S2 := by
  have h1 : b * S1 + c < n1 * S1 := radix_lt hb (by omega)
  have h2 : a * S2 + (b * S1 + c) < n0 * S2 := radix_lt ha (by omega)
  exact ⟨by omega, by omega⟩

theorem cover3 {d0 d1 d2 : Fin 3} (h01 : d0 ≠ d1) (h02 : d0 ≠ d2) (h12 : d1 ≠ d2) (d : Fin 3) : d = d0 ∨ d = d1 ∨ d = d2 := by
  revert d0 d1 d2 d; decide

theorem cover2 {o0 o1 : Fin 2} (h : o0 ≠ o1) (d : Fin 2) : d = o0 ∨ d = o1 := by
  revert o0 o1 d; decide

theorem fin3_ext {d0 d1 d2 : Fin 3} (h01 : d0 ≠ d1) (h02 : d0 ≠ d2) (h12 : d1 ≠ d2) {i j : Fin 3 → Nat} (h0 : i d0 = j d0) (h1 : i d1 = j d1)
    (h2 : i d2 = j d2) : i = j := by
  funext d
  rcases cover3 h01 h02 h12 d with rfl | rfl | rfl <;> assumption

theorem prod3 {d0 d1 d2 : Fin 3} (h01 : d0 ≠ d1) (h02 : d0 ≠ d2) (h12 : d1 ≠ d2) (s : Fin 3 → Nat) :
    s 2 * s 1 * s 0 = s d0 * (s d1 * s d2) := by
  fin_cases d0 <;> fin_cases d1 <;> fin_cases d2 <;> first | (exfalso; simp at h01; done) | (exfalso; simp at h02; done) | (exfalso; simp at h12; done) | (simp; ring)

theorem sum3 {d0 d1 d2 : Fin 3} (h01 : d0 ≠ d1) (h02 : d0 ≠ d2) (h12 : d1 ≠ d2) (s : Fin 3 → Nat) :
    s 0 + s 1 + s 2 = s d0 + s d1 + s d2 := by
  fin_cases d0 <;> fin_cases d1 <;> fin_cases d2 <;> first | (exfalso; simp at h01; done) | (exfalso; simp at h02; done) | (exfalso; simp at h12; done) | (simp; try omega)

/-- the strides of a 3-D layout -/
theorem strides3_at {d0 d1 d2 : Fin 3} (h01 : d0 ≠ d1) (h02 : d0 ≠ d2) (h12 : d1 ≠ d2) (a b c : Nat) :
    strides3 d0 d1 d2 a b c d0 = c ∧ strides3 d0 d1 d2 a b c d1 = b ∧ strides3 d0 d1 d2 a b c d2 = a := by
  unfold strides3
  refine ⟨by simp, ?_, ?_⟩
  · rw [Function.update_of_ne (Ne.symm h01), Function.update_self]
  · rw [Function.update_of_ne (Ne.symm h02), Function.update_of_ne (Ne.symm h12), Function.update_self]

/-- any row-by-row layout in two dimensions -/
theorem sound2 {s : Fin 2 → Nat} {a : App 2} (o0 o1 : Fin 2) (ho : o0 ≠ o1) {st : Nat} (hsz : a.size = s) (hst : s o1 ≤ st)
    (hidx : ∀ i, Ok s i → a.index i = i o0 * st + i o1) (htot : ∀ i, Ok s i → i o0 * st + i o1 < a.total) : Sound s a := by
  refine ⟨hsz, ?_, ?_⟩
  · intro i j hi hj h
    rw [hidx i hi, hidx j hj] at h
    have := radix (by have := hi o1; omega) (by have := hj o1; omega) h
    funext d
    rcases cover2 ho d with rfl | rfl
    · exact this.1
    · exact this.2
  · intro i hi
    rw [hidx i hi]; exact htot i hi

theorem tot2 {s0 s1 st a b : Nat} (ha : a < s0) (hb : b < s1) (hs : s1 ≤ st) : a * st + b < st * s0 - (st - s1) := by
  have : (a + 1) * st ≤ s0 * st := Nat.mul_le_mul_right _ ha
  rw [Nat.add_mul, Nat.mul_comm s0] at this
  omega

theorem toIdx_tot {st s0 s1 : Nat} (hs : s1 ≤ st) (h0 : 0 < s0) (hb : st * s0 < W₆₄) :
    toIdx ((st * s0 : Nat) - ((st : Nat) - (s1 : Nat) : Int)) = st * s0 - (st - s1) := by
  have : st ≤ st * s0 := Nat.le_mul_of_pos_right _ h0
  have := toIdx_of_fits (z := ((st * s0 : Nat) - ((st : Nat) - (s1 : Nat) : Int))) (by omega) (by omega)
  omega

end Verif.Lay

namespace Verif.Props
open Verif Lay

/-! ## C19 -/

/-- **C19**, one dimension, all unit-stride packings -/
theorem C19_dense1 (s : Fin 1 → Nat) : Sound s (dense1 s) ∧ Full s (dense1 s) ∧ Linear1 s (dense1 s) := by
  refine ⟨⟨rfl, ?_, fun i hi => hi 0⟩, ?_, fun i _ => by simp [dense1]⟩
  · intro i j _ _ h
    funext d
    rw [Fin.fin_one_eq_zero d]; exact h
  · intro o ho
    exact ⟨fun _ => o, fun d => by rw [Fin.fin_one_eq_zero d]; exact ho, rfl⟩

/-- **C19**, dense rows -/
theorem C19_dense2row (s : Fin 2 → Nat) (h : s 0 * s 1 < W₆₄) :
    Sound s (dense2row s) ∧ Full s (dense2row s) ∧ Linear2 s (dense2row s) := by
  have ht : (dense2row s).total = s 0 * s 1 := by
    show w (s 1 * s 0) = _
    rw [Nat.mul_comm, w_of_lt h]
  have hidx : ∀ i, Ok s i → (dense2row s).index i = i 0 * s 1 + i 1 := by
    intro i hi
    exact w_of_lt (lt_trans (radix_lt (hi 0) (hi 1)) h)
  refine ⟨sound2 0 1 (by decide) rfl (le_refl _) hidx (fun i hi => by rw [ht]; exact radix_lt (hi 0) (hi 1)), ?_, ?_⟩
  · intro o ho
    rw [ht] at ho
    have hp : 0 < s 1 := by
      rcases Nat.eq_zero_or_pos (s 1) with h0 | h0
      · rw [h0] at ho; omega
      · exact h0
    have hok : Ok s ![o / s 1, o % s 1] := by
      intro d
      fin_cases d
      · exact (Nat.div_lt_iff_lt_mul hp).2 ho
      · exact Nat.mod_lt _ hp
    refine ⟨_, hok, ?_⟩
    rw [hidx _ hok]
    exact Nat.div_add_mod' o (s 1)
  · intro i hi
    rw [hidx i hi]; simp [dense2row]

/-- **C19**, dense columns -/
theorem C19_dense2col (s : Fin 2 → Nat) (h : s 0 * s 1 < W₆₄) :
    Sound s (dense2col s) ∧ Full s (dense2col s) ∧ Linear2 s (dense2col s) := by
  have h' : s 1 * s 0 < W₆₄ := by rwa [Nat.mul_comm]
  have ht : (dense2col s).total = s 1 * s 0 := w_of_lt h'
  have hidx : ∀ i, Ok s i → (dense2col s).index i = i 1 * s 0 + i 0 := by
    intro i hi
    show w (i 0 + i 1 * s 0) = _
    rw [Nat.add_comm]
    exact w_of_lt (lt_trans (radix_lt (hi 1) (hi 0)) h')
  refine ⟨sound2 1 0 (by decide) rfl (le_refl _) hidx (fun i hi => by rw [ht]; exact radix_lt (hi 1) (hi 0)), ?_, ?_⟩
  · intro o ho
    rw [ht] at ho
    have hp : 0 < s 0 := by
      rcases Nat.eq_zero_or_pos (s 0) with h0 | h0
      · rw [h0] at ho; omega
      · exact h0
    have hok : Ok s ![o % s 0, o / s 0] := by
      intro d
      fin_cases d
      · exact Nat.mod_lt _ hp
      · exact (Nat.div_lt_iff_lt_mul hp).2 ho
    refine ⟨_, hok, ?_⟩
    rw [hidx _ hok]
    exact Nat.div_add_mod' o (s 0)
  · intro i hi
    rw [hidx i hi]; simp [dense2col]; omega

/-- **C19**, three dimensions, dense, every dimension order -/
theorem C19_dense3 (d0 d1 d2 : Fin 3) (h01 : d0 ≠ d1) (h02 : d0 ≠ d2) (h12 : d1 ≠ d2) (s : Fin 3 → Nat) (h : s 0 * s 1 * s 2 < W₆₄) :
    Sound s (dense3 d0 d1 d2 s) ∧ Full s (dense3 d0 d1 d2 s) ∧ Linear3 s (dense3 d0 d1 d2 s) := by
  have hpr := prod3 h01 h02 h12 s
  have hb : s d0 * (s d1 * s d2) < W₆₄ := by
    rw [← hpr, show s 2 * s 1 * s 0 = s 0 * s 1 * s 2 by ring]; exact h
  have ht : (dense3 d0 d1 d2 s).total = s d0 * (s d1 * s d2) := by
    show w (s 2 * s 1 * s 0) = _
    rw [hpr, w_of_lt hb]
  have hlt : ∀ i, Ok s i → i d0 * (s d1 * s d2) + i d1 * s d2 + i d2 < s d0 * (s d1 * s d2) ∧ i d1 * s d2 + i d2 < s d1 * s d2 :=
    fun i hi => radix3 (le_refl _) (le_refl _) (hi d0) (hi d1) (hi d2)
  have hidx : ∀ i, Ok s i → (dense3 d0 d1 d2 s).index i = i d0 * (s d1 * s d2) + i d1 * s d2 + i d2 := by
    intro i hi
    show w (i d0 * s d1 * s d2 + i d1 * s d2 + i d2) = _
    rw [Nat.mul_assoc, w_of_lt (lt_trans (hlt i hi).1 hb)]
  refine ⟨⟨rfl, ?_, ?_⟩, ?_, ?_⟩
  · intro i j hi hj he
    rw [hidx i hi, hidx j hj, Nat.add_assoc, Nat.add_assoc] at he
    obtain ⟨e0, e1⟩ := radix (hlt i hi).2 (hlt j hj).2 he
    obtain ⟨e1, e2⟩ := radix (hi d2) (hj d2) e1
    exact fin3_ext h01 h02 h12 e0 e1 e2
  · intro i hi
    rw [hidx i hi, ht]; exact (hlt i hi).1
  · intro o ho
    rw [ht] at ho
    have hp : 0 < s d1 * s d2 := by
      rcases Nat.eq_zero_or_pos (s d1 * s d2) with h0 | h0
      · rw [h0] at ho; omega
      · exact h0
    have hp2 : 0 < s d2 := Nat.pos_of_mul_pos_left hp
    have e := strides3_at h01 h02 h12 (o % (s d1 * s d2) % s d2) (o % (s d1 * s d2) / s d2) (o / (s d1 * s d2))
    have hok : Ok s (strides3 d0 d1 d2 (o % (s d1 * s d2) % s d2) (o % (s d1 * s d2) / s d2) (o / (s d1 * s d2))) := by
      intro d
      rcases cover3 h01 h02 h12 d with rfl | rfl | rfl
      · rw [e.1]; exact (Nat.div_lt_iff_lt_mul hp).2 ho
      · rw [e.2.1]; exact (Nat.div_lt_iff_lt_mul hp2).2 (Nat.mod_lt _ hp)
      · rw [e.2.2]; exact Nat.mod_lt _ hp2
    refine ⟨_, hok, ?_⟩
    rw [hidx _ hok, e.1, e.2.1, e.2.2, Nat.add_assoc, Nat.div_add_mod', Nat.div_add_mod']
  · intro i hi
    rw [hidx i hi]
    have h' := sum3 h01 h02 h12 (fun d => i d * (dense3 d0 d1 d2 s).stride d)
    rw [h']
    have hw : 0 < s d0 → w (s d1 * s d2) = s d1 * s d2 := fun hp => w_of_lt (lt_of_le_of_lt (Nat.le_mul_of_pos_left _ hp) hb)
    have := hw (by have := hi d0; omega)
    simp only [dense3, if_neg h02, if_neg h01, if_neg h12, this, if_true]
    omega

/-- **C19**, aligned rows -/
theorem C19_aligned2row (A : Nat) (hA : 0 < A) (s : Fin 2 → Nat) (h : (s 1 + A) * (s 0 + 1) < W₆₄) :
    Sound s (aligned2row A s) ∧ Linear2 s (aligned2row A s) := by
  have hm : s 1 + A ≤ (s 1 + A) * (s 0 + 1) := Nat.le_mul_of_pos_right _ (by omega)
  obtain ⟨⟨-, hge, -⟩, hlt⟩ := roundUp_spec hA (n := s 1) (by omega)
  have hb : roundUp A (s 1) * s 0 < W₆₄ :=
    lt_of_le_of_lt (Nat.mul_le_mul (le_of_lt hlt) (by omega)) h
  have hidx : ∀ i, Ok s i → (aligned2row A s).index i = i 0 * roundUp A (s 1) + i 1 := by
    intro i hi
    have := tot2 (hi 0) (hi 1) hge
    exact w_of_lt (by omega)
  refine ⟨sound2 0 1 (by decide) rfl hge hidx ?_, ?_⟩
  · intro i hi
    show _ < toIdx _
    rw [toIdx_tot hge (by have := hi 0; omega) hb]
    exact tot2 (hi 0) (hi 1) hge
  · intro i hi
    rw [hidx i hi]; simp [aligned2row]

/-- **C19**, aligned columns built from an extent (partial: see `C19_aligned2col_sizes_false` for the other constructor) -/
theorem C19_aligned2col_partial (A : Nat) (hA : 0 < A) (s : Fin 2 → Nat) (h : (s 0 + A) * (s 1 + 1) < W₆₄) :
    Sound s (aligned2col A s) ∧ Linear2 s (aligned2col A s) := by
  have hm : s 0 + A ≤ (s 0 + A) * (s 1 + 1) := Nat.le_mul_of_pos_right _ (by omega)
  obtain ⟨⟨-, hge, -⟩, hlt⟩ := roundUp_spec hA (n := s 0) (by omega)
  have hb : roundUp A (s 0) * s 1 < W₆₄ :=
    lt_of_le_of_lt (Nat.mul_le_mul (le_of_lt hlt) (by omega)) h
  have hidx : ∀ i, Ok s i → (aligned2col A s).index i = i 1 * roundUp A (s 0) + i 0 := by
    intro i hi
    have := tot2 (hi 1) (hi 0) hge
    show w (i 0 + i 1 * roundUp A (s 0)) = _
    rw [Nat.add_comm]
    exact w_of_lt (by omega)
  refine ⟨sound2 1 0 (by decide) rfl hge hidx ?_, ?_⟩
  · intro i hi
    show _ < toIdx _
    rw [toIdx_tot hge (by have := hi 1; omega) hb]
    exact tot2 (hi 1) (hi 0) hge
  · intro i hi
    rw [hidx i hi]; simp [aligned2col, aligned2colOf]; omega

/-- **C19 is false** for column-major aligned layouts built by the two-argument constructor: a 9×2 matrix with `aligned_8` stores
elements (8,0) and (0,1) at the same place. -/
theorem C19_aligned2col_sizes_false : ¬ Sound ![9, 2] (aligned2col' 8 ![9, 2]) := by
  intro h
  have := h.inj ![8, 0] ![0, 1] (by unfold Ok; decide) (by unfold Ok; decide) (by decide)
  have := congrFun this 0
  simp at this

/-- **C19**, three dimensions, aligned, every dimension order -/
theorem C19_aligned3 (A : Nat) (hA : 0 < A) (d0 d1 d2 : Fin 3) (h01 : d0 ≠ d1) (h02 : d0 ≠ d2) (h12 : d1 ≠ d2) (s : Fin 3 → Nat)
    (h : (s d0 + 1) * ((s d1 + 1) * (s d2 + A)) < W₆₄) :
    Sound s (aligned3 A d0 d1 d2 s) ∧ Linear3 s (aligned3 A d0 d1 d2 s) := by
  have hm1 : (s d1 + 1) * (s d2 + A) ≤ (s d0 + 1) * ((s d1 + 1) * (s d2 + A)) := Nat.le_mul_of_pos_left _ (by omega)
  have hm2 : s d2 + A ≤ (s d1 + 1) * (s d2 + A) := Nat.le_mul_of_pos_left _ (by omega)
  obtain ⟨⟨-, hge, -⟩, hlt⟩ := roundUp_spec hA (n := s d2) (by omega)
  have hb1 : s d1 * roundUp A (s d2) ≤ (s d1 + 1) * (s d2 + A) := Nat.mul_le_mul (by omega) (by omega)
  have hb0 : s d0 * (s d1 * roundUp A (s d2)) < W₆₄ := lt_of_le_of_lt (Nat.mul_le_mul (by omega) hb1) h
  obtain ⟨e0, e1, e2⟩ := strides3_at h01 h02 h12 1 (roundUp A (s d2)) (w (s d1 * roundUp A (s d2)))
  have hw : w (s d1 * roundUp A (s d2)) = s d1 * roundUp A (s d2) := w_of_lt (by omega)
  rw [hw] at e0 e1 e2
  have ht : (aligned3 A d0 d1 d2 s).total = s d0 * (s d1 * roundUp A (s d2)) := by
    simp only [aligned3, hw, e0, w_of_lt hb0]
  have hlt3 : ∀ i, Ok s i → i d0 * (s d1 * roundUp A (s d2)) + i d1 * roundUp A (s d2) + i d2 < s d0 * (s d1 * roundUp A (s d2)) ∧
      i d1 * roundUp A (s d2) + i d2 < s d1 * roundUp A (s d2) :=
    fun i hi => radix3 (le_refl _) hge (hi d0) (hi d1) (hi d2)
  have hidx : ∀ i, Ok s i → (aligned3 A d0 d1 d2 s).index i = i d0 * (s d1 * roundUp A (s d2)) + i d1 * roundUp A (s d2) + i d2 := by
    intro i hi
    simp only [aligned3, hw, e0, e1]
    exact w_of_lt (lt_trans (hlt3 i hi).1 hb0)
  refine ⟨⟨rfl, ?_, ?_⟩, ?_⟩
  · intro i j hi hj he
    rw [hidx i hi, hidx j hj, Nat.add_assoc, Nat.add_assoc] at he
    obtain ⟨f0, f1⟩ := radix (hlt3 i hi).2 (hlt3 j hj).2 he
    obtain ⟨f1, f2⟩ := radix (by have := hi d2; omega) (by have := hj d2; omega) f1
    exact fin3_ext h01 h02 h12 f0 f1 f2
  · intro i hi
    rw [hidx i hi, ht]; exact (hlt3 i hi).1
  · intro i hi
    rw [hidx i hi]
    have h' := sum3 h01 h02 h12 (fun d => i d * (aligned3 A d0 d1 d2 s).stride d)
    rw [h']
    simp only [aligned3, hw, e0, e1, e2]
    omega

/-- an aligned matrix without rows is given a total size near `2^64` -/
theorem C19_empty_aligned_false : (aligned2row 8 ![0, 5]).total = W₆₄ - 3 := by decide

example : (5 + 8) * (3 + 1) < W₆₄ ∧ (aligned2row 8 ![3, 5]).total = 21 ∧ (aligned2row 8 ![3, 5]).index ![2, 4] = 20 := by decide
example : (3 + 1) * ((4 + 1) * (5 + 8)) < W₆₄ ∧ (aligned3 8 2 0 1 ![4, 5, 3]).index ![3, 4, 2] = 2 * 32 + 3 * 8 + 4 := by decide
example : 4 * 5 * 3 < W₆₄ ∧ (dense3 2 0 1 ![4, 5, 3]).total = 60 := by decide

/-! ## C20 -/

/-- **C20**, rows: every row starts at a multiple of `A`, and the row stride is the least possible -/
theorem C20_rows (A : Nat) (hA : 0 < A) (s : Fin 2 → Nat) (h : (s 1 + A) * (s 0 + 1) < W₆₄) :
    LeastMul A (s 1) ((aligned2row A s).stride 0) ∧ ∀ i, Ok s i → i 1 = 0 → A ∣ (aligned2row A s).index i := by
  have hm : s 1 + A ≤ (s 1 + A) * (s 0 + 1) := Nat.le_mul_of_pos_right _ (by omega)
  have hr := roundUp_spec hA (n := s 1) (by omega)
  refine ⟨hr.1, ?_⟩
  intro i hi h0
  rw [(C19_aligned2row A hA s h).2 i hi, h0]
  simp only [aligned2row, if_true, Nat.zero_mul, Nat.add_zero]
  exact Dvd.dvd.mul_left hr.1.1 _

/-- **C20**, columns, constructor from an extent.
Missing: the constructor from sizes, see `C20_ctor_false`. -/
theorem C20_cols_partial (A : Nat) (hA : 0 < A) (s : Fin 2 → Nat) (h : (s 0 + A) * (s 1 + 1) < W₆₄) :
    LeastMul A (s 0) ((aligned2col A s).stride 1) ∧ ∀ i, Ok s i → i 0 = 0 → A ∣ (aligned2col A s).index i := by
  have hm : s 0 + A ≤ (s 0 + A) * (s 1 + 1) := Nat.le_mul_of_pos_right _ (by omega)
  have hr := roundUp_spec hA (n := s 0) (by omega)
  refine ⟨hr.1, ?_⟩
  intro i hi h0
  rw [(C19_aligned2col_partial A hA s h).2 i hi, h0]
  simp only [aligned2col, aligned2colOf, if_true, Nat.zero_mul, Nat.zero_add]
  exact Dvd.dvd.mul_left hr.1.1 _

/-- **C20 is false** for columns: the two constructors give different strides, and the two-size constructor's stride may be shorter
than a column -/
theorem C20_ctor_false : (aligned2col 8 ![9, 2]).stride 1 = 16 ∧ (aligned2col' 8 ![9, 2]).stride 1 = 8 ∧
    ¬ LeastMul 8 9 ((aligned2col' 8 ![9, 2]).stride 1) := by
  refine ⟨by decide, by decide, ?_⟩
  rintro ⟨-, h, -⟩
  have e : (aligned2col' 8 ![9, 2]).stride 1 = 8 := by decide
  rw [e] at h
  omega

/-- **C20**, three dimensions: every line along the fastest dimension starts at a multiple of `A` -/
theorem C20_lines3 (A : Nat) (hA : 0 < A) (d0 d1 d2 : Fin 3) (h01 : d0 ≠ d1) (h02 : d0 ≠ d2) (h12 : d1 ≠ d2) (s : Fin 3 → Nat)
    (h : (s d0 + 1) * ((s d1 + 1) * (s d2 + A)) < W₆₄) :
    LeastMul A (s d2) ((aligned3 A d0 d1 d2 s).stride d1) ∧ ∀ i, Ok s i → i d2 = 0 → A ∣ (aligned3 A d0 d1 d2 s).index i := by
  have hm1 : (s d1 + 1) * (s d2 + A) ≤ (s d0 + 1) * ((s d1 + 1) * (s d2 + A)) := Nat.le_mul_of_pos_left _ (by omega)
  have hm2 : s d2 + A ≤ (s d1 + 1) * (s d2 + A) := Nat.le_mul_of_pos_left _ (by omega)
  have hr := roundUp_spec hA (n := s d2) (by omega)
  have hlt := hr.2
  obtain ⟨e0, e1, e2⟩ := strides3_at h01 h02 h12 1 (roundUp A (s d2)) (w (s d1 * roundUp A (s d2)))
  have hb1 : s d1 * roundUp A (s d2) ≤ (s d1 + 1) * (s d2 + A) := Nat.mul_le_mul (by omega) (by omega)
  have hw : w (s d1 * roundUp A (s d2)) = s d1 * roundUp A (s d2) := w_of_lt (by omega)
  refine ⟨by simp only [aligned3, e1]; exact hr.1, ?_⟩
  intro i hi h0
  rw [(C19_aligned3 A hA d0 d1 d2 h01 h02 h12 s h).2 i hi]
  have h' := sum3 h01 h02 h12 (fun d => i d * (aligned3 A d0 d1 d2 s).stride d)
  rw [h', h0]
  simp only [aligned3, e0, e1, e2, Nat.zero_mul, Nat.add_zero]
  rw [hw]
  exact Nat.dvd_add (Dvd.dvd.mul_left (Dvd.dvd.mul_left hr.1.1 _) _) (Dvd.dvd.mul_left hr.1.1 _)

/-! ## C21 -/

theorem rtAdjust_dense {D : Nat} {l : RtLayout D} (h : l.packing.isAligned = false ∨ l.alignment = 0) (e n : Nat) : rtAdjust l e n = n := by
  unfold rtAdjust
  rcases h with h | h <;> simp [h]

theorem rtAdjust_aligned {D : Nat} {l : RtLayout D} (h : l.packing.isAligned = true) (ha : 0 < l.alignment) {n : Nat} (hn : n < W₆₄) :
    rtAdjust l 1 n = roundUp l.alignment n := by
  unfold rtAdjust roundUp
  rw [Nat.one_mul, Nat.mul_one, w_of_lt hn, Nat.div_one]
  simp [h, Nat.pos_iff_ne_zero.1 ha]

/-- same sizes, strides, offsets -/
structure SameLayout {D : Nat} (a b : App D) : Prop where
  size : a.size = b.size
  stride : a.stride = b.stride
  index : ∀ i, a.index i = b.index i

theorem C21_one (p : Packing) (al : Nat) (s : Fin 1 → Nat) (e : Nat) (hs : s 0 < W₆₄) :
    (∀ i, Ok s i → (rt1 ⟨p, id, al⟩ s e).index i = (dense1 s).index i) ∧ (rt1 ⟨p, id, al⟩ s e).stride = (dense1 s).stride ∧
    (rt1 ⟨p, id, al⟩ s e).total = (dense1 s).total := by
  refine ⟨?_, rfl, ?_⟩
  · intro i hi
    have := hi 0
    simp only [rt1, dense1, id, Nat.mul_one]
    exact w_of_lt (by omega)
  · simp only [rt1, dense1, id, Nat.mul_one]; exact w_of_lt hs

/-- **C21**, dense matrices (any element size) -/
theorem C21_dense2 (s : Fin 2 → Nat) (e : Nat) :
    SameLayout (rt2 (blockLayout .dense ![0, 1]) s e) (dense2row s) ∧ (rt2 (blockLayout .dense ![0, 1]) s e).total = (dense2row s).total ∧
    SameLayout (rt2 (blockLayout .dense ![1, 0]) s e) (dense2col s) ∧ (rt2 (blockLayout .dense ![1, 0]) s e).total = (dense2col s).total := by
  have hd : ∀ (o : Fin 2 → Fin 2) n, rtAdjust (blockLayout .dense o) e n = n := fun o n => rtAdjust_dense (Or.inl rfl) e n
  refine ⟨⟨rfl, ?_, ?_⟩, ?_, ⟨rfl, ?_, ?_⟩, ?_⟩
  · funext d; fin_cases d <;> simp [rt2, dense2row, blockLayout]
    simpa [blockLayout] using hd ![0, 1] (s 1)
  · intro i; have := hd ![0, 1] (s 1); simp [rt2, dense2row, blockLayout] at *; rw [this]
  · have := hd ![0, 1] (s 1); simp [rt2, dense2row, blockLayout] at *; rw [this, Nat.mul_comm]
  · funext d; fin_cases d <;> simp [rt2, dense2col, blockLayout]
    simpa [blockLayout] using hd ![1, 0] (s 0)
  · intro i; have := hd ![1, 0] (s 0); simp [rt2, dense2col, blockLayout] at *; rw [this, Nat.add_comm]
  · have := hd ![1, 0] (s 0); simp [rt2, dense2col, blockLayout] at *; rw [this]

/-- **C21**, dense tensors, every order -/
theorem C21_dense3 (d0 d1 d2 : Fin 3) (h01 : d0 ≠ d1) (h02 : d0 ≠ d2) (h12 : d1 ≠ d2) (s : Fin 3 → Nat) (e : Nat)
    (hs : s 0 * s 1 * s 2 < W₆₄) (hp : ∀ d, 0 < s d) :
    (∀ i, Ok s i → (rt3 (blockLayout .dense ![d0, d1, d2]) s e).index i = (dense3 d0 d1 d2 s).index i) ∧
    (rt3 (blockLayout .dense ![d0, d1, d2]) s e).stride = (dense3 d0 d1 d2 s).stride ∧
    (rt3 (blockLayout .dense ![d0, d1, d2]) s e).total = (dense3 d0 d1 d2 s).total := by
  have hd : rtAdjust (blockLayout .dense ![d0, d1, d2]) e (s d2) = s d2 := rtAdjust_dense (Or.inl rfl) e _
  obtain ⟨e0, e1, e2⟩ := strides3_at h01 h02 h12 1 (s d2) (w (s d1 * s d2))
  have o0 : (blockLayout .dense ![d0, d1, d2]).order 0 = d0 := rfl
  have o1 : (blockLayout .dense ![d0, d1, d2]).order 1 = d1 := rfl
  have o2 : (blockLayout .dense ![d0, d1, d2]).order 2 = d2 := rfl
  have hpr := prod3 h01 h02 h12 s
  have hb : s d0 * (s d1 * s d2) < W₆₄ := by
    rw [← hpr, show s 2 * s 1 * s 0 = s 0 * s 1 * s 2 by ring]; exact hs
  have hw : w (s d1 * s d2) = s d1 * s d2 := w_of_lt (lt_of_le_of_lt (Nat.le_mul_of_pos_left _ (hp d0)) hb)
  refine ⟨?_, ?_, ?_⟩
  · intro i hi
    simp only [rt3, o0, o1, o2, hd, e0, e1, e2, dense3, Nat.mul_one]
    rw [hw, Nat.mul_assoc]
  · funext d
    have hdd := cover3 h01 h02 h12 d
    simp only [rt3, o0, o1, o2, hd, dense3]
    rcases hdd with rfl | rfl | rfl
    · rw [e0, if_neg h02, if_neg h01]
    · rw [e1, if_neg h12]; simp
    · rw [e2]; simp
  · simp only [rt3, o0, o1, o2, hd, e0, dense3, hpr]
    rw [hw]

/-- **C21**, aligned matrices, element size 1: same offsets and strides (partial: not the total size, see below, and not for
`aligned_512` or other element sizes) -/
theorem C21_aligned2_partial (A : Nat) (hA : A ∈ [8, 16, 32, 64, 128, 256, 1024]) (s : Fin 2 → Nat) (h0 : s 0 < W₆₄) (h1 : s 1 < W₆₄) :
    SameLayout (rt2 (blockLayout (.alignedTo A) ![0, 1]) s 1) (aligned2row A s) ∧
    SameLayout (rt2 (blockLayout (.alignedTo A) ![1, 0]) s 1) (aligned2col A s) := by
  have hpos : 0 < A := by fin_cases hA <;> omega
  have hd : ∀ (o : Fin 2 → Fin 2) n, n < W₆₄ → rtAdjust (blockLayout (.alignedTo A) o) 1 n = roundUp A n := by
    intro o n hn
    have ha : (blockLayout (.alignedTo A) o).alignment = A := by simp only [blockLayout, packingAlignment, if_pos hA]
    have := rtAdjust_aligned (l := blockLayout (.alignedTo A) o) rfl (by rw [ha]; exact hpos) hn
    rwa [ha] at this
  have a1 := hd ![0, 1] (s 1) h1
  have a0 := hd ![1, 0] (s 0) h0
  have p0 : (blockLayout (.alignedTo A) ![0, 1]).order 0 = (0 : Fin 2) := rfl
  have p1 : (blockLayout (.alignedTo A) ![0, 1]).order 1 = (1 : Fin 2) := rfl
  have q0 : (blockLayout (.alignedTo A) ![1, 0]).order 0 = (1 : Fin 2) := rfl
  have q1 : (blockLayout (.alignedTo A) ![1, 0]).order 1 = (0 : Fin 2) := rfl
  refine ⟨⟨rfl, ?_, ?_⟩, ⟨rfl, ?_, ?_⟩⟩
  · funext d; fin_cases d <;> simp [rt2, aligned2row, p0, p1, a1]
  · intro i; simp [rt2, aligned2row, p0, p1, a1]
  · funext d; fin_cases d <;> simp [rt2, aligned2col, aligned2colOf, q0, q1, a0]
  · intro i; simp [rt2, aligned2col, aligned2colOf, q0, q1, a0, Nat.add_comm]

/-- **C21**, aligned tensors, element size 1, every order: also the total size -/
theorem C21_aligned3_partial (A : Nat) (hA : A ∈ [8, 16, 32, 64, 128, 256, 1024]) (d0 d1 d2 : Fin 3) (h01 : d0 ≠ d1) (h02 : d0 ≠ d2)
    (h12 : d1 ≠ d2) (s : Fin 3 → Nat) (h2 : s d2 < W₆₄) :
    SameLayout (rt3 (blockLayout (.alignedTo A) ![d0, d1, d2]) s 1) (aligned3 A d0 d1 d2 s) ∧
    (rt3 (blockLayout (.alignedTo A) ![d0, d1, d2]) s 1).total = (aligned3 A d0 d1 d2 s).total := by
  have hpos : 0 < A := by fin_cases hA <;> omega
  have ha : (blockLayout (.alignedTo A) ![d0, d1, d2]).alignment = A := by simp only [blockLayout, packingAlignment, if_pos hA]
  have hd := rtAdjust_aligned (l := blockLayout (.alignedTo A) ![d0, d1, d2]) rfl (by rw [ha]; exact hpos) h2
  rw [ha] at hd
  have o0 : (blockLayout (.alignedTo A) ![d0, d1, d2]).order 0 = d0 := rfl
  have o1 : (blockLayout (.alignedTo A) ![d0, d1, d2]).order 1 = d1 := rfl
  have o2 : (blockLayout (.alignedTo A) ![d0, d1, d2]).order 2 = d2 := rfl
  refine ⟨⟨rfl, ?_, ?_⟩, ?_⟩
  · simp only [rt3, aligned3, o0, o1, o2, hd]
  · intro i
    simp only [rt3, aligned3, o0, o1, o2, hd]
    rw [(strides3_at h01 h02 h12 _ _ _).2.2, Nat.mul_one]
  · simp only [rt3, aligned3, o0, o1, o2, hd]

/-- **C21 is false** for the total size of aligned matrices: the run-time layout includes the padding of the last row, the compile-time
layout does not. -/
theorem C21_total_false : (rt2 (blockLayout (.alignedTo 8) ![0, 1]) ![3, 5] 1).total = 24 ∧ (aligned2row 8 ![3, 5]).total = 21 := by decide

/-- **C21 is false** for `aligned_512`: `is_packing_aligned` has no entry for it, so the run-time layout is not padded. -/
theorem C21_512_false : (rt2 (blockLayout (.alignedTo 512) ![0, 1]) ![3, 5] 1).stride 0 = 5 ∧ (aligned2row 512 ![3, 5]).stride 0 = 512 := by
  decide

/-- **C21 is false** for element sizes other than 1: run-time layouts align to `A` bytes, compile-time layouts to `A` elements. -/
theorem C21_bytes_false : (rt2 (blockLayout (.alignedTo 8) ![0, 1]) ![3, 5] 4).stride 0 = 6 ∧ (aligned2row 8 ![3, 5]).stride 0 = 8 := by
  decide

example : (rt3 (blockLayout (.alignedTo 8) ![2, 0, 1]) ![4, 5, 3] 1).total = 96 := by decide

end Verif.Props
