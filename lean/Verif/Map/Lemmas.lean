import Verif.Map.Model
import Verif.Map.Spec
import Verif.Dist.Props
import Mathlib.Algebra.BigOperators.Group.List.Basic
namespace Verif
open Spec

/-! ### mixed radix -/

theorem inRange_append {xs ss ys ts : List Nat} (h1 : InRange xs ss) (h2 : InRange ys ts) :
    InRange (xs ++ ys) (ss ++ ts) := by
  induction ss generalizing xs with
  | nil => cases xs with
    | nil => exact h2
    | cons => exact h1.elim
  | cons s ss ih => cases xs with
    | nil => exact h1.elim
    | cons x xs => exact ⟨h1.1, ih h1.2⟩

theorem inRange_reverse : ∀ {xs ss : List Nat}, InRange xs ss → InRange xs.reverse ss.reverse
  | [], [], _ => trivial
  | x :: xs, s :: ss, h => by
      rw [List.reverse_cons, List.reverse_cons]
      exact inRange_append (inRange_reverse h.2) ⟨h.1, trivial⟩
  | [], _ :: _, h => h.elim
  | _ :: _, [], h => h.elim

/-- little-endian value -/
def valRev : List Nat → List Nat → Nat
  | s :: ss, x :: xs => x + s * valRev ss xs
  | _, _ => 0

theorem splitRev_valRev : ∀ {ss xs : List Nat}, InRange xs ss → splitRev ss (valRev ss xs) = xs
  | [], [], _ => rfl
  | s :: ss, x :: xs, h => by
      have h1 : (x + s * valRev ss xs) % s = x := by
        rw [Nat.add_mul_mod_self_left, Nat.mod_eq_of_lt h.1]
      have hs : 0 < s := by have := h.1; omega
      simp only [splitRev, valRev, h1, Nat.add_sub_cancel_left, Nat.mul_div_cancel_left _ hs,
        splitRev_valRev h.2]
  | [], _ :: _, h => h.elim
  | _ :: _, [], h => h.elim

theorem valRev_lt : ∀ {ss xs : List Nat}, InRange xs ss → valRev ss xs < ss.prod
  | [], [], _ => by simp [valRev]
  | s :: ss, x :: xs, h => by
      have ih := valRev_lt h.2
      have h1 := h.1
      simp only [valRev, List.prod_cons]
      have : s * (valRev ss xs + 1) ≤ s * ss.prod := Nat.mul_le_mul_left _ ih
      rw [Nat.mul_add] at this
      omega
  | [], _ :: _, h => h.elim
  | _ :: _, [], h => h.elim

theorem splitRev_spec : ∀ (ss : List Nat) (v : Nat), v < ss.prod →
    InRange (splitRev ss v) ss ∧ valRev ss (splitRev ss v) = v
  | [], v, h => by simp at h; simp [splitRev, valRev, h]
  | s :: ss, v, h => by
      rw [List.prod_cons] at h
      have hs : 0 < s := by
        rcases Nat.eq_zero_or_pos s with h0 | h0
        · subst h0; simp at h
        · exact h0
      have e := Nat.div_add_mod v s
      have hd : (v - v % s) / s = v / s := by
        have : v - v % s = s * (v / s) := by omega
        rw [this, Nat.mul_div_cancel_left _ hs]
      have hlt : v / s < ss.prod := Nat.div_lt_of_lt_mul h
      obtain ⟨h1, h2⟩ := splitRev_spec ss (v / s) hlt
      simp only [splitRev, hd]
      exact ⟨⟨Nat.mod_lt _ hs, h1⟩, by simp only [valRev, h2]; omega⟩

theorem valRev_append : ∀ {ss xs : List Nat} (ts ys : List Nat), ss.length = xs.length →
    valRev (ss ++ ts) (xs ++ ys) = valRev ss xs + ss.prod * valRev ts ys
  | [], [], ts, ys, _ => by simp [valRev]
  | s :: ss, x :: xs, ts, ys, h => by
      simp only [List.length_cons, Nat.add_right_cancel_iff] at h
      simp only [List.cons_append, valRev, valRev_append ts ys h, List.prod_cons]
      ring
  | [], _ :: _, _, _, h => by simp at h
  | _ :: _, [], _, _, h => by simp at h

theorem foldl_combine (l : List (Nat × Nat)) (acc : Nat) :
    l.foldl (fun acc sp => acc * sp.1 + sp.2) acc
      = valRev (l.map Prod.fst).reverse (l.map Prod.snd).reverse + acc * (l.map Prod.fst).prod := by
  induction l generalizing acc with
  | nil => simp [valRev]
  | cons a l ih =>
    rw [List.foldl_cons, ih]
    simp only [List.map_cons, List.reverse_cons, List.prod_cons]
    rw [valRev_append _ _ (by simp)]
    simp only [valRev, List.prod_reverse]
    ring

theorem map_fst_zip' {a b : List Nat} (h : a.length = b.length) : (a.zip b).map Prod.fst = a :=
  List.map_fst_zip (by omega)
theorem map_snd_zip' {a b : List Nat} (h : a.length = b.length) : (a.zip b).map Prod.snd = b :=
  List.map_snd_zip (by omega)

theorem combine_eq {size pos : List Nat} (h : size.length = pos.length) :
    combine size pos = valRev size.reverse pos.reverse := by
  unfold combine
  rw [foldl_combine, map_fst_zip' h, map_snd_zip' h]
  simp

/-- splitting a combined index gives the parts back -/
theorem split_combine {size pos : List Nat} (h : InRange pos size) : splitTuple size (combine size pos) = pos := by
  unfold splitTuple
  rw [combine_eq (inRange_length h).symm, splitRev_valRev (inRange_reverse h), List.reverse_reverse]

theorem combine_lt {size pos : List Nat} (h : InRange pos size) : combine size pos < size.prod := by
  rw [combine_eq (inRange_length h).symm]
  have := valRev_lt (inRange_reverse h)
  rwa [List.prod_reverse] at this

/-- combining split parts gives the number back -/
theorem combine_split (size : List Nat) (v : Nat) (h : v < size.prod) :
    InRange (splitTuple size v) size ∧ combine size (splitTuple size v) = v := by
  have hv : v < size.reverse.prod := by rwa [List.prod_reverse]
  obtain ⟨h1, h2⟩ := splitRev_spec size.reverse v hv
  have hr : InRange (splitTuple size v) size := by
    have := inRange_reverse h1
    rwa [List.reverse_reverse] at this
  refine ⟨hr, ?_⟩
  rw [combine_eq (inRange_length hr).symm]
  unfold splitTuple
  rw [List.reverse_reverse, h2]

theorem combine_inj {size a b : List Nat} (ha : InRange a size) (hb : InRange b size)
    (h : combine size a = combine size b) : a = b := by
  rw [← split_combine ha, h, split_combine hb]

/-! ### `?` versions of the distribution functions -/

theorem Dist.home_some (d : Dist) (hd : d.OK) (n i : Nat) (hi : i < n) :
    d.subblockFromIndex? n i = some (d.subblockFromIndex n i) ∧
    d.localFromGlobal? n i = some (d.localFromGlobal n i) := by
  cases d with
  | whole => exact ⟨rfl, rfl⟩
  | block p => exact ⟨(Dist.block_home n p i hd hi).1, (Dist.block_home n p i hd hi).2.1⟩
  | cyclic p c => exact ⟨rfl, rfl⟩

end Verif
