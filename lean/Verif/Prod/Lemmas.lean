import Mathlib.Tactic.Ring
import Mathlib.Tactic.Linarith
import Verif.Prod.Model
import Verif.Signal.Lemmas

/-!
# Lemmas for matrix products
-/

namespace Verif.Prd

open Verif.Sig Finset

variable {T : Type} [Semiring T]

/-- The block after its caches have been filled from memory `m`. -/
def P.filled (m : ℤ → T) : P T → E T
  | .view v => .view v
  | .trans x => .trans (x.filled m)
  | .bin f x y => .bin f (x.filled m) (y.filled m)
  | .prod c x y => .node x.toE.rows y.toE.cols (fresh c x.toE y.toE) (fresh c x.toE y.toE m)

/-- How a block behaves: read from memory `m0` it gives `F` and becomes `e'`, which gives `F` from all memories that agree. -/
structure Beh (m0 : ℤ → T) (e e' : E T) (F : ℕ → ℕ → T) (R C : ℕ) (agree : (ℤ → T) → Prop) : Prop where
  agree0 : agree m0
  r : e.rows = R
  c : e.cols = C
  r' : e'.rows = R
  c' : e'.cols = C
  first : ∀ i < R, ∀ j < C, e.get m0 i j = some (F i j, e')
  later : ∀ m, agree m → ∀ i < R, ∀ j < C, e'.get m i j = some (F i j, e')

theorem Beh.any {m0 : ℤ → T} {a a' : E T} {F : ℕ → ℕ → T} {R C : ℕ} {P : (ℤ → T) → Prop} (h : Beh m0 a a' F R C P) {m : ℤ → T} {A : E T}
    (hA : (m = m0 ∧ A = a) ∨ (A = a' ∧ P m)) : A.rows = R ∧ A.cols = C ∧ P m ∧ ∀ i < R, ∀ j < C, A.get m i j = some (F i j, a') := by
  rcases hA with ⟨rfl, rfl⟩ | ⟨rfl, hP⟩
  · exact ⟨h.r, h.c, h.agree0, h.first⟩
  · exact ⟨h.r', h.c', hP, h.later m hP⟩

theorem inner_eq {m0 : ℤ → T} {a a' b b' : E T} {F G : ℕ → ℕ → T} {R K C : ℕ} {P Q : (ℤ → T) → Prop} (ha : Beh m0 a a' F R K P) (hb : Beh m0 b b' G K C Q)
    (c cv : T → T) (hcv : Absorbs cv) (m : ℤ → T) (A B : E T) (h : K = 0 ∨ (((m = m0 ∧ A = a) ∨ (A = a' ∧ P m)) ∧ ((m = m0 ∧ B = b) ∨ (B = b' ∧ Q m)))) (i j : ℕ) (hi : i < R)
    (hj : j < C) :
    ∃ A' B', inner c cv K m A B i j = some (cv (∑ k ∈ range K, F i k * c (G k j)), A', B') ∧ (K = 0 ∨ (A' = a' ∧ B' = b')) := by
  rcases Nat.eq_zero_or_pos K with h0 | h0
  · subst h0
    exact ⟨A, B, by simp [inner, loop, hcv.1], .inl rfl⟩
  · have h := h.resolve_left (by omega)
    obtain ⟨⟨s, A', B'⟩, e, hs, hA, hB, hp⟩ := loop_inv (fun k (st : T × E T × E T) => st.1 = cv (∑ k ∈ range k, F i k * c (G k j)) ∧
        ((m = m0 ∧ st.2.1 = a) ∨ (st.2.1 = a' ∧ P m)) ∧ ((m = m0 ∧ st.2.2 = b) ∨ (st.2.2 = b' ∧ Q m)) ∧ (0 < k → st.2.1 = a' ∧ st.2.2 = b'))
      K ((0 : T), A, B) (fun st k =>
        if i < st.2.1.rows ∧ k < st.2.1.cols ∧ k < st.2.2.rows ∧ j < st.2.2.cols then
          (st.2.1.get m i k).bind fun p => (st.2.2.get m k j).map fun q => (cv (st.1 + p.1 * c q.1), p.2, q.2)
        else none) ⟨by simp [hcv.1], h.1, h.2, fun h => absurd h (by omega)⟩ (by
          rintro k ⟨s, A1, B1⟩ hk ⟨hs, hA, hB, -⟩
          obtain ⟨r1, c1, p1, g1⟩ := ha.any hA
          obtain ⟨r2, c2, p2, g2⟩ := hb.any hB
          refine ⟨(cv (s + F i k * c (G k j)), a', b'), ?_, ?_, .inr ⟨rfl, p1⟩, .inr ⟨rfl, p2⟩, fun _ => ⟨rfl, rfl⟩⟩
          · dsimp only at r1 c1 g1 r2 c2 g2 ⊢
            rw [if_pos ⟨by omega, by omega, by omega, by omega⟩, g1 i hi k hk, g2 k hk j hj]
            rfl
          · dsimp only at hs ⊢
            rw [hs, sum_range_succ, hcv.2])
    dsimp only at hs hp
    refine ⟨A', B', ?_, .inr (hp h0)⟩
    rw [← hs]
    exact e

/-- The loops, with an invariant that the caller chooses. -/
theorem exec_inv {σ : Type} {m0 : ℤ → T} {a a' b b' : E T} {F G : ℕ → ℕ → T} {Ra K Cb : ℕ} {P Q : (ℤ → T) → Prop} (ha : Beh m0 a a' F Ra K P)
    (hb : Beh m0 b b' G K Cb Q) (c cv : T → T) (hcv : Absorbs cv) (mem : σ → ℤ → T) (put : σ → ℕ → ℕ → T → σ) (R C : ℕ) (hR : R ≤ Ra) (hC : C ≤ Cb) (s0 : σ) (hs0 : mem s0 = m0)
    (I : ℕ → ℕ → σ → Prop) (h0 : I 0 0 s0) (hP : ∀ i j s, I i j s → P (mem s) ∧ Q (mem s))
    (hstep : ∀ i < R, ∀ j < C, ∀ s, I i j s → I i (j + 1) (put s i j (cv (∑ k ∈ range K, F i k * c (G k j))))) (hrow : ∀ i < R, ∀ s, I i C s → I (i + 1) 0 s) :
    ∃ s A B, exec mem put R C c cv K a b s0 = some (s, A, B) ∧ I R 0 s := by
  have key : ∀ i < R, ∀ st : σ × E T × E T,
      (I i 0 st.1 ∧ (K = 0 ∨ (((mem st.1 = m0 ∧ st.2.1 = a) ∨ (st.2.1 = a' ∧ P (mem st.1))) ∧ ((mem st.1 = m0 ∧ st.2.2 = b) ∨ (st.2.2 = b' ∧ Q (mem st.1)))))) →
      ∃ st', (loop C st fun st j => (inner c cv K (mem st.1) st.2.1 st.2.2 i j).map fun r => (put st.1 i j r.1, r.2)) = some st' ∧
        I i C st'.1 ∧ (K = 0 ∨ (((mem st'.1 = m0 ∧ st'.2.1 = a) ∨ (st'.2.1 = a' ∧ P (mem st'.1))) ∧
          ((mem st'.1 = m0 ∧ st'.2.2 = b) ∨ (st'.2.2 = b' ∧ Q (mem st'.1))))) := by
    intro i hi st hst
    refine loop_inv (fun j (st : σ × E T × E T) => I i j st.1 ∧ (K = 0 ∨ (((mem st.1 = m0 ∧ st.2.1 = a) ∨ (st.2.1 = a' ∧ P (mem st.1))) ∧
        ((mem st.1 = m0 ∧ st.2.2 = b) ∨ (st.2.2 = b' ∧ Q (mem st.1)))))) C st _ hst ?_
    rintro j st hj ⟨hI, hc⟩
    obtain ⟨A', B', e, hk⟩ := inner_eq ha hb c cv hcv (mem st.1) st.2.1 st.2.2 hc i j (by omega) (by omega)
    have hI' := hstep i hi j hj st.1 hI
    refine ⟨(put st.1 i j (cv (∑ k ∈ range K, F i k * c (G k j))), A', B'), by rw [e]; rfl, hI', ?_⟩
    rcases hk with hk | ⟨h1, h2⟩
    · exact .inl hk
    · exact .inr ⟨.inr ⟨h1, (hP _ _ _ hI').1⟩, .inr ⟨h2, (hP _ _ _ hI').2⟩⟩
  obtain ⟨⟨s, A, B⟩, e, hI, -⟩ := loop_inv (fun i (st : σ × E T × E T) => I i 0 st.1 ∧ (K = 0 ∨ (((mem st.1 = m0 ∧ st.2.1 = a) ∨ (st.2.1 = a' ∧ P (mem st.1))) ∧
        ((mem st.1 = m0 ∧ st.2.2 = b) ∨ (st.2.2 = b' ∧ Q (mem st.1)))))) R (s0, a, b)
      (fun st i => loop C st fun st j => (inner c cv K (mem st.1) st.2.1 st.2.2 i j).map fun r => (put st.1 i j r.1, r.2))
      ⟨h0, .inr ⟨.inl ⟨hs0, rfl⟩, .inl ⟨hs0, rfl⟩⟩⟩ (by
        intro i st hi hst
        obtain ⟨st', e, hI, hc⟩ := key i hi st hst
        exact ⟨st', e, hrow i hi _ hI, hc⟩)
  exact ⟨s, A, B, e, hI⟩

/-- A product evaluated into a new block. -/
theorem fresh_eq {m0 : ℤ → T} {a a' b b' : E T} {F G : ℕ → ℕ → T} {R K C : ℕ} {P Q : (ℤ → T) → Prop} (ha : Beh m0 a a' F R K P) (hb : Beh m0 b b' G K C Q)
    (c : T → T) : ∃ g, fresh c a b m0 = some g ∧ ∀ i < R, ∀ j < C, g i j = ∑ k ∈ range K, F i k * c (G k j) := by
  obtain ⟨s, A, B, e, hI⟩ := exec_inv ha hb c id ⟨rfl, fun _ _ => rfl⟩ (fun _ : ℕ → ℕ → T => m0) (fun s i j x => fun i' j' => if i' = i ∧ j' = j then x else s i' j') R C le_rfl le_rfl
    (fun _ _ => 0) rfl (fun i j s => ∀ i' < R, ∀ j' < C, (i' < i ∨ (i' = i ∧ j' < j)) → s i' j' = ∑ k ∈ range K, F i' k * c (G k j'))
    (fun i' _ j' _ h => by omega) (fun _ _ _ _ => ⟨ha.agree0, hb.agree0⟩) (by
      intro i _ j _ s hs i' hi' j' hj' h
      dsimp only
      by_cases he : i' = i ∧ j' = j
      · rw [if_pos he, he.1, he.2]; rfl
      · rw [if_neg he]
        exact hs i' hi' j' hj' (by omega))
    (fun i _ s hs i' hi' j' hj' h => hs i' hi' j' hj' (by omega))
  refine ⟨s, ?_, fun i hi j hj => hI i hi j hj (by omega)⟩
  unfold fresh
  rw [ha.r, ha.c, hb.c, e]
  rfl

/-- Blocks made by the front end behave as their expressions mean. -/
theorem beh (m0 : ℤ → T) (p : P T) (hp : p.Sized) : Beh m0 p.toE (p.filled m0) (p.val m0) p.rows p.cols
    (fun m => ∀ v ∈ p.outer, ∀ i < v.rows, ∀ j < v.cols, m (v.at i j) = m0 (v.at i j)) := by
  induction p with
  | view v =>
    exact ⟨fun _ _ _ _ _ _ => rfl, rfl, rfl, rfl, rfl, fun i _ j _ => rfl, fun m h i hi j hj => by
      show some (m (v.at i j), _) = some (m0 (v.at i j), _)
      rw [h v (by simp [P.outer]) i hi j hj]; rfl⟩
  | trans x ih =>
    have h := ih hp
    refine ⟨h.agree0, h.c, h.r, h.c', h.r', fun i hi j hj => ?_, fun m hm i hi j hj => ?_⟩
    · show (x.toE.get m0 j i).map _ = _
      rw [h.first j hj i hi]; rfl
    · show ((x.filled m0).get m j i).map _ = _
      rw [h.later m hm j hj i hi]; rfl
  | bin f x y ihx ihy =>
    obtain ⟨h1, h2, h3, h4⟩ := hp
    have hx := ihx h1
    have hy := ihy h2
    refine ⟨fun _ _ _ _ _ _ => rfl, hx.r, hx.c, hx.r', hx.c', fun i hi j hj => ?_, fun m hm i hi j hj => ?_⟩
    · show (x.toE.get m0 i j).bind _ = _
      rw [hx.first i hi j hj]
      show (y.toE.get m0 i j).map _ = _
      rw [hy.first i (h3 ▸ hi) j (h4 ▸ hj)]; rfl
    · show ((x.filled m0).get m i j).bind _ = _
      rw [hx.later m (fun v hv => hm v (by simp [P.outer, hv])) i hi j hj]
      show ((y.filled m0).get m i j).map _ = _
      rw [hy.later m (fun v hv => hm v (by simp [P.outer, hv])) i (h3 ▸ hi) j (h4 ▸ hj)]; rfl
  | prod c x y ihx ihy =>
    obtain ⟨h1, h2, h3⟩ := hp
    have hx := ihx h1
    have hy := ihy h2
    rw [← h3] at hy
    obtain ⟨g, e, hg⟩ := fresh_eq hx hy c
    refine ⟨fun _ _ _ _ _ _ => rfl, hx.r, hy.c, hx.r, hy.c, fun i hi j hj => ?_, fun m hm i hi j hj => ?_⟩
    · show (fresh c x.toE y.toE m0).map _ = some (_, E.node _ _ _ (fresh c x.toE y.toE m0))
      rw [e]
      show some (g i j, _) = _
      rw [hg i hi j hj]; rfl
    · show (E.node _ _ _ (fresh c x.toE y.toE m0)).get m i j = some (_, E.node _ _ _ (fresh c x.toE y.toE m0))
      rw [e]
      show some (g i j, _) = _
      rw [hg i hi j hj]; rfl

end Verif.Prd
