import Verif.Svd.Lemmas
import Mathlib.Tactic.SplitIfs
import Mathlib.Tactic.IntervalCases
import Mathlib.Tactic.NormNum

/-!
# C68: singular value decompositions
-/

namespace Verif.Svd

open Finset

variable {𝕜 : Type} [RCLike 𝕜]

/-- The sizes of the matrices of an object are those its storage kinds ask for. -/
structure Inv (o : Svd 𝕜) : Prop where
  qr : o.q.rows = selectDim o.ust o.m o.m
  qc : o.q.cols = selectDim o.ust o.m o.p
  pr : o.pt.rows = selectDim o.vst o.n o.p
  pc : o.pt.cols = selectDim o.vst o.n o.n

theorem make_inv (m n : ℕ) (ust vst : Store) : Inv (make m n ust vst : Svd 𝕜) := ⟨rfl, rfl, rfl, rfl⟩

theorem stepQ_spec {L : Lapack 𝕜} {o : Svd 𝕜} (ho : Inv o) {f : Bidiag 𝕜} {Q : ℕ → ℕ → 𝕜} (hQ : GbrQOk L o.m o.n f Q) :
    ∃ q, stepQ L o f = some q ∧ q.rows = o.q.rows ∧ q.cols = o.q.cols ∧ (o.ust ≠ .nos → ∀ i < o.m, ∀ j < o.q.cols, q.val i j = Q i j) := by
  unfold stepQ
  have hp : o.p = min o.m o.n := rfl
  cases hu : o.ust with
  | nos => exact ⟨o.q, by simp, rfl, rfl, fun h => absurd rfl h⟩
  | part =>
    have hr : o.q.rows = o.m := by rw [ho.qr, hu]; rfl
    have hc : o.q.cols = o.p := by rw [ho.qc, hu]; rfl
    by_cases hmn : o.n ≤ o.m
    · have e : loadQ o f.a = some { o.q with val := fun i j => if i < o.m ∧ j < o.n then f.a i j else o.q.val i j } := by
        unfold loadQ put
        rw [if_pos hmn, if_pos ⟨by omega, by omega⟩]
      refine ⟨{ o.q with val := L.gbrQ o.m o.p o.n (fun i j => if i < o.m ∧ j < o.n then f.a i j else o.q.val i j) f.tauq },
        by simp only [e]; simp, rfl, rfl, fun _ i hi j hj => ?_⟩
      exact hQ o.p _ le_rfl (by omega) (fun a ha b hb => by rw [if_pos ⟨ha, by omega⟩]) i hi j (by omega)
    · have e : loadQ o f.a = some { o.q with val := fun i j => if i < o.m ∧ j < o.m then f.a i j else o.q.val i j } := by
        unfold loadQ put
        rw [if_neg hmn, if_pos ⟨by omega, by omega⟩, if_pos ⟨by omega, by omega⟩]
      refine ⟨{ o.q with val := L.gbrQ o.m o.p o.n (fun i j => if i < o.m ∧ j < o.m then f.a i j else o.q.val i j) f.tauq },
        by simp only [e]; simp, rfl, rfl, fun _ i hi j hj => ?_⟩
      exact hQ o.p _ le_rfl (by omega) (fun a ha b hb => by rw [if_pos ⟨ha, by omega⟩]) i hi j (by omega)
  | full =>
    have hr : o.q.rows = o.m := by rw [ho.qr, hu]; rfl
    have hc : o.q.cols = o.m := by rw [ho.qc, hu]; rfl
    by_cases hmn : o.n ≤ o.m
    · have e : loadQ o f.a = some { o.q with val := fun i j => if i < o.m ∧ j < o.n then f.a i j else o.q.val i j } := by
        unfold loadQ put
        rw [if_pos hmn, if_pos ⟨by omega, by omega⟩]
      refine ⟨{ o.q with val := L.gbrQ o.m o.m o.n (fun i j => if i < o.m ∧ j < o.n then f.a i j else o.q.val i j) f.tauq },
        by simp only [e]; simp, rfl, rfl, fun _ i hi j hj => ?_⟩
      exact hQ o.m _ (by omega) le_rfl (fun a ha b hb => by rw [if_pos ⟨ha, by omega⟩]) i hi j (by omega)
    · have e : loadQ o f.a = some { o.q with val := fun i j => if i < o.m ∧ j < o.m then f.a i j else o.q.val i j } := by
        unfold loadQ put
        rw [if_neg hmn, if_pos ⟨by omega, by omega⟩, if_pos ⟨by omega, by omega⟩]
      refine ⟨{ o.q with val := L.gbrQ o.m o.m o.n (fun i j => if i < o.m ∧ j < o.m then f.a i j else o.q.val i j) f.tauq },
        by simp only [e]; simp, rfl, rfl, fun _ i hi j hj => ?_⟩
      exact hQ o.m _ (by omega) le_rfl (fun a ha b hb => by rw [if_pos ⟨ha, by omega⟩]) i hi j (by omega)

theorem stepP_spec {L : Lapack 𝕜} {o : Svd 𝕜} (ho : Inv o) {f : Bidiag 𝕜} {P : ℕ → ℕ → 𝕜} (hP : GbrPOk L o.m o.n f P) :
    ∃ pt, stepP L o f = some pt ∧ pt.rows = o.pt.rows ∧ pt.cols = o.pt.cols ∧
      (o.vst ≠ .nos → ∀ i < o.pt.rows, ∀ j < o.n, pt.val i j = star (P j i)) := by
  unfold stepP
  have hp : o.p = min o.m o.n := rfl
  cases hu : o.vst with
  | nos => exact ⟨o.pt, by simp, rfl, rfl, fun h => absurd rfl h⟩
  | part =>
    have hr : o.pt.rows = o.p := by rw [ho.pr, hu]; rfl
    have hc : o.pt.cols = o.n := by rw [ho.pc, hu]; rfl
    by_cases hmn : o.n ≤ o.m
    · have e : loadP o f.a = some { o.pt with val := fun i j => if i < o.n ∧ j < o.n then f.a i j else o.pt.val i j } := by
        unfold loadP put
        rw [if_pos hmn, if_pos ⟨by omega, by omega⟩, if_pos ⟨by omega, by omega⟩]
      refine ⟨{ o.pt with val := L.gbrP o.p o.n o.m (fun i j => if i < o.n ∧ j < o.n then f.a i j else o.pt.val i j) f.taup },
        by simp only [e]; simp, rfl, rfl, fun _ i hi j hj => ?_⟩
      exact hP o.p _ le_rfl (by omega) (fun a ha b hb => by rw [if_pos ⟨by omega, hb⟩]) i (by omega) j hj
    · have e : loadP o f.a = some { o.pt with val := fun i j => if i < o.m ∧ j < o.n then f.a i j else o.pt.val i j } := by
        unfold loadP put
        rw [if_neg hmn, if_pos ⟨by omega, by omega⟩]
      refine ⟨{ o.pt with val := L.gbrP o.p o.n o.m (fun i j => if i < o.m ∧ j < o.n then f.a i j else o.pt.val i j) f.taup },
        by simp only [e]; simp, rfl, rfl, fun _ i hi j hj => ?_⟩
      exact hP o.p _ le_rfl (by omega) (fun a ha b hb => by rw [if_pos ⟨by omega, hb⟩]) i (by omega) j hj
  | full =>
    have hr : o.pt.rows = o.n := by rw [ho.pr, hu]; rfl
    have hc : o.pt.cols = o.n := by rw [ho.pc, hu]; rfl
    by_cases hmn : o.n ≤ o.m
    · have e : loadP o f.a = some { o.pt with val := fun i j => if i < o.n ∧ j < o.n then f.a i j else o.pt.val i j } := by
        unfold loadP put
        rw [if_pos hmn, if_pos ⟨by omega, by omega⟩, if_pos ⟨by omega, by omega⟩]
      refine ⟨{ o.pt with val := L.gbrP o.n o.n o.m (fun i j => if i < o.n ∧ j < o.n then f.a i j else o.pt.val i j) f.taup },
        by simp only [e]; simp, rfl, rfl, fun _ i hi j hj => ?_⟩
      exact hP o.n _ (by omega) le_rfl (fun a ha b hb => by rw [if_pos ⟨by omega, hb⟩]) i (by omega) j hj
    · have e : loadP o f.a = some { o.pt with val := fun i j => if i < o.m ∧ j < o.n then f.a i j else o.pt.val i j } := by
        unfold loadP put
        rw [if_neg hmn, if_pos ⟨by omega, by omega⟩]
      refine ⟨{ o.pt with val := L.gbrP o.n o.n o.m (fun i j => if i < o.m ∧ j < o.n then f.a i j else o.pt.val i j) f.taup },
        by simp only [e]; simp, rfl, rfl, fun _ i hi j hj => ?_⟩
      exact hP o.n _ (by omega) le_rfl (fun a ha b hb => by rw [if_pos ⟨by omega, hb⟩]) i (by omega) j hj

/-! ## An example

The matrix with rows `2 0`, `0 3`, `0 0`: all reflectors are trivial, and `bdsqr` sorts the singular values. -/

namespace Ex

/-- Exchange of 0 and 1. -/
def sw (i : ℕ) : ℕ := if i = 0 then 1 else if i = 1 then 0 else i

def A : Mx ℝ := ⟨3, 2, fun i j => if i = j then (if i = 0 then 2 else 3) else 0⟩

def id3 : ℕ → ℕ → ℝ := fun i j => if i = j then 1 else 0

def L : Lapack ℝ where
  gebrd _ _ a := ⟨a, fun i => a i i, fun _ => 0, fun _ => 0, fun _ => 0⟩
  gbrQ _ _ _ _ _ := id3
  gbrP _ _ _ _ _ := id3
  bdsqr _ _ _ _ d _ vt u := some (fun t => d (sw t), fun i j => vt (sw i) j, fun i j => u i (sw j))

theorem id3_ortho (n : ℕ) : Ortho n n id3 := by
  intro j hj k hk
  simp [id3, hk, eq_comm]

theorem gebrd : GebrdOk 3 2 A.val (L.gebrd 3 2 A.val) id3 id3 where
  q := id3_ortho 3
  p := id3_ortho 2
  eq := by
    intro i hi j hj
    have : min 3 2 = 2 := rfl
    rw [this]
    interval_cases i <;> interval_cases j <;> simp [sum_range_succ, A, L, bidiag, id3]

theorem gbrQ : GbrQOk L 3 2 (L.gebrd 3 2 A.val) id3 := fun _ _ _ _ _ _ _ _ _ => rfl

theorem gbrP : GbrPOk L 3 2 (L.gebrd 3 2 A.val) id3 := fun _ _ _ _ _ i _ j _ => by simp [L, id3, eq_comm]

theorem bdsqr : BdsqrOk L true 2 (L.gebrd 3 2 A.val).d (L.gebrd 3 2 A.val).e := by
  intro ncvt nru vt u s vt' u' h
  simp only [L, Option.some.injEq, Prod.mk.injEq] at h
  obtain ⟨rfl, rfl, rfl⟩ := h
  have o : Ortho 2 2 fun i j => id3 i (sw j) := by
    intro j hj k hk
    interval_cases j <;> interval_cases k <;> simp [sum_range_succ, id3, sw]
  refine ⟨fun i j => id3 i (sw j), fun i j => id3 i (sw j), o, o, ?_, ?_, ?_, ?_, ?_, ?_, ?_⟩
  · intro i hi j hj
    interval_cases i <;> interval_cases j <;> simp [sum_range_succ, id3, sw, bidiag, L, A]
  · intro l hl
    interval_cases l <;> simp [sw, A]
  · intro k l h1 h2
    interval_cases l <;> interval_cases k <;> simp [sw, A]
    norm_num
  · intro i _ j hj
    interval_cases j <;> simp [sum_range_succ, id3, sw]
  · intro i j hj
    dsimp only
    rw [show sw j = j by unfold sw; rw [if_neg (by omega), if_neg (by omega)]]
  · intro i hi j _
    interval_cases i <;> simp [sum_range_succ, id3, sw]
  · intro i j hj
    dsimp only
    rw [show sw i = i by unfold sw; rw [if_neg (by omega), if_neg (by omega)]]

end Ex

end Verif.Svd

namespace Verif.Props

open Finset Svd

variable {𝕜 : Type} [RCLike 𝕜]

/-- **C68.** What `decompose` leaves behind is a singular value decomposition, for all sizes and storage kinds: if `bdsqr` converges it returns `true`, the
singular values are those of a decomposition `A = U S V^H` with unitary `U` and `V`, and `q_` and `pt_` hold as many columns of `U` and `V` as were asked for.
The object can be used again. -/
theorem C68_decompose (L : Lapack 𝕜) (o : Svd 𝕜) (ho : Inv o) (A : Mx 𝕜) (Q P : ℕ → ℕ → 𝕜)
    (hr : A.rows = o.m) (hc : A.cols = o.n)
    (hf : GebrdOk o.m o.n A.val (L.gebrd o.m o.n A.val) Q P) (hQ : GbrQOk L o.m o.n (L.gebrd o.m o.n A.val) Q) (hP : GbrPOk L o.m o.n (L.gebrd o.m o.n A.val) P)
    (hB : BdsqrOk L (decide (o.n ≤ o.m)) o.p (L.gebrd o.m o.n A.val).d (L.gebrd o.m o.n A.val).e)
    (hconv : ∀ ncvt nru vt u, (L.bdsqr (decide (o.n ≤ o.m)) o.p ncvt nru (L.gebrd o.m o.n A.val).d (L.gebrd o.m o.n A.val).e vt u).isSome) :
    ∃ s o' U V, decompose L o A = some (true, s, o') ∧ Inv o' ∧ o'.m = o.m ∧ o'.n = o.n ∧ o'.ust = o.ust ∧ o'.vst = o.vst ∧
      IsSvd o.m o.n A.val s U V ∧ Ortho o.m o.m U ∧ Ortho o.n o.n V ∧
      (o.ust ≠ .nos → ∀ i < o.m, ∀ j < o'.q.cols, o'.q.val i j = U i j) ∧
      (o.vst ≠ .nos → ∀ i < o'.pt.rows, ∀ j < o.n, o'.pt.val i j = star (V j i)) := by
  obtain ⟨q, eq, qr, qc, hq⟩ := stepQ_spec ho hQ
  obtain ⟨pt, ept, pr, pc, hpt⟩ := stepP_spec ho hP
  obtain ⟨⟨s, vt', u'⟩, er⟩ := Option.isSome_iff_exists.1 (hconv (if o.vst ≠ .nos then o.n else 0) (if o.ust ≠ .nos then o.m else 0) pt.val q.val)
  obtain ⟨X, Y, hX, hY, b1, b2, b3, b4, b5, b6, b7⟩ := hB _ _ _ _ _ _ _ er
  have hp : o.p = min o.m o.n := rfl
  refine ⟨s, { o with q := { q with val := u' }, pt := { pt with val := vt' } }, mul o.m Q (ext (min o.m o.n) X), mul o.n P (ext (min o.m o.n) Y), ?_, ?_, rfl, rfl, rfl, rfl,
    combine hf.q hf.p hf.eq hX hY b1 b2 b3, ortho_mul hf.q (ext_ortho (min_le_left _ _) hX), ortho_mul hf.p (ext_ortho (min_le_right _ _) hY), ?_, ?_⟩
  · unfold decompose
    rw [if_pos ⟨hr, hc⟩]
    simp only [eq, ept, Option.bind_some]
    unfold step3
    simp only [er, Option.map_some]
  · exact ⟨qr.trans ho.qr, qc.trans ho.qc, pr.trans ho.pr, pc.trans ho.pc⟩
  · intro hu i hi j hj
    have hj' : j < o.q.cols := by rw [← qc]; exact hj
    have hcm : o.q.cols ≤ o.m := by
      rw [ho.qc]
      unfold selectDim
      split_ifs <;> omega
    have hpc : o.p ≤ o.q.cols := by
      rw [ho.qc]
      unfold selectDim
      split_ifs with h1 h2
      · omega
      · exact le_rfl
      · cases h : o.ust <;> simp_all
    rw [mul_ext (min_le_left _ _) X Q i (by omega)]
    dsimp only
    split_ifs with hjp
    · rw [b4 i (by rw [if_pos hu]; exact hi) j hjp]
      exact sum_congr rfl fun k hk => by rw [hq hu i hi k (by have := mem_range.1 hk; omega)]
    · rw [b5 i j (by omega), hq hu i hi j hj']
  · intro hu i hi j hj
    have hi' : i < o.pt.rows := by rw [← pr]; exact hi
    have hcm : o.pt.rows ≤ o.n := by
      rw [ho.pr]
      unfold selectDim
      split_ifs <;> omega
    have hpc : o.p ≤ o.pt.rows := by
      rw [ho.pr]
      unfold selectDim
      split_ifs with h1 h2
      · omega
      · exact le_rfl
      · cases h : o.vst <;> simp_all
    rw [mul_ext (min_le_right _ _) Y P j (by omega)]
    dsimp only
    split_ifs with hip
    · rw [b6 i hip j (by rw [if_pos hu]; exact hj), star_sum]
      refine sum_congr rfl fun k hk => ?_
      rw [hpt hu k (by have := mem_range.1 hk; omega) j hj, star_mul]
      simp
    · rw [b7 i j (by omega), hpt hu i hi' j hj]

example : ∃ s o' U V, decompose Svd.Ex.L (make 3 2 .full .part) Svd.Ex.A = some (true, s, o') ∧ IsSvd 3 2 Svd.Ex.A.val s U V ∧ Ortho 3 3 U ∧
    (∀ i < 3, ∀ j < o'.q.cols, o'.q.val i j = U i j) := by
  obtain ⟨s, o', U, V, h1, _, _, _, _, _, h2, h3, _, h4, _⟩ :=
    C68_decompose Svd.Ex.L (make 3 2 .full .part) (make_inv _ _ _ _) Svd.Ex.A Svd.Ex.id3 Svd.Ex.id3 rfl rfl Svd.Ex.gebrd Svd.Ex.gbrQ Svd.Ex.gbrP Svd.Ex.bdsqr
      (fun _ _ _ _ => rfl)
  exact ⟨s, o', U, V, h1, h2, h3, h4 (by simp [make])⟩

/-- **C68 is false (reporting failure).** `decompose` never returns `false`, so that the `computation_error` of the interface by value is never thrown: when
`bdsqr` does not converge its wrapper aborts the program. -/
theorem C68_failure_false (L : Lapack 𝕜) (o : Svd 𝕜) (A : Mx 𝕜) : (∀ s o', decompose L o A ≠ some (false, s, o')) ∧
    ((∀ up n ncvt nru d e vt u, L.bdsqr up n ncvt nru d e vt u = none) → decompose L o A = none) := by
  constructor
  · intro s o' h
    unfold decompose at h
    split_ifs at h
    simp only [Option.bind_eq_some_iff, Option.map_eq_some_iff] at h
    obtain ⟨_, _, _, _, _, _, h⟩ := h
    exact absurd (congrArg Prod.fst h) (by simp)
  · intro hn
    unfold decompose
    split_ifs
    · cases h1 : stepQ L o (L.gebrd o.m o.n A.val) with
      | none => simp [h1]
      | some q =>
        cases h2 : stepP L o (L.gebrd o.m o.n A.val) with
        | none => simp [h1, h2]
        | some pt => simp [h1, h2, step3, hn]
    · rfl

example : decompose { Svd.Ex.L with bdsqr := fun _ _ _ _ _ _ _ _ => none } (make 3 2 .full .part) Svd.Ex.A = none :=
  (C68_failure_false _ _ _).2 fun _ _ _ _ _ _ _ _ => rfl

/-- **C68.** `produ` and `prodv` multiply by `U`, `V` or their conjugate transposes from either side, and the matrices returned by value have the sizes of
these products: no precondition fails if `b` has the right size. -/
theorem C68_products (o : Svd 𝕜) (ho : Inv o) (hu : o.ust ≠ .nos) (hv : o.vst ≠ .nos) (b : Mx 𝕜) :
    (b.rows = o.q.cols → produByValue o .n .l b = some ⟨o.m, b.cols, mul o.q.cols o.q.val b.val⟩) ∧
    (b.rows = o.m → produByValue o .h .l b = some ⟨o.q.cols, b.cols, mul o.m (herm o.q.val) b.val⟩) ∧
    (b.cols = o.m → produByValue o .n .r b = some ⟨b.rows, o.q.cols, mul o.m b.val o.q.val⟩) ∧
    (b.cols = o.q.cols → produByValue o .h .r b = some ⟨b.rows, o.m, mul o.q.cols b.val (herm o.q.val)⟩) ∧
    (b.rows = o.pt.rows → prodvByValue o .n .l b = some ⟨o.n, b.cols, mul o.pt.rows (herm o.pt.val) b.val⟩) ∧
    (b.rows = o.n → prodvByValue o .h .l b = some ⟨o.pt.rows, b.cols, mul o.n o.pt.val b.val⟩) ∧
    (b.cols = o.n → prodvByValue o .n .r b = some ⟨b.rows, o.pt.rows, mul o.n b.val (herm o.pt.val)⟩) ∧
    (b.cols = o.pt.rows → prodvByValue o .h .r b = some ⟨b.rows, o.n, mul o.pt.rows b.val o.pt.val⟩) := by
  have q1 : o.q.rows = o.m := by rw [ho.qr]; cases h : o.ust <;> simp_all [selectDim]
  have q2 : (if o.ust = .full then o.m else o.p) = o.q.cols := by rw [ho.qc]; cases h : o.ust <;> simp_all [selectDim]
  have p1 : o.pt.cols = o.n := by rw [ho.pc]; cases h : o.vst <;> simp_all [selectDim]
  have p2 : (if o.vst = .full then o.n else o.p) = o.pt.rows := by rw [ho.pr]; cases h : o.vst <;> simp_all [selectDim]
  have hh : ∀ A : ℕ → ℕ → 𝕜, herm (herm A) = A := fun A => by funext i j; simp [herm]
  refine ⟨fun h => ?_, fun h => ?_, fun h => ?_, fun h => ?_, fun h => ?_, fun h => ?_, fun h => ?_, fun h => ?_⟩ <;>
    simp [produByValue, prodvByValue, produ, prodv, prodUv, transOrHerm, q1, q2, p1, p2, h, hh]

example : produByValue (make 3 2 .part .full : Svd ℝ) .h .l ⟨3, 5, fun i j => i + j⟩ = some ⟨2, 5, mul 3 (herm fun _ _ => 0) fun i j => i + j⟩ :=
  (C68_products (make 3 2 .part .full : Svd ℝ) (make_inv _ _ _ _) (by simp [make]) (by simp [make]) ⟨3, 5, fun i j => i + j⟩).2.1 rfl

/-- **C68.** `u(low, high)` and `v(low, high)` return columns `low` to `high` of the matrices `U` and `V`. -/
theorem C68_columns (o : Svd 𝕜) (ho : Inv o) (low high : ℕ) (hlh : low ≤ high) :
    (o.ust ≠ .nos → high < o.q.cols → high + 1 < 2 ^ 64 →
      getU o low high o.m (high - low + 1) = some ⟨o.m, high - low + 1, fun i j => o.q.val i (low + j)⟩) ∧
    (o.vst ≠ .nos → high < o.pt.rows → high + 1 < 2 ^ 64 →
      getV o low high o.n (high - low + 1) = some ⟨o.n, high - low + 1, fun i j => star (o.pt.val (low + j) i)⟩) := by
  constructor
  · intro hu h1 h2
    unfold getU
    have : high - low + 1 = (high + 2 ^ 64 - low + 1) % 2 ^ 64 := by omega
    have hc : (o.ust = .part ∧ high < o.p) ∨ (o.ust = .full ∧ high < o.m) := by
      have h := h1
      rw [ho.qc] at h
      unfold selectDim at h
      split_ifs at h with h3 h4
      · exact .inr ⟨h3, h⟩
      · exact .inl ⟨h4, h⟩
      · omega
    rw [if_pos ⟨hc, rfl, this⟩, if_pos (.inr (by omega))]
  · intro hu h1 h2
    unfold getV
    have : high - low + 1 = (high + 2 ^ 64 - low + 1) % 2 ^ 64 := by omega
    have hc : (o.vst = .part ∧ high < o.p) ∨ (o.vst = .full ∧ high < o.n) := by
      have h := h1
      rw [ho.pr] at h
      unfold selectDim at h
      split_ifs at h with h3 h4
      · exact .inr ⟨h3, h⟩
      · exact .inl ⟨h4, h⟩
      · omega
    rw [if_pos ⟨hc, rfl, this⟩, if_pos (.inr (by omega))]
    rfl

example : getU (make 3 2 .full .nos : Svd ℝ) 1 2 3 2 = some ⟨3, 2, fun _ _ => 0⟩ :=
  (C68_columns (make 3 2 .full .nos : Svd ℝ) (make_inv _ _ _ _) 1 2 (by decide)).1 (by simp [make]) (by decide) (by decide)

/-- **C68, partial (`u` by value).** `svd<T, by_value>::u(low, high)` returns a new matrix of columns `low` to `high` of `U`, if these exist.  Missing: the check lets `high` be
one too large, see `C68_u_false`. -/
theorem C68_u_partial (o : Svd 𝕜) (ho : Inv o) (low high : ℕ) (hlh : low ≤ high) (hu : o.ust ≠ .nos) (h1 : high < o.q.cols) (h2 : high + 1 < 2 ^ 64) :
    uByValue o low high = some ⟨o.m, high - low + 1, fun i j => o.q.val i (low + j)⟩ := by
  have hp : uPre o high = true := by
    have h := h1
    rw [ho.qc] at h
    unfold selectDim at h
    unfold uPre
    rw [decide_eq_true_eq]
    split_ifs at h with h3 h4
    · exact .inr ⟨h3, h.le⟩
    · exact .inl ⟨h4, h.le⟩
    · omega
  have hn : (high + 2 ^ 64 - low + 1) % 2 ^ 64 = high - low + 1 := by omega
  unfold uByValue
  rw [if_pos hp, hn]
  exact (C68_columns o ho low high hlh).1 hu h1 h2

example : uByValue (make 3 2 .full .nos : Svd ℝ) 1 2 = some ⟨3, 2, fun _ _ => 0⟩ :=
  C68_u_partial (make 3 2 .full .nos : Svd ℝ) (make_inv _ _ _ _) 1 2 (by decide) (by simp [make]) (by decide) (by decide)

/-- **C68 is false (the check of `u` by value).** `svd<T, by_value>::u` accepts `high` equal to the number of columns that are stored, one too many; the
requirement of the object behind it fails then. -/
theorem C68_u_false : ∃ o : Svd ℝ, Inv o ∧ uPre o o.q.cols = true ∧ uByValue o 0 o.q.cols = none := by
  refine ⟨make 3 2 .part .part, make_inv _ _ _ _, by decide, ?_⟩
  unfold uByValue getU
  rw [if_pos (by decide), if_neg (by decide)]

/-- **C68.** Matrices that are not stored cannot be had: with `svd_uvnos` every access fails. -/
theorem C68_nos (o : Svd 𝕜) (low high r c : ℕ) : (o.ust = .nos → getU o low high r c = none) ∧ (o.vst = .nos → getV o low high r c = none) := by
  constructor
  · intro h; unfold getU; rw [if_neg]; simp [h]
  · intro h; unfold getV; rw [if_neg]; simp [h]

/-- **C68 (bidiagonal matrices).** What LAPACK's documentation calls an upper bidiagonal matrix has `d` on the diagonal, `e` right above it and
nothing else; a lower one is the transpose of an upper one. -/
theorem C68_bidiagonal (d e : ℕ → ℝ) : (∀ i, bidiag true d e i i = d i) ∧ (∀ i, bidiag true d e i (i + 1) = e i) ∧
    (∀ i j, j < i ∨ i + 1 < j → bidiag true d e i j = 0) ∧ ∀ i j, bidiag false d e i j = bidiag true d e j i := by
  refine ⟨fun i => by simp [bidiag], fun i => by simp [bidiag], fun i j h => ?_, fun i j => ?_⟩
  · unfold bidiag
    rw [if_neg (by omega), if_neg (by omega), if_neg (by simp)]
  · by_cases h : i = j
    · subst h; simp [bidiag]
    · simp [bidiag, h, Ne.symm h]

end Verif.Props
