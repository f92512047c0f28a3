import Verif.Elem.Model
import Mathlib.Data.Rat.Lemmas
import Mathlib.Tactic.NormNum
import Mathlib.Tactic.Ring
import Mathlib.Tactic.Linarith

/-!
# Lemmas on promotion and conversion
-/

namespace Verif.Elm

theorem trunc_whole {q : ℚ} (h : q.den = 1) : trunc q = q.num := by
  unfold trunc; rw [h]; exact Int.tdiv_one _

theorem num_whole {q : ℚ} (h : q.den = 1) : ((q.num : ℤ) : ℚ) = q :=
  Rat.coe_int_num_of_den_eq_one h

theorem wrap_signed (n m : ℤ) (hm : 0 < m) (h1 : -m ≤ n) (h2 : n < m) :
    (n + m) % (2 * m) - m = n := by
  rw [Int.emod_eq_of_lt (by omega) (by omega)]; omega

theorem conv_rep (R : Rnd) (t : Ty) (q : ℚ) (h : Rep R t q) : conv R t q = q := by
  unfold Rep at h
  unfold conv
  have key : ∀ w : ℕ, 0 < w → (q.den = 1 ∧ -(2 ^ (w - 1) : ℤ) ≤ q.num ∧ q.num < 2 ^ (w - 1)) →
      (((trunc q + 2 ^ (w - 1)) % 2 ^ w - 2 ^ (w - 1) : ℤ) : ℚ) = q := by
    rintro w hw ⟨hd, h1, h2⟩
    have e : (2 : ℤ) ^ w = 2 * 2 ^ (w - 1) := by
      obtain ⟨v, rfl⟩ : ∃ v, w = v + 1 := ⟨w - 1, by omega⟩
      rw [Nat.add_sub_cancel]; ring
    rw [trunc_whole hd, e, wrap_signed _ _ (by positivity) h1 h2, num_whole hd]
  have keyu : ∀ w : ℕ, (q.den = 1 ∧ 0 ≤ q.num ∧ q.num < 2 ^ w) →
      ((trunc q % 2 ^ w : ℤ) : ℚ) = q := by
    rintro w ⟨hd, h1, h2⟩
    rw [trunc_whole hd, Int.emod_eq_of_lt h1 h2, num_whole hd]
  cases t <;> simp only [kind] at h ⊢ <;>
    first
      | exact h
      | exact key _ (by norm_num) h
      | exact keyu _ h
      | (rcases h with rfl | rfl <;> simp)

/-- integral promotion keeps the values -/
theorem rep_widen (R : Rnd) (t : Ty) (q : ℚ) (h : Rep R t q) : Rep R (widen t) q := by
  cases t <;> simp only [Rep, kind, widen] at h ⊢ <;>
    first
      | exact h
      | (rcases h with rfl | rfl <;> norm_num)
      | (refine ⟨h.1, ?_, ?_⟩ <;> [have := h.2.1; have := h.2.2] <;> norm_num at this ⊢ <;> omega)

theorem whole_widen (t : Ty) : whole (widen t) = whole t := by cases t <;> rfl

theorem cpp_promo (a b : Ty) (ha : Std a = true) (hb : Std b = true) :
    cpp a b = widen (join a b) := by
  revert a b; decide +kernel

theorem cpp_cpp (a b c : Ty) (ha : Std a = true) (hb : Std b = true) (hc : Std c = true) :
    cpp (cpp a b) c = widen (join (join a b) c) := by
  revert a b c; decide +kernel

theorem promo_join (a b : Ty) (ha : Std a = true) (hb : Std b = true) : promo a b = join a b := by
  revert a b; decide +kernel

theorem std_join (a b : Ty) (ha : Std a = true) (hb : Std b = true) : Std (join a b) = true := by
  revert a b; decide +kernel

theorem join_comm (a b : Ty) (ha : Std a = true) (hb : Std b = true) : join a b = join b a := by
  revert a b; decide +kernel

/-- a built-in operator gives the value when everything fits -/
theorem op2_exact (R : Rnd) (o : Op) (s1 s2 p : Ty) (a b x : ℚ) (hc : cpp s1 s2 = widen p)
    (ha : Rep R p a) (hb : Rep R p b) (he : exactOp o (whole p) a b = some x) (hx : Rep R p x) :
    op2 R o s1 s2 a b = some x := by
  have hr : raw o (whole p) a b = some x := by rw [← he]; cases o <;> rfl
  unfold op2
  rw [hc, conv_rep R _ a (rep_widen R p a ha), conv_rep R _ b (rep_widen R p b hb), whole_widen, hr,
    Option.bind_some]
  have hw := rep_widen R p x hx
  have hcv := conv_rep R _ x hw
  unfold fin
  cases hk : kind (widen p) with
  | sint w =>
    unfold Rep at hw; rw [hk] at hw
    exact if_pos hw.2
  | truth => simp only [hcv]
  | uint w => simp only [hcv]
  | flo n => simp only [hcv]

theorem functor2_exact (R : Rnd) (o : Op) (s1 s2 : Ty) (a b x : ℚ)
    (h1 : Std s1 = true) (h2 : Std s2 = true)
    (ha : Rep R (join s1 s2) a) (hb : Rep R (join s1 s2) b)
    (he : exactOp o (whole (join s1 s2)) a b = some x) (hx : Rep R (join s1 s2) x) :
    functor2 R o s1 s2 a b = some x := by
  unfold functor2
  rw [op2_exact R o s1 s2 _ a b x (cpp_promo s1 s2 h1 h2) ha hb he hx, Option.map_some,
    promo_join s1 s2 h1 h2, conv_rep R _ x hx]

theorem functor3_exact (R : Rnd) (o1 o2 : Op) (s1 s2 s3 : Ty) (a b c x y : ℚ)
    (h1 : Std s1 = true) (h2 : Std s2 = true) (h3 : Std s3 = true)
    (ha : Rep R (join s1 s2) a) (hb : Rep R (join s1 s2) b)
    (he : exactOp o1 (whole (join s1 s2)) a b = some x) (hx : Rep R (join s1 s2) x)
    (hx' : Rep R (join (join s1 s2) s3) x) (hc : Rep R (join (join s1 s2) s3) c)
    (he' : exactOp o2 (whole (join (join s1 s2) s3)) x c = some y)
    (hy : Rep R (join (join s1 s2) s3) y) :
    functor3 R o1 o2 s1 s2 s3 a b c = some y := by
  unfold functor3
  rw [op2_exact R o1 s1 s2 _ a b x (cpp_promo s1 s2 h1 h2) ha hb he hx, Option.bind_some,
    op2_exact R o2 _ s3 _ x c y (cpp_cpp s1 s2 s3 h1 h2 h3) hx' hc he' hy, Option.map_some,
    promo_join s1 s2 h1 h2, promo_join _ s3 (std_join s1 s2 h1 h2) h3, conv_rep R _ y hy]

theorem fits_std (R : Rnd) : ∀ u : U, u.Fits R → Std u.ty = true
  | .leaf _ _, h => h.1
  | .op _ l r, h => std_join _ _ (fits_std R l h.1) (fits_std R r h.2.1)

/-- a block of `Mult`, or nothing to fuse -/
theorem mkAdd_cases (l r : E) :
    (∃ a b, l = .bin .mul a b ∧ mkAdd l r = .ma a b r) ∨
    (∃ b c, r = .bin .mul b c ∧ mkAdd l r = .ma b c l) ∨ mkAdd l r = .bin .add l r := by
  rcases l with ⟨t, v⟩ | ⟨o, a, b⟩ | ⟨a, b, c⟩
  · rcases r with ⟨t', v'⟩ | ⟨o', a', b'⟩ | ⟨a', b', c'⟩
    · exact Or.inr (Or.inr rfl)
    · cases o'
      · exact Or.inr (Or.inr rfl)
      · exact Or.inr (Or.inr rfl)
      · exact Or.inr (Or.inl ⟨a', b', rfl, rfl⟩)
      · exact Or.inr (Or.inr rfl)
    · exact Or.inr (Or.inr rfl)
  · cases o
    case mul =>
      refine Or.inl ⟨a, b, rfl, ?_⟩
      rcases r with ⟨t', v'⟩ | ⟨o', a', b'⟩ | ⟨a', b', c'⟩
      · rfl
      · cases o' <;> rfl
      · rfl
    all_goals
      rcases r with ⟨t', v'⟩ | ⟨o', a', b'⟩ | ⟨a', b', c'⟩
      · exact Or.inr (Or.inr rfl)
      · cases o'
        · exact Or.inr (Or.inr rfl)
        · exact Or.inr (Or.inr rfl)
        · exact Or.inr (Or.inl ⟨a', b', rfl, rfl⟩)
        · exact Or.inr (Or.inr rfl)
      · exact Or.inr (Or.inr rfl)
  · rcases r with ⟨t', v'⟩ | ⟨o', a', b'⟩ | ⟨a', b', c'⟩
    · exact Or.inr (Or.inr rfl)
    · cases o'
      · exact Or.inr (Or.inr rfl)
      · exact Or.inr (Or.inr rfl)
      · exact Or.inr (Or.inl ⟨a', b', rfl, rfl⟩)
      · exact Or.inr (Or.inr rfl)
    · exact Or.inr (Or.inr rfl)

/-- a product at the root of a built block comes from a product in the expression -/
theorem build_mul {u : U} {a b : E} (h : build u = .bin .mul a b) :
    ∃ l r, u = .op .mul l r ∧ a = build l ∧ b = build r := by
  cases u with
  | leaf t v => simp [build] at h
  | op o l r =>
    cases o with
    | mul =>
      simp only [build, mk, E.bin.injEq, true_and] at h
      exact ⟨l, r, rfl, h.1.symm, h.2.symm⟩
    | add =>
      simp only [build, mk] at h
      rcases mkAdd_cases (build l) (build r) with ⟨_, _, _, e⟩ | ⟨_, _, _, e⟩ | e <;>
        rw [e] at h <;> simp at h
    | sub => simp [build, mk] at h
    | div => simp [build, mk] at h

/-- the blocks the operators build give type and value of the expression -/
theorem build_exact (R : Rnd) : ∀ u : U, u.Fits R →
    (build u).ty = u.ty ∧ (build u).eval R = u.exact
  | .leaf _ _, _ => ⟨rfl, rfl⟩
  | .op o l r, h => by
    obtain ⟨hl, hr, a, b, x, ea, eb, ex, ra, rb, rx⟩ := h
    obtain ⟨tl, vl⟩ := build_exact R l hl
    obtain ⟨tr, vr⟩ := build_exact R r hr
    have sl := fits_std R l hl
    have sr := fits_std R r hr
    have hu : (U.op o l r).exact = some x := by
      simp only [U.exact, ea, eb, Option.bind_some, ex]
    have hbin : (E.bin o (build l) (build r)).ty = (U.op o l r).ty ∧
        (E.bin o (build l) (build r)).eval R = (U.op o l r).exact := by
      refine ⟨by simp only [E.ty, U.ty, tl, tr]; exact promo_join _ _ sl sr, ?_⟩
      rw [hu]
      simp only [E.eval, vl, vr, ea, eb, Option.bind_some, tl, tr]
      exact functor2_exact R o _ _ a b x sl sr ra rb ex rx
    cases o with
    | sub => exact hbin
    | mul => exact hbin
    | div => exact hbin
    | add =>
      have hx : x = a + b := by simpa [exactOp] using ex.symm
      simp only [build, mk]
      rcases mkAdd_cases (build l) (build r) with ⟨p, q, e1, e⟩ | ⟨p, q, e1, e⟩ | e
      · rw [e]
        obtain ⟨l1, l2, rfl, rfl, rfl⟩ := build_mul e1
        obtain ⟨h1, h2, a1, a2, y, ea1, ea2, ey, ra1, ra2, ry⟩ := hl
        obtain ⟨t1, v1⟩ := build_exact R l1 h1
        obtain ⟨t2, v2⟩ := build_exact R l2 h2
        have s1 := fits_std R l1 h1
        have s2 := fits_std R l2 h2
        have hy : y = a := by
          simp only [U.exact, ea1, ea2, Option.bind_some, ey] at ea
          exact Option.some.inj ea
        subst hy
        refine ⟨?_, ?_⟩
        · simp only [E.ty, U.ty, t1, t2, tr]
          rw [promo_join _ _ s1 s2, promo_join _ _ (std_join _ _ s1 s2) sr]
        · rw [hu]
          simp only [E.eval, v1, v2, vr, ea1, ea2, eb, Option.bind_some, t1, t2, tr]
          exact functor3_exact R .mul .add _ _ _ a1 a2 b y x s1 s2 sr ra1 ra2 ey ry ra rb ex rx
      · rw [e]
        obtain ⟨r1, r2, rfl, rfl, rfl⟩ := build_mul e1
        obtain ⟨h1, h2, a1, a2, y, ea1, ea2, ey, ra1, ra2, ry⟩ := hr
        obtain ⟨t1, v1⟩ := build_exact R r1 h1
        obtain ⟨t2, v2⟩ := build_exact R r2 h2
        have s1 := fits_std R r1 h1
        have s2 := fits_std R r2 h2
        have hy : y = b := by
          simp only [U.exact, ea1, ea2, Option.bind_some, ey] at eb
          exact Option.some.inj eb
        subst hy
        have jc : join l.ty (U.op Op.mul r1 r2).ty = join (join r1.ty r2.ty) l.ty :=
          join_comm _ _ sl sr
        rw [jc] at ra rb rx
        refine ⟨?_, ?_⟩
        · simp only [E.ty, t1, t2, tl]
          rw [promo_join _ _ s1 s2, promo_join _ _ (std_join _ _ s1 s2) sl]
          exact jc.symm
        · rw [hu]
          simp only [E.eval, v1, v2, vl, ea1, ea2, ea, Option.bind_some, t1, t2, tl]
          exact functor3_exact R .mul .add _ _ _ a1 a2 a y x s1 s2 sl ra1 ra2 ey ry rb ra
            (by rw [hx, add_comm]; rfl) rx
      · rw [e]; exact hbin

/-! ### one type -/

theorem promo_self (t : Ty) : promo t t = t := by cases t <;> rfl

/-- what a built-in operator stores is a value of its type -/
theorem conv_fin (R : Rnd) (hR : ∀ n q, R.rd n (R.rd n q) = R.rd n q) (c : Ty) (r x : ℚ)
    (hd : whole c = true → r.den = 1) (h : fin R c r = some x) : conv R c x = x := by
  cases hk : kind c with
  | sint w =>
    have hw : whole c = true := by unfold whole; rw [hk]
    unfold fin at h
    rw [hk] at h
    by_cases hc : -(2 ^ (w - 1) : ℤ) ≤ r.num ∧ r.num < 2 ^ (w - 1)
    · simp only [hc, and_self, if_true, Option.some.injEq] at h
      subst h
      apply conv_rep
      unfold Rep
      rw [hk]
      exact ⟨hd hw, hc⟩
    · simp [hc] at h
  | truth =>
    unfold fin at h
    rw [hk] at h
    simp only [Option.some.injEq] at h
    subst h
    unfold conv
    rw [hk]
    by_cases hr : r = 0 <;> simp [hr]
  | uint w =>
    unfold fin at h
    rw [hk] at h
    simp only [Option.some.injEq] at h
    subst h
    unfold conv
    rw [hk]
    have hp : (0 : ℤ) < 2 ^ w := by positivity
    simp only []
    rw [trunc_whole (Rat.den_intCast _), Rat.num_intCast, Int.emod_emod_of_dvd _ (dvd_refl _)]
  | flo n =>
    unfold fin at h
    rw [hk] at h
    simp only [Option.some.injEq] at h
    subst h
    unfold conv
    rw [hk]
    exact hR _ _

theorem conv_den (R : Rnd) (t : Ty) (q : ℚ) (h : whole t = true) : (conv R t q).den = 1 := by
  unfold whole at h
  unfold conv
  cases hk : kind t with
  | flo n => rw [hk] at h; cases h
  | truth => simp only []; split <;> rfl
  | sint w => exact Rat.den_intCast _
  | uint w => exact Rat.den_intCast _

theorem raw_den (o : Op) (a b r : ℚ) (ha : a.den = 1) (hb : b.den = 1)
    (h : raw o true a b = some r) : r.den = 1 := by
  have ea := num_whole ha
  have eb := num_whole hb
  cases o <;> simp only [raw] at h
  · cases h; rw [← ea, ← eb, ← Int.cast_add]; exact Rat.den_intCast _
  · cases h; rw [← ea, ← eb, ← Int.cast_sub]; exact Rat.den_intCast _
  · cases h; rw [← ea, ← eb, ← Int.cast_mul]; exact Rat.den_intCast _
  · split at h
    · cases h
    · cases h; exact Rat.den_intCast _

/-- the result of a built-in operator is a value of the type it computes in -/
theorem op2_stored (R : Rnd) (hR : ∀ n q, R.rd n (R.rd n q) = R.rd n q) (o : Op) (s1 s2 : Ty)
    (a b x : ℚ) (h : op2 R o s1 s2 a b = some x) : conv R (cpp s1 s2) x = x := by
  unfold op2 at h
  obtain ⟨r, h1, h2⟩ := Option.bind_eq_some_iff.mp h
  refine conv_fin R hR _ r x ?_ h2
  intro hw
  rw [hw] at h1
  exact raw_den o _ _ r (conv_den R _ a hw) (conv_den R _ b hw) h1

theorem op2_add_comm (R : Rnd) (t : Ty) (a b : ℚ) :
    op2 R .add t t a b = op2 R .add t t b a := by
  unfold op2 raw
  simp only [add_comm]

theorem ty_plain (t : Ty) : ∀ u : U, u.All t → (plain u).ty = t
  | .leaf _ _, h => h
  | .op _ l r, h => by
    simp only [plain, E.ty, ty_plain t l h.1, ty_plain t r h.2, promo_self]

theorem ty_build (t : Ty) : ∀ u : U, u.All t → (build u).ty = t
  | .leaf _ _, h => h
  | .op o l r, h => by
    have hl := ty_build t l h.1
    have hr := ty_build t r h.2
    have hb : (E.bin o (build l) (build r)).ty = t := by simp only [E.ty, hl, hr, promo_self]
    cases o with
    | sub => exact hb
    | mul => exact hb
    | div => exact hb
    | add =>
      simp only [build, mk]
      rcases mkAdd_cases (build l) (build r) with ⟨p, q, e1, e⟩ | ⟨p, q, e1, e⟩ | e
      · rw [e]
        rw [e1] at hl
        simp only [E.ty] at hl ⊢
        rw [hl, hr, promo_self]
      · rw [e]
        rw [e1] at hr
        simp only [E.ty] at hr ⊢
        rw [hl, hr, promo_self]
      · rw [e]; exact hb

/-- the `Ma` functor in one type is the product stored and then the sum -/
theorem ma_same (R : Rnd) (hR : ∀ n q, R.rd n (R.rd n q) = R.rd n q) (t : Ty) (ht : cpp t t = t)
    (a b c : ℚ) : maF R t t t a b c =
      (functor2 R .mul t t a b).bind fun x => functor2 R .add t t x c := by
  unfold maF functor3 functor2
  rw [promo_self, promo_self, ht]
  cases h : op2 R .mul t t a b with
  | none => rfl
  | some x =>
    have := op2_stored R hR .mul t t a b x h
    rw [ht] at this
    simp only [Option.bind_some, Option.map_some, this]

/-- fused and unfused blocks over one type have the same values -/
theorem build_plain (R : Rnd) (hR : ∀ n q, R.rd n (R.rd n q) = R.rd n q) (t : Ty)
    (ht : cpp t t = t) : ∀ u : U, u.All t → (build u).eval R = (plain u).eval R
  | .leaf _ _, _ => rfl
  | .op o l r, h => by
    have el := build_plain R hR t ht l h.1
    have er := build_plain R hR t ht r h.2
    have tl := ty_build t l h.1
    have tr := ty_build t r h.2
    have pl := ty_plain t l h.1
    have pr := ty_plain t r h.2
    have hb : (E.bin o (build l) (build r)).eval R = (plain (.op o l r)).eval R := by
      simp only [plain, E.eval, el, er, tl, tr, pl, pr]
    cases o with
    | sub => exact hb
    | mul => exact hb
    | div => exact hb
    | add =>
      simp only [build, mk]
      rcases mkAdd_cases (build l) (build r) with ⟨p, q, e1, e⟩ | ⟨p, q, e1, e⟩ | e
      · rw [e, ← hb]
        obtain ⟨l1, l2, rfl, rfl, rfl⟩ := build_mul e1
        have t1 := ty_build t l1 h.1.1
        have t2 := ty_build t l2 h.1.2
        simp only [E.eval, build, mk, E.ty, t1, t2, tr, promo_self]
        cases (build l1).eval R with
        | none => rfl
        | some x =>
          cases (build l2).eval R with
          | none => rfl
          | some y =>
            simp only [Option.bind_some, ma_same R hR t ht]
            cases (functor2 R .mul t t x y) with
            | none => cases (build r).eval R <;> rfl
            | some z => rfl
      · rw [e, ← hb]
        obtain ⟨r1, r2, rfl, rfl, rfl⟩ := build_mul e1
        have t1 := ty_build t r1 h.2.1
        have t2 := ty_build t r2 h.2.2
        simp only [E.eval, build, mk, E.ty, t1, t2, tl, promo_self]
        cases (build l).eval R with
        | none =>
          cases (build r1).eval R with
          | none => rfl
          | some x => cases (build r2).eval R <;> rfl
        | some w =>
          cases (build r1).eval R with
          | none => rfl
          | some x =>
            cases (build r2).eval R with
            | none => rfl
            | some y =>
              simp only [Option.bind_some, ma_same R hR t ht]
              cases (functor2 R .mul t t x y) with
              | none => rfl
              | some z =>
                simp only [Option.bind_some, functor2]
                rw [op2_add_comm]
      · rw [e]; exact hb

/-! ### `bnot` of unsigned types -/

theorem conv_uint (R : Rnd) (t : Ty) (w : ℕ) (hk : kind t = .uint w) (m : ℤ) :
    conv R t (m : ℚ) = ((m % 2 ^ w : ℤ) : ℚ) := by
  unfold conv
  rw [hk]
  simp only []
  rw [trunc_whole (Rat.den_intCast _), Rat.num_intCast]

theorem bnot_unsigned (R : Rnd) (t : Ty) (w : ℕ) (hk : kind t = .uint w) (q : ℚ)
    (hq : Rep R t q) : bnotF R t q = 2 ^ w - 1 - q ∧ Rep R t (2 ^ w - 1 - q) := by
  have hq' := hq
  unfold Rep at hq'
  rw [hk] at hq'
  obtain ⟨hd, h1, h2⟩ := hq'
  obtain ⟨n, rfl⟩ : ∃ n : ℤ, q = n := ⟨q.num, (num_whole hd).symm⟩
  rw [Rat.num_intCast] at h1 h2
  have e : (-(n : ℚ) - 1) = ((-n - 1 : ℤ) : ℚ) := by push_cast; ring
  have em : (-n - 1) % (2 : ℤ) ^ w = 2 ^ w - 1 - n := by
    have : -n - 1 = (2 ^ w - 1 - n) + 2 ^ w * (-1 : ℤ) := by ring
    rw [this, Int.add_mul_emod_self_left, Int.emod_eq_of_lt (by omega) (by omega)]
  have ec : ((2 ^ w - 1 - n : ℤ) : ℚ) = 2 ^ w - 1 - (n : ℚ) := by push_cast; ring
  have hrep : Rep R t (2 ^ w - 1 - (n : ℚ)) := by
    unfold Rep
    rw [hk, ← ec]
    refine ⟨Rat.den_intCast _, ?_, ?_⟩ <;> rw [Rat.num_intCast] <;> omega
  refine ⟨?_, hrep⟩
  unfold bnotF
  rw [e]
  by_cases hw : widen t = t
  · rw [hw, conv_uint R t w hk, em, ec, conv_rep R t _ hrep]
  · have hi : widen t = .int := by revert hw; cases t <;> simp [widen]
    have hsmall : w ≤ 16 := by
      revert hw hk
      cases t <;> simp [widen, kind] <;> omega
    have hlt : (2 : ℤ) ^ w ≤ 65536 := by
      calc (2 : ℤ) ^ w ≤ 2 ^ 16 := pow_le_pow_right₀ (by norm_num) hsmall
        _ = 65536 := by norm_num
    have : Rep R .int ((-n - 1 : ℤ) : ℚ) := by
      refine ⟨Rat.den_intCast _, ?_, ?_⟩ <;> rw [Rat.num_intCast] <;> norm_num <;> omega
    rw [hi, conv_rep R .int _ this, conv_uint R t w hk, em, ec]

end Verif.Elm
