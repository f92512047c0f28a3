import Verif.Elem.Lemmas

/-!
# C76: types and values of elementwise expressions
-/

namespace Verif.Props

open Verif.Elm

/-- a machine whose floating types hold every rational number -/
def elmR : Rnd := ⟨fun _ q => q⟩

/-- **C76, partial (promotion).** Between `bool`, `short`, `int`, `long`, `float` and `double`, and
complex types of them, the type of a result is the wider of the two, whatever the order and grouping
of the arguments; it is complex as soon as one of them is.  Missing: the other types, where it is
false. -/
theorem C76_promotion_partial (a b c : Ty) (ha : Std a = true) (hb : Std b = true)
    (hc : Std c = true) :
    promo a b = join a b ∧ rank (promo a b) = max (rank a) (rank b) ∧
    promo a b = promo b a ∧ promo (promo a b) c = promo a (promo b c) ∧
    promoE (.cx a) (.cx b) = .cx (join a b) ∧ promoE (.cx a) (.re b) = .cx (join a b) ∧
    promoE (.re a) (.cx b) = .cx (join a b) ∧ promoE (.re a) (.re b) = .re (join a b) := by
  revert a b c; decide +kernel

example : Std .short = true ∧ Std .double = true ∧ promo .short .double = .double := by decide

/-- **C76 is false (missing promotions).** The table has no row for `char` and no entry for unsigned
types or `long double`; what is missing is the left type.  A view of `char` plus a view of `float`
is a view of `char`: `2 + 0.5` is `2`, whereas `0.5 + 2` is `2.5`; an unsigned `3` times `0.5` is
`1`; a `bool` plus an unsigned `5` is `1`; a `double` plus a `long double` is a `double`. -/
theorem C76_promotion_false :
    functor2 elmR .add .char .float 2 (1 / 2) = some 2 ∧
    functor2 elmR .add .float .char (1 / 2) 2 = some (5 / 2) ∧
    functor2 elmR .mul .uint .double 3 (1 / 2) = some 1 ∧
    functor2 elmR .add .bool .uint 1 5 = some 1 ∧
    promo .double .ldouble = .double ∧ promo .ldouble .double = .ldouble ∧
    (∀ t, t ≠ Ty.bool → promo .uchar t = .uchar ∧ promo .ulong t = .ulong ∧
      promo .char t = .char) := by
  refine ⟨by decide +kernel, by decide +kernel, by decide +kernel, by decide +kernel, rfl, rfl, ?_⟩
  decide +kernel

/-- **C76, partial (expressions).** An expression of sums, differences, products and quotients over
`bool`, `short`, `int`, `long`, `float` and `double` whose intermediate values fit their types has
the type and the value the program wrote, also where the operators fuse a product and a sum.
Missing: the other types and values that do not fit. -/
theorem C76_expr_partial (R : Rnd) (u : U) (h : u.Fits R) :
    (build u).ty = u.ty ∧ (build u).eval R = u.exact ∧ ∃ v, u.exact = some v := by
  refine ⟨(build_exact R u h).1, (build_exact R u h).2, ?_⟩
  cases u with
  | leaf t v => exact ⟨v, rfl⟩
  | op o l r =>
    obtain ⟨-, -, a, b, x, ea, eb, ex, -⟩ := h
    exact ⟨x, by simp only [U.exact, ea, eb, Option.bind_some, ex]⟩

/-- the hypotheses are met: `2 + 3 * 0.5` over `short`, `int` and `double`, which is fused -/
example :
    let u := U.op .add (.leaf .short 2) (.op .mul (.leaf .int 3) (.leaf .double (1 / 2)))
    u.Fits elmR ∧ build u = .ma (.leaf .int 3) (.leaf .double (1 / 2)) (.leaf .short 2) ∧
      (build u).eval elmR = some (7 / 2) := by
  refine ⟨⟨⟨rfl, rfl, by decide, by decide⟩, ⟨⟨rfl, rfl, by decide, by decide⟩, ⟨rfl, rfl⟩,
    3, 1 / 2, 3 / 2, rfl, rfl, by decide +kernel, rfl, rfl, rfl⟩, 2, 3 / 2, 7 / 2, rfl,
    by decide +kernel, by decide +kernel, rfl, rfl, rfl⟩, rfl, by decide +kernel⟩

/-- **C76 (usual conversions).** The type a built-in operator computes in does not depend on the order of the operands, is the operand's if both are the same and
not widened, and is an unsigned type, neither of the two, for `unsigned long` and `long long`. -/
theorem C76_usual (a b : Ty) :
    cpp a b = cpp b a ∧ cpp a a = widen a ∧ (cpp a b = widen a ∨ cpp a b = widen b ∨ cpp a b = .ullong) ∧
    (cpp a b = .ullong ↔ a = .ullong ∧ cppRank (widen b) ≤ cppRank .ullong ∨ b = .ullong ∧ cppRank (widen a) ≤ cppRank .ullong ∨
      a = .ulong ∧ b = .llong ∨ a = .llong ∧ b = .ulong) := by
  revert a b; decide +kernel

example : cpp .ulong .llong = .ullong ∧ cpp .int .llong = .llong := by decide

/-- **C76, partial (fusion).** In an expression over elements of one type that C++ does not widen
(`int` and wider, and the floating types), fusing `A * B + C` changes nothing: the result, and
whether there is one, is that of storing the product first.  Missing: mixed and narrow types, where
it is false. -/
theorem C76_fuse_partial (R : Rnd) (hR : ∀ n q, R.rd n (R.rd n q) = R.rd n q) (t : Ty)
    (ht : cpp t t = t) (u : U) (hu : u.All t) : (build u).eval R = (plain u).eval R :=
  build_plain R hR t ht u hu

example : cpp .float .float = .float ∧ cpp .uint .uint = .uint ∧
    (U.op .add (.op .mul (.leaf .float 2) (.leaf .float 3)) (.leaf .float 1)).All .float ∧
    (build (.op .add (.op .mul (.leaf .float 2) (.leaf .float 3)) (.leaf .float 1))).eval
      ⟨fun _ q => (trunc q : ℚ)⟩ = some 7 := by
  refine ⟨rfl, rfl, ⟨⟨rfl, rfl⟩, rfl⟩, by decide +kernel⟩

/-- products of `short`, added to an `int` -/
def elmU1 : U := .op .add (.op .mul (.leaf .short 300) (.leaf .short 300)) (.leaf .int 1)

/-- a product and a sum of `unsigned short` -/
def elmU2 : U :=
  .op .add (.op .mul (.leaf .ushort 65535) (.leaf .ushort 32768)) (.leaf .ushort 65535)

/-- a `char` added to a product of `float` -/
def elmU3 : U := .op .add (.leaf .char 2) (.op .mul (.leaf .float 1) (.leaf .float (1 / 2)))

/-- **C76 is false (fusion).** Otherwise the fused block gives another value, another type or
undefined behaviour.  `300 * 300 + 1` with products of `short` and an `int` is `90001` fused and
`24465` when the product is a view of `short`; `65535 * 32768 + 65535` over `unsigned short`
overflows `int` when fused, and is `32767` otherwise; `A + B * C` with `A` of `char` and the others
of `float` is a view of `float` when fused and of `char` otherwise. -/
theorem C76_fuse_false :
    ((build elmU1).eval elmR = some 90001 ∧ (plain elmU1).eval elmR = some 24465) ∧
    ((build elmU2).eval elmR = none ∧ (plain elmU2).eval elmR = some 32767) ∧
    ((build elmU3).ty = .float ∧ (plain elmU3).ty = .char ∧
      (build elmU3).eval elmR = some (5 / 2) ∧ (plain elmU3).eval elmR = some 2) := by
  refine ⟨⟨?_, ?_⟩, ⟨?_, ?_⟩, ?_, ?_, ?_, ?_⟩ <;> decide +kernel

/-- **C76, partial (functions of three arguments).** `ma`, `msb`, `am` and `sbm` are `ab + c`,
`ab - c`, `(a + b)c` and `(a - b)c`, over the types of the table, when the values fit.  Missing: the
other types and values that do not fit. -/
theorem C76_three_partial (R : Rnd) (s1 s2 s3 : Ty) (a b c : ℚ)
    (h1 : Std s1 = true) (h2 : Std s2 = true) (h3 : Std s3 = true)
    (ha : Rep R (join s1 s2) a) (hb : Rep R (join s1 s2) b)
    (hc : Rep R (join (join s1 s2) s3) c) :
    (Rep R (join s1 s2) (a * b) → Rep R (join (join s1 s2) s3) (a * b) →
      (Rep R (join (join s1 s2) s3) (a * b + c) → maF R s1 s2 s3 a b c = some (a * b + c)) ∧
      (Rep R (join (join s1 s2) s3) (a * b - c) → msbF R s1 s2 s3 a b c = some (a * b - c))) ∧
    (Rep R (join s1 s2) (a + b) → Rep R (join (join s1 s2) s3) (a + b) →
      Rep R (join (join s1 s2) s3) ((a + b) * c) → amF R s1 s2 s3 a b c = some ((a + b) * c)) ∧
    (Rep R (join s1 s2) (a - b) → Rep R (join (join s1 s2) s3) (a - b) →
      Rep R (join (join s1 s2) s3) ((a - b) * c) →
        sbmF R s1 s2 s3 a b c = some ((a - b) * c)) :=
  ⟨fun hx hx' =>
    ⟨fun hy => functor3_exact R .mul .add s1 s2 s3 a b c _ _ h1 h2 h3 ha hb rfl hx hx' hc rfl hy,
     fun hy => functor3_exact R .mul .sub s1 s2 s3 a b c _ _ h1 h2 h3 ha hb rfl hx hx' hc rfl hy⟩,
   fun hx hx' hy =>
    functor3_exact R .add .mul s1 s2 s3 a b c _ _ h1 h2 h3 ha hb rfl hx hx' hc rfl hy,
   fun hx hx' hy =>
    functor3_exact R .sub .mul s1 s2 s3 a b c _ _ h1 h2 h3 ha hb rfl hx hx' hc rfl hy⟩

example : amF elmR .int .int .double 2 3 (1 / 2) = some (5 / 2) ∧
    sbmF elmR .short .int .long 7 3 5 = some 20 ∧ msbF elmR .float .float .float 2 3 1 = some 5 ∧
    Rep elmR .int 2 ∧ Rep elmR .double (1 / 2) := by
  refine ⟨by decide +kernel, by decide +kernel, by decide +kernel, ⟨rfl, by decide, by decide⟩, rfl⟩

/-- **C76, partial (`expoavg`).** Over `float` or `double` the exponential average is
`ab + (1 - a)c` when the values fit, and it lies between `b` and `c` for a weight between `0` and
`1`.  Missing: mixed types. -/
theorem C76_expoavg_partial (R : Rnd) (t : Ty) (ht : t = .float ∨ t = .double) (a b c : ℚ)
    (ha : Rep R t a) (hb : Rep R t b) (hc : Rep R t c) (h1 : Rep R t 1) (hx : Rep R t (a * b))
    (hd : Rep R t (1 - a)) (hy : Rep R t ((1 - a) * c)) (hs : Rep R t (a * b + (1 - a) * c)) :
    expoavg R t a b c = some (a * b + (1 - a) * c) ∧
    (0 ≤ a → a ≤ 1 → min b c ≤ a * b + (1 - a) * c ∧ a * b + (1 - a) * c ≤ max b c) := by
  have hw : widen t = t := by rcases ht with rfl | rfl <;> rfl
  have hcpp : cpp t t = t := by rcases ht with rfl | rfl <;> rfl
  have hcw : cpp t t = widen t := by rw [hcpp, hw]
  refine ⟨?_, fun h0 h1' => ⟨?_, ?_⟩⟩
  · unfold expoavg
    rw [op2_exact R .mul t t t a b _ hcw ha hb rfl hx, Option.bind_some,
      op2_exact R .sub t t t 1 a _ hcw h1 ha rfl hd, Option.bind_some, hcpp, hcpp,
      op2_exact R .mul t t t _ c _ hcw hd hc rfl hy, Option.bind_some,
      op2_exact R .add t t t _ _ _ hcw hx hy rfl hs, Option.map_some, promo_self, promo_self,
      conv_rep R t _ hs]
  · have e1 : min b c ≤ b := min_le_left _ _
    have e2 : min b c ≤ c := min_le_right _ _
    nlinarith [mul_le_mul_of_nonneg_left e1 h0,
      mul_le_mul_of_nonneg_left e2 (show (0 : ℚ) ≤ 1 - a by linarith)]
  · have e1 : b ≤ max b c := le_max_left _ _
    have e2 : c ≤ max b c := le_max_right _ _
    nlinarith [mul_le_mul_of_nonneg_left e1 h0,
      mul_le_mul_of_nonneg_left e2 (show (0 : ℚ) ≤ 1 - a by linarith)]

example : expoavg elmR .float (1 / 4) 8 4 = some 5 ∧ Rep elmR .float (1 / 4) := by
  refine ⟨by decide +kernel, rfl⟩

/-- **C76, partial (`ite`).** Over the types of the table, and `char`, the choice between two values
is one of them.  Missing: the other types, where it is false. -/
theorem C76_ite_partial (R : Rnd) (t : Ty) (ht : Std t = true ∨ t = .char) (p : Bool) (a b : ℚ)
    (ha : Rep R t a) (hb : Rep R t b) : iteF R t p a b = if p then a else b := by
  have e : promo (promo .bool t) t = t := by
    clear ha hb
    rcases ht with h | rfl
    · revert t; decide +kernel
    · rfl
  unfold iteF
  rw [e]
  cases p
  · exact conv_rep R t b hb
  · exact conv_rep R t a ha

example : iteF elmR .char true (-7) 9 = -7 ∧ Rep elmR .char (-7) ∧ Rep elmR .char 9 := by
  refine ⟨by decide +kernel, ⟨by decide +kernel, by decide +kernel, by decide +kernel⟩,
    ⟨by decide +kernel, by decide +kernel, by decide +kernel⟩⟩

/-- **C76 is false (`ite` of other types).** The type of `ite(p, a, b)` is promoted from that of the
condition.  For unsigned types, `signed char`, `long long` and `long double` it stays `bool`: the
choice between `5` and `7` is `1` either way. -/
theorem C76_ite_false (t : Ty) (h : Std t = false) (hc : t ≠ .char) (R : Rnd) :
    iteF R t true 5 7 = 1 ∧ iteF R t false 5 7 = 1 := by
  have e : promo (promo .bool t) t = .bool := by revert t; decide +kernel
  unfold iteF
  rw [e]
  exact ⟨by norm_num [conv, kind], by norm_num [conv, kind]⟩

example : Std .uchar = false ∧ Ty.uchar ≠ .char := by decide

/-- **C76, partial (`jmul`).** The product with the conjugate of the second argument, when the first
argument has the wider type.  Missing: the other order, where it is false; rounding in between. -/
theorem C76_jmul_partial (R : Rnd) (t1 t2 : Ty) (h1 : Std t1 = true) (h2 : Std t2 = true)
    (hw : rank t2 ≤ rank t1) (x y : Cx) (hre : Rep R t1 (x.re * y.re + x.im * y.im))
    (him : Rep R t1 (x.im * y.re - x.re * y.im)) :
    jmul R t1 t2 x y = { re := x.re * y.re + x.im * y.im, im := x.im * y.re - x.re * y.im } := by
  have e : promo t1 t2 = t1 := by
    rw [promo_join t1 t2 h1 h2]; unfold join; rw [if_neg (by omega)]
  have er : x.re * y.re - x.im * -y.im = x.re * y.re + x.im * y.im := by ring
  have ei : x.re * -y.im + x.im * y.re = x.im * y.re - x.re * y.im := by ring
  unfold jmul
  simp only [e, er, ei, conv_rep R t1 _ hre, conv_rep R t1 _ him]

example : jmul elmR .float .int ⟨1, 2⟩ ⟨3, 4⟩ = ⟨11, 2⟩ ∧ rank .int ≤ rank .float := by
  decide +kernel

/-- **C76 is false (`jmul` keeps the first type).** The product is stored in the first argument, and
the variable of the promoted type is not used.  Whatever `double` holds and `float` does not is
rounded when the first argument is complex `float`: `1` times `v` is `v` rounded to `float`, although
the result is complex `double`; with a complex `int` first, `1` times `0.5` is `0`. -/
theorem C76_jmul_false (R : Rnd) (v : ℚ) (hd : R.rd 1 (R.rd 0 v) = R.rd 0 v)
    (hf : R.rd 0 v ≠ v) :
    promo .float .double = .double ∧ (jmul R .float .double ⟨1, 0⟩ ⟨v, 0⟩).re ≠ v ∧
    (jmul elmR .int .double ⟨1, 0⟩ ⟨1 / 2, 0⟩).re = 0 := by
  refine ⟨rfl, ?_, by decide +kernel⟩
  have e : (1 : ℚ) * v - 0 * -0 = v := by ring
  unfold jmul
  simp only [e, promo, conv, kind, hd]
  exact hf

example : let R : Rnd := ⟨fun n q => if n = 0 then (trunc q : ℚ) else q⟩
    R.rd 1 (R.rd 0 (1 / 2)) = R.rd 0 (1 / 2) ∧ R.rd 0 (1 / 2) ≠ 1 / 2 := by decide +kernel

/-- **C76 is false (`minmg`).** The smaller magnitude of two complex views is a complex view,
whereas the larger one is real. -/
theorem C76_minmg_false (a b : Ty) :
    minmgTy (.cx a) (.cx b) = .cx (promo a b) ∧ maxmgTy (.cx a) (.cx b) = .re (promo a b) ∧
    minmgTy (.cx a) (.cx b) ≠ maxmgTy (.cx a) (.cx b) :=
  ⟨rfl, rfl, by simp [minmgTy, maxmgTy, promoE, scalarOf]⟩

/-- **C76, partial (comparisons).** Between the types of the table a comparison is that of the
values, when the wider type holds both.  Missing: the other types, where it is false. -/
theorem C76_compare_partial (R : Rnd) (s t : Ty) (hs : Std s = true) (ht : Std t = true) (a b : ℚ)
    (ha : Rep R (join s t) a) (hb : Rep R (join s t) b) :
    ltF R s t a b = decide (a < b) ∧ gtF R s t a b = decide (b < a) ∧
    leF R s t a b = decide (a ≤ b) ∧ geF R s t a b = decide (b ≤ a) ∧
    eqF R s t a b = decide (a = b) ∧ neF R s t a b = decide (a ≠ b) := by
  have ea := conv_rep R _ a (rep_widen R _ a ha)
  have eb := conv_rep R _ b (rep_widen R _ b hb)
  unfold ltF gtF leF geF neF eqF
  rw [cpp_promo s t hs ht, ea, eb]
  exact ⟨rfl, rfl, rfl, rfl, rfl, by simp⟩

example : ltF elmR .short .double (-1) (1 / 2) = true ∧ Rep elmR .double (-1) := by
  refine ⟨by decide +kernel, rfl⟩

/-- **C76 is false (comparisons of mixed signs).** The values are compared in the type C++ converts
both to: with a view of `int` and a view of `unsigned`, `-1` is larger than `1`, and equals the
largest `unsigned`. -/
theorem C76_compare_false :
    ltF elmR .int .uint (-1) 1 = false ∧ gtF elmR .int .uint (-1) 1 = true ∧
    eqF elmR .int .uint (-1) 4294967295 = true := by decide +kernel

/-- **C76 (logical functions).** `land`, `lor`, `lxor` and `lnot` are those of "not zero", for every
type that holds `0` and `1`. -/
theorem C76_logic (R : Rnd) (t : Ty) (h0 : Rep R t 0) (h1 : Rep R t 1) (a b : ℚ) :
    (landF a b = true ↔ a ≠ 0 ∧ b ≠ 0) ∧ (lorF a b = true ↔ a ≠ 0 ∨ b ≠ 0) ∧
    (lxorF a b = true ↔ ¬((a ≠ 0) ↔ (b ≠ 0))) ∧ (lnotF R t a = true ↔ a = 0) := by
  refine ⟨by simp [landF], by simp [lorF], ?_, ?_⟩
  · by_cases ha : a = 0 <;> by_cases hb : b = 0 <;> simp [lxorF, ha, hb]
  · unfold lnotF
    by_cases ha : a = 0
    · rw [if_pos ha, conv_rep R t 1 h1]; simp [ha]
    · rw [if_neg ha, conv_rep R t 0 h0]; simp [ha]

example : Rep elmR .uchar 0 ∧ Rep elmR .uchar 1 ∧ lnotF elmR .uchar 0 = true := by
  refine ⟨⟨rfl, by decide, by decide⟩, ⟨rfl, by decide, by decide⟩, by decide +kernel⟩

/-- **C76, partial (`bnot`).** In a signed type `bnot(x)` is `-x - 1`, in an unsigned one of `w` bits
it is `2^w - 1 - x`; twice `bnot` is the value.  Missing: `bool`, where it is false. -/
theorem C76_bnot_partial (R : Rnd) (t : Ty) (w : ℕ) (a : ℚ) (ha : Rep R t a) :
    (kind t = .sint w → bnotF R t a = -a - 1 ∧ bnotF R t (bnotF R t a) = a) ∧
    (kind t = .uint w → bnotF R t a = 2 ^ w - 1 - a ∧ bnotF R t (bnotF R t a) = a) := by
  constructor <;> intro hk
  swap
  · have val : ∀ q, Rep R t q → bnotF R t q = 2 ^ w - 1 - q ∧ Rep R t (2 ^ w - 1 - q) := by
      intro q hq
      exact bnot_unsigned R t w hk q hq
    refine ⟨(val a ha).1, ?_⟩
    rw [(val a ha).1, (val _ (val a ha).2).1]
    ring
  have step : ∀ q, Rep R t q → Rep R t (-q - 1) := by
    intro q hq
    unfold Rep at hq ⊢
    rw [hk] at hq ⊢
    obtain ⟨hd, h1, h2⟩ := hq
    have e : -q - 1 = ((-q.num - 1 : ℤ) : ℚ) := by
      rw [Int.cast_sub, Int.cast_neg, num_whole hd, Int.cast_one]
    rw [e]
    refine ⟨Rat.den_intCast _, ?_, ?_⟩
    · rw [Rat.num_intCast]; omega
    · rw [Rat.num_intCast]; omega
  have val : ∀ q, Rep R t q → bnotF R t q = -q - 1 := by
    intro q hq
    unfold bnotF
    rw [conv_rep R _ _ (rep_widen R t _ (step q hq)), conv_rep R t _ (step q hq)]
  refine ⟨val a ha, ?_⟩
  rw [val a ha, val _ (step a ha)]
  ring

example : kind .uchar = .uint 8 ∧ bnotF elmR .uchar 5 = 250 ∧ kind .short = .sint 16 ∧ Rep elmR .short 5 ∧ bnotF elmR .short 5 = -6 := by
  refine ⟨rfl, by decide +kernel, rfl, ⟨by decide +kernel, by decide +kernel, by decide +kernel⟩,
    by decide +kernel⟩

/-- **C76 is false (`bnot` of truth values).** `~` of a `bool` is computed in `int`, where it is
never zero: `bnot` of a view of `bool` is true everywhere. -/
theorem C76_bnot_false (R : Rnd) : bnotF R .bool 0 = 1 ∧ bnotF R .bool 1 = 1 := by
  have e1 : conv R .int (-0 - 1) = -1 := by
    rw [conv_rep R .int _ ⟨by decide +kernel, by decide +kernel, by decide +kernel⟩]; norm_num
  have e2 : conv R .int (-1 - 1) = -2 := by
    rw [conv_rep R .int _ ⟨by decide +kernel, by decide +kernel, by decide +kernel⟩]; norm_num
  unfold bnotF
  simp only [widen, e1, e2]
  exact ⟨by norm_num [conv, kind], by norm_num [conv, kind]⟩

end Verif.Props
#print axioms Verif.Props.C76_usual
