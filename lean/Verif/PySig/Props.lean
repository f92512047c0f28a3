import Verif.PySig.Spec
import Verif.PySig.Model
/-!
Properties of the objects of the Python signal processing classes (C92).
-/
namespace Verif.Props

open Verif.Pys
open Verif.Pym (Out K K.cx K.complex D View ownImport importModule dtypeOf)

theorem pys_times (n : ℕ) : effortFor (times n) = effortFor n := by
  unfold times effortFor
  repeat' split
  all_goals first | rfl | omega

theorem pys_hint (h : Hint) : hintArg h = h := by cases h <;> rfl

theorem pys_range {lo hi : ℕ} {n : ℤ} (h : (-n).toNat ≤ lo ∧ n.toNat < hi) : toRange lo hi (.int n) = .ret n := by
  simp only [toRange, Val.int?, if_pos h]

theorem pys_range_out {lo hi : ℕ} {n : ℤ} (h : ¬ ((-n).toNat ≤ lo ∧ n.toNat < hi)) : toRange lo hi (.int n) = .raise .value := by
  simp only [toRange, Val.int?, if_neg h]

theorem pys_length {l : ℕ} (h : l < 2 ^ 64) : toLength (.int l) = .ret l := by
  have h1 : (-(l : ℤ)).toNat ≤ 0 ∧ (l : ℤ).toNat < 2 ^ 64 := ⟨by omega, by omega⟩
  unfold toLength
  rw [pys_range h1]
  rfl

theorem pys_unsigned {l : ℕ} (h : l < 2 ^ 32) : toUnsigned (.int l) = .ret l := by
  have h1 : (-(l : ℤ)).toNat ≤ 0 ∧ (l : ℤ).toNat < 2 ^ 32 := ⟨by omega, by omega⟩
  unfold toUnsigned
  rw [pys_range h1]
  rfl

theorem pys_int {a : ℤ} (h : -2147483648 ≤ a ∧ a < 2147483648) : toInt (.int a) = .ret a := by
  unfold toInt
  exact pys_range ⟨by omega, by omega⟩

theorem pys_createFft (k : K) (f : Bool) {l n : ℕ} (x : ℚ) (h : Hint) (hl : l < 2 ^ 64) (hn : n < 2 ^ 32) :
    createFft k f [.int l, .real x, .int n, .hint h] = .ret ⟨k, f, l, x, times n, h⟩ := by
  have hf : fits [.length, .scalar, .unsigned, .hint] [.int l, .real x, .int n, .hint h] = true := rfl
  simp only [createFft, hf, if_true, pys_length hl, pys_unsigned hn, toScalar, Out.bind, pys_hint]

theorem pys_createFftm (k : K) (f : Bool) {r c n : ℕ} {a : ℤ} (x : ℚ) (h : Hint) (hr : r < 2 ^ 64) (hc : c < 2 ^ 64) (hn : n < 2 ^ 32)
    (ha : -2147483648 ≤ a ∧ a < 2147483648) :
    createFftm k f [.int r, .int c, .real x, .int a, .int n, .hint h] = .ret ⟨k, f, r, c, x, if a = 0 then 0 else 1, times n, h⟩ := by
  have hf : fits [.length, .length, .scalar, .int, .unsigned, .hint] [.int r, .int c, .real x, .int a, .int n, .hint h] = true := rfl
  simp only [createFftm, hf, if_true, pys_length hr, pys_length hc, pys_unsigned hn, pys_int ha, toScalar, Out.bind, pys_hint]

theorem pys_real {d : D} {k : K} (h : ownImport .fft .bare d = .ret k) : k = .f ∨ k = .d := by
  rcases d with t | t | t <;> cases t <;> cases h <;> simp

/-- **C92 (FFTs).** Wherever the module of the type can be imported, an FFT object made in Python has the type, direction, length, scale factor, hint and effort
asked for, and input and output sizes: the length on the real side and half the spectrum on the complex side. -/
theorem C92_fft {d : D} {k : K} (hd : ownImport .fft .bare d = .ret k) (forward : Bool) {l n : ℕ} (x : ℚ) (h : Hint) (hl : l < 2 ^ 64) (hn : n < 2 ^ 32) :
    ∃ o, newFft d (if forward then -1 else 1) (.int l) (.real x) (.int n) (.hint h) = .ret o ∧
      o.impl.k = k ∧ o.impl.fwd = forward ∧ o.impl.length = l ∧ o.impl.scale = x ∧ o.impl.hint = h ∧ effortFor o.impl.times = effortFor n ∧
      (o.inputSize, o.outputSize) = if forward then (l, halfSpectrum l) else (halfSpectrum l, l) := by
  have hf : ((if forward then (-1 : ℤ) else 1) == fwd) = forward := by cases forward <;> rfl
  have key : newFft d (if forward then -1 else 1) (.int l) (.real x) (.int n) (.hint h) =
      .ret ⟨if forward then -1 else 1, .int l, .real x, ⟨k, forward, l, x, times n, h⟩, Fft.inputSize ⟨k, forward, l, x, times n, h⟩,
        Fft.outputSize ⟨k, forward, l, x, times n, h⟩⟩ := by
    simp only [newFft, hd, Out.bind, hf, pys_createFft k forward x h hl hn]
  refine ⟨_, key, ?_⟩
  · refine ⟨rfl, rfl, rfl, rfl, rfl, pys_times n, ?_⟩
    rcases pys_real hd with rfl | rfl <;> cases forward <;> rfl

example : ∃ o, newFft (.py .float) (-1) (.int 8) (.real 1) (.int 0) (.hint .time) = .ret o ∧ o.inputSize = 8 ∧ o.outputSize = 5 := ⟨_, rfl, rfl, rfl⟩

/-- **C92 is false (directions).** A direction other than `fwd` and `inv` is not refused: the object keeps it in its attribute and computes the inverse
transform. -/
theorem C92_direction_false :
    (∀ d dir l x n h, dir ≠ -1 → newFft d dir l x n h =
      (newFft d 1 l x n h).bind fun o => .ret ⟨dir, o.length, o.scale, o.impl, o.inputSize, o.outputSize⟩) ∧
    ∃ o, newFft (.py .float) 0 (.int 8) (.real 1) (.int 0) (.hint .time) = .ret o ∧ o.direction = 0 ∧ o.impl.fwd = false := by
  refine ⟨?_, _, rfl, rfl, rfl⟩
  intro d dir l x n h hne
  have h1 : (dir == fwd) = false := by simpa [fwd] using hne
  have h2 : ((1 : ℤ) == fwd) = false := rfl
  simp only [newFft, h1, h2]
  cases ownImport .fft .bare d with
  | ret k =>
    simp only [Out.bind]
    cases createFft k false [l, x, n, h] <;> rfl
  | raise e => rfl
  | bad => rfl

/-- **C92 (calls of FFTs).** Such an object takes an input and an output vector of its types and sizes. -/
theorem C92_fft_call {d : D} {k : K} (hd : ownImport .fft .bare d = .ret k) (forward : Bool) {l n : ℕ} (x : ℚ) (h : Hint) (hl : l < 2 ^ 64)
    (hn : n < 2 ^ 32) :
    ∃ o, newFft d (if forward then -1 else 1) (.int l) (.real x) (.int n) (.hint h) = .ret o ∧
      o.impl.call (if forward then ⟨k, [l]⟩ else ⟨k.complex, [halfSpectrum l]⟩)
        (some (if forward then ⟨k.complex, [halfSpectrum l]⟩ else ⟨k, [l]⟩)) = .ret () := by
  have hf : ((if forward then (-1 : ℤ) else 1) == fwd) = forward := by cases forward <;> rfl
  have key : newFft d (if forward then -1 else 1) (.int l) (.real x) (.int n) (.hint h) =
      .ret ⟨if forward then -1 else 1, .int l, .real x, ⟨k, forward, l, x, times n, h⟩, Fft.inputSize ⟨k, forward, l, x, times n, h⟩,
        Fft.outputSize ⟨k, forward, l, x, times n, h⟩⟩ := by
    simp only [newFft, hd, Out.bind, hf, pys_createFft k forward x h hl hn]
  refine ⟨_, key, ?_⟩
  · rcases pys_real hd with rfl | rfl <;> cases forward <;>
      simp [Fft.call, inK, outK, K.complex, Fft.inputSize, Fft.outputSize, ioSize, K.cx, halfSpectrum]

example : ∃ o, newFft (.cls .f32) 1 (.int 8) (.real 1) (.int 0) (.hint .time) = .ret o ∧ o.impl.call ⟨.cf, [5]⟩ (some ⟨.f, [8]⟩) = .ret () := ⟨_, rfl, rfl⟩

/-- **C92 is false (sizes in calls).** A vector of another size ends the program, as the C++ function is declared not to throw; it is not an exception Python
could handle. -/
theorem C92_size_false :
    (∀ (x : Fft) (i o : View), i.k = inK x.k x.fwd → i.shape.length = 1 → o.k = outK x.k x.fwd → o.shape = [x.outputSize] →
      i.shape ≠ [x.inputSize] → x.call i (some o) = .bad) ∧
    (∃ o, newFft (.py .float) (-1) (.int 8) (.real 1) (.int 0) (.hint .time) = .ret o ∧ o.impl.call ⟨.d, [8]⟩ (some ⟨.cd, [8]⟩) = .bad) := by
  refine ⟨?_, _, rfl, rfl⟩
  intro x i o h1 h2 h3 h4 h5
  have h6 : o.shape.length = 1 := by rw [h4]; rfl
  have h7 : ¬ (i.shape = [x.inputSize] ∧ o.shape = [x.outputSize]) := fun h => h5 h.1
  simp only [Fft.call, if_neg h7, if_pos (And.intro h1 (And.intro h2 (And.intro h3 h6)))]

/-- the Python object around a multiple FFT -/
def pys_mk (dir a : ℤ) (x : Fftm) : PyFftm := ⟨dir, (.int x.rows, .int x.cols), .real x.scale, .int a, x, x.inputSize, x.outputSize⟩

/-- **C92 (multiple FFTs).** Wherever the module of the type can be imported, for axes 0 and 1, a multiple FFT object has the type, direction, sizes, scale factor,
axis, hint and effort asked for; the sizes of input and output differ along the axis for real types only. -/
theorem C92_fftm {d : D} {k : K} (hd : ownImport .fftm .tuple d = .ret k) (forward rowWise : Bool) {r c n : ℕ} (x : ℚ) (h : Hint) (hr : r < 2 ^ 64)
    (hc : c < 2 ^ 64) (hn : n < 2 ^ 32) :
    ∃ o, newFftm d (if forward then -1 else 1) (.int r) (.int c) (.real x) (.int (if rowWise then 0 else 1)) (.int n) (.hint h) = .ret o ∧
      o.impl.k = k ∧ o.impl.fwd = forward ∧ (o.impl.rows, o.impl.cols) = (r, c) ∧ o.impl.scale = x ∧ o.impl.axis = (if rowWise then 0 else 1) ∧
      o.impl.hint = h ∧ effortFor o.impl.times = effortFor n ∧
      (o.inputSize, o.outputSize) =
        if k = .cd then ((r, c), (r, c))
        else if forward then ((r, c), alongRows rowWise halfSpectrum (r, c)) else (alongRows rowWise halfSpectrum (r, c), (r, c)) := by
  have hf : ((if forward then (-1 : ℤ) else 1) == fwd) = forward := by cases forward <;> rfl
  have ha : (-2147483648 : ℤ) ≤ (if rowWise then 0 else 1) ∧ (if rowWise then (0 : ℤ) else 1) < 2147483648 := by cases rowWise <;> decide
  have hk : k = .f ∨ k = .d ∨ k = .cd := by
    rcases d with t | t | t <;> cases t <;> cases hd <;> simp
  have key : newFftm d (if forward then -1 else 1) (.int r) (.int c) (.real x) (.int (if rowWise then 0 else 1)) (.int n) (.hint h) =
      .ret (pys_mk (if forward then -1 else 1) (if rowWise then 0 else 1)
        ⟨k, forward, r, c, x, if (if rowWise then (0 : ℤ) else 1) = 0 then 0 else 1, times n, h⟩) := by
    simp only [newFftm, hd, Out.bind, hf, pys_createFftm k forward x h hr hc hn ha, pys_mk]
  refine ⟨_, key, ?_⟩
  · refine ⟨rfl, rfl, rfl, rfl, ?_, rfl, pys_times n, ?_⟩
    · cases rowWise <;> rfl
    · rcases hk with rfl | rfl | rfl <;> cases forward <;> cases rowWise <;> rfl

example : ∃ o, newFftm (.py .float) (-1) (.int 4) (.int 8) (.real 1) (.int 0) (.int 0) (.hint .time) = .ret o ∧ o.outputSize = (4, 5) := ⟨_, rfl, rfl⟩

/-- **C92 is false (axes).** An axis other than 0 and 1 is not refused: the object computes along axis 1 while its attribute has the number given. -/
theorem C92_axis_false :
    (∀ {d : D} {k : K} (dir : ℤ) {r c n : ℕ} {a : ℤ} (x : ℚ) (h : Hint), ownImport .fftm .tuple d = .ret k → r < 2 ^ 64 → c < 2 ^ 64 → n < 2 ^ 32 →
      -2147483648 ≤ a → a < 2147483648 → a ≠ 0 →
      ∃ o, newFftm d dir (.int r) (.int c) (.real x) (.int a) (.int n) (.hint h) = .ret o ∧ o.axis = .int a ∧ o.impl.axis = 1) ∧
    ∃ o, newFftm (.py .complex) (-1) (.int 4) (.int 8) (.real 1) (.int (-1)) (.int 0) (.hint .time) = .ret o ∧ o.axis = .int (-1) ∧ o.impl.axis = 1 := by
  refine ⟨?_, _, rfl, rfl, rfl⟩
  intro d k dir r c n a x h hd hr hc hn h1 h2 h3
  have key : newFftm d dir (.int r) (.int c) (.real x) (.int a) (.int n) (.hint h) =
      .ret (pys_mk dir a ⟨k, dir == fwd, r, c, x, if a = 0 then 0 else 1, times n, h⟩) := by
    simp only [newFftm, hd, Out.bind, pys_createFftm k _ x h hr hc hn ⟨h1, h2⟩, pys_mk]
  refine ⟨_, key, ?_⟩
  · exact ⟨rfl, if_neg h3⟩

/-- **C92 (calls of multiple FFTs).** A multiple FFT takes matrices of its types and sizes; if complex, one matrix, which is transformed in place; if real, one
matrix is refused. -/
theorem C92_fftm_call (x : Fftm) :
    x.call ⟨inK x.k x.fwd, [x.inputSize.1, x.inputSize.2]⟩ (some ⟨outK x.k x.fwd, [x.outputSize.1, x.outputSize.2]⟩) = .ret () ∧
    (x.k.cx = true → x.call ⟨x.k, [x.rows, x.cols]⟩ none = .ret ()) ∧
    (x.k.cx = false → ∀ v, x.call v none = .raise .type) := by
  refine ⟨by simp [Fftm.call], ?_, ?_⟩
  · intro h
    have h1 : x.inputSize = (x.rows, x.cols) := by
      unfold Fftm.inputSize Fftm.ioSize inK outK ioSize
      cases hk : x.k <;> rw [hk] at h <;> simp_all [K.complex, K.cx]
    simp [Fftm.call, h, h1]
  · intro h v
    simp [Fftm.call, h]

example : ∃ o, newFftm (.py .complex) (-1) (.int 4) (.int 5) (.int 1) (.int 1) (.int 0) (.hint .time) = .ret o ∧ o.impl.call ⟨.cd, [4, 5]⟩ none = .ret () :=
  ⟨_, rfl, rfl⟩

/-- **C92 (ranges).** Lengths that are negative or too large, and numbers of times beyond 32 bits, are errors; so are floating point numbers for lengths, and
numbers for the hint. -/
theorem C92_range {k : K} {f : Bool} (x : ℚ) :
    (∀ (l : ℤ) n h, l < 0 ∨ 18446744073709551616 ≤ l → createFft k f [.int l, .real x, .int n, .hint h] = .raise .value) ∧
    (∀ (l : ℕ) (n : ℤ) h, l < 2 ^ 64 → n < 0 ∨ 4294967296 ≤ n → createFft k f [.int l, .real x, .int n, .hint h] = .raise .value) ∧
    (∀ l n h, createFft k f [.real l, .real x, n, h] = .raise .type) ∧
    (∀ l n (h : ℤ), createFft k f [l, .real x, n, .int h] = .raise .type) := by
  refine ⟨?_, ?_, ?_, ?_⟩
  · intro l n h hl
    have hf : fits [.length, .scalar, .unsigned, .hint] [.int l, .real x, .int n, .hint h] = true := rfl
    have h1 : ¬ ((-l).toNat ≤ 0 ∧ l.toNat < 2 ^ 64) := by omega
    have h2 : toLength (.int l) = .raise .value := by
      unfold toLength
      rw [pys_range_out h1]
      rfl
    simp only [createFft, hf, if_true, h2, Out.bind]
  · intro l n h hl hn
    have hf : fits [.length, .scalar, .unsigned, .hint] [.int l, .real x, .int n, .hint h] = true := rfl
    have h1 : ¬ ((-n).toNat ≤ 0 ∧ n.toNat < 2 ^ 32) := by omega
    have h2 : toUnsigned (.int n) = .raise .value := by
      unfold toUnsigned
      rw [pys_range_out h1]
      rfl
    simp only [createFft, hf, if_true, pys_length hl, toScalar, h2, Out.bind]
  · intro l n h
    simp [createFft, fits, accepts, Val.int?]
  · intro l n h
    simp [createFft, fits, accepts]

example : createFft .d true [.int (-1), .real 1, .int 0, .hint .time] = .raise .value := rfl

/-- **C92 is false (enumerations as numbers).** A member of an enumeration is taken for a number: two arguments exchanged give an FFT of length 2 instead of an
error. -/
theorem C92_enum_false : ∃ o, newFft (.py .float) (-1) (.hint .noise) (.int 1) (.int 0) (.hint .time) = .ret o ∧ o.impl.length = 2 := ⟨_, rfl, rfl⟩

/-- **C92 is false (convolution).** The constructor of `conv` does not pass a kernel, nor has it a parameter for one: it raises an exception whatever it is given. -/
theorem C92_conv_false (d : D) (a b c e n h : Val) : ∃ x, newConv d a b c e n h = .raise x := by
  unfold newConv
  cases hi : importModule .conv d with
  | ret k =>
    refine ⟨.type, ?_⟩
    have hf : fits [.block k 1, .sym, .length, .length, .supp, .unsigned, .hint] [a, c, e, b, n, h] = false := by
      simp [fits]
    simp only [Out.bind, createConv, hf]
    rfl
  | raise x => exact ⟨x, rfl⟩
  | bad =>
    unfold importModule at hi
    split at hi
    · cases hi
    · split at hi <;> cases hi

/-- **C92, partial (convolution).** The class of the extension module, given a kernel, makes a convolution with all parameters.
Missing: the region `min_zeropad`, see `C92_zeropad_false`, and the Python class, see `C92_conv_false`. -/
theorem C92_conv_partial (k : K) (s : Sym) {r : Supp} {m i d n : ℕ} (h : Hint) (hr : r ≠ .minZeropad) (hi : i < 2 ^ 64) (hd : d < 2 ^ 64) (hn : n < 2 ^ 32) :
    createConv k [.block k [m], .sym s, .int i, .int d, .supp r, .int n, .hint h] = .ret ⟨k, m, s, r, i, d⟩ := by
  have hf : fits [.block k 1, .sym, .length, .length, .supp, .unsigned, .hint]
      [.block k [m], .sym s, .int i, .int d, .supp r, .int n, .hint h] = true := by simp [fits, accepts, Val.int?]
  have h1 : suppArg r = r := by cases r <;> first | rfl | exact absurd rfl hr
  have h2 : symArg s = s := by cases s <;> rfl
  simp only [createConv, hf, if_true, pys_length hi, pys_length hd, pys_unsigned hn, Out.bind, h1, h2]
  rfl

example : createConv .d [.block .d [3], .sym .none, .int 8, .int 1, .supp .full, .int 0, .hint .time] = .ret ⟨.d, 3, .none, .full, 8, 1⟩ := rfl

/-- **C92 is false (correlation).** The constructor of `corr` passes the region first where the C++ function has it third: with the arguments its parameters are named
after, it raises an exception. -/
theorem C92_corr_false (d : D) (s : Supp) (r i : ℤ) (n h : Val) : ∃ x, newCorr d (.supp s) (.int r) (.int i) n h = .raise x := by
  unfold newCorr
  cases hi : ownImport .corr .bare d with
  | ret k =>
    refine ⟨.type, ?_⟩
    have hf : fits [.length, .length, .supp, .unsigned, .hint] [.supp s, .int r, .int i, n, h] = false := by
      simp [fits, accepts]
    simp only [Out.bind, createCorr, hf]
    rfl
  | raise x => exact ⟨x, rfl⟩
  | bad => exact absurd hi (by rcases d with t | t | t <;> cases t <;> decide)

/-- **C92, partial (correlation).** Given the sizes of reference and input for `support` and `r`, and the region for `i`, it makes the correlation.
Missing: the order of the parameters, see `C92_corr_false`; the region `min_zeropad`, see `C92_zeropad_false`. -/
theorem C92_corr_partial {d : D} {k : K} (hd : ownImport .corr .bare d = .ret k) {s : Supp} {r i n : ℕ} (h : Hint) (hs : s ≠ .minZeropad) (hr : r < 2 ^ 64)
    (hi : i < 2 ^ 64) (hn : n < 2 ^ 32) :
    newCorr d (.int r) (.int i) (.supp s) (.int n) (.hint h) = .ret ⟨k, s, r, i⟩ := by
  have hf : fits [.length, .length, .supp, .unsigned, .hint] [.int r, .int i, .supp s, .int n, .hint h] = true := rfl
  have h1 : suppArg s = s := by cases s <;> first | rfl | exact absurd rfl hs
  simp only [newCorr, hd, createCorr, hf, if_true, pys_length hr, pys_length hi, pys_unsigned hn, Out.bind, h1]

example : newCorr (.py .float) (.int 4) (.int 16) (.supp .same) (.int 0) (.hint .time) = .ret ⟨.d, .same, 4, 16⟩ := rfl

/-- **C92 is false (zero padded regions).** `support_region.min_zeropad` can be asked for, but gives a convolution or correlation of the region `min`. -/
theorem C92_zeropad_false :
    (∃ o, createConv .d [.block .d [3], .sym .none, .int 8, .int 1, .supp .minZeropad, .int 0, .hint .time] = .ret o ∧ o.supp = .min) ∧
    (∃ o, createCorr .d [.int 3, .int 8, .supp .minZeropad, .int 0, .hint .time] = .ret o ∧ o.supp = .min) := ⟨⟨_, rfl, rfl⟩, _, rfl, rfl⟩

/-- **C92 (FIR filters).** For a vector of real numbers as kernel, a FIR filter object has the type and size of the kernel, symmetry, length, decimation and state
asked for. -/
theorem C92_fir {k : K} (hk : k = .f ∨ k = .d) (s : Sym) (t : State) {m l d n : ℕ} (h : Hint) (hl : l < 2 ^ 64) (hd : d < 2 ^ 64) (hn : n < 2 ^ 32) :
    newFir ⟨k, [m]⟩ (.sym s) (.int l) (.int d) (.state t) (.int n) (.hint h) = .ret ⟨k, m, s, l, d, t⟩ := by
  have hi : ownImport .fir .none (dtypeOf k) = .ret k := by rcases hk with rfl | rfl <;> rfl
  have hf : fits [.block k 1, .sym, .length, .length, .state, .unsigned, .hint]
      [.block k [m], .sym s, .int l, .int d, .state t, .int n, .hint h] = true := by simp [fits, accepts, Val.int?]
  have h2 : symArg s = s := by cases s <;> rfl
  have h3 : (if t = State.noSave then State.noSave else State.save) = t := by cases t <;> rfl
  simp only [newFir, hi, createFir, hf, if_true, pys_length hl, pys_length hd, pys_unsigned hn, Out.bind, h2, h3]
  rfl

example : newFir ⟨.d, [6]⟩ (.sym .none) (.int 64) (.int 2) (.state .save) (.int 0) (.hint .time) = .ret ⟨.d, 6, .none, 64, 2, .save⟩ := rfl

/-- **C92 is false (IIR filters).** The constructor of `iir` refuses matrices, as it passes them and not their blocks; and of blocks it takes the numerators for `a`, the
denominators for `b`, against the names in the C++ class. -/
theorem C92_iir_false :
    (∀ d (a : View) b l t n h, ∃ x, newIir d (.view a) b l t n h = .raise x) ∧
    (∀ {d : D} {k : K} (t : State) {m l n : ℕ} (h : Hint), ownImport .iir .tuple d = .ret k → l < 2 ^ 64 → n < 2 ^ 32 →
      newIir d (.block k [m, 2]) (.block k [m, 3]) (.int l) (.state t) (.int n) (.hint h) = .raise .runtime) := by
  refine ⟨?_, ?_⟩
  · intro d a b l t n h
    unfold newIir
    cases hi : ownImport .iir .tuple d with
    | ret k =>
      refine ⟨.type, ?_⟩
      have hf : fits [.block k 2, .block k 2, .length, .state, .unsigned, .hint] [.view a, b, l, t, n, h] = false := by simp [fits, accepts]
      simp only [Out.bind, createIir, hf]
      rfl
    | raise x => exact ⟨x, rfl⟩
    | bad => exact absurd hi (by rcases d with t | t | t <;> cases t <;> decide)
  · intro d k t m l n h hd hl hn
    have hf : fits [.block k 2, .block k 2, .length, .state, .unsigned, .hint]
        [.block k [m, 2], .block k [m, 3], .int l, .state t, .int n, .hint h] = true := by simp [fits, accepts, Val.int?]
    simp only [newIir, hd, createIir, hf, if_true, pys_length hl, pys_unsigned hn, Out.bind]
    simp [iirCtor]

/-- **C92, partial (IIR filters).** Given the block of the numerators and that of the denominators, in this order, it makes the filter.
Missing: matrices, and the order the names suggest, see `C92_iir_false`. -/
theorem C92_iir_partial {d : D} {k : K} (hd : ownImport .iir .tuple d = .ret k) (t : State) {m l n : ℕ} (h : Hint) (hl : l < 2 ^ 64) (hn : n < 2 ^ 32) :
    newIir d (.block k [m, 3]) (.block k [m, 2]) (.int l) (.state t) (.int n) (.hint h) = .ret ⟨k, m, l, t⟩ := by
  have hf : fits [.block k 2, .block k 2, .length, .state, .unsigned, .hint]
      [.block k [m, 3], .block k [m, 2], .int l, .state t, .int n, .hint h] = true := by simp [fits, accepts, Val.int?]
  have h3 : (if t = State.noSave then State.noSave else State.save) = t := by cases t <;> rfl
  simp only [newIir, hd, createIir, hf, if_true, pys_length hl, pys_unsigned hn, Out.bind, h3]
  simp [iirCtor]

example : newIir (.py .complex) (.block .cd [2, 3]) (.block .cd [2, 2]) (.int 16) (.state .save) (.int 0) (.hint .time) = .ret ⟨.cd, 2, 16, .save⟩ := rfl

/-- **C92 is false (resetting filters).** Both kinds of filter keep a state that the C++ class can reset, but a FIR filter cannot be reset from Python. -/
theorem C92_reset_false : (∀ f, implReset f = .ret ()) ∧ reset .iir = .ret () ∧ reset .fir = .raise .attr := ⟨fun _ => rfl, rfl, rfl⟩

/-- **C92 (enumerations and numbers in calls).** For a hint, a support, a symmetry or a state only members of the enumeration are
accepted, no numbers and no other enumeration. -/
theorem C92_enumerations (v : Val) : (accepts .hint v = true ↔ ∃ h, v = .hint h) ∧ (accepts .supp v = true ↔ ∃ h, v = .supp h) ∧
    (accepts .sym v = true ↔ ∃ h, v = .sym h) ∧ (accepts .state v = true ↔ ∃ h, v = .state h) := by
  cases v <;> simp [accepts]
example : accepts .hint (.int 0) = false := by decide

end Verif.Props

#print axioms Verif.Props.C92_fft
#print axioms Verif.Props.C92_direction_false
#print axioms Verif.Props.C92_fft_call
#print axioms Verif.Props.C92_size_false
#print axioms Verif.Props.C92_fftm
#print axioms Verif.Props.C92_axis_false
#print axioms Verif.Props.C92_fftm_call
#print axioms Verif.Props.C92_range
#print axioms Verif.Props.C92_enum_false
#print axioms Verif.Props.C92_conv_false
#print axioms Verif.Props.C92_conv_partial
#print axioms Verif.Props.C92_corr_false
#print axioms Verif.Props.C92_corr_partial
#print axioms Verif.Props.C92_zeropad_false
#print axioms Verif.Props.C92_fir
#print axioms Verif.Props.C92_iir_false
#print axioms Verif.Props.C92_iir_partial
#print axioms Verif.Props.C92_reset_false
#print axioms Verif.Props.C92_enumerations
