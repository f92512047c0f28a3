import Verif.Io.Lemmas

/-!
# C73: images and data sets in files

PNG files, HDF5 data sets and their handles, conversion to grey levels.
-/

namespace Verif.Props

open Verif.Io

/-! ## PNG -/

/-- **C73, partial (writing images).** For every format with whole bytes per element, row `i` of the file holds the elements of row `i` in order, byte by byte, and
nothing outside the matrix is read, for images up to 2^32 bytes.  Missing: greater images, see `C73_large_false`. -/
theorem C73_encode_partial {p : Png} (h : p.Legal) {sz : ℕ} (hs : sz = p.depth * p.channels / 8) (h1 : 1 ≤ sz) (hl : p.height * p.width * sz ≤ 2 ^ 32)
    (mem : ℕ → UInt8) :
    ∃ file, encode p p.height p.width sz mem = .ok file ∧
      ∀ i < p.height, ∀ j < p.width, ∀ b < sz, file i (j * sz + b) = mem ((i * p.width + j) * sz + b) := by
  have hw : 0 < p.width := h.2.1
  have hrb := rowbytes_eq h hs h1
  have h0 : 0 < rowbytes p := by rw [hrb]; exact Nat.mul_pos hw h1
  have hle : p.height * rowbytes p ≤ 2 ^ 32 := by rw [hrb, ← Nat.mul_assoc]; exact hl
  refine ⟨fun i b => mem (rowOffset p i + b), ?_, fun i hi j _ b _ => ?_⟩
  · rw [encode, if_neg (by simp), if_neg (by simp), if_neg (by omega), if_pos]
    intro i hi
    rw [rowOffset_eq hi hle h0, hrb]
    have : (i + 1) * (p.width * sz) ≤ p.height * (p.width * sz) := Nat.mul_le_mul_right _ hi
    rw [Nat.add_mul, Nat.one_mul] at this
    rw [Nat.mul_assoc]; exact this
  · dsimp only
    rw [rowOffset_eq hi hle h0, hrb]
    congr 1; ring

/-- A colour image of 640 by 480. -/
example : (Png.mk 640 480 8 3).Legal ∧ (3 : ℕ) = (Png.mk 640 480 8 3).depth * (Png.mk 640 480 8 3).channels / 8 := by
  refine ⟨⟨.inr ⟨by decide, by decide⟩, by decide, by decide, by decide, by decide⟩, rfl⟩

/-- **C73, partial (reading images).** A square image is read into a matrix of its size: the bytes of element `(i, j)` are those of the file, and storage after the
matrix is left alone.  Missing: other shapes, see `C73_shape_false`; greater images, see `C73_large_false`. -/
theorem C73_decode_partial {p : Png} (h : p.Legal) (hsq : p.width = p.height) {sz : ℕ} (hs : sz = p.depth * p.channels / 8) (h1 : 1 ≤ sz)
    (hl : p.height * p.width * sz ≤ 2 ^ 32) (file : ℕ → ℕ → UInt8) (mem : ℕ → UInt8) :
    ∃ m, decode p p.height p.width sz file mem = .ok m ∧
      (∀ i < p.height, ∀ j < p.width, ∀ b < sz, m ((i * p.width + j) * sz + b) = file i (j * sz + b)) ∧ ∀ a, p.height * p.width * sz ≤ a → m a = mem a := by
  have hw : 0 < p.width := h.2.1
  have hrb := rowbytes_eq h hs h1
  have h0 : 0 < rowbytes p := by rw [hrb]; exact Nat.mul_pos hw h1
  have hle : p.height * rowbytes p ≤ 2 ^ 32 := by rw [hrb, ← Nat.mul_assoc]; exact hl
  obtain ⟨m, e, e1, e2⟩ := putRows (file := file) (size := p.height * p.width * sz) (mem := mem) hle h0 (by rw [hrb, ← Nat.mul_assoc]) p.height le_rfl
  refine ⟨m, ?_, fun i hi j hj b hb => ?_, fun a ha => e2 a (by rw [hrb, ← Nat.mul_assoc]; exact ha)⟩
  · rw [decode]
    rw [if_neg (by simp), if_neg (by omega), if_neg (by omega), e]
  · rw [← e1 i hi (j * sz + b)]
    · rw [hrb]; congr 1; ring
    · rw [hrb]
      have : (j + 1) * sz ≤ p.width * sz := Nat.mul_le_mul_right _ hj
      rw [Nat.add_mul, Nat.one_mul] at this; omega

/-- **C73, partial (written and read).** A square image that is written and read again is the same in every byte.  Missing: as above. -/
theorem C73_roundtrip_partial {p : Png} (h : p.Legal) (hsq : p.width = p.height) {sz : ℕ} (hs : sz = p.depth * p.channels / 8) (h1 : 1 ≤ sz)
    (hl : p.height * p.width * sz ≤ 2 ^ 32) (mem mem' : ℕ → UInt8) :
    ∃ file m, encode p p.height p.width sz mem = .ok file ∧ decode p p.height p.width sz file mem' = .ok m ∧ ∀ a < p.height * p.width * sz, m a = mem a := by
  obtain ⟨file, e1, e2⟩ := C73_encode_partial h hs h1 hl mem
  obtain ⟨m, e3, e4, _⟩ := C73_decode_partial h hsq hs h1 hl file mem'
  refine ⟨file, m, e1, e3, fun a ha => ?_⟩
  have hw : 0 < p.width := h.2.1
  have k1 : a / sz < p.height * p.width := (Nat.div_lt_iff_lt_mul (by omega)).mpr ha
  have k2 : a / sz / p.width < p.height := (Nat.div_lt_iff_lt_mul hw).mpr k1
  have k3 : a / sz % p.width < p.width := Nat.mod_lt _ hw
  have k4 : a % sz < sz := Nat.mod_lt _ (by omega)
  have k5 : (a / sz / p.width * p.width + a / sz % p.width) * sz + a % sz = a := by
    rw [Nat.div_add_mod', Nat.div_add_mod']
  have := e4 _ k2 _ k3 _ k4
  rw [e2 _ k2 _ k3 _ k4, k5] at this
  exact this

/-- 512 by 512 grey levels of 16 bits. -/
example : (Png.mk 512 512 16 1).Legal ∧ (Png.mk 512 512 16 1).width = (Png.mk 512 512 16 1).height ∧ 512 * 512 * 2 ≤ 2 ^ 32 := by
  refine ⟨⟨.inl ⟨by decide, by decide⟩, by decide, by decide, by decide, by decide⟩, rfl, by decide⟩

/-- **C73 is false (shape).** The decoder takes the height for the width.  No image that is not square can be read into a matrix of its size; and one that is
higher than wide is read into a square matrix, where row 1 does not start where that of the matrix does. -/
theorem C73_shape_false (p : Png) (hne : p.width ≠ p.height) (file : ℕ → ℕ → UInt8) (mem : ℕ → UInt8) (sz : ℕ) :
    decode p p.height p.width sz file mem = .abort ∧
    (p.Legal → p.width < p.height → sz = p.depth * p.channels / 8 → 1 ≤ sz → p.height * p.height * sz ≤ 2 ^ 32 → 1 < p.height →
      ∃ m, decode p p.height p.height sz file mem = .ok m ∧ m (p.width * sz) = file 1 0) := by
  constructor
  · rw [decode]; rw [if_neg (by simp), if_pos (by omega)]
  · intro h hlt hs h1 hl hh
    have hw : 0 < p.width := h.2.1
    have hrb := rowbytes_eq h hs h1
    have h0 : 0 < rowbytes p := by rw [hrb]; exact Nat.mul_pos hw h1
    have hsz : p.height * rowbytes p ≤ p.height * p.height * sz := by
      rw [hrb, Nat.mul_assoc]; exact Nat.mul_le_mul_left _ (Nat.mul_le_mul_right _ hlt.le)
    obtain ⟨m, e, e1, _⟩ := putRows (file := file) (size := p.height * p.height * sz) (mem := mem) (by omega) h0 hsz p.height le_rfl
    refine ⟨m, ?_, ?_⟩
    · rw [decode]; rw [if_neg (by simp), if_neg (by simp), if_neg (by omega), e]
    · have := e1 1 hh 0 h0
      rw [← this, hrb]; congr 1; omega

example : (Png.mk 2 3 8 1).Legal ∧ (Png.mk 2 3 8 1).width < (Png.mk 2 3 8 1).height :=
  ⟨⟨.inl ⟨by decide, by decide⟩, by decide, by decide, by decide, by decide⟩, by decide⟩

/-- **C73 is false (large images).** Offsets of rows are products of 32 bits: in an image of 70000 by 70000, row 61357 of the file is not that of the matrix, but
bytes from 22704 on. -/
theorem C73_large_false (mem : ℕ → UInt8) :
    ∃ file, encode ⟨70000, 70000, 8, 1⟩ 70000 70000 1 mem = .ok file ∧ file 61357 0 = mem 22704 ∧ (61357 * 70000 + 0) * 1 + 0 ≠ 22704 := by
  refine ⟨fun i b => mem (rowOffset ⟨70000, 70000, 8, 1⟩ i + b), ?_, by norm_num [rowOffset, rowbytes], by norm_num⟩
  have hrb : rowbytes ⟨70000, 70000, 8, 1⟩ = 70000 := by norm_num [rowbytes]
  rw [encode, if_neg (by norm_num), if_neg (by norm_num), if_neg (by norm_num), if_pos]
  intro i _
  have : rowOffset ⟨70000, 70000, 8, 1⟩ i < 2 ^ 32 := Nat.mod_lt _ (by norm_num)
  rw [hrb]; omega

/-- **C73 is false (16 bits).** Samples of 16 bits are copied without change of byte order: on a host that stores the least significant byte first, what is read is
the sample of the file only if both bytes are equal. -/
theorem C73_sixteen_false (a b : UInt8) : host16 a b = png16 a b ↔ a = b := by
  have := a.toNat_lt
  have := b.toNat_lt
  rw [← UInt8.toNat_inj, host16, png16]
  omega

example : host16 0 1 = 256 ∧ png16 0 1 = 1 := by decide

/-! ## HDF5 -/

/-- **C73 (data sets).** A view of any number of dimensions that is written and read into a view of its size has the same elements, and every element of the file
is one of the view. -/
theorem C73_dataset {α : Type} (ty : Ty) (size : List ℕ) (v : List ℕ → α) (buf : ℕ → α) :
    (∃ r, Io.read (write ty size v) ty size buf = .ok r ∧ ∀ idx, Within size idx → r idx = v idx) ∧
      ∀ k < prod size, ∃ idx, Within size idx ∧ (write ty size v).data k = v idx ∧ flat size idx = k := by
  constructor
  · refine ⟨fun idx => (h5read (write ty size v) ty buf).2 (flat size idx), ?_, fun idx h => ?_⟩
    · rw [Io.read, if_neg (by simp [write]), queryExtent, if_neg (by simp [write]), if_neg (by simp [write])]
      dsimp only
      rw [if_neg (by simp [write])]
    · dsimp only
      rw [h5read, if_pos (show (write ty size v).ty.complex = ty.complex from rfl)]
      dsimp only
      rw [if_pos (show flat size idx < prod (write ty size v).dims from flat_lt h)]
      show v (unflat size (flat size idx)) = v idx
      rw [unflat_flat h]
  · intro k hk
    obtain ⟨h1, h2⟩ := flat_unflat hk
    exact ⟨_, h2, rfl, h1⟩

example : Within [2, 3, 4] [1, 2, 3] ∧ flat [2, 3, 4] [1, 2, 3] = 23 := ⟨⟨by decide, by decide, by decide, trivial⟩, rfl⟩

/-- **C73 (sizes).** Reading into a view of another number of dimensions or another size throws, whatever the file holds. -/
theorem C73_size {α : Type} (s : Dataset α) (ty : Ty) (size : List ℕ) (buf : ℕ → α) (h : s.dims ≠ size) : Io.read s ty size buf = .throw := by
  rw [Io.read]
  by_cases hl : s.dims.length = size.length
  · rw [if_neg (by omega), queryExtent, if_neg (by omega), if_neg (by omega)]
    dsimp only
    rw [if_pos h]
  · rw [if_pos hl]

example : (write Ty.float [2, 3] fun _ => (0 : ℚ)).dims ≠ [3, 2] := by decide

/-- **C73 is false (extent).** `query_extent<2>`, with which `viewtopng` starts, of a data set of three dimensions stores three sizes in an array of two, before it
compares. -/
theorem C73_extent_false {α : Type} (D : ℕ) (s : Dataset α) (h : D < s.dims.length) : queryExtent D s = .ub := by rw [queryExtent, if_pos h]

example : 2 < (write Ty.float [2, 3, 4] fun _ => (0 : ℚ)).dims.length := by decide

/-- **C73 is false (status).** If a data set of real numbers is read into a complex view, `H5Dread` fails, but reading returns, and the view is what direct data
access gave. -/
theorem C73_status_false {α : Type} (size : List ℕ) (v : List ℕ → α) (buf : ℕ → α) :
    ∃ r, Io.read (write .float size v) .cfloat size buf = .ok r ∧ ∀ idx, r idx = buf (flat size idx) := by
  refine ⟨fun idx => (h5read (write .float size v) .cfloat buf).2 (flat size idx), ?_, fun idx => ?_⟩
  · rw [Io.read, if_neg (by simp [write]), queryExtent, if_neg (by simp [write]), if_neg (by simp [write])]
    dsimp only
    rw [if_neg (by simp [write])]
  · rfl

/-- **C73, partial (handles).** As long as no object of class `dataset` is copied, every object has an open handle of its own, no closed handle is used or closed
again, and every open handle has an object.  Missing: copies, see `C73_copy_false`. -/
theorem C73_handles_partial {os : List Op} (ho : ∀ o ∈ os, o.isCopy = false) :
    hrun ⟨[], fun _ => false, 1⟩ os ≠ .ub ∧ ∀ s, hrun ⟨[], fun _ => false, 1⟩ os = .ok s →
      (∀ k h, s.get k = some h → s.isOpen h = true) ∧ (∀ k k' h, s.get k = some h → s.get k' = some h → k = k') ∧
      ∀ h, s.isOpen h = true → ∃ k, s.get k = some h := by
  have h0 : Own ⟨[], fun _ => false, 1⟩ := by
    have hg : ∀ k, Handles.get ⟨[], fun _ => false, 1⟩ k = none := fun k => get_none (by simp)
    exact ⟨fun k h e => by rw [hg] at e; exact absurd e (by simp), fun k k' h e => by rw [hg] at e; exact absurd e (by simp),
      fun k h e => by rw [hg] at e; exact absurd e (by simp), fun h e => by simp at e⟩
  rcases hrun_own h0 ho with e | ⟨s', e, h⟩
  · rw [e]; exact ⟨fun h => (nomatch h), fun s h => (nomatch h)⟩
  · rw [e]
    refine ⟨fun h => (nomatch h), fun s hs => ?_⟩
    obtain rfl := Out.ok.inj hs
    exact ⟨h.isOpen, h.own, h.all⟩

/-- Two data sets, one dropped, the other used. -/
example : ∃ s, hrun ⟨[], fun _ => false, 1⟩ [.make, .make, .drop 0, .use 1] = .ok s ∧ s.get 1 = some 2 := ⟨_, rfl, rfl⟩

/-- **C73 is false (copies).** The copy of an object has the same handle, which is closed with the first of the two: what `viewtopng` does when it passes its data
set by value.  The data set cannot be used after, and is closed again. -/
theorem C73_copy_false : hrun ⟨[], fun _ => false, 1⟩ [.make, .copy 0, .use 1, .drop 1, .use 0] = .ub ∧
    hrun ⟨[], fun _ => false, 1⟩ [.make, .copy 0, .use 1, .drop 1, .drop 0] = .ub := ⟨rfl, rfl⟩

/-- **C73 is false (types).** Every call of `has_value_type` leaves a type open, and for complex numbers two. -/
theorem C73_types_false (ty : Ty) (n : ℕ) : typeIds ty n = n * (if ty.complex then 2 else 1) := by
  induction n with
  | zero => simp [typeIds]
  | succ n ih =>
    rw [typeIds, ih]
    split_ifs <;> omega

/-! ## Grey levels -/

/-- **C73, partial (grey levels).** The grey level of a value between least and greatest is the integer part of its share of 255: within 0 and 255, not decreasing,
0 for the least and 255 for the greatest value.  In exact arithmetic, for ranges up to 2^120.  Missing: greater ranges, see `C73_gray_false`; rounding. -/
theorem C73_gray_partial {minv maxv : ℚ} (hr : maxv - minv < 2 ^ 120) :
    (∀ x, minv ≤ x → x ≤ maxv → ∃ v, gray minv maxv x = .ok v ∧ v ≤ 255 ∧ (minv < maxv → (v : ℚ) ≤ (x - minv) * 255 / (maxv - minv) ∧
      (x - minv) * 255 / (maxv - minv) < v + 1)) ∧
    (∀ x y v w, minv ≤ x → x ≤ y → y ≤ maxv → gray minv maxv x = .ok v → gray minv maxv y = .ok w → v ≤ w) ∧
    (minv ≤ maxv → gray minv maxv minv = .ok 0) ∧ (minv < maxv → gray minv maxv maxv = .ok 255) := by
  have key : ∀ x, minv ≤ x → x ≤ maxv → 0 ≤ (x - minv) * 255 / (if maxv - minv ≠ 0 then maxv - minv else 1) ∧
      (x - minv) * 255 / (if maxv - minv ≠ 0 then maxv - minv else 1) ≤ 255 ∧
      gray minv maxv x = .ok ⌊(x - minv) * 255 / (if maxv - minv ≠ 0 then maxv - minv else 1)⌋.toNat := by
    intro x h1 h2
    have hs : 0 < (if maxv - minv ≠ 0 then maxv - minv else 1) := by
      split_ifs with h
      · exact lt_of_le_of_ne (by linarith) (Ne.symm h)
      · norm_num
    have hx : x - minv ≤ (if maxv - minv ≠ 0 then maxv - minv else 1) := by
      split_ifs with h
      · linarith
      · rw [not_not] at h; linarith
    have k0 : 0 ≤ (x - minv) * 255 / (if maxv - minv ≠ 0 then maxv - minv else 1) := div_nonneg (by linarith) hs.le
    have k1 : (x - minv) * 255 / (if maxv - minv ≠ 0 then maxv - minv else 1) ≤ 255 := by rw [div_le_iff₀ hs]; linarith
    refine ⟨k0, k1, ?_⟩
    have f1 : fin (maxv - minv) = some (maxv - minv) := if_pos (by rw [abs_of_nonneg (by linarith)]; norm_num at hr ⊢; linarith)
    have f2 : fin (x - minv) = some (x - minv) := if_pos (by rw [abs_of_nonneg (by linarith)]; norm_num at hr ⊢; linarith)
    have f3 : fin ((x - minv) * 255) = some ((x - minv) * 255) := if_pos (by rw [abs_of_nonneg (by linarith)]; norm_num at hr ⊢; linarith)
    rw [gray, f1, f2, Option.bind_some, f3]
    dsimp only
    rw [if_pos ⟨by linarith, by linarith⟩]
  refine ⟨fun x h1 h2 => ?_, fun x y v w h1 h2 h3 ev ew => ?_, fun h => ?_, fun h => ?_⟩
  · obtain ⟨k0, k1, e⟩ := key x h1 h2
    refine ⟨_, e, ?_, fun hlt => ?_⟩
    · rw [Int.toNat_le]
      have : ((⌊(x - minv) * 255 / (if maxv - minv ≠ 0 then maxv - minv else 1)⌋ : ℤ) : ℚ) ≤ 255 := le_trans (Int.floor_le _) k1
      exact_mod_cast this
    · rw [if_pos (by linarith [sub_pos.mpr hlt] : maxv - minv ≠ 0)] at k0 ⊢
      have hf := Int.floor_nonneg.mpr k0
      have hc : ((⌊(x - minv) * 255 / (maxv - minv)⌋.toNat : ℕ) : ℚ) = ((⌊(x - minv) * 255 / (maxv - minv)⌋ : ℤ) : ℚ) := by
        rw [← Int.cast_natCast, Int.toNat_of_nonneg hf]
      rw [hc]
      exact ⟨Int.floor_le _, Int.lt_floor_add_one _⟩
  · obtain ⟨_, _, e1⟩ := key x h1 (by linarith)
    obtain ⟨_, _, e2⟩ := key y (by linarith) h3
    rw [e1] at ev
    rw [e2] at ew
    obtain rfl := Out.ok.inj ev
    obtain rfl := Out.ok.inj ew
    refine Int.toNat_le_toNat (Int.floor_le_floor ?_)
    have hs : 0 < (if maxv - minv ≠ 0 then maxv - minv else 1) := by
      split_ifs with h
      · exact lt_of_le_of_ne (by linarith) (Ne.symm h)
      · norm_num
    exact div_le_div_of_nonneg_right (by linarith) hs.le
  · rw [(key minv le_rfl h).2.2]; simp
  · rw [(key maxv h.le le_rfl).2.2]
    have hne : maxv - minv ≠ 0 := by linarith [sub_pos.mpr h]
    rw [if_pos hne, mul_div_assoc, mul_div_cancel₀ _ hne]
    rfl

example : gray 2 6 3 = .ok 63 := by
  norm_num [gray, fin]; rfl

/-- C73, when grey levels are undefined: for elements from the least to the greatest, exactly if 255 times the distance from the least is infinite in single precision. -/
theorem C73_gray_ub {minv maxv x : ℚ} (h1 : minv ≤ x) (h2 : x ≤ maxv) : gray minv maxv x = .ub ↔ 2 ^ 128 ≤ (x - minv) * 255 := by
  have n0 : 0 ≤ x - minv := by linarith
  have n1 : 0 ≤ (x - minv) * 255 := by linarith
  have n2 : 0 ≤ maxv - minv := by linarith
  have g : ∀ y : ℚ, 0 ≤ y → fin y = if y < 2 ^ 128 then some y else none := fun y hy => by rw [fin, abs_of_nonneg hy]
  by_cases hb : 2 ^ 128 ≤ (x - minv) * 255
  · refine ⟨fun _ => hb, fun _ => ?_⟩
    have e : ((fin (x - minv)).bind fun d => fin (d * 255)) = none := by
      rw [g _ n0]
      split
      · rw [Option.bind_some, g _ n1, if_neg (not_lt.2 hb)]
      · rfl
    rw [gray, e]
    cases fin (maxv - minv) <;> rfl
  · refine ⟨fun h => ?_, fun h => absurd h hb⟩
    have hlt : (x - minv) * 255 < 2 ^ 128 := not_le.1 hb
    have e : ((fin (x - minv)).bind fun d => fin (d * 255)) = some ((x - minv) * 255) := by
      rw [g _ n0, if_pos (by linarith), Option.bind_some, g _ n1, if_pos hlt]
    rw [gray, e, g _ n2] at h
    by_cases hm : maxv - minv < 2 ^ 128
    · rw [if_pos hm] at h
      dsimp only at h
      have hs : 0 < (if maxv - minv ≠ 0 then maxv - minv else 1) := by
        split_ifs with h'
        · exact lt_of_le_of_ne n2 (Ne.symm h')
        · norm_num
      have hx : x - minv ≤ (if maxv - minv ≠ 0 then maxv - minv else 1) := by
        split_ifs with h'
        · linarith
        · rw [not_not] at h'; linarith
      have k0 : 0 ≤ (x - minv) * 255 / (if maxv - minv ≠ 0 then maxv - minv else 1) := div_nonneg n1 hs.le
      have k1 : (x - minv) * 255 / (if maxv - minv ≠ 0 then maxv - minv else 1) ≤ 255 := by rw [div_le_iff₀ hs]; linarith
      rw [if_pos ⟨by linarith, by linarith⟩] at h
      cases h
    · rw [if_neg hm] at h
      cases h

example : gray 0 (2 ^ 128 / 255) (2 ^ 128 / 255) = .ub := (C73_gray_ub (by norm_num) le_rfl).2 (by norm_num)

/-- **C73 is false (grey levels).** For a range of 2^127, which single precision can hold, the product with 255 is infinite, and so is what is converted. -/
theorem C73_gray_false : fin (2 ^ 127) = some (2 ^ 127) ∧ gray 0 (2 ^ 127) (2 ^ 127) = .ub := by
  constructor
  · norm_num [fin]
  · norm_num [gray, fin]

end Verif.Props
#print axioms Verif.Props.C73_gray_ub
