import Verif.Access.Lemmas
import Verif.Layout.Props
import Mathlib.Tactic.Linarith
import Mathlib.Algebra.Ring.Divisibility.Basic
/-! What `is_compatible` finds out, and what the buffers of copies are like. -/
namespace Verif.Acc
open Verif Spec Lay Vw Props

/-- the packings whose requests are understood: all but `aligned` and `aligned_512` -/
def Known : Packing → Prop
  | .any | .unitStride | .dense => True
  | .aligned => False
  | .alignedTo A => A ∈ [8, 16, 32, 64, 128, 256, 1024]

/-- the sizes, rounded up in any way, fit in `length_type` -/
def Room (sizes : List Nat) : Prop := (sizes.map fun (n : Nat) => n + 1024).prod < W₆₃

theorem room1 {a : Nat} (h : Room [a]) : a + 1024 < W₆₃ := by simpa [Room] using h
theorem room2 {a b : Nat} (h : Room [a, b]) : (a + 1024) * (b + 1024) < W₆₃ := by simpa [Room] using h
theorem room3 {a b c : Nat} (h : Room [a, b, c]) : (a + 1024) * ((b + 1024) * (c + 1024)) < W₆₃ := by simpa [Room] using h

theorem room_le2 {a b x y : Nat} (h : (a + 1024) * (b + 1024) < W₆₃) (hx : x ≤ a + 1024) (hy : y ≤ b + 1024) : x * y < W₆₃ :=
  lt_of_le_of_lt (Nat.mul_le_mul hx hy) h

theorem room_le3 {a b c x y z : Nat} (h : (a + 1024) * ((b + 1024) * (c + 1024)) < W₆₃) (hx : x ≤ a + 1024) (hy : y ≤ b + 1024) (hz : z ≤ c + 1024) :
    x * (y * z) < W₆₃ :=
  lt_of_le_of_lt (Nat.mul_le_mul hx (Nat.mul_le_mul hy hz)) h

theorem toSigned_small {n : Nat} (h : n < W₆₃) : toSigned n = n := by
  have h2 : n < W₆₄ := by omega
  unfold toSigned
  rw [Nat.mod_eq_of_lt h2, if_pos h]

theorem cont1 (o : List Nat) (ho : o ∈ orders 1) (a : Nat) (sta : List Int) (u : Nat) : Seen.Contiguous ⟨1, o, [a], [1], sta, u⟩ := by
  intro i hi
  obtain ⟨x, rfl, -⟩ := inr1 hi
  simp only [orders, List.mem_cons, List.not_mem_nil, or_false] at ho
  subst ho
  simp [Seen.off, Seen.number]

theorem cont2 (o : List Nat) (ho : o ∈ orders 2) (a b : Nat) (s t : Int) (sta : List Int) (u : Nat)
    (h1 : [s, t].getD (o.getD 1 0) 0 = 1) (h0 : [s, t].getD (o.getD 0 0) 0 = ([a, b].getD (o.getD 1 0) 0 : Nat) ∨ [a, b].getD (o.getD 0 0) 0 = 1) :
    Seen.Contiguous ⟨2, o, [a, b], [s, t], sta, u⟩ := by
  intro i hi
  obtain ⟨x, y, rfl, hx, hy⟩ := inr2 hi
  simp only [orders, List.mem_cons, List.not_mem_nil, or_false] at ho
  rcases ho with rfl | rfl <;> simp [Seen.off, Seen.number] at h0 h1 ⊢ <;> rcases h0 with h0 | h0 <;> subst h1 <;> subst h0
  · ring
  · obtain rfl : x = 0 := by omega
    simp
  · ring
  · obtain rfl : y = 0 := by omega
    simp

theorem cont3 (o : List Nat) (ho : o ∈ orders 3) (a b c : Nat) (s t r : Int) (sta : List Int) (u : Nat)
    (h2 : [s, t, r].getD (o.getD 2 0) 0 = 1)
    (h1 : [s, t, r].getD (o.getD 1 0) 0 = ([a, b, c].getD (o.getD 2 0) 0 : Nat) ∨ [a, b, c].getD (o.getD 1 0) 0 = 1)
    (h0 : [s, t, r].getD (o.getD 0 0) 0 = ([a, b, c].getD (o.getD 1 0) 0 * [a, b, c].getD (o.getD 2 0) 0 : Nat) ∨ [a, b, c].getD (o.getD 0 0) 0 = 1) :
    Seen.Contiguous ⟨3, o, [a, b, c], [s, t, r], sta, u⟩ := by
  intro i hi
  obtain ⟨x, y, z, rfl, hx, hy, hz⟩ := inr3 hi
  simp only [orders, List.mem_cons, List.not_mem_nil, or_false] at ho
  rcases ho with rfl | rfl | rfl | rfl | rfl | rfl <;> simp [Seen.off, Seen.number] at h0 h1 h2 ⊢ <;> subst h2 <;> rcases h0 with h0 | h0 <;>
    rcases h1 with h1 | h1 <;>
    subst h0 <;> (try subst h1) <;> (try (have e := Nat.lt_one_iff.1 hx; subst e)) <;> (try (have e := Nat.lt_one_iff.1 hy; subst e)) <;> (try (have e := Nat.lt_one_iff.1 hz; subst e)) <;>
    push_cast <;> ring

theorem lines1 (o : List Nat) (ho : o ∈ orders 1) (a A : Nat) (s : Int) (sta : List Int) (u : Nat) (hs : ∀ p ∈ sta, (A : Int) ∣ p) :
    Seen.Lines A ⟨1, o, [a], [s], sta, u⟩ := by
  intro p hp i hi h0
  obtain ⟨x, rfl, -⟩ := inr1 hi
  simp only [orders, List.mem_cons, List.not_mem_nil, or_false] at ho
  subst ho
  simp [Seen.minor] at h0
  subst h0
  simp [Seen.off]
  exact hs p hp

theorem lines2 (o : List Nat) (ho : o ∈ orders 2) (a b A : Nat) (s t : Int) (sta : List Int) (u : Nat) (hs : ∀ p ∈ sta, (A : Int) ∣ p)
    (h : (A : Int) ∣ [s, t].getD (o.getD 0 0) 0 * u) : Seen.Lines A ⟨2, o, [a, b], [s, t], sta, u⟩ := by
  intro p hp i hi h0
  obtain ⟨x, y, rfl, -⟩ := inr2 hi
  simp only [orders, List.mem_cons, List.not_mem_nil, or_false] at ho
  refine dvd_add (hs p hp) ?_
  rcases ho with rfl | rfl <;> simp [Seen.minor, Seen.off] at h0 h ⊢ <;> subst h0
  · rw [show (u : Int) * (x * s + (0 : Nat) * t) = x * (s * u) by push_cast; ring]
    exact dvd_mul_of_dvd_right h _
  · rw [show (u : Int) * ((0 : Nat) * s + y * t) = y * (t * u) by push_cast; ring]
    exact dvd_mul_of_dvd_right h _

theorem lines3 (o : List Nat) (ho : o ∈ orders 3) (a b c A : Nat) (s t r : Int) (sta : List Int) (u : Nat) (hs : ∀ p ∈ sta, (A : Int) ∣ p)
    (h0 : (A : Int) ∣ [s, t, r].getD (o.getD 0 0) 0 * u) (h1 : (A : Int) ∣ [s, t, r].getD (o.getD 1 0) 0 * u) :
    Seen.Lines A ⟨3, o, [a, b, c], [s, t, r], sta, u⟩ := by
  intro p hp i hi hm
  obtain ⟨x, y, z, rfl, -⟩ := inr3 hi
  simp only [orders, List.mem_cons, List.not_mem_nil, or_false] at ho
  refine dvd_add (hs p hp) ?_
  rcases ho with rfl | rfl | rfl | rfl | rfl | rfl <;> simp [Seen.minor, Seen.off] at hm h0 h1 ⊢ <;> subst hm
  all_goals
    obtain ⟨k, hk⟩ := h0
    obtain ⟨l, hl⟩ := h1
  · exact ⟨x * k + y * l, by push_cast; linear_combination (x : Int) * hk + (y : Int) * hl⟩
  · exact ⟨x * k + z * l, by push_cast; linear_combination (x : Int) * hk + (z : Int) * hl⟩
  · exact ⟨y * k + x * l, by push_cast; linear_combination (y : Int) * hk + (x : Int) * hl⟩
  · exact ⟨y * k + z * l, by push_cast; linear_combination (y : Int) * hk + (z : Int) * hl⟩
  · exact ⟨z * k + x * l, by push_cast; linear_combination (z : Int) * hk + (x : Int) * hl⟩
  · exact ⟨z * k + y * l, by push_cast; linear_combination (z : Int) * hk + (y : Int) * hl⟩

/-- the bytes of a stride, reduced modulo `2^64`, tell whether it is a multiple of a power of two -/
theorem dvd_of_toIdx {A : Nat} (hA : A ∈ [8, 16, 32, 64, 128, 256, 1024]) (z : Int) (h : toIdx z % A = 0) : (A : Int) ∣ z := by
  have hd : (A : Int) ∣ (W₆₄ : Nat) := by
    simp only [List.mem_cons, List.not_mem_nil, or_false] at hA
    rcases hA with rfl | rfl | rfl | rfl | rfl | rfl | rfl <;> exact ⟨_, (Int.mul_ediv_cancel' (by decide)).symm⟩
  have h1 : (A : Int) ∣ (toIdx z : Nat) := Int.natCast_dvd_natCast.2 (Nat.dvd_of_mod_eq_zero h)
  have h2 : ((toIdx z : Nat) : Int) = z % (W₆₄ : Nat) := by
    unfold toIdx
    exact Int.toNat_of_nonneg (Int.emod_nonneg _ (by decide))
  rw [h2] at h1
  have := dvd_add h1 (dvd_mul_of_dvd_left hd (z / (W₆₄ : Nat)))
  rwa [Int.emod_add_mul_ediv] at this

theorem of_yes {b : Bool} (h : Ans.of b = .yes) : b = true := by
  cases b <;> simp_all [Ans.of]

theorem align_known {A : Nat} (h : A ∈ [8, 16, 32, 64, 128, 256, 1024]) : packingAligned (.alignedTo A) = true ∧ packingAlignment (.alignedTo A) = A ∧ A ≠ 0 ∧ A ≤ 1024 ∧ A ∈ alignments := by
  refine ⟨by simpa [packingAligned] using h, by simp only [packingAlignment, if_pos h], ?_, ?_, ?_⟩ <;>
  · simp only [List.mem_cons, List.not_mem_nil, or_false] at h
    rcases h with rfl | rfl | rfl | rfl | rfl | rfl | rfl <;> simp [alignments]

/-- what `is_compatible` says of a request it understands is never a failed assertion -/
theorem compatible_ok (asserts : Bool) (r : Rq) (d : Ly) (s : Seen) (n : Nat) (hk : Known r.packing) : isCompatible asserts r d s n ≠ .bad := by
  have ans : ∀ b, Ans.of b ≠ .bad := by decide
  unfold isCompatible
  simp only
  split
  · simp
  · split
    · (repeat' split) <;> first | exact ans _ | simp
    · split
      · (repeat' split) <;> first | exact ans _ | simp
      · split
        · cases hp : r.packing with
          | alignedTo A =>
            rw [hp] at hk
            rw [if_neg (by rw [(align_known hk).2.1]; exact (align_known hk).2.2.1)]
            (repeat' split) <;> first | exact ans _ | simp
          | aligned => rw [hp] at hk; exact hk.elim
          | any => rename_i h; simp [hp, packingAligned] at h
          | dense => rename_i h; simp [hp, packingAligned] at h
          | unitStride => rename_i h; simp [hp, packingAligned] at h
        · rename_i h1 h2 h3
          cases hp : r.packing with
          | alignedTo A => rw [hp] at hk h3; exact absurd (align_known hk).1 h3
          | aligned => rw [hp] at hk; exact hk.elim
          | any => simp
          | dense => exact absurd hp h2
          | unitStride => exact absurd hp h1

theorem adj1 (o : List Nat) (ho : o ∈ orders 1) (a : Nat) (s : Int) (sta : List Int) (u : Nat) (h : s = 1) : Seen.Adjacent ⟨1, o, [a], [s], sta, u⟩ := by
  simp only [orders, List.mem_cons, List.not_mem_nil, or_false] at ho
  subst ho
  simpa [Seen.Adjacent, Seen.minor] using h

/-- what `is_compatible` grants is as requested -/
theorem compatible_meets (asserts : Bool) (r : Rq) (d : Ly) (s : Seen) (n : Nat) (hk : Known r.packing) (hd : s.dim = r.dim) (hl : s.sizes.length = r.dim) (hst : s.strides.length = r.dim)
    (ho : s.order = d.order) (hor : s.order ∈ orders r.dim) (hroom : Room s.sizes) (hu : (∃ A, r.packing = .alignedTo A) → s.unit = n) (h : isCompatible asserts r d s n = .yes) :
    s.Meets r.packing ∧ r.order = some s.order ∧ r.fmt = d.fmt := by
  obtain ⟨dim, o, sz, st, sta, u⟩ := s
  simp only at hd hl hst ho hor hroom hu
  obtain ⟨ddim, dorder, dpack, dfmt⟩ := d
  simp only at ho
  subst hd ho
  have dims := orders_dim hor
  unfold isCompatible at h
  simp only at h
  split at h
  · simp at h
  rename_i hc
  simp only [not_or, not_not] at hc
  refine ⟨?_, hc.2.symm, hc.1.symm⟩
  cases hp : r.packing with
  | any => trivial
  | aligned => rw [hp] at hk; exact hk.elim
  | unitStride =>
    rw [if_pos hp] at h
    rcases dims with e | e | e <;> rw [e] at h hl hst hor ⊢
    · obtain ⟨a, rfl⟩ := len1 hl
      obtain ⟨x, rfl⟩ := len1 hst
      exact adj1 _ hor _ _ _ _ (by simpa using of_yes h)
    · have := of_yes h
      simpa [Seen.Meets, Seen.Adjacent, Seen.minor] using this
    · have := of_yes h
      simpa [Seen.Meets, Seen.Adjacent, Seen.minor] using this
  | dense =>
    rw [if_neg (by rw [hp]; simp), if_pos hp] at h
    rcases dims with e | e | e <;> rw [e] at h hl hst hor ⊢
    · obtain ⟨a, rfl⟩ := len1 hl
      obtain ⟨x, rfl⟩ := len1 hst
      have : x = 1 := by simpa using of_yes h
      subst this
      exact ⟨adj1 _ hor _ _ _ _ rfl, cont1 _ hor _ _ _⟩
    · obtain ⟨a, b, rfl⟩ := len2 hl
      obtain ⟨x, y, rfl⟩ := len2 hst
      have := of_yes h
      simp only [Bool.and_eq_true, Bool.or_eq_true, beq_iff_eq] at this
      have hr := room2 hroom
      have hsm : ∀ k, [a, b].getD k 0 < W₆₃ := by
        intro k
        have h1 := room_le2 hr (x := a) (y := 1) (by omega) (by omega)
        have h2 := room_le2 hr (x := 1) (y := b) (by omega) (by omega)
        rcases k with _ | _ | k <;> simp <;> omega
      rw [toSigned_small (hsm _)] at this
      refine ⟨?_, cont2 _ hor _ _ _ _ _ _ this.1 this.2⟩
      exact this.1
    · obtain ⟨a, b, c, rfl⟩ := len3 hl
      obtain ⟨x, y, z, rfl⟩ := len3 hst
      have := of_yes h
      simp only [Bool.and_eq_true, Bool.or_eq_true, beq_iff_eq] at this
      obtain ⟨⟨q0, q1⟩, q2⟩ := this
      have hr := room3 hroom
      have hsm : ∀ k, [a, b, c].getD k 0 < W₆₃ := by
        intro k
        have h1 := room_le3 hr (x := a) (y := 1) (z := 1) (by omega) (by omega) (by omega)
        have h2 := room_le3 hr (x := 1) (y := b) (z := 1) (by omega) (by omega) (by omega)
        have h3 := room_le3 hr (x := 1) (y := 1) (z := c) (by omega) (by omega) (by omega)
        rcases k with _ | _ | _ | k <;> simp <;> omega
      have hpr : [a, b, c].getD (o.getD 1 0) 0 * [a, b, c].getD (o.getD 2 0) 0 < W₆₃ := by
        have h1 := room_le3 hr (x := 1) (y := b) (z := c) (by omega) (by omega) (by omega)
        have h2 := room_le3 hr (x := a) (y := 1) (z := c) (by omega) (by omega) (by omega)
        have h3 := room_le3 hr (x := a) (y := b) (z := 1) (by omega) (by omega) (by omega)
        simp only [orders, List.mem_cons, List.not_mem_nil, or_false] at hor
        rcases hor with rfl | rfl | rfl | rfl | rfl | rfl <;> simp at h1 h2 h3 ⊢ <;> first | assumption | (rw [Nat.mul_comm]; assumption)
      rw [toSigned_small (hsm _)] at q1
      rw [w_of_lt (by omega), toSigned_small hpr] at q0
      refine ⟨q2, cont3 _ hor _ _ _ _ _ _ _ _ q2 (q1.imp id And.left) q0⟩
  | alignedTo A =>
    rw [hp] at hk
    have hA := align_known hk
    rw [if_neg (by rw [hp]; simp), if_neg (by rw [hp]; simp), if_pos (by rw [hp]; exact hA.1)] at h
    rw [hp, hA.2.1, if_neg hA.2.2.1] at h
    split at h
    · simp at h
    rename_i hs
    simp only [not_not, List.all_eq_true, beq_iff_eq] at hs
    have hs' : ∀ p ∈ sta, (A : Int) ∣ p := fun p hq => Int.dvd_of_emod_eq_zero (hs p hq)
    have hun := hu ⟨A, hp⟩
    subst hun
    rcases dims with e | e | e <;> rw [e] at h hl hst hor ⊢
    · obtain ⟨a, rfl⟩ := len1 hl
      obtain ⟨x, rfl⟩ := len1 hst
      exact ⟨adj1 _ hor _ _ _ _ (by simpa using of_yes h), lines1 _ hor _ _ _ _ _ hs'⟩
    · obtain ⟨a, b, rfl⟩ := len2 hl
      obtain ⟨x, y, rfl⟩ := len2 hst
      have := of_yes h
      simp only [Bool.and_eq_true, beq_iff_eq] at this
      exact ⟨this.1, lines2 _ hor _ _ _ _ _ _ _ hs' (dvd_of_toIdx hk _ this.2)⟩
    · obtain ⟨a, b, c, rfl⟩ := len3 hl
      obtain ⟨x, y, z, rfl⟩ := len3 hst
      have := of_yes h
      simp only [Bool.and_eq_true, beq_iff_eq] at this
      exact ⟨this.1.1, lines3 _ hor _ _ _ _ _ _ _ _ _ hs' (dvd_of_toIdx hk _ this.2) (dvd_of_toIdx hk _ this.1.2)⟩

end Verif.Acc
