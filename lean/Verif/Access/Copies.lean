import Verif.Access.Sound
/-! The buffers of copies. -/
namespace Verif.Acc
open Verif Spec Lay Vw Props

def ints' (st : List Nat) : List Int := st.map (fun (k : Nat) => (k : Int))

/-- distinct elements at distinct places inside the buffer -/
def Placed (sizes : List Nat) (st : List Int) (T : Nat) : Prop :=
  (∀ i, InRange i sizes → 0 ≤ Seen.off st i ∧ Seen.off st i < T) ∧ ∀ i j, InRange i sizes → InRange j sizes → Seen.off st i = Seen.off st j → i = j

theorem placed1 {n : Nat} {a : App 1} (h : Sound ![n] a) (hl : Linear1 ![n] a) : Placed [n] (ints' [a.stride 0]) a.total := by
  have key : ∀ x, x < n → Seen.off (ints' [a.stride 0]) [x] = (a.index ![x] : Nat) := by
    intro x hx
    rw [hl ![x] (fun d => by fin_cases d; simpa using hx)]
    simp [ints', Seen.off]
  refine ⟨fun i hi => ?_, fun i j hi hj e => ?_⟩
  · obtain ⟨x, rfl, hx⟩ := inr1 hi
    rw [key x hx]
    exact ⟨by omega, by exact_mod_cast h.bound ![x] (fun d => by fin_cases d; simpa using hx)⟩
  · obtain ⟨x, rfl, hx⟩ := inr1 hi
    obtain ⟨y, rfl, hy⟩ := inr1 hj
    rw [key x hx, key y hy] at e
    have := h.inj ![x] ![y] (fun d => by fin_cases d; simpa using hx) (fun d => by fin_cases d; simpa using hy) (by exact_mod_cast e)
    simpa using congrFun this 0

theorem placed2 {n m : Nat} {a : App 2} (h : Sound ![n, m] a) (hl : Linear2 ![n, m] a) : Placed [n, m] (ints' [a.stride 0, a.stride 1]) a.total := by
  have ok : ∀ x y, x < n → y < m → Ok ![n, m] ![x, y] := by
    intro x y hx hy d
    fin_cases d
    · simpa using hx
    · simpa using hy
  have key : ∀ x y, x < n → y < m → Seen.off (ints' [a.stride 0, a.stride 1]) [x, y] = (a.index ![x, y] : Nat) := by
    intro x y hx hy
    rw [hl ![x, y] (ok x y hx hy)]
    simp [ints', Seen.off]
  refine ⟨fun i hi => ?_, fun i j hi hj e => ?_⟩
  · obtain ⟨x, y, rfl, hx, hy⟩ := inr2 hi
    rw [key x y hx hy]
    exact ⟨by omega, by exact_mod_cast h.bound ![x, y] (ok x y hx hy)⟩
  · obtain ⟨x, y, rfl, hx, hy⟩ := inr2 hi
    obtain ⟨x', y', rfl, hx', hy'⟩ := inr2 hj
    rw [key x y hx hy, key x' y' hx' hy'] at e
    have := h.inj ![x, y] ![x', y'] (ok x y hx hy) (ok x' y' hx' hy') (by exact_mod_cast e)
    have e0 := congrFun this 0
    have e1 := congrFun this 1
    simp at e0 e1
    rw [e0, e1]

theorem placed3 {n m k : Nat} {a : App 3} (h : Sound ![n, m, k] a) (hl : Linear3 ![n, m, k] a) : Placed [n, m, k] (ints' [a.stride 0, a.stride 1, a.stride 2]) a.total := by
  have ok : ∀ x y z, x < n → y < m → z < k → Ok ![n, m, k] ![x, y, z] := by
    intro x y z hx hy hz d
    fin_cases d
    · simpa using hx
    · simpa using hy
    · simpa using hz
  have key : ∀ x y z, x < n → y < m → z < k → Seen.off (ints' [a.stride 0, a.stride 1, a.stride 2]) [x, y, z] = (a.index ![x, y, z] : Nat) := by
    intro x y z hx hy hz
    rw [hl ![x, y, z] (ok x y z hx hy hz)]
    simp [ints', Seen.off]
    ring
  refine ⟨fun i hi => ?_, fun i j hi hj e => ?_⟩
  · obtain ⟨x, y, z, rfl, hx, hy, hz⟩ := inr3 hi
    rw [key x y z hx hy hz]
    exact ⟨by omega, by exact_mod_cast h.bound ![x, y, z] (ok x y z hx hy hz)⟩
  · obtain ⟨x, y, z, rfl, hx, hy, hz⟩ := inr3 hi
    obtain ⟨x', y', z', rfl, hx', hy', hz'⟩ := inr3 hj
    rw [key x y z hx hy hz, key x' y' z' hx' hy' hz'] at e
    have := h.inj ![x, y, z] ![x', y', z'] (ok x y z hx hy hz) (ok x' y' z' hx' hy' hz') (by exact_mod_cast e)
    have e0 := congrFun this 0
    have e1 := congrFun this 1
    have e2 := congrFun this 2
    simp at e0 e1 e2
    rw [e0, e1, e2]

theorem alignments_le {A : Nat} (h : A ∈ alignments) : 0 < A ∧ A ≤ 1024 := by
  simp only [alignments, List.mem_cons, List.not_mem_nil, or_false] at h
  omega

theorem dvd_mul_unit {A k : Nat} (h : A ∣ k) (u : Nat) : (A : Int) ∣ (k : Int) * u :=
  dvd_mul_of_dvd_left (Int.natCast_dvd_natCast.2 h) _

/-- the result of `applied`: the promise of the packing is kept and the elements are in the buffer -/
def Good (l : Ly) (sizes st : List Nat) (T : Nat) : Prop :=
  st.length = l.dim ∧ Placed sizes (ints' st) T ∧
    ∀ sta u, (∀ A, l.packing = .alignedTo A → ∀ p ∈ sta, (A : Int) ∣ p) → Seen.Meets l.packing ⟨l.dim, l.order, sizes, ints' st, sta, u⟩

theorem applied1 (o : List Nat) (p : Packing) (f : Fmt) (n : Nat) (ho : o ∈ orders 1) (hp : p = .dense ∨ ∃ A ∈ alignments, p = .alignedTo A) :
    ∃ st T, applied ⟨1, o, p, f⟩ [n] = some (st, T) ∧ Good ⟨1, o, p, f⟩ [n] st T := by
  obtain ⟨hs, -, hl⟩ := C19_dense1 ![n]
  refine ⟨[(dense1 ![n]).stride 0], (dense1 ![n]).total, ?_, rfl, placed1 hs hl, ?_⟩
  · rcases hp with rfl | ⟨A, hA, rfl⟩
    · rfl
    · simp only [applied, if_pos hA]
  · intro sta u hsta
    rcases hp with rfl | ⟨A, hA, rfl⟩
    · exact ⟨adj1 _ ho _ _ _ _ rfl, cont1 _ ho _ _ _⟩
    · exact ⟨adj1 _ ho _ _ _ _ rfl, lines1 _ ho _ _ _ _ _ (hsta A rfl)⟩

theorem applied2 (o : List Nat) (p : Packing) (f : Fmt) (n m : Nat) (hroom : Room [n, m]) (ho : o ∈ orders 2) (hp : p = .dense ∨ ∃ A ∈ alignments, p = .alignedTo A) :
    ∃ st T, applied ⟨2, o, p, f⟩ [n, m] = some (st, T) ∧ Good ⟨2, o, p, f⟩ [n, m] st T := by
  have hr := room2 hroom
  have ho' := ho
  simp only [orders, List.mem_cons, List.not_mem_nil, or_false] at ho'
  have hnm := room_le2 hr (x := n) (y := m) (by omega) (by omega)
  rcases hp with rfl | ⟨A, hA, rfl⟩
  · rcases ho' with rfl | rfl
    · obtain ⟨hs, -, hl⟩ := C19_dense2row ![n, m] (by simp; omega)
      refine ⟨_, _, rfl, rfl, placed2 hs hl, fun sta u _ => ⟨?_, ?_⟩⟩
      · simp [Seen.Adjacent, Seen.minor, ints', dense2row]
      · exact cont2 _ ho _ _ _ _ _ _ (by simp [dense2row]) (by left; simp [dense2row])
    · obtain ⟨hs, -, hl⟩ := C19_dense2col ![n, m] (by simp; omega)
      refine ⟨_, _, rfl, rfl, placed2 hs hl, fun sta u _ => ⟨?_, ?_⟩⟩
      · simp [Seen.Adjacent, Seen.minor, ints', dense2col]
      · exact cont2 _ ho _ _ _ _ _ _ (by simp [dense2col]) (by left; simp [dense2col])
  · have hb := alignments_le hA
    rcases ho' with rfl | rfl
    · obtain ⟨hs, hl⟩ := C19_aligned2row A hb.1 ![n, m] (by
        have := room_le2 hr (x := n + 1) (y := m + A) (by omega) (by omega)
        rw [Nat.mul_comm] at this
        simp; omega)
      have hm : m + A < W₆₄ := by
        have := room_le2 hr (x := 1) (y := m + A) (by omega) (by omega)
        omega
      refine ⟨_, _, by simp only [applied, if_pos hA, if_true], rfl, placed2 hs hl, fun sta u hsta => ⟨?_, ?_⟩⟩
      · simp [Seen.Adjacent, Seen.minor, ints', aligned2row]
      · exact lines2 _ ho _ _ _ _ _ _ _ (hsta A rfl) (by simpa [aligned2row] using dvd_mul_unit (roundUp_spec hb.1 hm).1.1 u)
    · obtain ⟨hs, hl⟩ := C19_aligned2col_partial A hb.1 ![n, m] (by
        have := room_le2 hr (x := n + A) (y := m + 1) (by omega) (by omega)
        simp; omega)
      have hm : n + A < W₆₄ := by
        have := room_le2 hr (x := n + A) (y := 1) (by omega) (by omega)
        omega
      refine ⟨_, _, by simp only [applied, if_pos hA]; rfl, rfl, placed2 hs hl, fun sta u hsta => ⟨?_, ?_⟩⟩
      · simp [Seen.Adjacent, Seen.minor, ints', aligned2col, aligned2colOf]
      · exact lines2 _ ho _ _ _ _ _ _ _ (hsta A rfl) (by simpa [aligned2col, aligned2colOf] using dvd_mul_unit (roundUp_spec hb.1 hm).1.1 u)

/-- three dimensions of an order -/
theorem orders3 {o : List Nat} (ho : o ∈ orders 3) : ∃ d0 d1 d2 : Fin 3, o = [(d0 : Nat), (d1 : Nat), (d2 : Nat)] ∧ d0 ≠ d1 ∧ d0 ≠ d2 ∧ d1 ≠ d2 := by
  have ho' := ho
  simp only [orders, List.mem_cons, List.not_mem_nil, or_false] at ho'
  rcases ho' with rfl | rfl | rfl | rfl | rfl | rfl
  · exact ⟨0, 1, 2, by decide⟩
  · exact ⟨0, 2, 1, by decide⟩
  · exact ⟨1, 0, 2, by decide⟩
  · exact ⟨1, 2, 0, by decide⟩
  · exact ⟨2, 0, 1, by decide⟩
  · exact ⟨2, 1, 0, by decide⟩

theorem getD_fin3 {α : Type} (f : Fin 3 → α) (d : Fin 3) (z : α) : [f 0, f 1, f 2].getD (d : Nat) z = f d := by
  fin_cases d <;> rfl

theorem room_perm {n m k A : Nat} (hA : A ≤ 1024) (h : (n + 1024) * ((m + 1024) * (k + 1024)) < W₆₃) (d0 d1 d2 : Fin 3) (h01 : d0 ≠ d1) (h02 : d0 ≠ d2) (h12 : d1 ≠ d2) :
    (![n, m, k] d0 + 1) * ((![n, m, k] d1 + 1) * (![n, m, k] d2 + A)) < W₆₃ := by
  refine lt_of_le_of_lt (Nat.mul_le_mul (Nat.add_le_add_left (show 1 ≤ 1024 by omega) _) (Nat.mul_le_mul (Nat.add_le_add_left (show 1 ≤ 1024 by omega) _) (Nat.add_le_add_left hA _))) ?_
  have e : (![n, m, k] d0 + 1024) * ((![n, m, k] d1 + 1024) * (![n, m, k] d2 + 1024)) = (n + 1024) * ((m + 1024) * (k + 1024)) := by
    refine (prod3 h01 h02 h12 (fun d => ![n, m, k] d + 1024)).symm.trans ?_
    simp only [Matrix.cons_val_zero, Matrix.cons_val_one, Matrix.cons_val]
    ring
  rw [e]
  exact h

theorem applied3 (o : List Nat) (p : Packing) (f : Fmt) (n m k : Nat) (hroom : Room [n, m, k]) (ho : o ∈ orders 3) (hp : p = .dense ∨ ∃ A ∈ alignments, p = .alignedTo A) :
    ∃ st T, applied ⟨3, o, p, f⟩ [n, m, k] = some (st, T) ∧ Good ⟨3, o, p, f⟩ [n, m, k] st T := by
  have hr := room3 hroom
  obtain ⟨d0, d1, d2, eo, h01, h02, h12⟩ := orders3 ho
  have e0 : Fin.ofNat 3 (o.getD 0 0) = d0 := by subst eo; ext; simp [Fin.ofNat]
  have e1 : Fin.ofNat 3 (o.getD 1 0) = d1 := by subst eo; ext; simp [Fin.ofNat]
  have e2 : Fin.ofNat 3 (o.getD 2 0) = d2 := by subst eo; ext; simp [Fin.ofNat]
  have g0 : o.getD 0 0 = (d0 : Nat) := by subst eo; rfl
  have g1 : o.getD 1 0 = (d1 : Nat) := by subst eo; rfl
  have g2 : o.getD 2 0 = (d2 : Nat) := by subst eo; rfl
  have gs : ∀ d : Fin 3, [n, m, k].getD (d : Nat) 0 = ![n, m, k] d := by intro d; fin_cases d <;> rfl
  have gt : ∀ (a : Fin 3 → Nat) (d : Fin 3), (ints' [a 0, a 1, a 2]).getD (d : Nat) 0 = (a d : Int) := by intro a d; fin_cases d <;> rfl
  rcases hp with rfl | ⟨A, hA, rfl⟩
  · have hb := room_perm (A := 0) (by omega) hr d0 d1 d2 h01 h02 h12
    have hb12 : ![n, m, k] d1 * ![n, m, k] d2 < W₆₄ := by
      have : 1 * (![n, m, k] d1 * ![n, m, k] d2) ≤ (![n, m, k] d0 + 1) * ((![n, m, k] d1 + 1) * (![n, m, k] d2 + 0)) :=
        Nat.mul_le_mul (by omega) (Nat.mul_le_mul (by omega) (by omega))
      omega
    obtain ⟨hs, -, hl⟩ := C19_dense3 d0 d1 d2 h01 h02 h12 ![n, m, k] (by
      have := room_le3 hr (x := n) (y := m) (z := k) (by omega) (by omega) (by omega)
      simp only [Matrix.cons_val_zero, Matrix.cons_val_one, Matrix.cons_val]
      rw [Nat.mul_assoc]; omega)
    have s0 : (dense3 d0 d1 d2 ![n, m, k]).stride d0 = ![n, m, k] d1 * ![n, m, k] d2 := by
      show (if d0 = d2 then 1 else if d0 = d1 then _ else _) = _
      rw [if_neg h02, if_neg h01, w_of_lt hb12]
    have s1 : (dense3 d0 d1 d2 ![n, m, k]).stride d1 = ![n, m, k] d2 := by
      show (if d1 = d2 then 1 else if d1 = d1 then _ else _) = _
      rw [if_neg h12, if_pos rfl]
    have s2 : (dense3 d0 d1 d2 ![n, m, k]).stride d2 = 1 := by
      show (if d2 = d2 then 1 else _) = _
      rw [if_pos rfl]
    refine ⟨_, _, by simp only [applied, e0, e1, e2], rfl, placed3 hs hl, fun sta u _ => ⟨?_, ?_⟩⟩
    · show (ints' _).getD (o.getD 2 0) 0 = 1
      rw [g2, gt, s2]; rfl
    · refine cont3 _ ho _ _ _ _ _ _ _ _ ?_ (Or.inl ?_) (Or.inl ?_)
      · rw [g2]; exact (gt _ d2).trans (by rw [s2]; rfl)
      · rw [g1, g2, gs]; exact (gt _ d1).trans (by rw [s1])
      · rw [g0, g1, g2, gs, gs]; exact (gt _ d0).trans (by rw [s0])
  · have hb := alignments_le hA
    have hrm := room_perm hb.2 hr d0 d1 d2 h01 h02 h12
    obtain ⟨hs, hl⟩ := C19_aligned3 A hb.1 d0 d1 d2 h01 h02 h12 ![n, m, k] (by omega)
    have hst := strides3_at h01 h02 h12 1 (roundUp A (![n, m, k] d2)) (w (![n, m, k] d1 * roundUp A (![n, m, k] d2)))
    have hm2 : ![n, m, k] d2 + A < W₆₄ := by
      have : 1 * (1 * (![n, m, k] d2 + A)) ≤ (![n, m, k] d0 + 1) * ((![n, m, k] d1 + 1) * (![n, m, k] d2 + A)) :=
        Nat.mul_le_mul (by omega) (Nat.mul_le_mul (by omega) (by omega))
      omega
    have hru := roundUp_spec hb.1 hm2
    have hm1 : ![n, m, k] d1 * roundUp A (![n, m, k] d2) < W₆₄ := by
      have : 1 * (![n, m, k] d1 * roundUp A (![n, m, k] d2)) ≤ (![n, m, k] d0 + 1) * ((![n, m, k] d1 + 1) * (![n, m, k] d2 + A)) :=
        Nat.mul_le_mul (by omega) (Nat.mul_le_mul (by omega) (by omega))
      omega
    rw [w_of_lt hm1] at hst
    have s0 : (aligned3 A d0 d1 d2 ![n, m, k]).stride d0 = ![n, m, k] d1 * roundUp A (![n, m, k] d2) := by
      show strides3 d0 d1 d2 1 _ (w _) d0 = _
      rw [w_of_lt hm1]; exact hst.1
    have s1 : (aligned3 A d0 d1 d2 ![n, m, k]).stride d1 = roundUp A (![n, m, k] d2) := by
      show strides3 d0 d1 d2 1 _ (w _) d1 = _
      rw [w_of_lt hm1]; exact hst.2.1
    have s2 : (aligned3 A d0 d1 d2 ![n, m, k]).stride d2 = 1 := by
      show strides3 d0 d1 d2 1 _ (w _) d2 = _
      rw [w_of_lt hm1]; exact hst.2.2
    refine ⟨_, _, by simp only [applied, e0, e1, e2, if_pos hA], rfl, placed3 hs hl, fun sta u hsta => ⟨?_, ?_⟩⟩
    · show (ints' _).getD (o.getD 2 0) 0 = 1
      rw [g2, gt, s2]; rfl
    · refine lines3 _ ho _ _ _ _ _ _ _ _ _ (hsta A rfl) ?_ ?_
      · rw [g0]
        have e : ([(((aligned3 A d0 d1 d2 ![n, m, k]).stride 0 : Nat) : Int), (((aligned3 A d0 d1 d2 ![n, m, k]).stride 1 : Nat) : Int), (((aligned3 A d0 d1 d2 ![n, m, k]).stride 2 : Nat) : Int)]).getD (d0 : Nat) 0 = _ := gt _ d0
        rw [e, s0]
        exact dvd_mul_unit (dvd_mul_of_dvd_right hru.1.1 _) u
      · rw [g1]
        have e : ([(((aligned3 A d0 d1 d2 ![n, m, k]).stride 0 : Nat) : Int), (((aligned3 A d0 d1 d2 ![n, m, k]).stride 1 : Nat) : Int), (((aligned3 A d0 d1 d2 ![n, m, k]).stride 2 : Nat) : Int)]).getD (d1 : Nat) 0 = _ := gt _ d1
        rw [e, s1]
        exact dvd_mul_unit hru.1.1 u

/-- the buffer of any copy -/
theorem applied_good (l : Ly) (sizes : List Nat) (hd : sizes.length = l.dim) (ho : l.order ∈ orders l.dim) (hroom : Room sizes)
    (hp : l.packing = .dense ∨ ∃ A ∈ alignments, l.packing = .alignedTo A) : ∃ st T, applied l sizes = some (st, T) ∧ Good l sizes st T := by
  obtain ⟨dim, o, p, f⟩ := l
  simp only at hd ho hp
  rcases orders_dim ho with rfl | rfl | rfl
  · obtain ⟨n, rfl⟩ := len1 hd
    exact applied1 o p f n ho hp
  · obtain ⟨n, m, rfl⟩ := len2 hd
    exact applied2 o p f n m hroom ho hp
  · obtain ⟨n, m, k, rfl⟩ := len3 hd
    exact applied3 o p f n m k hroom ho hp

end Verif.Acc
