import Verif.Io.Model
import Mathlib.Tactic.Ring
import Mathlib.Tactic.Linarith
import Mathlib.Tactic.Positivity
import Mathlib.Tactic.FieldSimp

/-! # Rows of images, positions of elements, handles -/

namespace Verif.Io

/-! ## PNG -/

/-- If an element has a whole number of bytes, a row has as many as its elements. -/
theorem rowbytes_eq {p : Png} (h : p.Legal) {sz : ℕ} (hs : sz = p.depth * p.channels / 8) (h1 : 1 ≤ sz) : rowbytes p = p.width * sz := by
  have h8 : 8 ≤ p.depth * p.channels := by omega
  rw [rowbytes, if_pos h8, hs]

theorem rowOffset_eq {p : Png} {i : ℕ} (hi : i < p.height) (h : p.height * rowbytes p ≤ 2 ^ 32) (h0 : 0 < rowbytes p) : rowOffset p i = i * rowbytes p := by
  rw [rowOffset, Nat.mod_eq_of_lt]
  refine lt_of_lt_of_le ?_ h
  exact Nat.mul_lt_mul_of_pos_right hi h0

/-- After rows `0..n-1` are written. -/
theorem putRows {p : Png} {file : ℕ → ℕ → UInt8} {size : ℕ} {mem : ℕ → UInt8} (h : p.height * rowbytes p ≤ 2 ^ 32) (h0 : 0 < rowbytes p)
    (hs : p.height * rowbytes p ≤ size) (n : ℕ) (hn : n ≤ p.height) :
    ∃ m, (List.range n).foldl (putRow p file size) (.ok mem) = .ok m ∧ (∀ i < n, ∀ b < rowbytes p, m (i * rowbytes p + b) = file i b) ∧
      ∀ a, n * rowbytes p ≤ a → m a = mem a := by
  induction n with
  | zero => exact ⟨mem, rfl, by simp, fun _ _ => rfl⟩
  | succ n ih =>
    obtain ⟨m, e, h1, h2⟩ := ih (by omega)
    have ho := rowOffset_eq (p := p) (i := n) (by omega) h h0
    have hle : n * rowbytes p + rowbytes p ≤ size := by
      have : (n + 1) * rowbytes p ≤ p.height * rowbytes p := Nat.mul_le_mul_right _ hn
      rw [Nat.add_mul, Nat.one_mul] at this; omega
    refine ⟨fun a => if n * rowbytes p ≤ a ∧ a < n * rowbytes p + rowbytes p then file n (a - n * rowbytes p) else m a, ?_, ?_, ?_⟩
    · rw [List.range_succ, List.foldl_append, e, List.foldl_cons, List.foldl_nil, putRow, ho, if_pos hle]
    · intro i hi b hb
      dsimp only
      by_cases hin : i = n
      · subst hin
        rw [if_pos ⟨by omega, by omega⟩, Nat.add_sub_cancel_left]
      · have : (i + 1) * rowbytes p ≤ n * rowbytes p := Nat.mul_le_mul_right _ (by omega)
        rw [Nat.add_mul, Nat.one_mul] at this
        rw [if_neg (by omega)]
        exact h1 i (by omega) b hb
    · intro a ha
      rw [Nat.add_mul, Nat.one_mul] at ha
      dsimp only
      rw [if_neg (by omega)]
      exact h2 a (by omega)

/-! ## HDF5 -/

theorem flat_lt : ∀ {ds is : List ℕ}, Within ds is → flat ds is < prod ds
  | [], [], _ => by simp [flat, prod]
  | d :: ds, i :: is, h => by
    have := flat_lt h.2
    have h2 : (i + 1) * prod ds ≤ d * prod ds := Nat.mul_le_mul_right _ h.1
    rw [Nat.add_mul, Nat.one_mul] at h2
    simp only [flat, prod]; omega
  | [], _ :: _, h => h.elim
  | _ :: _, [], h => h.elim

theorem unflat_flat : ∀ {ds is : List ℕ}, Within ds is → unflat ds (flat ds is) = is
  | [], [], _ => rfl
  | d :: ds, i :: is, h => by
    have hl := flat_lt h.2
    simp only [flat, unflat]
    rw [Nat.mul_comm i, Nat.mul_add_div (by omega), Nat.div_eq_of_lt hl, Nat.mul_add_mod, Nat.mod_eq_of_lt hl, unflat_flat h.2, Nat.add_zero]
  | [], _ :: _, h => h.elim
  | _ :: _, [], h => h.elim

theorem flat_unflat : ∀ {ds : List ℕ} {k : ℕ}, k < prod ds → flat ds (unflat ds k) = k ∧ Within ds (unflat ds k)
  | [], k, h => by simp only [prod] at h; simp [flat, unflat, Within]; omega
  | d :: ds, k, h => by
    simp only [prod] at h
    have hp : 0 < prod ds := Nat.pos_of_ne_zero fun e => by rw [e] at h; omega
    obtain ⟨h1, h2⟩ := flat_unflat (ds := ds) (Nat.mod_lt k hp)
    simp only [flat, unflat, Within]
    rw [h1]
    exact ⟨Nat.div_add_mod' k _, by rw [Nat.div_lt_iff_lt_mul hp]; exact h, h2⟩

/-! ## Handles -/

/-- Every object has an open handle of its own. -/
structure Own (s : Handles) : Prop where
  isOpen : ∀ k h, s.get k = some h → s.isOpen h = true
  own : ∀ k k' h, s.get k = some h → s.get k' = some h → k = k'
  next : ∀ k h, s.get k = some h → h < s.next
  all : ∀ h, s.isOpen h = true → ∃ k, s.get k = some h

def Op.isCopy : Op → Bool
  | .copy _ => true
  | _ => false

theorem get_append {s : Handles} {x : Option ℕ} {op : ℕ → Bool} {n : ℕ} (k : ℕ) :
    Handles.get ⟨s.objs ++ [x], op, n⟩ k = if k < s.objs.length then s.get k else if k = s.objs.length then x else none := by
  simp only [Handles.get]
  by_cases h : k < s.objs.length
  · rw [if_pos h, List.getElem?_append_left h]
  · rw [if_neg h, List.getElem?_append_right (by omega)]
    by_cases h2 : k = s.objs.length
    · subst h2; simp
    · rw [if_neg h2, List.getElem?_eq_none (by simp; omega)]; rfl

theorem get_none {s : Handles} {k : ℕ} (h : ¬ k < s.objs.length) : s.get k = none := by
  rw [Handles.get, List.getElem?_eq_none (by omega)]; rfl

theorem get_set {s : Handles} {k0 : ℕ} {op : ℕ → Bool} (k : ℕ) :
    Handles.get ⟨s.objs.set k0 none, op, s.next⟩ k = if k = k0 then none else s.get k := by
  simp only [Handles.get]
  by_cases h : k = k0
  · subst h
    rw [if_pos rfl, List.getElem?_set_self']
    cases s.objs[k]? <;> rfl
  · rw [if_neg h, List.getElem?_set_ne (by omega)]

theorem hstep_own {s : Handles} (h : Own s) {o : Op} (ho : o.isCopy = false) : hstep s o = .throw ∨ ∃ s', hstep s o = .ok s' ∧ Own s' := by
  cases o with
  | make =>
    right
    refine ⟨_, rfl, ⟨?_, ?_, ?_, ?_⟩⟩
    · intro k x hk
      rw [get_append] at hk
      dsimp only
      by_cases hx : x = s.next
      · rw [if_pos hx]
      · rw [if_neg hx]
        split_ifs at hk with h1 h2
        · exact h.isOpen k x hk
        · exact absurd (Option.some.inj hk).symm hx
    · intro k k' x hk hk'
      rw [get_append] at hk hk'
      split_ifs at hk hk' with h1 h2 h3 h4 h5
      · exact h.own k k' x hk hk'
      · have := h.next k x hk
        have := Option.some.inj hk'
        omega
      · have := h.next k' x hk'
        have := Option.some.inj hk
        omega
      · omega
    · intro k x hk
      rw [get_append] at hk
      dsimp only
      split_ifs at hk with h1 h2
      · have := h.next k x hk; omega
      · have := Option.some.inj hk; omega
    · intro x hx
      dsimp only at hx
      by_cases e : x = s.next
      · exact ⟨s.objs.length, by rw [get_append]; simp [e]⟩
      · rw [if_neg e] at hx
        obtain ⟨k, hk⟩ := h.all x hx
        refine ⟨k, ?_⟩
        rw [get_append]
        by_cases hl : k < s.objs.length
        · rw [if_pos hl]; exact hk
        · rw [get_none hl] at hk; exact absurd hk (by simp)
  | copy k => simp [Op.isCopy] at ho
  | drop k0 =>
    rw [hstep]
    cases hk0 : s.get k0 with
    | none => left; rfl
    | some x0 =>
      right
      dsimp only
      rw [if_pos (h.isOpen k0 x0 hk0)]
      refine ⟨_, rfl, ⟨?_, ?_, ?_, ?_⟩⟩
      · intro k x hk
        rw [get_set] at hk
        split_ifs at hk with h1
        dsimp only
        rw [if_neg (fun e => h1 (h.own k k0 x hk (by rw [e]; exact hk0)))]
        exact h.isOpen k x hk
      · intro k k' x hk hk'
        rw [get_set] at hk hk'
        split_ifs at hk hk' with h1 h2
        exact h.own k k' x hk hk'
      · intro k x hk
        rw [get_set] at hk
        split_ifs at hk with h1
        exact h.next k x hk
      · intro x hx
        dsimp only at hx
        split_ifs at hx with e
        obtain ⟨k, hk⟩ := h.all x hx
        refine ⟨k, ?_⟩
        rw [get_set, if_neg]
        · exact hk
        · intro e2; rw [e2, hk0] at hk; exact e (Option.some.inj hk).symm
  | use k =>
    rw [hstep]
    cases hk : s.get k with
    | none => left; rfl
    | some x =>
      right
      dsimp only
      rw [if_pos (h.isOpen k x hk)]
      exact ⟨s, rfl, h⟩

theorem hrun_own {s : Handles} (h : Own s) {os : List Op} (ho : ∀ o ∈ os, o.isCopy = false) : hrun s os = .throw ∨ ∃ s', hrun s os = .ok s' ∧ Own s' := by
  induction os generalizing s with
  | nil => exact .inr ⟨s, rfl, h⟩
  | cons o os ih =>
    rw [hrun]
    rcases hstep_own h (ho o (by simp)) with e | ⟨s', e, h'⟩
    · rw [e]; exact .inl rfl
    · rw [e]; exact ih h' fun o ho' => ho o (by simp [ho'])

end Verif.Io
