import Verif.Storage.Model
import Mathlib.Data.List.Basic
import Mathlib.Data.List.Nodup
import Mathlib.Data.List.Range
/-! Lemmas about the storage model. -/
namespace Verif.Stor
variable {R : Type}

theorem store_of_load {h : Heap R} {p : Option Ptr} {y : R} (x : R) (hl : h.load p = some y) :
    ∃ h', h.store p x = some h' ∧ h'.size = h.size ∧ h'.next = h.next ∧ h'.load p = some x ∧ ∀ q, q ≠ p → h'.load q = h.load q := by
  cases p with
  | none => simp [Heap.load] at hl
  | some p =>
    simp only [Heap.load, Option.bind_some] at hl
    cases hs : h.size p.blk with
    | none => simp [hs] at hl
    | some n =>
      by_cases hn : p.off < n
      · refine ⟨{ h with val := fun b k => if b = p.blk ∧ k = p.off then x else h.val b k },
          by simp only [Heap.store, Option.bind_some, hs, if_pos hn], rfl, rfl, ?_, ?_⟩
        · simp [Heap.load, hs, hn]
        · intro q hq
          cases q with
          | none => rfl
          | some q =>
            have : ¬ (q.blk = p.blk ∧ q.off = p.off) := by
              rintro ⟨a, b⟩; apply hq; cases q; cases p; simp_all
            simp only [Heap.load, Option.bind_some, if_neg this]
      · simp [hs, hn] at hl

/-- storing at distinct cells -/
theorem stores (addr : Nat → Option Ptr) (x : Nat → Option R) : ∀ (cs : List Nat) (h : Heap R), cs.Nodup →
    (∀ c ∈ cs, ∃ y, h.load (addr c) = some y) → (∀ c ∈ cs, (x c).isSome) → (∀ c ∈ cs, ∀ c' ∈ cs, addr c = addr c' → c = c') →
    ∃ h', cs.foldlM (fun h c => (x c).bind fun x => h.store (addr c) x) h = some h' ∧ h'.size = h.size ∧ h'.next = h.next ∧
      (∀ c ∈ cs, h'.load (addr c) = x c) ∧ ∀ q, (∀ c ∈ cs, q ≠ addr c) → h'.load q = h.load q
  | [], h, _, _, _, _ => ⟨h, rfl, rfl, rfl, by simp, by simp⟩
  | c :: cs, h, nd, hl, hx, hi => by
    obtain ⟨y, hy⟩ := hl c (by simp)
    obtain ⟨z, hz⟩ := Option.isSome_iff_exists.mp (hx c (by simp))
    obtain ⟨h1, e1, s1, n1, l1, o1⟩ := store_of_load z hy
    have nc : c ∉ cs := (List.nodup_cons.mp nd).1
    have ne : ∀ d ∈ cs, addr d ≠ addr c := fun d hd e => nc (hi d (by simp [hd]) c (by simp) e ▸ hd)
    obtain ⟨h2, e2, s2, n2, l2, o2⟩ := stores addr x cs h1 (List.nodup_cons.mp nd).2
      (fun d hd => by rw [o1 _ (ne d hd)]; exact hl d (by simp [hd])) (fun d hd => hx d (by simp [hd]))
      (fun d hd d' hd' => hi d (by simp [hd]) d' (by simp [hd']))
    refine ⟨h2, ?_, s2.trans s1, n2.trans n1, ?_, ?_⟩
    · rw [List.foldlM_cons, hz]; simp only [Option.bind_some, e1]; exact e2
    · intro d hd
      rcases List.mem_cons.mp hd with rfl | hd
      · rw [o2 _ (fun e he => (ne e he).symm), l1, hz]
      · exact l2 d hd
    · intro q hq
      rw [o2 q (fun d hd => hq d (by simp [hd])), o1 q (hq c (by simp))]

/-- every element of the buffer can be accessed and different components have different cells -/
structure Buf (h : Heap R) (w : Nat) (sp : Bool) (d : Data) (n : Nat) : Prop where
  nonnull : d.fst ≠ none
  live : ∀ i < n, ∀ c < w, ∃ x, h.load (cell w sp d i c) = some x
  inj : ∀ i < n, ∀ c < w, ∀ i' < n, ∀ c' < w, cell w sp d i c = cell w sp d i' c' → i = i' ∧ c = c'

theorem mapM_get {α : Type} (f : Nat → Option α) : ∀ (w : Nat) (v : List α),
    (List.range w).mapM f = some v ↔ v.length = w ∧ ∀ c < w, f c = v[c]? := by
  intro w
  induction w with
  | zero => intro v; simp [eq_comm]
  | succ w ih =>
    intro v
    rw [List.range_succ, List.mapM_append]
    constructor
    · intro hh
      cases h1 : (List.range w).mapM f with
      | none => simp [h1] at hh
      | some u =>
        obtain ⟨hl, hu⟩ := (ih u).mp h1
        cases h2 : f w with
        | none => simp [h1, h2] at hh
        | some x =>
          simp [h1, h2] at hh
          subst hh
          refine ⟨by simp [hl], fun c hc => ?_⟩
          by_cases e : c = w
          · subst e; rw [List.getElem?_append_right (by omega), hl]; simp [h2]
          · rw [List.getElem?_append_left (by omega)]; exact hu c (by omega)
    · rintro ⟨hl, hv⟩
      have e : v = v.take w ++ [v[w]'(by omega)] := by
        conv_lhs => rw [← List.take_length (l := v), hl, List.take_succ]
        simp [List.getElem?_eq_getElem (show w < v.length by omega)]
      have h1 : (List.range w).mapM f = some (v.take w) := (ih _).mpr ⟨by simp [hl], fun c hc => by
        rw [hv c (by omega), List.getElem?_take, if_pos hc]⟩
      have h2 : f w = some (v[w]'(by omega)) := by rw [hv w (by omega)]; exact List.getElem?_eq_getElem _
      rw [h1]
      simp only [List.mapM_cons, h2, List.mapM_nil]
      conv_rhs => rw [e]
      rfl

theorem getE_eq {h : Heap R} {w : Nat} {sp : Bool} {d : Data} {i : Nat} {v : List R} :
    getE h w sp d i = some v ↔ v.length = w ∧ ∀ c < w, h.load (cell w sp d i c) = v[c]? := mapM_get _ _ _

theorem getE_of_live {h : Heap R} {w : Nat} {sp : Bool} {d : Data} {n i : Nat} (hb : Buf h w sp d n) (hi : i < n) :
    ∃ v, getE h w sp d i = some v := by
  have : ∀ k ≤ w, ∃ v, (List.range k).mapM (fun c => h.load (cell w sp d i c)) = some v := by
    intro k
    induction k with
    | zero => intro _; exact ⟨[], by simp⟩
    | succ k ih =>
      intro hk
      obtain ⟨v, hv⟩ := ih (by omega)
      obtain ⟨x, hx⟩ := hb.live i hi k (by omega)
      exact ⟨v ++ [x], by rw [List.range_succ, List.mapM_append, hv]; simp [hx]⟩
  exact this w le_rfl

theorem getE_congr {h h' : Heap R} {w : Nat} {sp : Bool} {d : Data} {i : Nat}
    (e : ∀ c < w, h'.load (cell w sp d i c) = h.load (cell w sp d i c)) : getE h' w sp d i = getE h w sp d i := by
  apply Option.ext
  intro v
  rw [getE_eq, getE_eq]
  exact and_congr_right fun _ => forall_congr' fun c => forall_congr' fun hc => by rw [e c hc]

/-- writing one element -/
theorem putE_spec {h : Heap R} {w : Nat} {sp : Bool} {d : Data} {n i : Nat} {v : List R} (hb : Buf h w sp d n) (hi : i < n)
    (hv : v.length = w) : ∃ h', putE h w sp d i v = some h' ∧ h'.size = h.size ∧ h'.next = h.next ∧ getE h' w sp d i = some v ∧
      ∀ q, (∀ c < w, q ≠ cell w sp d i c) → h'.load q = h.load q := by
  obtain ⟨h', e, s, nx, l, o⟩ := stores (fun c => cell w sp d i c) (fun c => v[c]?) (List.range w) h List.nodup_range
    (fun c hc => hb.live i hi c (List.mem_range.mp hc))
    (fun c hc => by have := List.mem_range.mp hc; simp; omega)
    (fun c hc c' hc' e => (hb.inj i hi c (List.mem_range.mp hc) i hi c' (List.mem_range.mp hc') e).2)
  exact ⟨h', e, s, nx, getE_eq.mpr ⟨hv, fun c hc => l c (List.mem_range.mpr hc)⟩, fun q hq => o q fun c hc => hq c (List.mem_range.mp hc)⟩

theorem Buf.of_size {h h' : Heap R} {w : Nat} {sp : Bool} {d : Data} {n : Nat} (hb : Buf h w sp d n) (e : h'.size = h.size) :
    Buf h' w sp d n := by
  refine ⟨hb.nonnull, fun i hi c hc => ?_, hb.inj⟩
  obtain ⟨x, hx⟩ := hb.live i hi c hc
  cases hp : cell w sp d i c with
  | none => simp [hp, Heap.load] at hx
  | some p =>
    rw [hp] at hx
    simp only [Heap.load, Option.bind_some, e] at hx ⊢
    cases hs : h.size p.blk with
    | none => simp [hs] at hx
    | some m =>
      by_cases hm : p.off < m
      · exact ⟨_, by simp [hm]; rfl⟩
      · simp [hs, hm] at hx

/-- the copying loops of `admit` and `release` -/
theorem copy_loop {w : Nat} {sp sp' : Bool} {d d' : Data} {n : Nat} {h0 : Heap R} (hb : Buf h0 w sp d n) (hb' : Buf h0 w sp' d' n)
    (dis : ∀ i < n, ∀ c < w, ∀ i' < n, ∀ c' < w, cell w sp d i c ≠ cell w sp' d' i' c') : ∀ k ≤ n,
    ∃ h', (List.range k).foldlM (fun h i => (getE h w sp d i).bind fun v => putE h w sp' d' i v) h0 = some h' ∧
      h'.size = h0.size ∧ h'.next = h0.next ∧ (∀ i < k, getE h' w sp' d' i = getE h0 w sp d i) ∧
      ∀ q, (∀ i < n, ∀ c < w, q ≠ cell w sp' d' i c) → h'.load q = h0.load q := by
  intro k
  induction k with
  | zero => intro _; exact ⟨h0, rfl, rfl, rfl, by simp, fun _ _ => rfl⟩
  | succ k ih =>
    intro hk
    obtain ⟨h1, e1, s1, n1, g1, o1⟩ := ih (by omega)
    have same : getE h1 w sp d k = getE h0 w sp d k :=
      getE_congr fun c hc => o1 _ fun i hi c' hc' => dis k (by omega) c hc i hi c' hc'
    obtain ⟨v, hv⟩ := getE_of_live hb (show k < n by omega)
    obtain ⟨h2, e2, s2, n2, g2, o2⟩ := putE_spec (hb'.of_size s1) (show k < n by omega) (getE_eq.mp hv).1
    refine ⟨h2, ?_, s2.trans s1, n2.trans n1, ?_, ?_⟩
    · rw [List.range_succ, List.foldlM_append, e1]
      simp only [Option.bind_eq_bind, Option.bind_some, List.foldlM_cons, List.foldlM_nil, same, hv, e2]
      rfl
    · intro i hi
      by_cases e : i = k
      · subst e; rw [g2, hv]
      · rw [← g1 i (by omega)]
        exact getE_congr fun c hc => o2 _ fun c' hc' ee => e (hb'.inj i (by omega) c hc k (by omega) c' hc' ee).1
    · intro q hq
      rw [o2 q (fun c hc => hq k (by omega) c hc), o1 q hq]

/-- block `b` is pointed into -/
def uses (sp : Bool) (d : Data) (b : Nat) : Prop :=
  (∃ p, d.fst = some p ∧ p.blk = b) ∨ (sp = true ∧ ∃ p, d.snd = some p ∧ p.blk = b)

theorem cell_uses {w : Nat} {sp : Bool} {d : Data} {i c : Nat} {q : Ptr} (e : cell w sp d i c = some q) : uses sp d q.blk := by
  unfold cell at e
  cases sp
  · simp at e; obtain ⟨p, hp, rfl⟩ := e; exact Or.inl ⟨p, hp, rfl⟩
  · simp at e
    obtain ⟨p, hp, rfl⟩ := e
    by_cases hc : c = 0
    · simp [hc] at hp; exact Or.inl ⟨p, hp, rfl⟩
    · simp [hc] at hp; exact Or.inr ⟨rfl, p, hp, rfl⟩

theorem load_some {h : Heap R} {p : Option Ptr} {x : R} (e : h.load p = some x) :
    ∃ q n, p = some q ∧ h.size q.blk = some n ∧ q.off < n := by
  cases p with
  | none => simp [Heap.load] at e
  | some q =>
    simp only [Heap.load, Option.bind_some] at e
    cases hs : h.size q.blk with
    | none => simp [hs] at e
    | some n =>
      by_cases hm : q.off < n
      · exact ⟨q, n, rfl, hs, hm⟩
      · simp [hs, hm] at e

theorem cells_disjoint {h : Heap R} {w : Nat} {sp sp' : Bool} {d d' : Data} {n : Nat} (hb : Buf h w sp d n)
    (dis : ∀ b, uses sp d b → ¬ uses sp' d' b) :
    ∀ i < n, ∀ c < w, ∀ i' < n, ∀ c' < w, cell w sp d i c ≠ cell w sp' d' i' c' := by
  intro i hi c hc i' _ c' _ e
  obtain ⟨x, hx⟩ := hb.live i hi c hc
  obtain ⟨q, _, hq, _, _⟩ := load_some hx
  exact dis q.blk (cell_uses hq) (cell_uses (e ▸ hq))

/-- cells of contiguous elements are distinct -/
theorem cell_inj_contiguous {w : Nat} {d : Data} (hf : d.fst ≠ none) : ∀ i, ∀ c < w, ∀ i', ∀ c' < w,
    cell w false d i c = cell w false d i' c' → i = i' ∧ c = c' := by
  intro i c hc i' c' hc' e
  obtain ⟨p, hp⟩ := Option.ne_none_iff_exists'.mp hf
  simp only [cell, hp, Bool.false_eq_true, if_false, Option.map_some, Option.some.injEq, Ptr.mk.injEq, true_and] at e
  have e2 : w * i + c = w * i' + c' := by omega
  have hw : 0 < w := by omega
  have d1 : (w * i + c) / w = i := by rw [Nat.mul_add_div hw, Nat.div_eq_of_lt hc]; omega
  have d2 : (w * i' + c') / w = i' := by rw [Nat.mul_add_div hw, Nat.div_eq_of_lt hc']; omega
  have : i = i' := by rw [← d1, e2, d2]
  subst this
  exact ⟨rfl, by omega⟩

end Verif.Stor
