import Verif.Vocab.Model
import Verif.DomainN.Props
import Mathlib.Data.List.Perm.Basic
/-!
C99: vertices, lengths, orders, comparison of pointers, byte order.
-/
namespace Verif.Props
open Verif Verif.Voc

/-! ## Vertices and lengths -/

/-- **C99 (vertices).** Coordinates are those the vertex was made of, and two vertices of the same dimension are equal exactly if all their
coordinates are. -/
theorem C99_vertex {T : Type} [BEq T] [LawfulBEq T] (v w : List T) (hv : 1 ≤ v.length ∧ v.length ≤ 3) (hw : w.length = v.length) :
    (∀ chk d (h : d < v.length), Vertex.at chk v d = .val v[d]) ∧ (Vertex.eq v w = true ↔ ∀ d : Nat, v[d]? = w[d]?) ∧
    (Vertex.ne v w = true ↔ ∃ d : Nat, v[d]? ≠ w[d]?) := by
  have he : Vertex.eq v w = true ↔ ∀ d : Nat, v[d]? = w[d]? := by
    have key : (∀ d : Nat, v[d]? = w[d]?) ↔ v = w := ⟨fun h => List.ext_getElem? h, fun h => by rw [h]; exact fun _ => rfl⟩
    rw [key]
    match v, w, hv, hw with
    | [a], [x], _, _ => simp [Vertex.eq]
    | [a, b], [x, y], _, _ => simp [Vertex.eq]
    | [a, b, c], [x, y, z], _, _ => simp [Vertex.eq, and_assoc]
  refine ⟨fun chk d h => ?_, he, ?_⟩
  · match v, h with
    | [x], h =>
      have : d = 0 := by simpa using h
      subst this; rfl
    | x :: y :: l, h => simp [Vertex.at, List.getElem?_eq_getElem h]
  · rw [Vertex.ne, Bool.not_eq_true', ← Bool.not_eq_true, he]
    simp
example : Vertex.eq [3, 4, 5] [3, 4, 6] = false ∧ Vertex.at true [3, 4, 5] 2 = .val 5 := by decide

/-- **C99 is false (dimensions of a vertex).** Asking a vertex of two or three coordinates for one it does not have is caught by an assertion (or reads after
the array without); a vertex of one coordinate has that coordinate in every dimension. -/
theorem C99_dimension_false {T : Type} (x : T) (v : List T) (hv : 2 ≤ v.length) : (∀ chk d, Vertex.at chk [x] d = .val x) ∧
    ∀ d, v.length ≤ d → Vertex.at true v d = .stop ∧ Vertex.at false v d = .bad := by
  refine ⟨fun _ _ => rfl, fun d hd => ?_⟩
  match v, hv with
  | y :: z :: l, _ => simp [Vertex.at, List.getElem?_eq_none hd]
example : Vertex.at true [7] 2 = .val 7 := rfl

theorem voc_set_range {α : Type} (f : Nat → α) : ∀ (n : Nat) (l : List α), n ≤ l.length →
    ((List.range n).foldl (fun l d => l.set d (f d)) l).length = l.length ∧
    ∀ d, ((List.range n).foldl (fun l d => l.set d (f d)) l)[d]? = if d < n then some (f d) else l[d]?
  | 0, l, _ => by simp
  | n + 1, l, h => by
    have ih := voc_set_range f n l (by omega)
    rw [List.range_succ, List.foldl_append]
    simp only [List.foldl_cons, List.foldl_nil, List.length_set]
    refine ⟨ih.1, fun d => ?_⟩
    rw [List.getElem?_set, ih.2 d, ih.1]
    by_cases h1 : n = d
    · subst h1; simp [show n < l.length by omega]
    · rw [if_neg h1]
      by_cases h2 : d < n
      · rw [if_pos h2, if_pos (by omega)]
      · rw [if_neg h2, if_neg (by omega)]

/-- **C99 (extents).** The extent of a block has its size in every dimension, and a new one is all zeros. -/
theorem C99_extent (D : Nat) (size : Nat → Nat → Nat) : (extent D size).length = D ∧ (∀ d, d < D → (extent D size)[d]? = some (size D d)) ∧
    ∀ d, d < D → (Vertex.default D)[d]? = some 0 := by
  have h := voc_set_range (size D) D (Vertex.default D) (by simp [Vertex.default])
  refine ⟨h.1.trans (by simp [Vertex.default]), fun d hd => ?_, fun d hd => by simp [Vertex.default, hd]⟩
  have := h.2 d
  rw [if_pos hd] at this
  exact this
example : extent 3 (fun _ d => d + 4) = [4, 5, 6] := by decide

theorem voc_fold : ∀ (ns : List Nat) (n : Nat), n < W₆₄ → ns.foldl (fun s l => s * l % W₆₄) n = n * ns.prod % W₆₄
  | [], n, h => by simp [Nat.mod_eq_of_lt h]
  | m :: ms, n, _ => by
    rw [List.foldl_cons, voc_fold ms _ (Nat.mod_lt _ (by decide)), List.prod_cons, Nat.mod_mul_mod, Nat.mul_assoc]

theorem voc_sizeN : ∀ (ds : List Dom), ds ≠ [] → (∀ d ∈ ds, d.length < W₆₄) → DomN.sizeN ds = (ds.map Dom.length).prod % W₆₄
  | [], h, _ => absurd rfl h
  | [d], _, h => by
    have := h d (by simp)
    simp [DomN.sizeN, Nat.mod_eq_of_lt this]
  | d :: e :: ds, _, h => by
    have e1 : DomN.sizeN (d :: e :: ds) = d.length * DomN.sizeN (e :: ds) % W₆₄ := rfl
    rw [e1, voc_sizeN (e :: ds) (by simp) (fun x hx => h x (by simp [hx])), Nat.mul_mod_mod]
    simp

/-- **C99 (total sizes).** The total size of a length is the product of its coordinates modulo 2^64, and the size of every domain with these lengths: the two
computations agree even when they overflow. -/
theorem C99_total_size (ds : List Dom) (h0 : ds ≠ []) (h : ∀ d ∈ ds, d.length < W₆₄) :
    totalSize (ds.map Dom.length) = (ds.map Dom.length).prod % W₆₄ ∧ totalSize (ds.map Dom.length) = DomN.sizeN ds := by
  have h1 : totalSize (ds.map Dom.length) = (ds.map Dom.length).prod % W₆₄ := by
    cases ds with
    | nil => exact absurd rfl h0
    | cons d ds => simp only [List.map_cons, totalSize, List.prod_cons]; rw [voc_fold _ _ (h d (by simp))]
  exact ⟨h1, h1.trans (voc_sizeN ds h0 h).symm⟩
example : totalSize [4, 5, 6] = 120 ∧ totalSize [4294967296, 4294967296, 3] = 0 := by decide

/-! ## Orders -/

/-- **C99 (orders).** The orders accepted for `D` dimensions are exactly the permutations of the three dimensions that leave all but the first `D` alone. -/
theorem C99_orders (D : Nat) (hD : 1 ≤ D ∧ D ≤ 3) (o : Nat × Nat × Nat) :
    orderValid D o = true ↔ ([o.1, o.2.1, o.2.2].Perm [0, 1, 2] ∧ ∀ k, D ≤ k → k < 3 → dimOf o k = some k) := by
  obtain ⟨a, b, c⟩ := o
  constructor
  · intro h
    have hD' : D = 1 ∨ D = 2 ∨ D = 3 := by omega
    rcases hD' with rfl | rfl | rfl
    · simp only [orderValid, beq_iff_eq, Prod.mk.injEq] at h
      obtain ⟨rfl, rfl, rfl⟩ := h
      exact ⟨by decide, by decide⟩
    · simp only [orderValid, beq_iff_eq, Prod.mk.injEq, Bool.or_eq_true] at h
      rcases h with ⟨rfl, rfl, rfl⟩ | ⟨rfl, rfl, rfl⟩ <;> exact ⟨by decide, by decide⟩
    · simp only [orderValid, beq_iff_eq, Prod.mk.injEq, Bool.or_eq_true] at h
      rcases h with ((((⟨rfl, rfl, rfl⟩ | ⟨rfl, rfl, rfl⟩) | ⟨rfl, rfl, rfl⟩) | ⟨rfl, rfl, rfl⟩) | ⟨rfl, rfl, rfl⟩) | ⟨rfl, rfl, rfl⟩ <;>
        exact ⟨by decide, by intro k h1 h2; omega⟩
  · rintro ⟨hp, hk⟩
    have ha : a ∈ [0, 1, 2] := hp.subset (by simp)
    have hb : b ∈ [0, 1, 2] := hp.subset (by simp)
    have hc : c ∈ [0, 1, 2] := hp.subset (by simp)
    have hD' : D = 1 ∨ D = 2 ∨ D = 3 := by omega
    simp only [List.mem_cons, List.not_mem_nil, or_false] at ha hb hc
    have h1 := hk 1
    have h2 := hk 2
    rcases hD' with rfl | rfl | rfl <;> rcases ha with rfl | rfl | rfl <;> rcases hb with rfl | rfl | rfl <;> rcases hc with rfl | rfl | rfl <;>
      revert hp h1 h2 <;> decide
example : orderValid 2 (1, 0, 2) = true ∧ orderValid 2 (0, 2, 1) = false ∧ orderValid 3 (0, 2, 1) = true ∧ orderValid 4 (0, 1, 2) = false := by decide

/-! ## Pointers -/

/-- **C99, partial (comparison of pointers).** Pointers to the same type are the same exactly if the addresses are, `const` or not; pointers that are said to be the
same have the same address; split storage is the same if both of its arrays are. Missing: pointers to different types, `C99_same_ptr_false`. -/
theorem C99_same_ptr_partial (p q : Ptr) : (p.ty = q.ty → (samePtr p q = true ↔ p.addr = q.addr)) ∧ (samePtr p q = true → p.addr = q.addr) ∧
    ∀ a b : Ptr × Ptr, a.1.ty = b.1.ty → a.2.ty = b.2.ty → (samePair a b = true ↔ a.1.addr = b.1.addr ∧ a.2.addr = b.2.addr) := by
  have h : ∀ p q : Ptr, p.ty = q.ty → (samePtr p q = true ↔ p.addr = q.addr) := fun p q h => by simp [samePtr, h]
  refine ⟨h p q, fun hs => ?_, fun a b h1 h2 => ?_⟩
  · by_cases ht : p.ty = q.ty
    · exact (h p q ht).1 hs
    · simp [samePtr, ht] at hs
  · rw [samePair, Bool.and_eq_true, h _ _ h1, h _ _ h2]
example : samePtr ⟨1, true, 64⟩ ⟨1, false, 64⟩ = true ∧ samePtr ⟨1, true, 64⟩ ⟨1, true, 65⟩ = false := by decide

/-- **C99 is false (comparison of pointers).** A pointer to complex numbers and a pointer to the real part of the first of them are never the same. -/
theorem C99_same_ptr_false (t u : Nat) (h : t ≠ u) (c d : Bool) (a : Nat) : samePtr ⟨t, c, a⟩ ⟨u, d, a⟩ = false := by simp [samePtr, h]
example : (0 : Nat) ≠ 1 := by decide

/-! ## Byte order -/

/-- **C99, partial (byte order).** Where the header compiles, `is_big_endian` is false, which is right: the processor is not. It does compile for little-endian
processors. Missing: big-endian processors, `C99_endian_false`. -/
theorem C99_endian_partial (v : Via) (o : Order) : (∀ b, isBigEndian v o = some b → b = decide (o = .big)) ∧ isBigEndian v .little = some false := by
  cases v <;> cases o <;> exact ⟨by decide, by decide⟩

/-- **C99 is false (byte order).** On a big-endian processor, however it is recognised, the marker is defined as nothing and tested with `#if`: the header, and every
program that includes it to swap bytes, does not compile, so `is_big_endian` is never true. -/
theorem C99_endian_false (v : Via) : isBigEndian v .big = none ∧ ∀ o, isBigEndian v o ≠ some true := by
  cases v <;> exact ⟨by decide, fun o => by cases o <;> decide⟩

end Verif.Props

#print axioms Verif.Props.C99_vertex
#print axioms Verif.Props.C99_dimension_false
#print axioms Verif.Props.C99_extent
#print axioms Verif.Props.C99_total_size
#print axioms Verif.Props.C99_orders
#print axioms Verif.Props.C99_same_ptr_partial
#print axioms Verif.Props.C99_same_ptr_false
#print axioms Verif.Props.C99_endian_partial
#print axioms Verif.Props.C99_endian_false
