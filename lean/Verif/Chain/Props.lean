import Verif.Chain.Model
import Verif.Assign.Props
/-! Property C31: copying chains of strided records. -/
namespace Verif.Props
open Verif Asg Chain

variable {V : Type}

/-- the addresses of the elements of a list of records, in record order (specification) -/
def elements (e : Nat) (rs : List Rec) : List Int := rs.flatMap fun r => (List.range r.length).map fun (k : Nat) => r.start + k * (r.stride * e)

/-- chains are built by `add`, `append` and `append_offset` from the empty chain, by adding records of element size `e` -/
inductive Built (e : Nat) : Ch → Prop
  | empty : Built e .empty
  | add (c : Ch) (start stride : Int) (length : Nat) : Built e c → Built e (c.add e start stride length)
  | append (c d : Ch) : Built e c → Built e d → Built e (c.append d)
  | appendOffset (c d : Ch) (off : Int) : Built e c → Built e d → Built e (c.appendOffset off d)

theorem elements_append (e : Nat) (a b : List Rec) : elements e (a ++ b) = elements e a ++ elements e b := by simp [elements]
theorem elements_cons (e : Nat) (r : Rec) (b : List Rec) :
    elements e (r :: b) = ((List.range r.length).map fun (k : Nat) => r.start + k * (r.stride * e)) ++ elements e b := rfl

theorem elements_offset (e : Nat) (off : Int) (l : List Rec) :
    elements e (l.map fun r => ⟨r.start + off, r.stride, r.length⟩) = (elements e l).map (· + off) := by
  induction l with
  | nil => rfl
  | cons r l ih =>
    rw [List.map_cons, elements_cons, elements_cons, ih, List.map_append, List.map_map]
    congr 1
    apply List.map_congr_left
    intro k _
    simp only [Function.comp]
    ring

/-- the byte count of a chain is the element size times the number of elements -/
theorem C31_data_size (e : Nat) (c : Ch) (h : Built e c) : c.dataSize = e * (elements e c.recs).length := by
  induction h with
  | empty => rfl
  | add c start stride length _ ih => simp [Ch.add, ih, elements, Nat.mul_add]
  | append c d _ _ ih1 ih2 => simp [Ch.append, elements_append, ih1, ih2, Nat.mul_add]
  | appendOffset c d off _ _ ih1 ih2 =>
    simp only [Ch.appendOffset, elements_append, elements_offset, ih1, ih2, List.length_append, List.length_map, Nat.mul_add]

/-! ### copying elements -/

def runElems (e : Nat) (m : Mem V) (l : List (Int × Int)) : Mem V :=
  runCopies m (l.flatMap fun p => (List.range e).map fun (b : Nat) => (p.1 + (b : Int), p.2 + (b : Int)))

theorem runElems_append (e : Nat) (m : Mem V) (l l' : List (Int × Int)) : runElems e m (l ++ l') = runElems e (runElems e m l) l' := by
  simp [runElems, runCopies_append]

theorem runElems_memcpy (e : Nat) (m : Mem V) (d s : Int) (n : Nat) :
    memcpy m d s (n * e) = runElems e m ((List.range n).map fun (k : Nat) => (d + k * (1 * e), s + k * (1 * e))) := by
  rw [memcpy, scopy_eq, runElems]
  congr 1
  induction n with
  | zero => simp
  | succ n ih =>
    rw [Nat.succ_mul, List.range_add, List.map_append, ih, List.range_succ, List.map_append, List.flatMap_append]
    congr 1
    simp only [List.map_map, List.map_cons, List.map_nil, List.flatMap_cons, List.flatMap_nil, List.append_nil]
    apply List.map_congr_left
    intro b _
    simp only [Function.comp]
    push_cast
    simp [mul_comm, add_assoc]

theorem runElems_one (e : Nat) (m : Mem V) (d s : Int) : memcpy m d s e = runElems e m [(d, s)] := by
  have := runElems_memcpy e m d s 1
  simpa using this

/-- copies of elements whose destinations do not overlap with each other or with the sources -/
theorem runElems_zip (e : Nat) (m : Mem V) (B A : List Int) (hlen : A.length = B.length)
    (hB : ∀ k k' (hk : k < B.length) (hk' : k' < B.length) (b b' : Nat), b < e → b' < e → B[k] + (b : Int) = B[k'] + (b' : Int) → k = k' ∧ b = b')
    (hd : ∀ k k' (hk : k < B.length) (hk' : k' < A.length) (b b' : Nat), b < e → b' < e → B[k] + (b : Int) ≠ A[k'] + (b' : Int)) :
    (∀ k (hk : k < B.length) (b : Nat), b < e → runElems e m (B.zip A) (B[k] + (b : Int)) = m (A[k] + (b : Int))) ∧
    ∀ a, (∀ k (hk : k < B.length) (b : Nat), b < e → a ≠ B[k] + (b : Int)) → runElems e m (B.zip A) a = m a := by
  have hmem : ∀ p ∈ (B.zip A).flatMap (fun p => (List.range e).map fun (b : Nat) => (p.1 + (b : Int), p.2 + (b : Int))),
      ∃ k, ∃ (hk : k < B.length) (b : Nat), b < e ∧ p = (B[k] + (b : Int), A[k] + (b : Int)) := by
    intro p hp
    simp only [List.mem_flatMap, List.mem_map, List.mem_range] at hp
    obtain ⟨q, hq, b, hb, rfl⟩ := hp
    obtain ⟨k, hk, rfl⟩ := List.getElem_of_mem hq
    have hk' : k < B.length := by simp at hk; omega
    exact ⟨k, hk', b, hb, by simp⟩
  constructor
  · intro k hk b hb
    have h := runCopies_at ((B.zip A).flatMap (fun p => (List.range e).map fun (b : Nat) => (p.1 + (b : Int), p.2 + (b : Int)))) m ?_ ?_
      (B[k] + (b : Int), A[k] + (b : Int)) ?_
    · exact h
    · intro p hp q hq heq
      obtain ⟨k1, hk1, b1, hb1, rfl⟩ := hmem p hp
      obtain ⟨k2, hk2, b2, hb2, rfl⟩ := hmem q hq
      obtain ⟨rfl, rfl⟩ := hB k1 k2 hk1 hk2 b1 b2 hb1 hb2 heq
      rfl
    · intro p hp q hq
      obtain ⟨k1, hk1, b1, hb1, rfl⟩ := hmem p hp
      obtain ⟨k2, hk2, b2, hb2, rfl⟩ := hmem q hq
      exact hd k1 k2 hk1 (by omega) b1 b2 hb1 hb2
    · simp only [List.mem_flatMap, List.mem_map, List.mem_range]
      refine ⟨(B[k], A[k]), ?_, b, hb, rfl⟩
      have : (B.zip A)[k]'(by simp; omega) = (B[k], A[k]) := by simp
      rw [← this]; exact List.getElem_mem _
  · intro a ha
    apply runCopies_other
    intro p hp
    obtain ⟨k, hk, b, hb, rfl⟩ := hmem p hp
    exact ha k hk b hb

/-! ### into a buffer -/

/-- consecutive element addresses -/
def slots (e : Nat) (dest : Int) (n : Nat) : List Int := (List.range n).map fun (k : Nat) => dest + k * e

theorem slots_add (e : Nat) (dest : Int) (n k : Nat) : slots e dest (n + k) = slots e dest n ++ slots e (dest + (n * e : Nat)) k := by
  rw [slots, slots, slots, List.range_add, List.map_append, List.map_map]
  congr 1
  apply List.map_congr_left
  intro b _
  simp only [Function.comp]
  push_cast
  ring

theorem strided_eq (e : Nat) (stride : Int) : ∀ (n : Nat) (m : Mem V) (dest src : Int) (size : Nat), n * e ≤ size →
    strided e stride n m dest src size =
      some (runElems e m ((slots e dest n).zip ((List.range n).map fun (k : Nat) => src + k * (stride * e))), dest + (n * e : Nat), size - n * e)
  | 0, m, dest, src, size, _ => by simp [strided, slots, runElems, runCopies]
  | n + 1, m, dest, src, size, h => by
      have h1 : e ≤ size := by rw [Nat.succ_mul] at h; omega
      rw [strided, if_pos h1, strided_eq e stride n _ _ _ _ (by rw [Nat.succ_mul] at h; omega), runElems_one, ← runElems_append]
      have hs : slots e dest (n + 1) = dest :: slots e (dest + e) n := by
        have := slots_add e dest 1 n
        rw [Nat.add_comm 1 n] at this
        rw [this]; simp [slots]
      have ha : (List.range (n + 1)).map (fun (k : Nat) => src + k * (stride * e)) =
          src :: (List.range n).map (fun (k : Nat) => src + stride * e + k * (stride * e)) := by
        rw [List.range_succ_eq_map, List.map_cons, List.map_map]
        simp only [Nat.cast_zero, zero_mul, add_zero, List.cons.injEq, true_and]
        apply List.map_congr_left
        intro k _
        simp only [Function.comp]; push_cast; ring
      rw [hs, ha, List.zip_cons_cons]
      refine congrArg some (Prod.ext rfl (Prod.ext ?_ ?_))
      · simp only; push_cast; ring
      · simp only [Nat.succ_mul]; omega

theorem records_eq (e : Nat) : ∀ (rs : List Rec) (m : Mem V) (dest : Int) (size : Nat), (elements e rs).length * e ≤ size →
    records e rs m dest size =
      some (runElems e m ((slots e dest (elements e rs).length).zip (elements e rs)), size - (elements e rs).length * e)
  | [], m, dest, size, _ => by simp [records, elements, runElems, runCopies]
  | r :: rs, m, dest, size, h => by
      have hlen : (elements e (r :: rs)).length = r.length + (elements e rs).length := by simp [elements_cons]
      rw [hlen, Nat.add_mul] at h
      have hz : (slots e dest (elements e (r :: rs)).length).zip (elements e (r :: rs)) =
          ((slots e dest r.length).zip ((List.range r.length).map fun (k : Nat) => r.start + k * (r.stride * e))) ++
          ((slots e (dest + (r.length * e : Nat)) (elements e rs).length).zip (elements e rs)) := by
        rw [hlen, slots_add, elements_cons, List.zip_append]
        simp [slots]
      rw [hz, runElems_append, hlen, Nat.add_mul]
      by_cases hs : r.stride = 1
      · rw [records, if_pos hs, if_pos (by omega), records_eq e rs _ _ _ (by omega), runElems_memcpy]
        have hz1 : (slots e dest r.length).zip ((List.range r.length).map fun (k : Nat) => r.start + k * (r.stride * e)) =
            (List.range r.length).map fun (k : Nat) => (dest + k * (1 * e), r.start + k * (1 * e)) := by
          rw [slots, List.zip_map', hs]; simp only [one_mul]
        rw [hz1]
        refine congrArg some (Prod.ext rfl ?_)
        simp only; omega
      · rw [records, if_neg hs, strided_eq e r.stride r.length m dest r.start size (by omega)]
        simp only
        rw [records_eq e rs _ _ _ (by omega)]
        refine congrArg some (Prod.ext rfl ?_)
        simp only; omega

/-- **C31 (buffer).** Copying a chain into a buffer of its size never fails, packs the elements in record order, and writes nothing else. -/
theorem C31_buffer (e : Nat) (c : Ch) (hc : Built e c) (m : Mem V) (dest : Int)
    (hd : ∀ k (_ : k < (elements e c.recs).length) (b b' : Nat), b < c.dataSize → b' < e → dest + (b : Int) ≠ (elements e c.recs)[k] + (b' : Int)) :
    ∃ m', copyIntoBuffer e c m dest c.dataSize = some m' ∧
      (∀ k (_ : k < (elements e c.recs).length) (b : Nat), b < e → m' (dest + (k * e + b : Nat)) = m ((elements e c.recs)[k] + (b : Int))) ∧
      ∀ a, (∀ b : Nat, b < c.dataSize → a ≠ dest + (b : Int)) → m' a = m a := by
  have hsz := C31_data_size e c hc
  have hlt : ∀ k b : Nat, k < (elements e c.recs).length → b < e → k * e + b < c.dataSize := by
    intro k b hk hb
    rw [hsz]
    calc k * e + b < k * e + e := by omega
      _ = e * (k + 1) := by ring
      _ ≤ _ := Nat.mul_le_mul_left _ hk
  have hget : ∀ k (hk : k < (slots e dest (elements e c.recs).length).length) (b : Nat),
      (slots e dest (elements e c.recs).length)[k] + (b : Int) = dest + (k * e + b : Nat) := by
    intro k hk b
    simp only [slots, List.getElem_map, List.getElem_range]
    push_cast; ring
  have hsl : (slots e dest (elements e c.recs).length).length = (elements e c.recs).length := by simp [slots]
  refine ⟨runElems e m ((slots e dest (elements e c.recs).length).zip (elements e c.recs)), ?_, ?_⟩
  · rw [copyIntoBuffer, if_pos rfl, records_eq e c.recs m dest c.dataSize (by rw [hsz, Nat.mul_comm])]
    rw [show c.dataSize - (elements e c.recs).length * e = 0 by rw [hsz, Nat.mul_comm]; omega]
    rfl
  · have q1 : ∀ k k' (hk : k < (slots e dest (elements e c.recs).length).length) (hk' : k' < (slots e dest (elements e c.recs).length).length)
        (b b' : Nat), b < e → b' < e → (slots e dest (elements e c.recs).length)[k] + (b : Int) =
          (slots e dest (elements e c.recs).length)[k'] + (b' : Int) → k = k' ∧ b = b' := by
      intro k k' hk hk' b b' hb hb' heq
      rw [hget k hk, hget k' hk'] at heq
      have heq : k * e + b = k' * e + b' := by omega
      have hkk : k = k' := by
        have := congrArg (· / e) heq
        simp only [Nat.mul_comm _ e] at this
        rwa [Nat.mul_add_div (by omega), Nat.mul_add_div (by omega), Nat.div_eq_of_lt hb, Nat.div_eq_of_lt hb', Nat.add_zero, Nat.add_zero] at this
      subst hkk
      exact ⟨rfl, by omega⟩
    have q2 : ∀ k k' (hk : k < (slots e dest (elements e c.recs).length).length) (hk' : k' < (elements e c.recs).length)
        (b b' : Nat), b < e → b' < e → (slots e dest (elements e c.recs).length)[k] + (b : Int) ≠ (elements e c.recs)[k'] + (b' : Int) := by
      intro k k' hk hk' b b' hb hb'
      rw [hget k hk]
      exact hd k' hk' _ b' (hlt k b (by omega) hb) hb'
    obtain ⟨h1, h2⟩ := runElems_zip e m (slots e dest (elements e c.recs).length) (elements e c.recs) hsl.symm q1 q2
    constructor
    · intro k hk b hb
      rw [← hget k (by omega) b]
      exact h1 k (by omega) b hb
    · intro a ha
      apply h2
      intro k hk b hb
      rw [hget k hk b]
      exact ha _ (hlt k b (by omega) hb)

/-- three records (contiguous, strided, reversed) of two-byte elements -/
example : let c := ((Ch.empty.add 2 0 1 2).add 2 100 3 2).add 2 200 (-1) 2
    Built 2 c ∧ c.dataSize = 12 ∧ elements 2 c.recs = [0, 2, 100, 106, 200, 198] ∧
    (copyIntoBuffer 2 c id 1000 12).map (fun m => (List.range 12).map fun (k : Nat) => m (1000 + k)) =
      some [0, 1, 2, 3, 100, 101, 106, 107, 200, 201, 198, 199] :=
  ⟨.add _ _ _ _ (.add _ _ _ _ (.add _ _ _ _ .empty)), rfl, by decide, by decide⟩

/-! ### between chains -/

/-- element addresses still to be copied -/
def Pos.rest (e : Nat) (p : Pos) : List Int :=
  match p.recs with
  | [] => []
  | r :: rs => ((List.range (r.length - p.i)).map fun (k : Nat) => p.ptr + k * (r.stride * e)) ++ elements e rs

def Pos.Valid (p : Pos) : Prop := (∀ r ∈ p.recs, 0 < r.length) ∧ ∀ r ∈ p.recs.head?, p.i < r.length

theorem rest_advance (e : Nat) (r : Rec) (rs : List Rec) (ptr : Int) (i n : Nat) (hv : Pos.Valid ⟨r :: rs, ptr, i⟩) (hn : i + n ≤ r.length) :
    Pos.rest e ⟨r :: rs, ptr, i⟩ = ((List.range n).map fun (k : Nat) => ptr + k * (r.stride * e)) ++
      Pos.rest e (Pos.advance ⟨r :: rs, ptr + n * e * r.stride, i + n⟩) ∧
    Pos.Valid (Pos.advance ⟨r :: rs, ptr + n * e * r.stride, i + n⟩) := by
  have hsplit : ((List.range (r.length - i)).map fun (k : Nat) => ptr + k * (r.stride * e)) =
      ((List.range n).map fun (k : Nat) => ptr + k * (r.stride * e)) ++
      ((List.range (r.length - (i + n))).map fun (k : Nat) => ptr + n * e * r.stride + k * (r.stride * e)) := by
    rw [show r.length - i = n + (r.length - (i + n)) by omega, List.range_add, List.map_append, List.map_map]
    congr 1
    apply List.map_congr_left
    intro k _
    simp only [Function.comp]; push_cast; ring
  by_cases he : i + n = r.length
  · cases rs with
    | nil =>
      simp only [Pos.advance, he, if_true, Pos.rest, hsplit, elements, Nat.sub_self, List.range_zero, List.map_nil, List.append_nil, List.flatMap_nil, true_and]
      exact ⟨by simp, by simp⟩
    | cons r' rs' =>
      simp only [Pos.advance, he, if_true, Pos.rest, hsplit, Nat.sub_self, Nat.sub_zero, List.range_zero, List.map_nil, List.append_nil, elements_cons, true_and]
      refine ⟨fun x hx => hv.1 x (by simp only [List.mem_cons] at hx ⊢; tauto), ?_⟩
      intro x hx
      simp only [List.head?_cons, Option.mem_def, Option.some.injEq] at hx
      subst hx
      exact hv.1 r' (by simp)
  · simp only [Pos.advance, he, if_false, Pos.rest, hsplit, List.append_assoc, true_and]
    refine ⟨hv.1, ?_⟩
    intro x hx
    simp only [List.head?_cons, Option.mem_def, Option.some.injEq] at hx
    subst hx
    simp only
    omega

theorem rest_nil (e : Nat) (p : Pos) (hv : Pos.Valid p) (h : (Pos.rest e p).length = 0) : p.recs = [] := by
  cases hr : p.recs with
  | nil => rfl
  | cons r rs =>
    have := hv.2 r (by simp [hr])
    simp [Pos.rest, hr] at h
    omega

theorem lockstep_eq (e : Nat) : ∀ (fuel : Nat) (s d : Pos) (m : Mem V), Pos.Valid s → Pos.Valid d → (Pos.rest e s).length = (Pos.rest e d).length →
    (Pos.rest e s).length < fuel → lockstep e fuel s d m = .ok (runElems e m ((Pos.rest e d).zip (Pos.rest e s)))
  | 0, _, _, _, _, _, _, h => by omega
  | fuel + 1, s, d, m, hs, hd, hl, hf => by
      cases hsr : s.recs with
      | nil =>
        have h0 : Pos.rest e s = [] := by simp [Pos.rest, hsr]
        have h1 : d.recs = [] := rest_nil e d hd (by rw [← hl, h0]; rfl)
        rw [lockstep]
        simp [hsr, h1, h0, runElems, runCopies]
      | cons r rs =>
        cases hdr : d.recs with
        | nil =>
          have h0 : Pos.rest e d = [] := by simp [Pos.rest, hdr]
          have h1 : s.recs = [] := rest_nil e s hs (by rw [hl, h0]; rfl)
          rw [hsr] at h1; cases h1
        | cons q qs =>
          obtain ⟨sr, sp, si⟩ := s
          obtain ⟨dr, dp, di⟩ := d
          simp only at hsr hdr
          subst hsr hdr
          have hsi : si < r.length := hs.2 r rfl
          have hdi : di < q.length := hd.2 q rfl
          rw [lockstep]
          simp only
          generalize hn : (if r.stride = 1 ∧ q.stride = 1 then min (r.length - si) (q.length - di) else 1) = n
          have hn1 : 0 < n ∧ si + n ≤ r.length ∧ di + n ≤ q.length := by
            split at hn <;> omega
          obtain ⟨es, vs⟩ := rest_advance e r rs sp si n hs hn1.2.1
          obtain ⟨ed, vd⟩ := rest_advance e q qs dp di n hd hn1.2.2
          have ls := congrArg List.length es
          have ld := congrArg List.length ed
          simp only [List.length_append, List.length_map, List.length_range] at ls ld
          rw [lockstep_eq e fuel _ _ _ vs vd (by omega) (by omega), es, ed, List.zip_append (by simp), runElems_append, runElems_memcpy, List.zip_map']
          congr 3
          apply List.map_congr_left
          intro k hk
          by_cases h11 : r.stride = 1 ∧ q.stride = 1
          · rw [h11.1, h11.2]
          · rw [if_neg h11] at hn
            have : k = 0 := by simp at hk; omega
            subst this
            simp

/-- **C31 (chains).** Copying a chain to another one of the same byte count, neither containing an empty record, moves the `k`-th element
of the source to the `k`-th position of the destination whatever the record boundaries are, writes nothing else, terminates and meets the
final precondition.  Partial: chains without records and records without elements are excluded (`C31_empty_record_false`). -/
theorem C31_chains_partial (e : Nat) (he : 0 < e) (src dst : Ch) (hs : Built e src) (hd : Built e dst) (hsz : src.dataSize = dst.dataSize)
    (hne : src.recs ≠ []) (hps : ∀ r ∈ src.recs, 0 < r.length) (hpd : ∀ r ∈ dst.recs, 0 < r.length) (m : Mem V)
    (hB : ∀ k k' (_ : k < (elements e dst.recs).length) (_ : k' < (elements e dst.recs).length) (b b' : Nat), b < e → b' < e →
      (elements e dst.recs)[k] + (b : Int) = (elements e dst.recs)[k'] + (b' : Int) → k = k' ∧ b = b')
    (hdisj : ∀ k k' (_ : k < (elements e dst.recs).length) (_ : k' < (elements e src.recs).length) (b b' : Nat), b < e → b' < e →
      (elements e dst.recs)[k] + (b : Int) ≠ (elements e src.recs)[k'] + (b' : Int)) :
    (elements e src.recs).length = (elements e dst.recs).length ∧
    ∃ m', (∀ fuel, (elements e src.recs).length < fuel → copyIntoChain e fuel src dst m = .ok m') ∧
      (∀ k (_ : k < (elements e dst.recs).length) (_ : k < (elements e src.recs).length) (b : Nat), b < e →
        m' ((elements e dst.recs)[k] + (b : Int)) = m ((elements e src.recs)[k] + (b : Int))) ∧
      ∀ a, (∀ k (_ : k < (elements e dst.recs).length) (b : Nat), b < e → a ≠ (elements e dst.recs)[k] + (b : Int)) → m' a = m a := by
  have hlen : (elements e src.recs).length = (elements e dst.recs).length := by
    rw [C31_data_size e src hs, C31_data_size e dst hd] at hsz
    exact Nat.eq_of_mul_eq_mul_left he hsz
  refine ⟨hlen, runElems e m ((elements e dst.recs).zip (elements e src.recs)), ?_, ?_⟩
  · intro fuel hf
    cases hsr : src.recs with
    | nil => exact absurd hsr hne
    | cons r rs =>
      cases hdr : dst.recs with
      | nil =>
        exfalso
        have h0 : (elements e dst.recs).length = 0 := by rw [hdr]; rfl
        have := hps r (by simp [hsr])
        rw [← hlen, hsr, elements_cons] at h0
        simp at h0
        omega
      | cons q qs =>
        have rs' : Pos.rest e ⟨r :: rs, r.start, 0⟩ = elements e (r :: rs) := by simp [Pos.rest, elements_cons]
        have rd' : Pos.rest e ⟨q :: qs, q.start, 0⟩ = elements e (q :: qs) := by simp [Pos.rest, elements_cons]
        simp only [copyIntoChain, hsr, hdr]
        rw [lockstep_eq e fuel _ _ m ?_ ?_ ?_ ?_, rs', rd']
        · refine ⟨fun x hx => hps x (by rw [hsr]; exact hx), ?_⟩
          intro x hx
          simp only [List.head?_cons, Option.mem_def, Option.some.injEq] at hx
          subst hx
          exact hps r (by simp [hsr])
        · refine ⟨fun x hx => hpd x (by rw [hdr]; exact hx), ?_⟩
          intro x hx
          simp only [List.head?_cons, Option.mem_def, Option.some.injEq] at hx
          subst hx
          exact hpd q (by simp [hdr])
        · rw [rs', rd', ← hsr, ← hdr, hlen]
        · rw [rs', ← hsr]; exact hf
  · obtain ⟨h1, h2⟩ := runElems_zip e m _ _ hlen hB hdisj
    exact ⟨fun k hk _ b hb => h1 k hk b hb, h2⟩

/-- source records of 3 and 2 elements, destination records of 1 and 4 -/
example : let s := (Ch.empty.add 2 0 1 3).add 2 100 3 2
    let d := (Ch.empty.add 2 1000 1 1).add 2 2000 (-2) 4
    Built 2 s ∧ Built 2 d ∧ s.dataSize = d.dataSize ∧
    ∃ m, copyIntoChain 2 6 s d (id : Mem Int) = .ok m ∧ (elements 2 d.recs).map m = [0, 2, 4, 100, 106] ∧ m 2001 = 3 := by
  refine ⟨.add _ _ _ _ (.add _ _ _ _ .empty), .add _ _ _ _ (.add _ _ _ _ .empty), rfl, _, rfl, ?_⟩
  decide

/-- **C31 is false for empty records.** A strided record without elements yields an element: the chain `[(100, stride 2, 0 elements),
(200, 1 element)]` copied to one element at 300 stores the byte from address 100 and fails the final precondition. -/
theorem C31_empty_record_false : ∃ src dst : Ch, Built 1 src ∧ Built 1 dst ∧ src.dataSize = dst.dataSize ∧ src.recs ≠ [] ∧
    ∀ fuel, 2 ≤ fuel → ∃ m', copyIntoChain 1 fuel src dst (id : Mem Int) = .precondition m' ∧ m' 300 = 100 ∧ elements 1 src.recs = [200] := by
  refine ⟨(Ch.empty.add 1 100 2 0).add 1 200 1 1, Ch.empty.add 1 300 1 1, .add _ _ _ _ (.add _ _ _ _ .empty), .add _ _ _ _ .empty, rfl, by simp [Ch.add], ?_⟩
  intro fuel hf
  obtain ⟨n, rfl⟩ : ∃ n, fuel = n + 2 := ⟨fuel - 2, by omega⟩
  exact ⟨memcpy id 300 100 1, rfl, by decide, by decide⟩

/-- A chain without records is dereferenced (undefined behaviour), although copying it to another empty chain should do nothing. -/
theorem C31_no_record_false (e fuel : Nat) (m : Mem V) : copyIntoChain e fuel .empty .empty m = .undefined := rfl

end Verif.Props
