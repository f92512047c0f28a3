import Verif.Storage.Lemmas
/-!
C53: the user storage protocol.  C54: storage formats.
-/
namespace Verif.Props
open Verif.Stor
variable {R : Type}

/-! ### Specification -/

/-- What a user buffer shows as its element `i`: real elements are consecutive; complex elements are consecutive pairs (array and interleaved
format) or have their real parts in a first and their imaginary parts in a second array (split format) -/
def Shows (h : Heap R) (w : Nat) (f : UFmt) (d : Data) (i : Nat) (v : List R) : Prop :=
  match w, f with
  | 1, .array => ∃ p x, d.fst = some p ∧ v = [x] ∧ h.load (some ⟨p.blk, p.off + i⟩) = some x
  | 2, .array | 2, .inter => ∃ p x y, d.fst = some p ∧ v = [x, y] ∧
      h.load (some ⟨p.blk, p.off + 2 * i⟩) = some x ∧ h.load (some ⟨p.blk, p.off + 2 * i + 1⟩) = some y
  | 2, .split => ∃ p q x y, d.fst = some p ∧ d.snd = some q ∧ v = [x, y] ∧
      h.load (some ⟨p.blk, p.off + i⟩) = some x ∧ h.load (some ⟨q.blk, q.off + i⟩) = some y
  | _, _ => False

/-- value types and the formats they can have -/
def Typed (w : Nat) (f : UFmt) : Prop := (w = 1 ∧ f = .array) ∨ (w = 2 ∧ f ≠ .none)

/-- `get` reads what the buffer shows -/
theorem shows_iff {h : Heap R} {w : Nat} {f : UFmt} {d : Data} {i : Nat} {v : List R} (ht : Typed w f) :
    Shows h w f d i v ↔ getE h w f.isSplit d i = some v := by
  rw [getE_eq]
  rcases ht with ⟨rfl, rfl⟩ | ⟨rfl, hf⟩
  · simp only [Shows, UFmt.isSplit, cell, Bool.false_eq_true, if_false]
    constructor
    · rintro ⟨p, x, hp, rfl, hx⟩
      refine ⟨rfl, fun c hc => ?_⟩
      obtain rfl : c = 0 := by omega
      simpa [hp] using hx
    · rintro ⟨hl, hc⟩
      obtain ⟨x, rfl⟩ := List.length_eq_one_iff.mp hl
      have h0 := hc 0 (by omega)
      cases hp : d.fst with
      | none => simp [hp, Heap.load] at h0
      | some p => exact ⟨p, x, rfl, rfl, by simpa [hp] using h0⟩
  · have two : ∀ {P : Nat → Prop}, (∀ c < 2, P c) ↔ P 0 ∧ P 1 := fun {P} =>
      ⟨fun hh => ⟨hh 0 (by omega), hh 1 (by omega)⟩, fun ⟨a, b⟩ c hc => by
        rcases (show c = 0 ∨ c = 1 by omega) with rfl | rfl <;> assumption⟩
    rw [two]
    cases f with
    | none => exact absurd rfl hf
    | split =>
      simp only [Shows, UFmt.isSplit, cell, if_true]
      constructor
      · rintro ⟨p, q, x, y, hp, hq, rfl, hx, hy⟩
        exact ⟨rfl, by simpa [hp] using hx, by simpa [hq] using hy⟩
      · rintro ⟨hl, h0, h1⟩
        obtain ⟨x, y, rfl⟩ := List.length_eq_two.mp hl
        cases hp : d.fst with
        | none => simp [hp, Heap.load] at h0
        | some p =>
          cases hq : d.snd with
          | none => simp [hq, Heap.load] at h1
          | some q => exact ⟨p, q, x, y, rfl, rfl, rfl, by simpa [hp] using h0, by simpa [hq] using h1⟩
    | array | inter =>
      simp only [Shows, UFmt.isSplit, cell, Bool.false_eq_true, if_false]
      constructor
      · rintro ⟨p, x, y, hp, rfl, hx, hy⟩
        exact ⟨rfl, by simpa [hp] using hx, by simpa [hp, Nat.add_assoc] using hy⟩
      · rintro ⟨hl, h0, h1⟩
        obtain ⟨x, y, rfl⟩ := List.length_eq_two.mp hl
        cases hp : d.fst with
        | none => simp [hp, Heap.load] at h0
        | some p => exact ⟨p, x, y, rfl, rfl, by simpa [hp] using h0, by simpa [hp, Nat.add_assoc] using h1⟩

/-- A buffer of `n` elements is usable: the cells of its elements are allocated and do not overlap -/
def Usable (h : Heap R) (w : Nat) (f : UFmt) (d : Data) (n : Nat) : Prop :=
  (∀ i < n, ∃ v, Shows h w f d i v) ∧ d.fst ≠ none ∧
  (f = .split → ∀ i < n, ∀ j < n, ∀ p q, d.fst = some p → d.snd = some q → ¬ (p.blk = q.blk ∧ p.off + i = q.off + j))

theorem usable_buf {h : Heap R} {w : Nat} {f : UFmt} {d : Data} {n : Nat} (ht : Typed w f) (hu : Usable h w f d n) :
    Buf h w f.isSplit d n := by
  obtain ⟨hs, hn, hd⟩ := hu
  refine ⟨hn, fun i hi c hc => ?_, ?_⟩
  · obtain ⟨v, hv⟩ := hs i hi
    obtain ⟨hl, hv⟩ := getE_eq.mp ((shows_iff ht).mp hv)
    exact ⟨v[c]'(by omega), by rw [hv c hc]; exact List.getElem?_eq_getElem _⟩
  · cases f with
    | split =>
      have hw : w = 2 := by rcases ht with ⟨_, e⟩ | ⟨e, _⟩; cases e; exact e
      subst hw
      intro i hi c hc i' hi' c' hc' e
      obtain ⟨v, hv⟩ := hs i hi
      simp only [Shows] at hv
      obtain ⟨p, q, _, _, hp, hq, _⟩ := hv
      simp only [cell, UFmt.isSplit, if_true] at e
      rcases (show c = 0 ∨ c = 1 by omega) with rfl | rfl <;> rcases (show c' = 0 ∨ c' = 1 by omega) with rfl | rfl
      · simp [hp] at e; exact ⟨e, rfl⟩
      · simp [hp, hq] at e; exact absurd e (hd rfl i hi i' hi' p q hp hq)
      · simp [hp, hq] at e; exact absurd ⟨e.1.symm, e.2.symm⟩ (hd rfl i' hi' i hi p q hp hq)
      · simp [hq] at e; exact ⟨e, rfl⟩
    | none | array | inter => exact fun i _ c hc i' _ c' hc' e => cell_inj_contiguous hn i c hc i' c' hc' e

/-! ### C54 -/

/-- C54: an element written is the element read, and the other elements keep their values; in every format. -/
theorem C54_independent {h : Heap R} {w : Nat} {f : UFmt} {d : Data} {n i : Nat} {v : List R} (ht : Typed w f) (hu : Usable h w f d n)
    (hi : i < n) (hv : v.length = w) : ∃ h', putE h w f.isSplit d i v = some h' ∧ Shows h' w f d i v ∧
      (∀ j < n, j ≠ i → ∀ u, Shows h' w f d j u ↔ Shows h w f d j u) ∧ Usable h' w f d n ∧
      ∀ q, (∀ c < w, some q ≠ cell w f.isSplit d i c) → h'.load (some q) = h.load (some q) := by
  have hb := usable_buf ht hu
  obtain ⟨h', e, s, _, g, o⟩ := putE_spec hb hi hv
  have other : ∀ j < n, j ≠ i → ∀ u, Shows h' w f d j u ↔ Shows h w f d j u := fun j hj hne u => by
    rw [shows_iff ht, shows_iff ht, getE_congr fun c hc => o _ fun c' hc' ee => hne (hb.inj j hj c hc i hi c' hc' ee).1]
  refine ⟨h', e, (shows_iff ht).mpr g, other, ⟨fun j hj => ?_, hu.2⟩, fun q hq => o _ hq⟩
  by_cases e : j = i
  · exact ⟨v, e ▸ (shows_iff ht).mpr g⟩
  · obtain ⟨u, hu⟩ := hu.1 j hj; exact ⟨u, (other j hj e u).mpr hu⟩

/-- element by element conversion of `n` elements from one buffer to another, as in `admit` and `release` -/
def convert (w : Nat) (sp : Bool) (d : Data) (sp' : Bool) (d' : Data) (n : Nat) (h : Heap R) : Option (Heap R) :=
  (List.range n).foldlM (fun h i => (getE h w sp d i).bind fun v => putE h w sp' d' i v) h

/-- C54: converting to another format shows the same elements, and converting back the original ones, whatever was in the cells in between;
everything outside of the buffer written keeps its value. -/
theorem C54_roundtrip {h : Heap R} {w : Nat} {f f' : UFmt} {d d' : Data} {n : Nat} (ht : Typed w f) (ht' : Typed w f')
    (hu : Usable h w f d n) (hu' : Usable h w f' d' n) (dis : ∀ b, uses f.isSplit d b → ¬ uses f'.isSplit d' b) :
    ∃ h1, convert w f.isSplit d f'.isSplit d' n h = some h1 ∧
      (∀ i < n, ∀ v, Shows h w f d i v ↔ Shows h1 w f' d' i v) ∧
      (∀ b k, ¬ uses f'.isSplit d' b → h1.load (some ⟨b, k⟩) = h.load (some ⟨b, k⟩)) ∧
      ∀ h2 : Heap R, h2.size = h1.size → (∀ b k, uses f'.isSplit d' b → h2.load (some ⟨b, k⟩) = h1.load (some ⟨b, k⟩)) →
        ∃ h3, convert w f'.isSplit d' f.isSplit d n h2 = some h3 ∧ ∀ i < n, ∀ v, Shows h w f d i v ↔ Shows h3 w f d i v := by
  have hb := usable_buf ht hu
  have hb' := usable_buf ht' hu'
  obtain ⟨h1, e1, s1, _, g1, o1⟩ := copy_loop hb hb' (cells_disjoint hb dis) n le_rfl
  have outside : ∀ b k, ¬ uses f'.isSplit d' b → h1.load (some ⟨b, k⟩) = h.load (some ⟨b, k⟩) := fun b k hnb =>
    o1 _ fun i _ c _ e => hnb (cell_uses e.symm)
  refine ⟨h1, e1, fun i hi v => by rw [shows_iff ht, shows_iff ht', g1 i hi], outside, fun h2 s2 o2 => ?_⟩
  have dis' : ∀ b, uses f'.isSplit d' b → ¬ uses f.isSplit d b := fun b hb hb' => dis b hb' hb
  have hs : h2.size = h.size := s2.trans s1
  obtain ⟨h3, e3, _, _, g3, _⟩ := copy_loop (hb'.of_size hs) (hb.of_size hs) (cells_disjoint (hb'.of_size hs) dis') n le_rfl
  refine ⟨h3, e3, fun i hi v => ?_⟩
  rw [shows_iff ht, shows_iff ht, g3 i hi, ← g1 i hi]
  have : getE h2 w f'.isSplit d' i = getE h1 w f'.isSplit d' i := getE_congr fun c hc => by
    obtain ⟨x, hx⟩ := hb'.live i hi c hc
    obtain ⟨q, _, hq, _, _⟩ := load_some hx
    rw [hq]; exact o2 q.blk q.off (cell_uses hq)
  rw [this]

/-- a heap with an interleaved buffer 0 of two elements and split buffers 1 and 2 -/
def exHeap : Heap Nat := ⟨fun b => if b = 0 then some 4 else if b < 3 then some 2 else none, fun b k => 10 * b + k, 3⟩

example : Typed 2 .inter ∧ Typed 2 .split ∧ Usable exHeap 2 .inter ⟨some ⟨0, 0⟩, none⟩ 2 ∧
    Usable exHeap 2 .split ⟨some ⟨1, 0⟩, some ⟨2, 0⟩⟩ 2 ∧ ∀ b, uses false ⟨some ⟨0, 0⟩, none⟩ b → ¬ uses true ⟨some ⟨1, 0⟩, some ⟨2, 0⟩⟩ b := by
  refine ⟨Or.inr ⟨rfl, by simp⟩, Or.inr ⟨rfl, by simp⟩, ⟨?_, by simp, by simp⟩, ⟨?_, by simp, ?_⟩, ?_⟩
  · intro i hi
    exact ⟨[2 * i, 2 * i + 1], ⟨0, 0⟩, 2 * i, 2 * i + 1, rfl, rfl, by simp [Heap.load, exHeap]; omega, by simp [Heap.load, exHeap]; omega⟩
  · intro i hi
    exact ⟨[10 + i, 20 + i], ⟨1, 0⟩, ⟨2, 0⟩, 10 + i, 20 + i, rfl, rfl, rfl, by simp [Heap.load, exHeap]; omega, by simp [Heap.load, exHeap]; omega⟩
  · intro _ i hi j hj p q hp hq
    simp at hp hq; subst hp hq; simp
  · intro b h1 h2
    simp [uses] at h1 h2
    omega

end Verif.Props
