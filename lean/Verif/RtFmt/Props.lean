import Verif.RtFmt.Failing
import Mathlib.Data.List.Nodup
/-!
C87: storage and pointers whose format is known at run time only.
-/
namespace Verif.Props
open Verif Rtf Function

/-- size of the storage and the buffer it should refer to, if any, after a sequence of operations -/
def rtf_wanted (s : Nat × Option Pt) : List Op → Nat × Option Pt
  | [] => s
  | .resize n :: l => rtf_wanted (n, none) l
  | .resizeBuf n p :: l => rtf_wanted (n, if p.bool then some p else none) l

theorem rtf_run {chk rt : Bool} {f : Fmt} {base : Live} (hf : f ≠ .any) (l : List Op) :
    ∀ (w : World) (s : Nat × Option Pt), Inv rt f base w → w.s.size = s.1 →
      (∀ p, s.2 = some p → w.s.own = false ∧ w.s.data = p) → (s.2 = none → w.s.own = true) →
      ∃ w', run chk l w = .ok w' ∧ Inv rt f base w' ∧ w'.s.size = (rtf_wanted s l).1 ∧
        (∀ p, (rtf_wanted s l).2 = some p → w'.s.own = false ∧ w'.s.data = p) ∧ ((rtf_wanted s l).2 = none → w'.s.own = true) := by
  induction l with
  | nil => intro w s hw h1 h2 h3; exact ⟨w, rfl, hw, h1, h2, h3⟩
  | cons o l ih =>
    intro w s hw h1 h2 h3
    cases o with
    | resize n =>
      obtain ⟨w', e, hi, hs, ho⟩ := resize_inv (chk := chk) n hf hw
      obtain ⟨w'', e', r⟩ := ih w' (n, none) hi hs (fun p h => by cases h) (fun _ => ho)
      refine ⟨w'', ?_, r⟩
      unfold run; simp only [Op.run]; rw [e]; exact e'
    | resizeBuf n p =>
      by_cases hp : p.bool = true
      · obtain ⟨w', e, hi, hs, ho, hd⟩ := resizeBuf_inv (chk := chk) n p hp hw
        obtain ⟨w'', e', r⟩ := ih w' (n, some p) hi hs (fun q h => by cases h; exact ⟨ho, hd⟩) (fun h => by cases h)
        refine ⟨w'', ?_, ?_⟩
        · unfold run; simp only [Op.run]; rw [e]; exact e'
        · simp only [rtf_wanted, if_pos hp]; exact r
      · obtain ⟨w', e, hi, hs, ho⟩ := resize_inv (chk := chk) n hf hw
        obtain ⟨w'', e', r⟩ := ih w' (n, none) hi hs (fun p h => by cases h) (fun _ => ho)
        refine ⟨w'', ?_, ?_⟩
        · unfold run; simp only [Op.run, resizeBuf, if_neg hp]; rw [e]; exact e'
        · simp only [rtf_wanted, if_neg hp]; exact r

theorem rtf_keeps {base live : Live} {f : Fmt} {n : Nat} {a b : Word} (h : Backed base live f n a b) : Keeps base live := by
  intro x k hx
  have key : ∀ p y, base p = none → update base p y x = some k := by
    intro p y hp
    rw [update_of_ne (by rintro rfl; rw [hp] at hx; cases hx)]; exact hx
  cases f with
  | any => exact h.elim
  | array => obtain ⟨p, -, hp, e⟩ := h; rw [e]; exact key p _ hp
  | inter => obtain ⟨p, -, hp, e⟩ := h; rw [e]; exact key p _ hp
  | split =>
    obtain ⟨p, q, -, -, -, hp, hq, e⟩ := h
    rw [e, update_of_ne (by rintro rfl; rw [hq] at hx; cases hx)]
    exact key p _ hp

theorem rtf_create {chk rt : Bool} {f : Fmt} (hf : f ≠ .any) (n : Nat) (h : Heap) (hh : h.Ok) (hp : h.plan = []) :
    ∃ w, create chk rt f n h = .ok w ∧ Inv rt f h.live w ∧ w.s.size = n ∧ w.s.own = true := by
  obtain ⟨w, e, hs, ho, hi⟩ := allocate_bare (chk := chk) (base := h.live) (w := ⟨h, ⟨rt, f, n, true, nullData rt f⟩⟩) hf
    ⟨rfl, rfl, hh, hp, hh, rfl, rfl⟩ (fun _ => rfl)
  refine ⟨w, e, ?_, hs, ho⟩
  rcases hi true with h | h
  · rwa [own_eta w ho] at h
  · cases h

/-- **C87 (storage).** Storage of complex data, of a fixed format or of one chosen at run time, made with or without a buffer and then
resized any number of times, with or without buffers, while allocation succeeds: no assertion fails, it has the size last asked for; it
refers to the buffer last given, or else to memory of its own in its own format, for that many elements, taken from what was free;
whatever was in use before — the buffers among it — stays in use; and after its destruction exactly what was in use before is in use. -/
theorem C87_storage (chk rt : Bool) (n : Nat) (p : Pt) (hf : p.fmt ≠ .any) (h : Heap) (hh : ∀ x, h.next ≤ x → h.live x = none)
    (hp : h.plan = []) (l : List Op) :
    ∃ w₀ w w', createBuf chk rt n p h = .ok w₀ ∧ run chk l w₀ = .ok w ∧ destroy chk w = .ok w' ∧
      w.s.size = (rtf_wanted (n, if p.bool then some p else none) l).1 ∧
      (∀ q, (rtf_wanted (n, if p.bool then some p else none) l).2 = some q → w.s.data = q ∧ w.h.live = h.live) ∧
      ((rtf_wanted (n, if p.bool then some p else none) l).2 = none →
        w.s.data.fmt = p.fmt ∧ Backed h.live w.h.live p.fmt w.s.size w.s.data.a w.s.data.b) ∧
      Keeps h.live w.h.live ∧ w'.h.live = h.live := by
  have start : ∃ w₀, createBuf chk rt n p h = .ok w₀ ∧ Inv rt p.fmt h.live w₀ ∧ w₀.s.size = n ∧
      (∀ q, (if p.bool then some p else none) = some q → w₀.s.own = false ∧ w₀.s.data = q) ∧
      ((if p.bool then some p else none) = none → w₀.s.own = true) := by
    unfold createBuf
    by_cases hb : p.bool = true
    · simp only [if_pos hb]
      exact ⟨_, rfl, ⟨rfl, rfl, hh, hp, hh, fun _ => rfl, fun h => by cases h⟩, rfl, fun q e => by cases e; exact ⟨rfl, rfl⟩, fun h => by cases h⟩
    · rw [if_neg hb, if_neg hb]
      obtain ⟨w, e, hi, hs, ho⟩ := rtf_create (chk := chk) (rt := rt) hf n h hh hp
      exact ⟨w, e, hi, hs, fun q e => (by cases e), fun _ => ho⟩
  obtain ⟨w₀, e0, hi0, hs0, hb0, ho0⟩ := start
  obtain ⟨w, e, hi, hs, hb, ho⟩ := rtf_run (chk := chk) hf l w₀ (n, if p.bool then some p else none) hi0 hs0 hb0 ho0
  have hd : ∃ w', destroy chk w = .ok w' ∧ w'.h.live = h.live := by
    unfold destroy
    by_cases hw : w.s.own = true
    · rw [if_pos hw, deallocate_owned hi hw]; exact ⟨_, rfl, rfl⟩
    · rw [if_neg hw]; exact ⟨w, rfl, hi.given (by simpa using hw)⟩
  obtain ⟨w', e', hl⟩ := hd
  refine ⟨w₀, w, w', e0, e, e', hs, fun q hq => ⟨(hb q hq).2, hi.given (hb q hq).1⟩, fun hq => hi.owned (ho hq), ?_, hl⟩
  by_cases hw : w.s.own = true
  · exact rtf_keeps (hi.owned hw).2
  · rw [hi.given (by simpa using hw)]; exact fun _ _ h => h

/-- one buffer of 16 scalars in use at address 5 -/
def rtf_heap : Heap := ⟨fun p => if p = 5 then some 16 else none, 100, []⟩

theorem rtf_heap_ok : ∀ x, rtf_heap.next ≤ x → rtf_heap.live x = none := by
  intro x hx
  have hx : 100 ≤ x := hx
  show (if x = 5 then some 16 else none) = none
  rw [if_neg (by omega)]

example : ∃ w, (create true true .split 4 rtf_heap).bind (run true [.resize 9, .resizeBuf 8 (.ofArray (.at 5)), .resize 3]) = .ok w ∧
    w.s = ⟨true, .split, 3, true, .ofSplit (.at 130) (.at 134)⟩ ∧ w.h.live 130 = some 3 ∧ w.h.live 5 = some 16 ∧
    w.h.live 100 = none ∧ w.h.live 110 = none ∧ w.h.live 120 = none := by
  refine ⟨_, rfl, ?_⟩
  decide +kernel

example := C87_storage true true 4 (.ofFmt .split) (by decide) rtf_heap rtf_heap_ok rfl
  [.resize 9, .resizeBuf 8 (.ofArray (.at 5)), .resize 3]

/-- **C87, partial (failing allocations).** Storage of a fixed format, or of a format chosen at run time other than split in a build
without assertions, once made: whatever requests for memory fail in the course of its resizes, each exception being caught, nothing goes
wrong, and after its destruction exactly what was in use before is in use.
Missing: the class for all formats in split format or with assertions, and the constructors, both refuted below. -/
theorem C87_failing_partial (chk rt : Bool) (f : Fmt) (hf : f ≠ .any) (hr : rt = true → chk = false ∧ f ≠ .split) (n : Nat) (h : Heap)
    (hh : ∀ x, h.next ≤ x → h.live x = none) (w₀ : World) (hc : create chk rt f n h = .ok w₀) (l : List Op) :
    ∃ w w', runCatching chk l w₀ = .ok w ∧ destroy chk w = .ok w' ∧ w'.h.live = h.live := by
  obtain ⟨w1, e1, ho1, hi1, -⟩ := allocate_bareF (chk := chk) (base := h.live) (w := ⟨h, ⟨rt, f, n, true, nullData rt f⟩⟩) hf
    ⟨rfl, rfl, hr, hh, rfl, rfl⟩ (fun _ => rfl)
  unfold create at hc
  rw [hc] at e1
  have e : w1 = w₀ := by
    rcases e1 with e | e
    · cases e; rfl
    · cases e
  subst e
  rw [own_eta w1 ho1] at hi1
  obtain ⟨w, e, hi⟩ := runCatching_invF hf l w1 hi1
  refine ⟨w, ?_⟩
  unfold destroy
  by_cases hw : w.s.own = true
  · rw [if_pos hw, deallocate_held hf hi hw]; exact ⟨_, e, rfl, rfl⟩
  · rw [if_neg hw]; exact ⟨w, e, rfl, hi.given (by simpa using hw)⟩

example : ∃ w₀, create true false .split 4 { rtf_heap with plan := [true, true, true, false, false] } = .ok w₀ ∧
    ∃ w, runCatching true [.resize 6, .resize 8, .resize 5] w₀ = .ok w ∧ w.s.data = ⟨.split, .at 117, .at 123⟩ := by
  refine ⟨_, rfl, _, rfl, ?_⟩
  decide +kernel

example := C87_failing_partial true false .split (by decide) (fun h => by cases h) 4
  { rtf_heap with plan := [true, true, true, false, false] } rtf_heap_ok _ rfl [.resize 6, .resize 8, .resize 5]

/-- the pointers users can make -/
inductive rtf_Made : Pt → Prop where
  | default : rtf_Made .default
  | array (p : Word) : rtf_Made (.ofArray p)
  | inter (p : Word) : rtf_Made (.ofInter p)
  | split (p q : Word) : rtf_Made (.ofSplit p q)

/-- **C87 (pointers).** Pointers made from plain pointers or pairs keep their format and their addresses through conversion to constant
pointers and back; asking for them as arrays or as interleaved data gives the address stored, as pairs the pair; in a checked build
arrays are not handed out as pairs nor pairs as arrays. -/
theorem C87_pointer (p : Pt) (hp : rtf_Made p) (chk : Bool) :
    (∃ c, p.toConst chk = .ok c ∧ c.fmt = p.fmt ∧ c.bool = p.bool ∧ c.fromConst = .ok p) ∧
    (p.fmt = .array ∨ p.fmt = .inter → p.asOne chk = .ok p.a ∧ p.asPair true = .stop ∧ p.constOne = .ok p.a) ∧
    (p.fmt = .split → p.asPair chk = .ok (p.a, p.b) ∧ p.asOne true = .stop ∧ p.constPair = .ok (p.a, p.b)) ∧
    (p.bool = false ↔ p.a = .null) := by
  have hb : p.bool = false ↔ p.a = .null := by simp [Pt.bool]
  refine ⟨?_, ?_, ?_, hb⟩
  · cases hp with
    | default => exact ⟨_, rfl, rfl, rfl, rfl⟩
    | array p => cases chk <;> exact ⟨_, rfl, rfl, rfl, rfl⟩
    | inter p => cases chk <;> exact ⟨_, rfl, rfl, rfl, rfl⟩
    | split p q => cases chk <;> exact ⟨_, rfl, rfl, rfl, rfl⟩
  · cases hp with
    | default => intro h; rcases h with h | h <;> cases h
    | array p => intro _; cases chk <;> exact ⟨rfl, rfl, rfl⟩
    | inter p => intro _; cases chk <;> exact ⟨rfl, rfl, rfl⟩
    | split p q => intro h; rcases h with h | h <;> cases h
  · cases hp with
    | default => intro h; cases h
    | array p => intro h; cases h
    | inter p => intro h; cases h
    | split p q => intro _; cases chk <;> exact ⟨rfl, rfl, rfl⟩

example := C87_pointer (.ofSplit (.at 3) (.at 8)) (.split _ _) true

/-- **C87, partial (offsets).** Moving a pointer to an array or to interleaved data by `i` elements gives a pointer of the same format to
the parts of element `i`.  Missing: split data, for which the code does not compile. -/
theorem C87_offset_partial (p : Pt) (a b i : Nat) (hf : p.fmt = .array ∨ p.fmt = .inter) (ha : p.a = .at a) :
    ∃ q, offset p i = some q ∧ q.fmt = p.fmt ∧ q.a = .at (partsOf p.fmt a b i).1 := by
  obtain ⟨f, x, y⟩ := p
  simp only at hf ha ⊢
  subst ha
  rcases hf with rfl | rfl <;> exact ⟨_, rfl, rfl, rfl⟩

example := C87_offset_partial (.ofInter (.at 3)) 3 0 7 (Or.inr rfl) rfl

/-! ### copies through the storage of an accessor -/

theorem rtf_put_other {R : Type} {f : Fmt} {a b n i j : Nat} (hs : f = .split → a + n ≤ b ∨ b + n ≤ a) (hi : i < n) (hj : j < n)
    (hij : i ≠ j) (m : Nat → R) (v : R × R) : get f a b (put f a b m j v) i = get f a b m i := by
  cases f with
  | split =>
    have h := hs rfl
    unfold Rtf.get put
    simp only
    rw [update_of_ne (by omega), update_of_ne (by omega), update_of_ne (by omega), update_of_ne (by omega)]
  | any =>
    unfold Rtf.get put; simp only
    rw [update_of_ne (by omega), update_of_ne (by omega), update_of_ne (by omega), update_of_ne (by omega)]
  | array =>
    unfold Rtf.get put; simp only
    rw [update_of_ne (by omega), update_of_ne (by omega), update_of_ne (by omega), update_of_ne (by omega)]
  | inter =>
    unfold Rtf.get put; simp only
    rw [update_of_ne (by omega), update_of_ne (by omega), update_of_ne (by omega), update_of_ne (by omega)]

theorem rtf_put_same {R : Type} {f : Fmt} {a b n i : Nat} (hs : f = .split → a + n ≤ b ∨ b + n ≤ a) (hi : i < n)
    (m : Nat → R) (v : R × R) : get f a b (put f a b m i v) i = v := by
  cases f with
  | split =>
    have h := hs rfl
    unfold Rtf.get put; simp only
    rw [update_of_ne (by omega), update_self, update_self]
  | any => unfold Rtf.get put; simp only; rw [update_of_ne (by omega), update_self, update_self]
  | array => unfold Rtf.get put; simp only; rw [update_of_ne (by omega), update_self, update_self]
  | inter => unfold Rtf.get put; simp only; rw [update_of_ne (by omega), update_self, update_self]

theorem rtf_fold_other {R : Type} {f : Fmt} {a b n i : Nat} (hs : f = .split → a + n ≤ b ∨ b + n ≤ a) (hi : i < n)
    (l : List (Nat × (R × R))) : ∀ m : Nat → R, (∀ x ∈ l, x.1 < n) → i ∉ l.map Prod.fst →
      get f a b (l.foldl (fun m x => put f a b m x.1 x.2) m) i = get f a b m i := by
  induction l with
  | nil => intro m _ _; rfl
  | cons x l ih =>
    intro m hl hn
    simp only [List.map_cons, List.mem_cons, not_or] at hn
    simp only [List.foldl_cons]
    rw [ih _ (fun y hy => hl y (by simp [hy])) hn.2, rtf_put_other hs hi (hl x (by simp)) hn.1]

theorem rtf_fold {R : Type} {f : Fmt} {a b n : Nat} (hs : f = .split → a + n ≤ b ∨ b + n ≤ a)
    (l : List (Nat × (R × R))) : ∀ m : Nat → R, (∀ x ∈ l, x.1 < n) → (l.map Prod.fst).Nodup →
      ∀ x ∈ l, get f a b (l.foldl (fun m x => put f a b m x.1 x.2) m) x.1 = x.2 := by
  induction l with
  | nil => intro m _ _ x hx; cases hx
  | cons y l ih =>
    intro m hl hn x hx
    simp only [List.map_cons, List.nodup_cons] at hn
    simp only [List.foldl_cons]
    rcases List.mem_cons.1 hx with rfl | hx
    · rw [rtf_fold_other hs (hl x (by simp)) l _ (fun y hy => hl y (by simp [hy])) hn.1, rtf_put_same hs (hl x (by simp))]
    · exact ih _ (fun y hy => hl y (by simp [hy])) hn.2 x hx

theorem rtf_fold_outside {R : Type} {f : Fmt} {a b n : Nat} (y : Nat)
    (hy : ∀ i, i < n → y ≠ (partsOf f a b i).1 ∧ y ≠ (partsOf f a b i).2)
    (l : List (Nat × (R × R))) : ∀ m : Nat → R, (∀ x ∈ l, x.1 < n) → l.foldl (fun m x => put f a b m x.1 x.2) m y = m y := by
  induction l with
  | nil => intro m _; rfl
  | cons x l ih =>
    intro m hl
    simp only [List.foldl_cons]
    rw [ih _ (fun z hz => hl z (by simp [hz]))]
    have h := hy x.1 (hl x (by simp))
    cases f <;> (unfold put; simp only [partsOf] at h ⊢; rw [update_of_ne h.2, update_of_ne h.1])

theorem rtf_copy {R : Type} (chk : Bool) (f : Fmt) (p : Pt) (a b n : Nat) (ht : target chk f p = .ok (a, b))
    (hs : f = .split → a + n ≤ b ∨ b + n ≤ a) (m : Nat → R) (l : List (Nat × (R × R))) (hl : ∀ x ∈ l, x.1 < n)
    (hn : (l.map Prod.fst).Nodup) :
    ∃ m', syncIn chk f p m l = .ok m' ∧ syncOut chk f p m' (l.map Prod.fst) = .ok (l.map Prod.snd) ∧
      (∀ x ∈ l, m' (partsOf f a b x.1).1 = x.2.1 ∧ m' (partsOf f a b x.1).2 = x.2.2) ∧
      ∀ y, (∀ i, i < n → y ≠ (partsOf f a b i).1 ∧ y ≠ (partsOf f a b i).2) → m' y = m y := by
  refine ⟨l.foldl (fun m x => put f a b m x.1 x.2) m, ?_, ?_, ?_, fun y hy => rtf_fold_outside y hy l m hl⟩
  · unfold syncIn; rw [ht]; rfl
  · unfold syncOut; rw [ht]
    show Out.ok (List.map _ (List.map _ l)) = Out.ok _
    congr 1
    rw [List.map_map]
    exact List.map_congr_left fun x hx => rtf_fold hs l m hl hn x hx
  · intro x hx
    have e := rtf_fold hs l m hl hn x hx
    cases f <;> (unfold Rtf.get at e; simp only [partsOf] at e ⊢; rw [← e]; exact ⟨rfl, rfl⟩)

/-- **C87 (copies in own memory).** An accessor that copies, without a buffer: the elements are written to the parts of their places in
the format of the layout and read back unchanged, in whatever order and wherever the layout puts them, as long as no two share a place
and all fit; memory outside the blocks the accessor has taken is not touched. -/
theorem C87_copy {R : Type} (chk : Bool) (f : Fmt) (hf : f ≠ .any) (n : Nat) (buffer : Pt) (hb : buffer.bool = false) (h : Heap)
    (hh : ∀ x, h.next ≤ x → h.live x = none) (hp : h.plan = []) (m : Nat → R) (l : List (Nat × (R × R)))
    (hl : ∀ x ∈ l, x.1 < n) (hn : (l.map Prod.fst).Nodup) :
    ∃ w m' a b, accessorStorage chk f n buffer h = .ok w ∧ w.s.data.fmt = f ∧ w.s.data.a = .at a ∧ (f = .split → w.s.data.b = .at b) ∧
      syncIn chk f w.s.data m l = .ok m' ∧ syncOut chk f w.s.data m' (l.map Prod.fst) = .ok (l.map Prod.snd) ∧
      (∀ x ∈ l, m' (partsOf f a b x.1).1 = x.2.1 ∧ m' (partsOf f a b x.1).2 = x.2.2) ∧
      ∀ y, (∀ p k, h.live p = none → w.h.live p = some k → ¬ (p ≤ y ∧ y < p + k)) → m' y = m y := by
  have hn0 := hh h.next (Nat.le_refl _)
  have e : accessorStorage chk f n buffer h = create chk true f n h := by
    unfold accessorStorage createBuf
    rw [hb]; rfl
  rw [e]
  cases f with
  | any => exact absurd rfl hf
  | array =>
    have e : create chk true .array n h = .ok ⟨⟨update h.live h.next (some (2 * n)), h.next + 2 * n + 1, []⟩,
        ⟨true, .array, n, true, ⟨.array, .at h.next, .junk⟩⟩⟩ := by
      simp [create, allocate, allocateRt, alloc_nil _ hp]
    obtain ⟨m', h1, h2, h3, h4⟩ := rtf_copy chk .array ⟨.array, .at h.next, .junk⟩ h.next h.next n (by cases chk <;> rfl)
      (fun h => by cases h) m l hl hn
    refine ⟨_, m', h.next, h.next, e, rfl, rfl, fun h => (by cases h), h1, h2, h3, fun y hy => h4 y fun i hi => ?_⟩
    have := hy h.next (2 * n) hn0 (update_self ..)
    simp only [partsOf]; omega
  | inter =>
    have e : create chk true .inter n h = .ok ⟨⟨update h.live h.next (some (2 * n)), h.next + 2 * n + 1, []⟩,
        ⟨true, .inter, n, true, ⟨.inter, .at h.next, .junk⟩⟩⟩ := by
      simp [create, allocate, allocateRt, alloc_nil _ hp]
    obtain ⟨m', h1, h2, h3, h4⟩ := rtf_copy chk .inter ⟨.inter, .at h.next, .junk⟩ h.next h.next n (by cases chk <;> rfl)
      (fun h => by cases h) m l hl hn
    refine ⟨_, m', h.next, h.next, e, rfl, rfl, fun h => (by cases h), h1, h2, h3, fun y hy => h4 y fun i hi => ?_⟩
    have := hy h.next (2 * n) hn0 (update_self ..)
    simp only [partsOf]; omega
  | split =>
    have e : create chk true .split n h = .ok ⟨⟨update (update h.live h.next (some n)) (h.next + n + 1) (some n), h.next + n + 1 + n + 1, []⟩,
        ⟨true, .split, n, true, ⟨.split, .at h.next, .at (h.next + n + 1)⟩⟩⟩ := by
      simp [create, allocate, allocateRt, alloc_nil _ hp, alloc_nil, Pt.ofSplit]
    obtain ⟨m', h1, h2, h3, h4⟩ := rtf_copy chk .split ⟨.split, .at h.next, .at (h.next + n + 1)⟩ h.next (h.next + n + 1) n
      (by cases chk <;> rfl) (fun _ => Or.inl (by omega)) m l hl hn
    refine ⟨_, m', h.next, h.next + n + 1, e, rfl, rfl, fun _ => rfl, h1, h2, h3, fun y hy => h4 y fun i hi => ?_⟩
    have g1 := hy h.next n hn0 (by show update (update _ _ _) _ _ _ = _; rw [update_of_ne (by omega), update_self])
    have g2 := hy (h.next + n + 1) n (hh _ (by omega)) (update_self ..)
    simp only [partsOf]; omega

example := C87_copy true .split (by decide) 3 .default rfl rtf_heap rtf_heap_ok rfl (fun _ => (0 : Nat))
  [(2, (1, 2)), (0, (3, 4))] (by decide) (by decide)

/-- **C87, partial (copies in buffers).** With a buffer of the layout's format — arrays and interleaved data counting as one — large
enough and, for split data, of two separate arrays, the accessor takes no memory, the elements go to their parts in the buffer, come back
unchanged, and nothing outside the buffer is touched.
Missing: buffers of another format, which the constructors accept. -/
theorem C87_buffer_partial {R : Type} (chk : Bool) (f : Fmt) (n a b : Nat) (buffer : Pt)
    (hb : (buffer.fmt ∈ [Fmt.array, Fmt.inter] ∧ f ∈ [Fmt.array, Fmt.inter] ∧ buffer.a = .at a) ∨
      (f = .split ∧ buffer = .ofSplit (.at a) (.at b) ∧ (a + n ≤ b ∨ b + n ≤ a)))
    (h : Heap) (m : Nat → R) (l : List (Nat × (R × R))) (hl : ∀ x ∈ l, x.1 < n) (hn : (l.map Prod.fst).Nodup) :
    ∃ w w' m', accessorStorage chk f n buffer h = .ok w ∧ w.s.data = buffer ∧ w.h = h ∧
      syncIn chk f w.s.data m l = .ok m' ∧ syncOut chk f w.s.data m' (l.map Prod.fst) = .ok (l.map Prod.snd) ∧
      (∀ x ∈ l, m' (partsOf f a b x.1).1 = x.2.1 ∧ m' (partsOf f a b x.1).2 = x.2.2) ∧
      (∀ y, (∀ i, i < n → y ≠ (partsOf f a b i).1 ∧ y ≠ (partsOf f a b i).2) → m' y = m y) ∧
      destroy chk w = .ok w' ∧ w'.h = h := by
  rcases hb with ⟨hbf, hf, ha⟩ | ⟨rfl, rfl, hab⟩
  · obtain ⟨bf, ba, bb⟩ := buffer
    simp only at hbf ha
    subst ha
    have hs : f = .split → a + n ≤ a ∨ a + n ≤ a := by rintro rfl; simp at hf
    have ht : target chk f ⟨bf, .at a, bb⟩ = .ok (a, a) := by
      simp only [List.mem_cons, List.not_mem_nil, or_false] at hbf hf
      rcases hbf with rfl | rfl <;> rcases hf with rfl | rfl <;> cases chk <;> rfl
    obtain ⟨m', h1, h2, h3, h4⟩ := rtf_copy chk f ⟨bf, .at a, bb⟩ a a n ht hs m l hl hn
    have hpo : ∀ i, partsOf f a b i = partsOf f a a i := by
      intro i
      simp only [List.mem_cons, List.not_mem_nil, or_false] at hf
      rcases hf with rfl | rfl <;> rfl
    refine ⟨_, _, m', rfl, rfl, rfl, h1, h2, ?_, ?_, rfl, rfl⟩
    · intro x hx; rw [hpo]; exact h3 x hx
    · intro y hy; exact h4 y fun i hi => by rw [← hpo]; exact hy i hi
  · obtain ⟨m', h1, h2, h3, h4⟩ := rtf_copy chk .split (.ofSplit (.at a) (.at b)) a b n (by cases chk <;> rfl) (fun _ => hab) m l hl hn
    exact ⟨_, _, m', rfl, rfl, rfl, h1, h2, h3, h4, rfl, rfl⟩

example := C87_buffer_partial true .inter 3 40 0 (.ofArray (.at 40)) (Or.inl ⟨by decide, by decide, rfl⟩) rtf_heap (fun _ => (0 : Nat))
  [(2, (1, 2)), (0, (3, 4))] (by decide) (by decide)

/-! ### where the code differs -/

/-- **C87 is false (another format's buffer).** An accessor for split data takes a buffer that is an array; copying into it stops a checked
build, and uses a pointer never set in others. -/
theorem C87_buffer_false :
    ∃ w, accessorStorage true .split 4 (.ofArray (.at 5)) rtf_heap = .ok w ∧
      syncIn true .split w.s.data (fun _ => (0 : Nat)) [(0, (1, 2))] = .stop ∧
      ∃ w, accessorStorage false .split 4 (.ofArray (.at 5)) rtf_heap = .ok w ∧
        syncIn false .split w.s.data (fun _ => (0 : Nat)) [(0, (1, 2))] = .ub :=
  ⟨_, rfl, rfl, _, rfl, rfl⟩

/-- **C87 is false (reported format).** Storage resized to a buffer of another format still reports the old one. -/
theorem C87_format_false :
    ∃ w, (create true true .array 4 rtf_heap).bind (resizeBuf true 8 (.ofSplit (.at 5) (.at 13))) = .ok w ∧
      w.s.fmt = .array ∧ w.s.data.fmt = .split := ⟨_, rfl, rfl, rfl⟩

/-- **C87 is false (allocating twice).** `allocate()` on storage of a run-time format that has its memory loses that memory: it is still in
use after destruction.  The classes of fixed format do nothing in this case. -/
theorem C87_twice_false :
    (∃ w, ((create true true .array 4 rtf_heap).bind (allocate true)).bind (destroy true) = .ok w ∧
      rtf_heap.live 100 = none ∧ w.h.live 100 = some 8) ∧
    (∃ w, ((create true false .array 4 rtf_heap).bind (allocate true)).bind (destroy true) = .ok w ∧ w.h.live 100 = none) := by
  refine ⟨⟨_, rfl, ?_⟩, ⟨_, rfl, ?_⟩⟩ <;> decide +kernel

/-- **C87 is false (allocating over a buffer).** `allocate()` on storage of a run-time format that refers to a user's buffer replaces the
buffer by memory it will not free. -/
theorem C87_over_false :
    ∃ w, (createBuf true true 8 (.ofArray (.at 5)) rtf_heap).bind (allocate true) = .ok w ∧ w.s.data = .ofArray (.at 100) ∧
      ∃ w', destroy true w = .ok w' ∧ w'.h.live 100 = some 16 := by
  refine ⟨_, rfl, rfl, _, rfl, ?_⟩
  decide +kernel

/-- **C87 is false (freeing a buffer).** `deallocate()` on storage that refers to a user's buffer frees the buffer, in every class. -/
theorem C87_user_false (rt : Bool) :
    ∃ w, (createBuf true rt 8 (.ofArray (.at 5)) rtf_heap).bind (deallocate true) = .ok w ∧ rtf_heap.live 5 = some 16 ∧
      w.h.live 5 = none := by
  cases rt
  · refine ⟨_, rfl, ?_⟩; decide +kernel
  · refine ⟨_, rfl, ?_⟩; decide +kernel

/-- **C87 is false (destruction after `deallocate()`).** Of storage of a run-time format: an assertion fails, whatever the format; without
assertions, for split data, a pointer never set is freed.  The classes of fixed format are destroyed without harm. -/
theorem C87_again_false :
    (∀ f, f ≠ .any → ∃ w, (create true true f 4 rtf_heap).bind (deallocate true) = .ok w ∧ destroy true w = .stop) ∧
    (∃ w, (create false true .split 4 rtf_heap).bind (deallocate false) = .ok w ∧ destroy false w = .ub) ∧
    (∀ f, f ≠ .any → ∃ w w', (create true false f 4 rtf_heap).bind (deallocate true) = .ok w ∧ destroy true w = .ok w') := by
  refine ⟨?_, ⟨_, rfl, rfl⟩, ?_⟩
  · intro f hf
    cases f with
    | any => exact absurd rfl hf
    | array => exact ⟨_, rfl, rfl⟩
    | split => exact ⟨_, rfl, rfl⟩
    | inter => exact ⟨_, rfl, rfl⟩
  · intro f hf
    cases f with
    | any => exact absurd rfl hf
    | array => exact ⟨_, _, rfl, rfl⟩
    | split => exact ⟨_, _, rfl, rfl⟩
    | inter => exact ⟨_, _, rfl, rfl⟩

/-- **C87 is false (failed resizes).** When the memory for a resize cannot be had, storage of a run-time format cannot be destroyed: an
assertion fails, or for split data a pointer never set is freed; when the second of two arrays cannot be had, the first is lost. -/
theorem C87_resize_false :
    (∃ w₀ w, create true true .array 4 { rtf_heap with plan := [true, false] } = .ok w₀ ∧ resize true 9 w₀ = .thrown w ∧
      destroy true w = .stop) ∧
    (∃ w₀ w, create false true .split 4 { rtf_heap with plan := [true, true, false] } = .ok w₀ ∧ resize false 9 w₀ = .thrown w ∧
      destroy false w = .ub) ∧
    (∃ w, (createBuf false true 8 (.ofSplit (.at 5) (.at 13)) { rtf_heap with plan := [true, false] }) = .ok w ∧
      ∃ w₁ w₂, resize false 9 w = .thrown w₁ ∧ destroy false w₁ = .ok w₂ ∧ w₂.h.live 100 = some 9) := by
  refine ⟨⟨_, _, rfl, rfl, rfl⟩, ⟨_, _, rfl, rfl, rfl⟩, ⟨_, rfl, _, _, rfl, rfl, ?_⟩⟩
  decide +kernel

/-- **C87 is false (failed construction).** When the second array of split storage cannot be had during construction, the first is never
freed, in either class: the destructor of an object whose constructor throws does not run. -/
theorem C87_create_false (rt : Bool) :
    ∃ w, create false rt .split 4 { rtf_heap with plan := [true, false] } = .thrown w ∧ w.h.live 100 = some 4 := by
  cases rt
  · refine ⟨_, rfl, ?_⟩; decide +kernel
  · refine ⟨_, rfl, ?_⟩; decide +kernel

/-- **C87 is false (trying again).** After a resize that failed, the same resize reports success, and the storage has no memory — or, for
split data, only that of the real parts. -/
theorem C87_retry_false :
    (∃ w₀ w w', create true false .array 4 { rtf_heap with plan := [true, false] } = .ok w₀ ∧ resize true 9 w₀ = .thrown w ∧
      resize true 9 w = .ok w' ∧ w'.s.size = 9 ∧ w'.s.data.a = .null) ∧
    (∃ w₀ w w', create true false .split 4 { rtf_heap with plan := [true, true, true, false] } = .ok w₀ ∧ resize true 9 w₀ = .thrown w ∧
      resize true 9 w = .ok w' ∧ w'.s.size = 9 ∧ w'.s.data.bool = true ∧ w'.s.data.b = .null) :=
  ⟨⟨_, _, _, rfl, rfl, rfl, rfl, rfl⟩, ⟨_, _, _, rfl, rfl, rfl, rfl, rfl, rfl⟩⟩

/-- **C87 is false (elements).** `get` and `put` of storage of a run-time format use the first element, whatever the index; for split data
they do not compile, nor does `offset`. -/
theorem C87_element_false :
    (∀ i, elementAt (.ofArray (.at 40)) i = some (.at (partsOf .array 40 0 0).1, .at (partsOf .array 40 0 0).2)) ∧
    elementAt (.ofArray (.at 40)) 3 ≠ some (.at (partsOf .array 40 0 3).1, .at (partsOf .array 40 0 3).2) ∧
    elementAt (.ofSplit (.at 40) (.at 50)) 0 = none ∧ offset (.ofSplit (.at 40) (.at 50)) 0 = none :=
  ⟨fun _ => rfl, by decide, rfl, rfl⟩

/-- **C87 is false (null pairs).** A null pointer of split format leaves its second pointer unset, and hands it out. -/
theorem C87_null_false : (Pt.ofFmt .split).bool = false ∧ (Pt.ofFmt .split).asPair true = .ok (.null, .junk) ∧
    ∃ c, (Pt.ofFmt .split).toConst true = .ok c ∧ c.constPair = .ok (.null, .junk) := ⟨rfl, rfl, _, rfl, rfl⟩

/-- **C87 is false (constant pointers).** Constant pointers hand out an array as a pair, with a second pointer never set, in checked builds
too. -/
theorem C87_const_false : ∃ c, (Pt.ofArray (.at 40)).toConst true = .ok c ∧ c.constPair = .ok (.at 40, .junk) := ⟨_, rfl, rfl⟩

/-- **C87 is false (unknown format).** Storage asked for in an unknown format stops a checked build; in others it reports success with no
memory, as does that of an accessor. -/
theorem C87_any_false : create true true .any 4 rtf_heap = .stop ∧
    (∃ w, create false true .any 4 rtf_heap = .ok w ∧ w.s.size = 4 ∧ w.s.data.bool = false) ∧
    ∃ w, accessorStorage false .any 4 .default rtf_heap = .ok w ∧ w.s.data.bool = false := ⟨rfl, ⟨_, rfl, rfl, rfl⟩, ⟨_, rfl, rfl⟩⟩

end Verif.Props

#print axioms Verif.Props.C87_storage
#print axioms Verif.Props.C87_failing_partial
#print axioms Verif.Props.C87_pointer
#print axioms Verif.Props.C87_offset_partial
#print axioms Verif.Props.C87_copy
#print axioms Verif.Props.C87_buffer_partial
#print axioms Verif.Props.C87_buffer_false
#print axioms Verif.Props.C87_format_false
#print axioms Verif.Props.C87_twice_false
#print axioms Verif.Props.C87_over_false
#print axioms Verif.Props.C87_user_false
#print axioms Verif.Props.C87_again_false
#print axioms Verif.Props.C87_resize_false
#print axioms Verif.Props.C87_create_false
#print axioms Verif.Props.C87_retry_false
#print axioms Verif.Props.C87_element_false
#print axioms Verif.Props.C87_null_false
#print axioms Verif.Props.C87_const_false
#print axioms Verif.Props.C87_any_false
