import Verif.Storage.Props
/-!
C53: histories of the user storage protocol.
-/
namespace Verif.Props
open Verif.Stor
variable {R : Type}

/-! ### Specification -/

/-- what can happen to a block with user storage and to the memory around it -/
inductive StorOp (R : Type) where
  /-- the user allocates `n` cells -/
  | alloc (n : Nat)
  /-- the user writes to a cell of some other memory -/
  | poke (b k : Nat) (x : R)
  /-- the user writes element `i` of the bound buffer -/
  | userWrite (i : Nat) (v : List R)
  /-- the block's `put` -/
  | put (i : Nat) (v : List R)
  | admit (update : Bool)
  | release (update : Bool)
  | rebind (f : UFmt) (d : Data) (n : Nat)

def storStep (s : World R) : StorOp R → Option (World R)
  | .alloc n => some ⟨(s.h.alloc n).1, s.m⟩
  | .poke b k x => (s.h.store (some ⟨b, k⟩) x).map fun h => ⟨h, s.m⟩
  | .userWrite i v => userPut s i v
  | .put i v => Stor.put s i v
  | .admit u => Stor.admit s u
  | .release u => Stor.release s u
  | .rebind f d n => Stor.rebind s f d n

def storRun : World R → List (StorOp R) → Option (World R)
  | s, [] => some s
  | s, op :: ops => (storStep s op).bind fun s => storRun s ops

/-- The rules of the protocol: the user accesses the buffer only while the block is released and the block is accessed only while it is
admitted; it is rebound only while released, to a usable buffer of the user. -/
def StorLegal (s : World R) : StorOp R → Prop
  | .alloc _ => True
  | .poke b k _ => ¬ uses s.m.ufmt.isSplit s.m.udata b ∧ ¬ (s.m.own = true ∧ uses s.m.sp s.m.hdata b) ∧ ∃ n, s.h.size b = some n ∧ k < n
  | .userWrite i v => s.m.admitted = false ∧ i < s.m.size ∧ v.length = s.m.w
  | .put i v => s.m.admitted = true ∧ i < s.m.size ∧ v.length = s.m.w
  | .admit _ => True
  | .release _ => True
  | .rebind f d n => s.m.admitted = false ∧ Typed s.m.w f ∧ Usable s.h s.m.w f d n ∧
      ∀ b, uses f.isSplit d b → ¬ (s.m.own = true ∧ uses s.m.sp s.m.hdata b) ∧ b < s.h.next

def StorLegalRun : World R → List (StorOp R) → Prop
  | _, [] => True
  | s, op :: ops => StorLegal s op ∧ ∀ s', storStep s op = some s' → StorLegalRun s' ops

/-- The data the user and the block are meant to share, where specified, and the sizes of the user's memory blocks. -/
structure Ghost (R : Type) where
  A : Nat → Option (List R)
  U : Nat → Option Nat

open Classical in
/-- elements shown by a buffer -/
noncomputable def shown (h : Heap R) (w : Nat) (f : UFmt) (d : Data) (i : Nat) : Option (List R) :=
  if hh : ∃ v, Shows h w f d i v then some hh.choose else none

/-- what each operation means for the shared data: writes by either side are kept, `admit` and `release` with update keep everything, without
update the data become unspecified when ownership changes, and rebinding takes over the data of the new buffer -/
noncomputable def ghostStep (s : World R) (g : Ghost R) : StorOp R → Ghost R
  | .alloc n => ⟨g.A, Function.update g.U s.h.next (some n)⟩
  | .poke _ _ _ => g
  | .userWrite i v | .put i v => ⟨Function.update g.A i (some v), g.U⟩
  | .admit u => if s.m.admitted = true ∨ u = true then g else ⟨fun _ => none, g.U⟩
  | .release u => if s.m.admitted = false ∨ u = true then g else ⟨fun _ => none, g.U⟩
  | .rebind f d _ => ⟨shown s.h s.m.w f d, g.U⟩

noncomputable def ghostRun : World R → Ghost R → List (StorOp R) → Ghost R
  | _, g, [] => g
  | s, g, op :: ops =>
    match storStep s op with
    | some s' => ghostRun s' (ghostStep s g op) ops
    | none => g

/-- number of elements, format and pointers bound last -/
def boundRun : Nat × UFmt × Data → List (StorOp R) → Nat × UFmt × Data
  | b, [] => b
  | _, .rebind f d n :: ops => boundRun (n, f, d) ops
  | b, _ :: ops => boundRun b ops

/-! ### Invariant -/

/-- storage allocated by `host_storage` -/
def OwnData (h : Heap R) (w : Nat) (sp : Bool) (d : Data) (n : Nat) : Prop :=
  if sp then ∃ p q, d = ⟨some ⟨p, 0⟩, some ⟨q, 0⟩⟩ ∧ p ≠ q ∧ h.size p = some n ∧ h.size q = some n
  else ∃ p, d = ⟨some ⟨p, 0⟩, none⟩ ∧ h.size p = some (w * n)

theorem load_of_size {h : Heap R} {b k n : Nat} (e : h.size b = some n) (hk : k < n) : ∃ x, h.load (some ⟨b, k⟩) = some x :=
  ⟨h.val b k, by simp [Heap.load, e, hk]⟩

theorem OwnData.buf {h : Heap R} {w : Nat} {sp : Bool} {d : Data} {n : Nat} (hw : sp = true → w = 2) (ho : OwnData h w sp d n) :
    Buf h w sp d n := by
  cases sp with
  | true =>
    obtain rfl := hw rfl
    obtain ⟨p, q, rfl, hne, hp, hq⟩ := ho
    refine ⟨by simp, fun i hi c hc => ?_, ?_⟩
    · rcases (show c = 0 ∨ c = 1 by omega) with rfl | rfl
      · simpa [cell] using load_of_size hp (show 0 + i < n by omega)
      · simpa [cell] using load_of_size hq (show 0 + i < n by omega)
    · intro i hi c hc i' hi' c' hc' e
      rcases (show c = 0 ∨ c = 1 by omega) with rfl | rfl <;> rcases (show c' = 0 ∨ c' = 1 by omega) with rfl | rfl <;>
        simp [cell, hne, hne.symm] at e
      · exact ⟨e, rfl⟩
      · exact ⟨e, rfl⟩
  | false =>
    obtain ⟨p, rfl, hp⟩ := ho
    refine ⟨by simp, fun i hi c hc => ?_, fun i _ c hc i' _ c' hc' e => cell_inj_contiguous (by simp) i c hc i' c' hc' e⟩
    have : w * i + c < w * n := by
      calc w * i + c < w * i + w := by omega
        _ = w * (i + 1) := by rw [Nat.mul_succ]
        _ ≤ w * n := Nat.mul_le_mul_left _ hi
    simpa [cell] using load_of_size hp (show 0 + (w * i + c) < w * n by omega)

structure StorInv (s : World R) (U : Nat → Option Nat) : Prop where
  typed : Typed s.m.w s.m.ufmt
  wsp : s.m.sp = true → s.m.w = 2
  use : s.m.useUser = compatible s.m.sp s.m.ufmt
  live : ∀ b, s.h.size b ≠ none → b < s.h.next
  ubuf : Buf s.h s.m.w s.m.ufmt.isSplit s.m.udata s.m.size
  shared : s.m.useUser = true → s.m.own = false ∧ s.m.hdata = s.m.udata
  separate : s.m.useUser = false → s.m.own = true ∧ OwnData s.h s.m.w s.m.sp s.m.hdata s.m.size ∧
    ∀ b, uses s.m.sp s.m.hdata b → ¬ uses s.m.ufmt.isSplit s.m.udata b
  users : ∀ b n, U b = some n → s.h.size b = some n ∧ ¬ (s.m.own = true ∧ uses s.m.sp s.m.hdata b)
  owned : ∀ b, s.h.size b ≠ none → U b ≠ none ∨ (s.m.own = true ∧ uses s.m.sp s.m.hdata b)
  ubelow : ∀ b, uses s.m.ufmt.isSplit s.m.udata b → b < s.h.next

/-- the side in charge sees the shared data -/
def StorRel (s : World R) (A : Nat → Option (List R)) : Prop :=
  ∀ i < s.m.size, ∀ v, A i = some v → (if s.m.admitted then hostGet s i else userGet s i) = some v

theorem compat_split {sp : Bool} {f : UFmt} (hc : compatible sp f = true) : f.isSplit = sp := by
  cases sp <;> cases f <;> simp_all [compatible, UFmt.isSplit]

theorem StorInv.hbuf {s : World R} {U : Nat → Option Nat} (hI : StorInv s U) : Buf s.h s.m.w s.m.sp s.m.hdata s.m.size := by
  cases hu : s.m.useUser with
  | true =>
    have hs := compat_split (hI.use ▸ hu)
    rw [(hI.shared hu).2, ← hs]
    exact hI.ubuf
  | false => exact (hI.separate hu).2.1.buf hI.wsp

theorem StorInv.allocated {s : World R} {U : Nat → Option Nat} (hI : StorInv s U) : allocate s = s := by
  unfold allocate
  rw [if_neg]
  rintro ⟨_, h⟩
  exact hI.hbuf.nonnull h

theorem getE_mono {h h' : Heap R} {w : Nat} {sp : Bool} {d : Data} {i : Nat} {v : List R}
    (e : ∀ c < w, ∀ x, h.load (cell w sp d i c) = some x → h'.load (cell w sp d i c) = some x)
    (hg : getE h w sp d i = some v) : getE h' w sp d i = some v := by
  rw [getE_eq] at hg ⊢
  refine ⟨hg.1, fun c hc => ?_⟩
  have := hg.2 c hc
  rw [List.getElem?_eq_getElem (by omega)] at this ⊢
  exact e c hc _ this

theorem Buf_mono {h h' : Heap R} {w : Nat} {sp : Bool} {d : Data} {n : Nat} (hb : Buf h w sp d n)
    (e : ∀ i < n, ∀ c < w, ∀ x, h.load (cell w sp d i c) = some x → ∃ y, h'.load (cell w sp d i c) = some y) : Buf h' w sp d n :=
  ⟨hb.nonnull, fun i hi c hc => by obtain ⟨x, hx⟩ := hb.live i hi c hc; exact e i hi c hc x hx, hb.inj⟩

/-- same sizes: the invariant only depends on them -/
theorem StorInv.of_size {s s' : World R} {U : Nat → Option Nat} (hI : StorInv s U) (hs : s'.h.size = s.h.size) (hn : s'.h.next = s.h.next)
    (hm : s'.m = { s.m with admitted := s'.m.admitted }) : StorInv s' U := by
  have e : ∀ {α : Type} (f : Mgr → α), (∀ m a, f { m with admitted := a } = f m) → f s'.m = f s.m := fun f hf => by rw [hm, hf]
  have e1 := e Mgr.w fun _ _ => rfl
  have e2 := e Mgr.sp fun _ _ => rfl
  have e3 := e Mgr.ufmt fun _ _ => rfl
  have e4 := e Mgr.udata fun _ _ => rfl
  have e5 := e Mgr.useUser fun _ _ => rfl
  have e6 := e Mgr.size fun _ _ => rfl
  have e7 := e Mgr.hdata fun _ _ => rfl
  have e8 := e Mgr.own fun _ _ => rfl
  refine ⟨?_, ?_, ?_, ?_, ?_, ?_, ?_, ?_, ?_, ?_⟩
  · rw [e1, e3]; exact hI.typed
  · rw [e1, e2]; exact hI.wsp
  · rw [e5, e2, e3]; exact hI.use
  · rw [hs, hn]; exact hI.live
  · rw [e1, e3, e4, e6]; exact hI.ubuf.of_size hs
  · rw [e5, e8, e7, e4]; exact hI.shared
  · rw [e5, e8, e1, e2, e7, e6, e3, e4]
    intro hu
    obtain ⟨a, b, c⟩ := hI.separate hu
    refine ⟨a, ?_, c⟩
    unfold OwnData at b ⊢
    rw [hs]; exact b
  · rw [hs, e8, e2, e7]; exact hI.users
  · rw [hs, e8, e2, e7]; exact hI.owned
  · rw [hn, e3, e4]; exact hI.ubelow

/-! ### Allocation -/

theorem alloc_load {h : Heap R} (n : Nat) (hl : ∀ b, h.size b ≠ none → b < h.next) {q : Option Ptr} {x : R}
    (e : h.load q = some x) : (h.alloc n).1.load q = some x := by
  obtain ⟨p, m, rfl, hs, hm⟩ := load_some e
  have : p.blk ≠ h.next := fun hh => by have := hl p.blk (by simp [hs]); omega
  simp only [Heap.load, Heap.alloc, Option.bind_some, Function.update_of_ne this] at e ⊢
  exact e

theorem alloc_size {h : Heap R} (n b : Nat) : (h.alloc n).1.size b = if b = h.next then some n else h.size b := by
  simp only [Heap.alloc, Function.update_apply]

theorem alloc_live {h : Heap R} (n : Nat) (hl : ∀ b, h.size b ≠ none → b < h.next) :
    ∀ b, (h.alloc n).1.size b ≠ none → b < (h.alloc n).1.next := by
  intro b hb
  rw [alloc_size] at hb
  show b < h.next + 1
  by_cases e : b = h.next
  · omega
  · rw [if_neg e] at hb; have := hl b hb; omega

theorem allocate_fresh {s : World R} (ho : s.m.own = true) (hn : s.m.hdata = .null) (hl : ∀ b, s.h.size b ≠ none → b < s.h.next) :
    ∃ d h, allocate s = ⟨h, { s.m with hdata := d }⟩ ∧ OwnData h s.m.w s.m.sp d s.m.size ∧ (∀ b, h.size b ≠ none → b < h.next) ∧
      (∀ q x, s.h.load q = some x → h.load q = some x) ∧ (∀ b, uses s.m.sp d b → s.h.next ≤ b) ∧
      (∀ b, ¬ uses s.m.sp d b → h.size b = s.h.size b) ∧ s.h.next ≤ h.next := by
  unfold allocate
  rw [if_pos ⟨ho, by rw [hn]; rfl⟩]
  cases hsp : s.m.sp with
  | true =>
    simp only [if_true]
    refine ⟨_, _, rfl, ⟨_, _, rfl, ?_, ?_, ?_⟩, alloc_live _ (alloc_live _ hl),
      fun q x e => alloc_load _ (alloc_live _ hl) (alloc_load _ hl e), ?_, ?_, ?_⟩
    · show s.h.next ≠ s.h.next + 1; omega
    · rw [alloc_size, alloc_size]
      show (if s.h.next = s.h.next + 1 then _ else if s.h.next = s.h.next then _ else _) = _
      simp
    · rw [alloc_size]; show (if s.h.next + 1 = s.h.next + 1 then _ else _) = _; simp
    · intro b hb
      rcases hb with ⟨p, e, rfl⟩ | ⟨_, p, e, rfl⟩
      · injection e with e; rw [← e]; exact le_rfl
      · injection e with e; rw [← e]; exact Nat.le_succ _
    · intro b hb
      have h1 : b ≠ s.h.next := fun e => hb (Or.inl ⟨⟨s.h.next, 0⟩, rfl, e.symm⟩)
      have h2 : b ≠ s.h.next + 1 := fun e => hb (Or.inr ⟨rfl, ⟨s.h.next + 1, 0⟩, rfl, e.symm⟩)
      have h3 : b ≠ (s.h.alloc s.m.size).1.next := h2
      rw [alloc_size, alloc_size, if_neg h1, if_neg h3]
    · show s.h.next ≤ s.h.next + 1 + 1; omega
  | false =>
    simp only [Bool.false_eq_true, if_false]
    refine ⟨_, _, rfl, ⟨_, rfl, ?_⟩, alloc_live _ hl, fun q x e => alloc_load _ hl e, ?_, ?_, ?_⟩
    · rw [alloc_size]; show (if s.h.next = s.h.next then _ else _) = _; simp
    · intro b hb
      rcases hb with ⟨p, e, rfl⟩ | ⟨hf, _⟩
      · injection e with e; rw [← e]; exact le_rfl
      · exact absurd hf (by simp)
    · intro b hb
      rw [alloc_size, if_neg]
      exact fun e => hb (Or.inl ⟨⟨s.h.next, 0⟩, rfl, e.symm⟩)
    · exact Nat.le_succ _

theorem free_own {h : Heap R} {b n : Nat} (e : h.size b = some n) :
    h.free (some ⟨b, 0⟩) = some { h with size := Function.update h.size b none } := by simp [Heap.free, e]

theorem deallocate_own {s : World R} (ho : OwnData s.h s.m.w s.m.sp s.m.hdata s.m.size) :
    ∃ h, deallocate s = some ⟨h, { s.m with hdata := .null }⟩ ∧ h.next = s.h.next ∧ h.val = s.h.val ∧
      (∀ b, uses s.m.sp s.m.hdata b → h.size b = none) ∧ ∀ b, ¬ uses s.m.sp s.m.hdata b → h.size b = s.h.size b := by
  unfold OwnData at ho
  unfold deallocate
  cases hsp : s.m.sp with
  | true =>
    rw [hsp] at ho
    obtain ⟨p, q, hd, hne, hp, hq⟩ := ho
    rw [hd]
    simp only [if_true, free_own hq]
    have hp' : (Function.update s.h.size q none) p = some s.m.size := by rw [Function.update_of_ne hne]; exact hp
    refine ⟨{ s.h with size := Function.update (Function.update s.h.size q none) p none }, ?_, rfl, rfl, ?_, ?_⟩
    · simp only [Option.bind_eq_bind, Option.bind_some]
      rw [free_own (h := { s.h with size := Function.update s.h.size q none }) hp']
      rfl
    · intro b hb
      rcases hb with ⟨r, e, rfl⟩ | ⟨_, r, e, rfl⟩
      · injection e with e; rw [← e]; simp
      · injection e with e; rw [← e]
        show Function.update (Function.update s.h.size q none) p none q = none
        rw [Function.update_of_ne hne.symm]; simp
    · intro b hb
      have h1 : b ≠ p := fun e => hb (Or.inl ⟨⟨p, 0⟩, rfl, e.symm⟩)
      have h2 : b ≠ q := fun e => hb (Or.inr ⟨rfl, ⟨q, 0⟩, rfl, e.symm⟩)
      show Function.update (Function.update s.h.size q none) p none b = _
      rw [Function.update_of_ne h1, Function.update_of_ne h2]
  | false =>
    rw [hsp] at ho
    obtain ⟨p, hd, hp⟩ := ho
    rw [hd]
    refine ⟨{ s.h with size := Function.update s.h.size p none }, ?_, rfl, rfl, ?_, ?_⟩
    · simp only [Bool.false_eq_true, if_false, Option.bind_eq_bind, Option.bind_some, free_own hp]
    · intro b hb
      rcases hb with ⟨r, e, rfl⟩ | ⟨hf, _⟩
      · injection e with e; rw [← e]; simp
      · exact absurd hf (by simp)
    · intro b hb
      have h1 : b ≠ p := fun e => hb (Or.inl ⟨⟨p, 0⟩, rfl, e.symm⟩)
      exact Function.update_of_ne h1 _ _

/-! ### Steps -/

theorem OwnData.mono {h h' : Heap R} {w : Nat} {sp : Bool} {d : Data} {n : Nat} (ho : OwnData h w sp d n)
    (e : ∀ b, uses sp d b → h'.size b = h.size b) : OwnData h' w sp d n := by
  unfold OwnData at ho ⊢
  cases sp with
  | true =>
    simp only [if_true] at ho ⊢
    obtain ⟨p, q, rfl, hne, hp, hq⟩ := ho
    exact ⟨p, q, rfl, hne, by rw [e p (Or.inl ⟨_, rfl, rfl⟩)]; exact hp, by rw [e q (Or.inr ⟨rfl, _, rfl, rfl⟩)]; exact hq⟩
  | false =>
    simp only [Bool.false_eq_true, if_false] at ho ⊢
    obtain ⟨p, rfl, hp⟩ := ho
    exact ⟨p, rfl, by rw [e p (Or.inl ⟨_, rfl, rfl⟩)]; exact hp⟩

theorem OwnData.isLive {h : Heap R} {w : Nat} {sp : Bool} {d : Data} {n b : Nat} (ho : OwnData h w sp d n) (hb : uses sp d b) :
    h.size b ≠ none := by
  unfold OwnData at ho
  cases sp with
  | true =>
    simp only [if_true] at ho
    obtain ⟨p, q, rfl, _, hp, hq⟩ := ho
    rcases hb with ⟨r, e, rfl⟩ | ⟨_, r, e, rfl⟩
    · injection e with e; rw [← e]; simp [hp]
    · injection e with e; rw [← e]; simp [hq]
  | false =>
    simp only [Bool.false_eq_true, if_false] at ho
    obtain ⟨p, rfl, hp⟩ := ho
    rcases hb with ⟨r, e, rfl⟩ | ⟨hf, _⟩
    · injection e with e; rw [← e]; simp [hp]
    · exact absurd hf (by simp)

theorem StorInv.own_data {s : World R} {U : Nat → Option Nat} (hI : StorInv s U) (ho : s.m.own = true) :
    s.m.useUser = false ∧ OwnData s.h s.m.w s.m.sp s.m.hdata s.m.size ∧ ∀ b, uses s.m.sp s.m.hdata b → ¬ uses s.m.ufmt.isSplit s.m.udata b := by
  cases hu : s.m.useUser with
  | true => have := (hI.shared hu).1; simp [ho] at this
  | false => exact ⟨rfl, (hI.separate hu).2⟩

/-- memory that is neither the bound buffer nor owned by the block -/
def Other (s : World R) (b : Nat) : Prop :=
  s.h.size b ≠ none ∧ ¬ uses s.m.ufmt.isSplit s.m.udata b ∧ ¬ (s.m.own = true ∧ uses s.m.sp s.m.hdata b)

theorem StorInv.other_host {s : World R} {U : Nat → Option Nat} (hI : StorInv s U) {b : Nat} (h1 : ¬ uses s.m.ufmt.isSplit s.m.udata b)
    (h2 : ¬ (s.m.own = true ∧ uses s.m.sp s.m.hdata b)) : ¬ uses s.m.sp s.m.hdata b := by
  cases hu : s.m.useUser with
  | true =>
    have hs := compat_split (hI.use ▸ hu)
    rw [(hI.shared hu).2, ← hs]; exact h1
  | false => exact fun h => h2 ⟨(hI.separate hu).1, h⟩

/-- what a step guarantees -/
structure StepOk (s : World R) (g : Ghost R) (op : StorOp R) (s' : World R) : Prop where
  ok : storStep s op = some s'
  inv : StorInv s' (ghostStep s g op).U
  rel : StorRel s' (ghostStep s g op).A
  typ : s'.m.w = s.m.w ∧ s'.m.sp = s.m.sp
  bound : (s'.m.size, s'.m.ufmt, s'.m.udata) = boundRun (s.m.size, s.m.ufmt, s.m.udata) [op]
  frame : ∀ b k, Other s b → (∀ x, op ≠ .poke b k x) → s'.h.load (some ⟨b, k⟩) = s.h.load (some ⟨b, k⟩)

theorem step_alloc {s : World R} {g : Ghost R} (n : Nat) (hI : StorInv s g.U) (hR : StorRel s g.A) : ∃ s', StepOk s g (.alloc n) s' := by
  have hl : ∀ {q x}, s.h.load q = some x → (s.h.alloc n).1.load q = some x := fun e => alloc_load n hI.live e
  have hsz : ∀ {b}, s.h.size b ≠ none → (s.h.alloc n).1.size b = s.h.size b := fun {b} hb => by
    rw [alloc_size, if_neg]; have := hI.live b hb; omega
  refine ⟨⟨(s.h.alloc n).1, s.m⟩, rfl, ?_, ?_, ⟨rfl, rfl⟩, rfl, ?_⟩
  · refine ⟨hI.typed, hI.wsp, hI.use, alloc_live n hI.live, Buf_mono hI.ubuf fun i _ c _ x e => ⟨x, hl e⟩, hI.shared, ?_, ?_, ?_, ?_⟩
    · intro hu
      obtain ⟨a, b, c⟩ := hI.separate hu
      exact ⟨a, b.mono fun q hq => hsz (b.isLive hq), c⟩
    · intro b m hb
      simp only [ghostStep, Function.update_apply] at hb
      by_cases e : b = s.h.next
      · rw [if_pos e] at hb
        refine ⟨by rw [alloc_size, if_pos e]; exact hb, ?_⟩
        rintro ⟨ho, hu⟩
        have := hI.live b ((hI.own_data ho).2.1.isLive hu)
        omega
      · rw [if_neg e] at hb
        obtain ⟨h1, h2⟩ := hI.users b m hb
        exact ⟨by rw [hsz (by simp [h1])]; exact h1, h2⟩
    · intro b hb
      rw [alloc_size] at hb
      simp only [ghostStep, Function.update_apply]
      by_cases e : b = s.h.next
      · left; simp [e]
      · rw [if_neg e] at hb ⊢; exact hI.owned b hb
    · intro b hb; exact Nat.lt_succ_of_lt (hI.ubelow b hb)
  · intro i hi v hv
    have := hR i hi v hv
    show (if s.m.admitted = true then _ else _) = _
    by_cases ha : s.m.admitted = true
    · rw [if_pos ha] at this ⊢; exact getE_mono (fun c _ x e => hl e) this
    · rw [if_neg ha] at this ⊢; exact getE_mono (fun c _ x e => hl e) this
  · intro b k ho _
    show (s.h.alloc n).1.load _ = _
    have : b ≠ s.h.next := by have := hI.live b ho.1; omega
    simp only [Heap.load, Heap.alloc, Option.bind_some, Function.update_of_ne this]

theorem rel_congr {s s' : World R} {A : Nat → Option (List R)} (hm : s'.m = s.m) (hR : StorRel s A)
    (e1 : ∀ i < s.m.size, hostGet s' i = hostGet s i) (e2 : ∀ i < s.m.size, userGet s' i = userGet s i) : StorRel s' A := by
  intro i hi v hv
  rw [hm] at hi ⊢
  rw [e1 i hi, e2 i hi]
  exact hR i hi v hv

theorem step_poke {s : World R} {g : Ghost R} {b k : Nat} {x : R} (hI : StorInv s g.U) (hR : StorRel s g.A)
    (hL : StorLegal s (.poke b k x)) : ∃ s', StepOk s g (.poke b k x) s' := by
  obtain ⟨nu, no, n, hn, hk⟩ := hL
  obtain ⟨y, hy⟩ := load_of_size hn hk
  obtain ⟨h', e, hs, hnx, _, ho⟩ := store_of_load x hy
  have nh := hI.other_host nu no
  refine ⟨⟨h', s.m⟩, by simp only [storStep, e]; rfl, hI.of_size hs hnx rfl, rel_congr (s := s) rfl hR ?_ ?_, ⟨rfl, rfl⟩, rfl, ?_⟩
  · intro i hi
    refine getE_congr fun c hc => ho _ fun ee => nh ?_
    exact cell_uses (q := ⟨b, k⟩) ee
  · intro i hi
    refine getE_congr fun c hc => ho _ fun ee => nu ?_
    exact cell_uses (q := ⟨b, k⟩) ee
  · intro b' k' _ hne
    refine ho _ fun ee => hne x ?_
    injection ee with ee; injection ee with e1 e2; subst e1 e2; rfl

theorem step_userWrite {s : World R} {g : Ghost R} {i : Nat} {v : List R} (hI : StorInv s g.U) (hR : StorRel s g.A)
    (hL : StorLegal s (.userWrite i v)) : ∃ s', StepOk s g (.userWrite i v) s' := by
  obtain ⟨ha, hi, hv⟩ := hL
  obtain ⟨h', e, hs, hnx, hg, ho⟩ := putE_spec hI.ubuf hi hv
  refine ⟨⟨h', s.m⟩, by simp only [storStep, userPut, e]; rfl, hI.of_size hs hnx rfl, ?_, ⟨rfl, rfl⟩, rfl, ?_⟩
  · intro j hj u hu
    show (if s.m.admitted = true then _ else _) = _
    rw [if_neg (by simp [ha])]
    simp only [ghostStep, Function.update_apply] at hu
    by_cases e : j = i
    · subst e; rw [if_pos rfl] at hu; rw [← hu]; exact hg
    · rw [if_neg e] at hu
      have := hR j hj u hu
      rw [if_neg (by simp [ha])] at this
      rw [← this]
      exact getE_congr fun c hc => ho _ fun c' hc' ee => e (hI.ubuf.inj j hj c hc i hi c' hc' ee).1
  · intro b k hb _
    exact ho _ fun c _ ee => hb.2.1 (cell_uses ee.symm)

theorem step_put {s : World R} {g : Ghost R} {i : Nat} {v : List R} (hI : StorInv s g.U) (hR : StorRel s g.A)
    (hL : StorLegal s (.put i v)) : ∃ s', StepOk s g (.put i v) s' := by
  obtain ⟨ha, hi, hv⟩ := hL
  obtain ⟨h', e, hs, hnx, hg, ho⟩ := putE_spec hI.hbuf hi hv
  refine ⟨⟨h', s.m⟩, by simp only [storStep, Stor.put, hI.allocated, hostPut, e]; rfl, hI.of_size hs hnx rfl, ?_, ⟨rfl, rfl⟩, rfl, ?_⟩
  · intro j hj u hu
    show (if s.m.admitted = true then _ else _) = _
    rw [if_pos ha]
    simp only [ghostStep, Function.update_apply] at hu
    by_cases e : j = i
    · subst e; rw [if_pos rfl] at hu; rw [← hu]; exact hg
    · rw [if_neg e] at hu
      have := hR j hj u hu
      rw [if_pos ha] at this
      rw [← this]
      exact getE_congr fun c hc => ho _ fun c' hc' ee => e (hI.hbuf.inj j hj c hc i hi c' hc' ee).1
  · intro b k hb _
    exact ho _ fun c _ ee => hI.other_host hb.2.1 hb.2.2 (cell_uses ee.symm)

theorem admit_loop (m : Mgr) (hf : m.ufmt ≠ .none) : ∀ (l : List Nat) (h : Heap R),
    l.foldlM (fun s i => do checkUser s; hostPut s i (← userGet s i)) (⟨h, m⟩ : World R) =
      (l.foldlM (fun h i => (getE h m.w m.ufmt.isSplit m.udata i).bind fun v => putE h m.w m.sp m.hdata i v) h).map fun h => ⟨h, m⟩
  | [], h => rfl
  | i :: l, h => by
    simp only [List.foldlM_cons, checkUser, hf, if_false, userGet, hostPut, Option.bind_eq_bind, Option.bind_some]
    cases h1 : getE h m.w m.ufmt.isSplit m.udata i with
    | none => rfl
    | some v =>
      simp only [Option.bind_some]
      cases h2 : putE h m.w m.sp m.hdata i v with
      | none => rfl
      | some h' =>
        simp only [Option.map_some, Option.bind_some]
        have := admit_loop m hf l h'
        simp only [checkUser, userGet, hostPut, Option.bind_eq_bind] at this
        exact this

theorem release_loop (m : Mgr) (hf : m.ufmt ≠ .none) : ∀ (l : List Nat) (h : Heap R),
    l.foldlM (fun s i => do checkUser s; userPut s i (← hostGet s i)) (⟨h, m⟩ : World R) =
      (l.foldlM (fun h i => (getE h m.w m.sp m.hdata i).bind fun v => putE h m.w m.ufmt.isSplit m.udata i v) h).map fun h => ⟨h, m⟩
  | [], h => rfl
  | i :: l, h => by
    simp only [List.foldlM_cons, checkUser, hf, if_false, hostGet, userPut, Option.bind_eq_bind, Option.bind_some]
    cases h1 : getE h m.w m.sp m.hdata i with
    | none => rfl
    | some v =>
      simp only [Option.bind_some]
      cases h2 : putE h m.w m.ufmt.isSplit m.udata i v with
      | none => rfl
      | some h' =>
        simp only [Option.map_some, Option.bind_some]
        have := release_loop m hf l h'
        simp only [checkUser, hostGet, userPut, Option.bind_eq_bind] at this
        exact this

theorem typed_ne {w : Nat} {f : UFmt} (ht : Typed w f) : f ≠ .none := by
  rcases ht with ⟨_, rfl⟩ | ⟨_, h⟩
  · simp
  · exact h

theorem shared_get {s : World R} {U : Nat → Option Nat} (hI : StorInv s U) (hu : s.m.useUser = true) (i : Nat) :
    hostGet s i = userGet s i := by
  unfold hostGet userGet
  have hs := compat_split (hI.use ▸ hu)
  rw [(hI.shared hu).2, hs]

theorem step_admit {s : World R} {g : Ghost R} (u : Bool) (hI : StorInv s g.U) (hR : StorRel s g.A) : ∃ s', StepOk s g (.admit u) s' := by
  have hf := typed_ne hI.typed
  by_cases hc : (!s.m.admitted && !s.m.useUser && u) = true
  · have hc' := hc
    simp only [Bool.and_eq_true, Bool.not_eq_true'] at hc'
    obtain ⟨⟨ha, hu⟩, hup⟩ := hc'
    obtain ⟨ho, hd, hdis⟩ := hI.separate hu
    have dis : ∀ b, uses s.m.ufmt.isSplit s.m.udata b → ¬ uses s.m.sp s.m.hdata b := fun b h1 h2 => hdis b h2 h1
    obtain ⟨h', e, hs, hnx, hg, hoth⟩ := copy_loop hI.ubuf hI.hbuf (cells_disjoint hI.ubuf dis) s.m.size le_rfl
    refine ⟨⟨h', { s.m with admitted := true }⟩, ?_, ?_, ?_, ⟨rfl, rfl⟩, rfl, ?_⟩
    · simp only [storStep, Stor.admit]
      rw [if_pos hc]
      have := admit_loop s.m hf (List.range s.m.size) s.h
      rw [e] at this
      rw [show (⟨s.h, s.m⟩ : World R) = s from rfl] at this
      rw [this]; rfl
    · have : (ghostStep s g (.admit u)).U = g.U := by simp only [ghostStep]; split <;> rfl
      rw [this]; exact hI.of_size hs hnx rfl
    · intro i hi v hv
      simp only [ghostStep, hup, or_true, if_true] at hv
      have := hR i hi v hv
      rw [if_neg (by simp [ha])] at this
      show getE h' s.m.w s.m.sp s.m.hdata i = some v
      rw [hg i hi]; exact this
    · intro b k hb _
      exact hoth _ fun i _ c _ ee => hI.other_host hb.2.1 hb.2.2 (cell_uses ee.symm)
  · refine ⟨⟨s.h, { s.m with admitted := true }⟩, ?_, ?_, ?_, ⟨rfl, rfl⟩, rfl, fun b k _ _ => rfl⟩
    · simp only [storStep, Stor.admit]
      rw [if_neg hc]; rfl
    · have : (ghostStep s g (.admit u)).U = g.U := by simp only [ghostStep]; split <;> rfl
      rw [this]; exact hI.of_size rfl rfl rfl
    · intro i hi v hv
      show hostGet s i = some v
      simp only [ghostStep] at hv
      by_cases hk : s.m.admitted = true ∨ u = true
      · rw [if_pos hk] at hv
        have := hR i hi v hv
        by_cases ha : s.m.admitted = true
        · rw [if_pos ha] at this; exact this
        · rw [if_neg ha] at this
          rw [shared_get hI (by simp at hc ha; simp [ha] at hk; rcases hu : s.m.useUser <;> simp_all)]
          exact this
      · rw [if_neg hk] at hv; exact absurd hv (by simp)

theorem step_release {s : World R} {g : Ghost R} (u : Bool) (hI : StorInv s g.U) (hR : StorRel s g.A) :
    ∃ s', StepOk s g (.release u) s' := by
  have hf := typed_ne hI.typed
  have hU : (ghostStep s g (.release u)).U = g.U := by simp only [ghostStep]; split <;> rfl
  cases ha : s.m.admitted with
  | false =>
    refine ⟨s, by simp [storStep, Stor.release, ha], by rw [hU]; exact hI, ?_, ⟨rfl, rfl⟩, rfl, fun _ _ _ _ => rfl⟩
    intro i hi v hv
    simp only [ghostStep, ha, true_or, if_true] at hv
    exact hR i hi v hv
  | true =>
    by_cases hc : (!s.m.useUser && u) = true
    · have hc' := hc
      simp only [Bool.and_eq_true, Bool.not_eq_true'] at hc'
      obtain ⟨hu, hup⟩ := hc'
      obtain ⟨ho, hd, hdis⟩ := hI.separate hu
      obtain ⟨h', e, hs, hnx, hg, hoth⟩ := copy_loop hI.hbuf hI.ubuf (cells_disjoint hI.hbuf hdis) s.m.size le_rfl
      refine ⟨⟨h', { s.m with admitted := false }⟩, ?_, by rw [hU]; exact hI.of_size hs hnx rfl, ?_, ⟨rfl, rfl⟩, rfl, ?_⟩
      · simp only [storStep, Stor.release, ha]
        rw [if_neg (by simp), if_pos hc]
        have := release_loop s.m hf (List.range s.m.size) s.h
        rw [e] at this
        rw [show (⟨s.h, s.m⟩ : World R) = s from rfl] at this
        rw [this]; rfl
      · intro i hi v hv
        simp only [ghostStep, hup, or_true, if_true] at hv
        have := hR i hi v hv
        rw [if_pos ha] at this
        show getE h' s.m.w s.m.ufmt.isSplit s.m.udata i = some v
        rw [hg i hi]; exact this
      · intro b k hb _
        exact hoth _ fun i _ c _ ee => hb.2.1 (cell_uses ee.symm)
    · refine ⟨⟨s.h, { s.m with admitted := false }⟩, ?_, by rw [hU]; exact hI.of_size rfl rfl rfl, ?_, ⟨rfl, rfl⟩, rfl, fun b k _ _ => rfl⟩
      · simp only [storStep, Stor.release, ha]
        rw [if_neg (by simp), if_neg hc]; rfl
      · intro i hi v hv
        show userGet s i = some v
        simp only [ghostStep, ha] at hv
        cases hup : u with
        | false => simp [hup] at hv
        | true =>
          simp only [hup, or_true, if_true] at hv
          have := hR i hi v hv
          rw [if_pos ha] at this
          rw [← shared_get hI (by rcases hu : s.m.useUser <;> simp_all)]
          exact this

theorem shown_eq {h : Heap R} {w : Nat} {f : UFmt} {d : Data} {i : Nat} {v : List R} (ht : Typed w f) :
    shown h w f d i = some v ↔ getE h w f.isSplit d i = some v := by
  unfold shown
  constructor
  · intro e
    by_cases hh : ∃ v, Shows h w f d i v
    · rw [dif_pos hh] at e
      rw [← Option.some.inj e]
      exact (shows_iff ht).mp hh.choose_spec
    · rw [dif_neg hh] at e; exact absurd e (by simp)
  · intro e
    have hh : ∃ v, Shows h w f d i v := ⟨v, (shows_iff ht).mpr e⟩
    rw [dif_pos hh]
    have := (shows_iff ht).mp hh.choose_spec
    rw [e] at this
    exact this.symm

/-- a heap in which the memory outside of the block's own storage is as before -/
theorem keep_load {h h' : Heap R} {b k : Nat} (hs : h'.size b = h.size b) (hv : h'.val = h.val) :
    h'.load (some ⟨b, k⟩) = h.load (some ⟨b, k⟩) := by
  simp only [Heap.load, Option.bind_some, hs, hv]

/-- freeing the block's own storage, if it has some -/
theorem drop_own {s : World R} {U : Nat → Option Nat} (hI : StorInv s U) :
    ∃ h d, (if s.m.own then deallocate s else some s) = some ⟨h, { s.m with hdata := d }⟩ ∧ h.next = s.h.next ∧ h.val = s.h.val ∧
      (∀ b, s.m.own = true ∧ uses s.m.sp s.m.hdata b → h.size b = none) ∧
      (∀ b, ¬ (s.m.own = true ∧ uses s.m.sp s.m.hdata b) → h.size b = s.h.size b) ∧ (s.m.own = true → d = .null) := by
  cases ho : s.m.own with
  | false =>
    exact ⟨s.h, s.m.hdata, by simp, rfl, rfl, by simp, by simp, by simp⟩
  | true =>
    obtain ⟨h, e, hn, hv, h1, h2⟩ := deallocate_own (hI.own_data ho).2.1
    exact ⟨h, .null, by simp [e], hn, hv, fun b hb => h1 b hb.2, fun b hb => h2 b fun hh => hb ⟨rfl, hh⟩, fun _ => rfl⟩

theorem getE_keep {h h' : Heap R} {w : Nat} {sp : Bool} {d : Data} {i : Nat}
    (e : ∀ b k, uses sp d b → h'.load (some ⟨b, k⟩) = h.load (some ⟨b, k⟩)) : getE h' w sp d i = getE h w sp d i := by
  refine getE_congr fun c _ => ?_
  cases hq : cell w sp d i c with
  | none => rfl
  | some q => exact e q.blk q.off (cell_uses hq)

theorem Buf_keep {h h' : Heap R} {w : Nat} {sp : Bool} {d : Data} {n : Nat} (hb : Buf h w sp d n)
    (e : ∀ b k, uses sp d b → ∀ x, h.load (some ⟨b, k⟩) = some x → h'.load (some ⟨b, k⟩) = some x) : Buf h' w sp d n :=
  Buf_mono hb fun i _ c _ x hx => by
    obtain ⟨q, _, hq, _, _⟩ := load_some hx
    rw [hq] at hx ⊢
    exact ⟨x, e q.blk q.off (cell_uses hq) x hx⟩

/-- fresh storage for a block bound to an incompatible buffer -/
theorem fresh_inv {h : Heap R} {m : Mgr} {U : Nat → Option Nat} (ho : m.own = true) (hd : m.hdata = .null) (ha : m.admitted = false)
    (hu : m.useUser = false) (hc : compatible m.sp m.ufmt = false) (ht : Typed m.w m.ufmt) (hw : m.sp = true → m.w = 2)
    (hl : ∀ b, h.size b ≠ none → b < h.next) (hb : Buf h m.w m.ufmt.isSplit m.udata m.size)
    (hbel : ∀ b, uses m.ufmt.isSplit m.udata b → b < h.next) (hU : ∀ b n, U b = some n → h.size b = some n)
    (hU' : ∀ b, h.size b ≠ none → U b ≠ none) :
    ∃ h' d, allocate ⟨h, m⟩ = ⟨h', { m with hdata := d }⟩ ∧ StorInv ⟨h', { m with hdata := d }⟩ U ∧
      StorRel ⟨h', { m with hdata := d }⟩ (shown h m.w m.ufmt m.udata) ∧
      ∀ b k, h.size b ≠ none → h'.load (some ⟨b, k⟩) = h.load (some ⟨b, k⟩) := by
  obtain ⟨d, h', e, hown, hlive, hload, hfresh, hsame, hnext⟩ := allocate_fresh (s := ⟨h, m⟩) ho hd hl
  simp only at hown hfresh hsame hnext e hload
  have old : ∀ b, b < h.next → ¬ uses m.sp d b := fun b hb hu => by have := hfresh b hu; omega
  refine ⟨h', d, e, ⟨ht, hw, by show m.useUser = _; rw [hu]; exact hc.symm, hlive, Buf_keep hb fun b k _ x hx => hload _ _ hx, ?_, ?_, ?_, ?_, ?_⟩, ?_, ?_⟩
  · intro h1; simp [hu] at h1
  · exact fun _ => ⟨ho, hown, fun b hb hb' => old b (hbel b hb') hb⟩
  · intro b n hb
    have h1 := hU b n hb
    have h2 := old b (hl b (by simp [h1]))
    exact ⟨by rw [← h1]; exact hsame b h2, fun hh => h2 hh.2⟩
  · intro b hb
    by_cases hub : uses m.sp d b
    · exact Or.inr ⟨ho, hub⟩
    · left; rw [show h'.size b = h.size b from hsame b hub] at hb; exact hU' b hb
  · intro b hb; exact Nat.lt_of_lt_of_le (hbel b hb) hnext
  · intro i _ v hv
    show (if m.admitted = true then _ else _) = _
    rw [if_neg (by simp [ha])]
    exact getE_mono (fun c _ x hx => hload _ _ hx) ((shown_eq ht).mp hv)
  · intro b k hb
    obtain ⟨n, hn⟩ := Option.ne_none_iff_exists'.mp hb
    have h2 := old b (hl b hb)
    have hs : h'.size b = h.size b := hsame b h2
    by_cases hk : k < n
    · obtain ⟨x, hx⟩ := load_of_size hn hk
      rw [hx, hload _ _ hx]
    · simp [Heap.load, hs, hn, hk]

/-- freeing does not depend on the fields of the user storage -/
theorem deallocate_user {s : World R} {h1 : Heap R} {d1 : Data} (x : UFmt) (y : Data) (z : Bool)
    (e : deallocate s = some ⟨h1, { s.m with hdata := d1 }⟩) :
    deallocate ⟨s.h, { s.m with ufmt := x, udata := y, useUser := z }⟩ =
      some ⟨h1, { s.m with ufmt := x, udata := y, useUser := z, hdata := d1 }⟩ := by
  obtain ⟨h, ⟨w, sp, uf, ud, uu, sz, hd, ow, ad⟩⟩ := s
  cases sp with
  | true =>
    simp only [deallocate, if_true, Option.bind_eq_bind] at e ⊢
    cases h1 : h.free hd.snd with
    | none => rw [h1] at e; cases e
    | some h' =>
      rw [h1] at e
      simp only [Option.bind_some] at e ⊢
      cases h2 : h'.free hd.fst with
      | none => rw [h2] at e; cases e
      | some h'' => rw [h2] at e; cases e; rfl
  | false =>
    simp only [deallocate, Bool.false_eq_true, if_false, Option.bind_eq_bind, Option.bind_some] at e ⊢
    cases h2 : h.free hd.fst with
    | none => rw [h2] at e; cases e
    | some h'' => rw [h2] at e; cases e; rfl

theorem step_rebind {s : World R} {g : Ghost R} {f : UFmt} {d : Data} {n : Nat} (hI : StorInv s g.U)
    (hL : StorLegal s (.rebind f d n)) : ∃ s', StepOk s g (.rebind f d n) s' := by
  obtain ⟨ha, ht, hus, hd⟩ := hL
  have hb := usable_buf ht hus
  have rel : ∀ {h' : Heap R} {m' : Mgr}, m'.admitted = false → m'.w = s.m.w → m'.ufmt = f → m'.udata = d →
      (∀ i, getE h' s.m.w f.isSplit d i = getE s.h s.m.w f.isSplit d i) → StorRel ⟨h', m'⟩ (ghostStep s g (.rebind f d n)).A := by
    intro h' m' e1 e2 e3 e4 e5 i _ v hv
    show (if m'.admitted = true then _ else _) = _
    rw [if_neg (by simp [e1])]
    show getE h' m'.w m'.ufmt.isSplit m'.udata i = some v
    rw [e2, e3, e4, e5]
    exact (shown_eq ht).mp hv
  have hex : ∀ s', Stor.rebind s f d n = some s' ↔
      resize ⟨s.h, { s.m with ufmt := f, udata := d, useUser := compatible s.m.sp f }⟩ n
        (if compatible s.m.sp f then d else .null) = some s' := by
    intro s'
    simp only [Stor.rebind, ha, Bool.false_eq_true, if_false, asData]
  obtain ⟨h1, d1, e1, hn1, hv1, hfree, hkeep, hnull⟩ := drop_own hI
  have keepd : ∀ b k, uses f.isSplit d b → h1.load (some ⟨b, k⟩) = s.h.load (some ⟨b, k⟩) := fun b k hu =>
    keep_load (hkeep b (hd b hu).1) hv1
  have live1 : ∀ b, h1.size b ≠ none → b < h1.next := by
    intro b hb1
    rw [hn1]
    by_cases hh : s.m.own = true ∧ uses s.m.sp s.m.hdata b
    · exact absurd (hfree b hh) hb1
    · rw [hkeep b hh] at hb1; exact hI.live b hb1
  have users1 : ∀ b m, g.U b = some m → h1.size b = some m := fun b m hU => by
    obtain ⟨a1, a2⟩ := hI.users b m hU
    rw [hkeep b a2]; exact a1
  have owned1 : ∀ b, h1.size b ≠ none → g.U b ≠ none := by
    intro b hb1
    by_cases hh : s.m.own = true ∧ uses s.m.sp s.m.hdata b
    · exact absurd (hfree b hh) hb1
    · rw [hkeep b hh] at hb1; exact (hI.owned b hb1).resolve_right hh
  have buf1 : Buf h1 s.m.w f.isSplit d n := Buf_keep hb fun b k hu x hx => by rw [keepd b k hu]; exact hx
  have below1 : ∀ b, uses f.isSplit d b → b < h1.next := fun b hu => by rw [hn1]; exact (hd b hu).2
  have hdrop : ∀ (x : UFmt) (y : Data) (z : Bool),
      (if s.m.own then deallocate ⟨s.h, { s.m with ufmt := x, udata := y, useUser := z }⟩
        else some ⟨s.h, { s.m with ufmt := x, udata := y, useUser := z }⟩) =
      some (⟨h1, { s.m with ufmt := x, udata := y, useUser := z, hdata := d1 }⟩ : World R) := by
    intro x y z
    cases ho : s.m.own with
    | false =>
      simp only [ho, Bool.false_eq_true, if_false, Option.some.injEq] at e1 ⊢
      have e2 : s.h = h1 := congrArg World.h e1
      have e3 : s.m.hdata = d1 := congrArg (fun w => w.m.hdata) e1
      rw [← e2, ← e3]
    | true =>
      rw [if_pos ho] at e1
      have := deallocate_user x y z e1
      rw [if_pos rfl]; exact this
  cases hc : compatible s.m.sp f with
  | true =>
    refine ⟨⟨h1, { s.m with ufmt := f, udata := d, useUser := true, hdata := d, size := n, own := false }⟩, ?_, ?_, ?_, ⟨rfl, rfl⟩, rfl, ?_⟩
    · refine (hex _).mpr ?_
      simp only [resize, hc, if_true]
      rw [if_pos hus.2.1]
      have := hdrop f d true
      simp only at this ⊢
      rw [this]
      rfl
    · refine ⟨ht, hI.wsp, hc.symm, live1, buf1, fun _ => ⟨rfl, rfl⟩, by simp, ?_, ?_, below1⟩
      · intro b m hU; exact ⟨users1 b m hU, by simp⟩
      · intro b hb1; exact Or.inl (owned1 b hb1)
    · exact rel ha rfl rfl rfl fun i => getE_keep keepd
    · intro b k ho _
      exact keep_load (hkeep b ho.2.2) hv1
  | false =>
    have hres : ∀ s', Stor.rebind s f d n = some s' ↔
        resizeOwn ⟨s.h, { s.m with ufmt := f, udata := d, useUser := false }⟩ n = some s' := by
      intro s'
      rw [hex]
      simp only [resize, hc, Bool.false_eq_true, if_false, Data.null, ne_eq, not_true_eq_false]
    by_cases hsame : s.m.own = true ∧ s.m.size = n
    · obtain ⟨ho, hn⟩ := hsame
      obtain ⟨_, hod, _⟩ := hI.own_data ho
      refine ⟨⟨s.h, { s.m with ufmt := f, udata := d, useUser := false }⟩, ?_, ?_, ?_, ⟨rfl, rfl⟩, ?_, fun _ _ _ _ => rfl⟩
      · refine (hres _).mpr ?_
        simp only [resizeOwn, ho, if_true, hn]
      · refine ⟨ht, hI.wsp, hc.symm, hI.live, by show Buf _ _ _ _ s.m.size; rw [hn]; exact hb, by simp, fun _ => ⟨ho, hod, ?_⟩, hI.users, hI.owned,
          fun b hu => (hd b hu).2⟩
        intro b hu hu'
        exact (hd b hu').1 ⟨ho, hu⟩
      · exact rel ha rfl rfl rfl fun _ => rfl
      · simp only [boundRun, hn]
    · obtain ⟨h2, d2, e2, i2, r2, f2⟩ := fresh_inv (h := h1)
        (m := { s.m with ufmt := f, udata := d, useUser := false, hdata := .null, size := n, own := true }) (U := g.U)
        rfl rfl ha rfl hc ht hI.wsp live1 buf1 below1 users1 owned1
      refine ⟨⟨h2, { s.m with ufmt := f, udata := d, useUser := false, hdata := d2, size := n, own := true }⟩, ?_, i2, ?_, ⟨rfl, rfl⟩, rfl, ?_⟩
      · refine (hres _).mpr ?_
        have hdr := hdrop f d false
        cases ho : s.m.own with
        | false =>
          simp only [ho, Bool.false_eq_true, if_false, Option.some.injEq] at hdr
          have e3 : s.h = h1 := congrArg World.h hdr
          simp only [resizeOwn, ho, Bool.false_eq_true, if_false, Option.some.injEq]
          rw [e3]; exact e2
        | true =>
          have hne : s.m.size ≠ n := fun e => hsame ⟨ho, e⟩
          simp only [ho, if_true] at hdr
          simp only [resizeOwn, ho, if_true, if_neg hne]
          rw [hdr, hnull ho]
          simp only [Option.map_some, Option.some.injEq]
          exact e2
      · intro i hi v hv
        refine r2 i hi v ?_
        rw [shown_eq ht]
        simp only
        rw [getE_keep keepd]
        exact (shown_eq ht).mp hv
      · intro b k ho _
        have hs1 : h1.size b = s.h.size b := hkeep b ho.2.2
        rw [show h2.load (some ⟨b, k⟩) = h1.load (some ⟨b, k⟩) from f2 b k (by rw [hs1]; exact ho.1)]
        exact keep_load hs1 hv1

theorem stor_step {s : World R} {g : Ghost R} (op : StorOp R) (hI : StorInv s g.U) (hR : StorRel s g.A) (hL : StorLegal s op) :
    ∃ s', StepOk s g op s' := by
  cases op with
  | alloc n => exact step_alloc n hI hR
  | poke b k x => exact step_poke hI hR hL
  | userWrite i v => exact step_userWrite hI hR hL
  | put i v => exact step_put hI hR hL
  | admit u => exact step_admit u hI hR
  | release u => exact step_release u hI hR
  | rebind f d n => exact step_rebind hI hL

theorem boundRun_cons (b : Nat × UFmt × Data) (op : StorOp R) (ops : List (StorOp R)) :
    boundRun b (op :: ops) = boundRun (boundRun b [op]) ops := by cases op <;> rfl

theorem stor_run : ∀ (ops : List (StorOp R)) (s : World R) (g : Ghost R), StorInv s g.U → StorRel s g.A → StorLegalRun s ops →
    ∃ s', storRun s ops = some s' ∧ StorInv s' (ghostRun s g ops).U ∧ StorRel s' (ghostRun s g ops).A ∧
      (s'.m.size, s'.m.ufmt, s'.m.udata) = boundRun (s.m.size, s.m.ufmt, s.m.udata) ops ∧ s'.m.w = s.m.w
  | [], s, g, hI, hR, _ => ⟨s, rfl, hI, hR, rfl, rfl⟩
  | op :: ops, s, g, hI, hR, hL => by
    obtain ⟨s1, h1⟩ := stor_step op hI hR hL.1
    obtain ⟨s', e, i', r', b', w'⟩ := stor_run ops s1 _ h1.inv h1.rel (hL.2 s1 h1.ok)
    refine ⟨s', ?_, ?_, ?_, ?_, w'.trans h1.typ.1⟩
    · simp only [storRun, h1.ok, Option.bind_some, e]
    · simp only [ghostRun, h1.ok]; exact i'
    · simp only [ghostRun, h1.ok]; exact r'
    · rw [boundRun_cons, ← h1.bound]; exact b'

/-! ### C53 -/

theorem constructUser_eq {h : Heap R} {w : Nat} {sp : Bool} {n : Nat} {f : UFmt} {d : Data} (hd : d.fst ≠ none) :
    constructUser h w sp n f d = if compatible sp f then ⟨h, ⟨w, sp, f, d, true, n, d, false, false⟩⟩
      else allocate ⟨h, ⟨w, sp, f, d, false, n, .null, true, false⟩⟩ := by
  obtain ⟨p, hp⟩ := Option.ne_none_iff_exists'.mp hd
  unfold constructUser
  simp only [ne_eq, hp, reduceCtorEq, not_false_eq_true, if_true]
  cases hc : compatible sp f with
  | true => simp [hp, allocate]
  | false => simp [Data.null]

theorem stor_init {h : Heap R} {w : Nat} {sp : Bool} {n : Nat} {f : UFmt} {d : Data} (ht : Typed w f) (hw : sp = true → w = 2)
    (hl : ∀ b, h.size b ≠ none → b < h.next) (hu : Usable h w f d n) (hb : ∀ b, uses f.isSplit d b → b < h.next) :
    StorInv (constructUser h w sp n f d) h.size ∧ StorRel (constructUser h w sp n f d) (shown h w f d) ∧
      ((constructUser h w sp n f d).m.size, (constructUser h w sp n f d).m.ufmt, (constructUser h w sp n f d).m.udata) = (n, f, d) ∧
      (constructUser h w sp n f d).m.w = w ∧ (constructUser h w sp n f d).m.admitted = false := by
  rw [constructUser_eq hu.2.1]
  cases hc : compatible sp f with
  | true =>
    simp only [if_true]
    refine ⟨⟨ht, hw, hc.symm, hl, usable_buf ht hu, fun _ => ⟨rfl, rfl⟩, by simp, fun b m hm => ⟨hm, by simp⟩, fun b hb => Or.inl hb, hb⟩, ?_, by simp⟩
    intro i _ v hv
    exact (shown_eq ht).mp hv
  | false =>
    simp only [Bool.false_eq_true, if_false]
    obtain ⟨h', d', e, i', r', _⟩ := fresh_inv (h := h) (m := ⟨w, sp, f, d, false, n, .null, true, false⟩) (U := h.size)
      rfl rfl rfl rfl hc ht hw hl (usable_buf ht hu) hb (fun _ _ e => e) (fun _ e => e)
    rw [e]
    exact ⟨i', r', rfl, rfl, rfl⟩

/-- C53: whatever legal history of writes by the user, accesses through the block, `admit`, `release` and `rebind` follows the construction of a
block with user storage, no step fails; while the block is admitted it shows the shared data (`ghostRun`: every element last written by either side,
all of it kept by `admit(true)`, `release(true)` and by `release` of a released block), while it is released the bound buffer shows them; `find`
returns the pointers bound last; and destroying the block frees its own storage and nothing else. -/
theorem C53_history {h : Heap R} {w : Nat} {sp : Bool} {n : Nat} {f : UFmt} {d : Data} (ht : Typed w f) (hw : sp = true → w = 2)
    (hl : ∀ b, h.size b ≠ none → b < h.next) (hu : Usable h w f d n) (hb : ∀ b, uses f.isSplit d b → b < h.next)
    (ops : List (StorOp R)) (hL : StorLegalRun (constructUser h w sp n f d) ops) :
    ∃ s', storRun (constructUser h w sp n f d) ops = some s' ∧
      let g := ghostRun (constructUser h w sp n f d) ⟨shown h w f d, h.size⟩ ops
      let (n', f', d') := boundRun (n, f, d) ops
      s'.m.size = n' ∧ find s' = d' ∧
      (∀ i < n', ∀ v, g.A i = some v → if s'.m.admitted then Stor.get s' i = some (v, s') else Shows s'.h w f' d' i v) ∧
      ∃ h', destroy s' = some h' ∧ h'.size = g.U ∧ h'.val = s'.h.val := by
  obtain ⟨i0, r0, b0, w0, a0⟩ := stor_init (sp := sp) ht hw hl hu hb
  obtain ⟨s', e, i', r', b', w'⟩ := stor_run ops _ ⟨shown h w f d, h.size⟩ i0 r0 hL
  rw [b0] at b'
  refine ⟨s', e, ?_⟩
  rw [← b']
  refine ⟨rfl, rfl, fun i hi v hv => ?_, ?_⟩
  · have := r' i hi v hv
    by_cases ha : s'.m.admitted = true
    · rw [if_pos ha] at this ⊢
      simp only [Stor.get, i'.allocated, this, Option.map_some]
    · rw [if_neg ha] at this ⊢
      have ht' := i'.typed
      rw [w', w0] at ht'
      rw [shows_iff ht']
      unfold userGet at this
      rw [w', w0] at this
      exact this
  · obtain ⟨h1, d1, e1, hn1, hv1, hfree, hkeep, _⟩ := drop_own i'
    have e2 : destroy s' = some h1 := by
      unfold destroy
      cases ho : s'.m.own with
      | true => simp only [ho, if_true] at e1 ⊢; rw [e1]; rfl
      | false =>
        simp only [ho, Bool.false_eq_true, if_false, Option.some.injEq] at e1 ⊢
        exact congrArg World.h e1
    refine ⟨h1, e2, ?_, hv1⟩
    funext b
    by_cases hh : s'.m.own = true ∧ uses s'.m.sp s'.m.hdata b
    · rw [hfree b hh]
      cases hU : (ghostRun (constructUser h w sp n f d) ⟨shown h w f d, h.size⟩ ops).U b with
      | none => rfl
      | some m => exact absurd hh (i'.users b m hU).2
    · rw [hkeep b hh]
      cases hU : (ghostRun (constructUser h w sp n f d) ⟨shown h w f d, h.size⟩ ops).U b with
      | none =>
        by_contra hne
        exact (i'.owned b hne).elim (fun h => h hU) hh
      | some m => exact (i'.users b m hU).1

/-- the states a block with user storage can reach -/
def StorReach (h : Heap R) (w : Nat) (sp : Bool) (n : Nat) (f : UFmt) (d : Data) (s : World R) : Prop :=
  ∃ ops, StorLegalRun (constructUser h w sp n f d) ops ∧ storRun (constructUser h w sp n f d) ops = some s

/-- C53: no operation changes memory outside of the bound buffer and the storage of the block, in particular not a buffer bound before. -/
theorem C53_frame {h : Heap R} {w : Nat} {sp : Bool} {n : Nat} {f : UFmt} {d : Data} (ht : Typed w f) (hw : sp = true → w = 2)
    (hl : ∀ b, h.size b ≠ none → b < h.next) (hu : Usable h w f d n) (hb : ∀ b, uses f.isSplit d b → b < h.next) {s : World R}
    (hs : StorReach h w sp n f d s) (op : StorOp R) (hL : StorLegal s op) : ∃ s', storStep s op = some s' ∧
      ∀ b k, s.h.size b ≠ none → ¬ uses s.m.ufmt.isSplit s.m.udata b → ¬ (s.m.own = true ∧ uses s.m.sp s.m.hdata b) →
        (∀ x, op ≠ .poke b k x) → s'.h.load (some ⟨b, k⟩) = s.h.load (some ⟨b, k⟩) := by
  obtain ⟨ops, hLr, hr⟩ := hs
  obtain ⟨i0, r0, -⟩ := stor_init (sp := sp) ht hw hl hu hb
  obtain ⟨s1, e, i', r', -⟩ := stor_run ops _ ⟨shown h w f d, h.size⟩ i0 r0 hLr
  obtain rfl : s1 = s := by rw [hr] at e; exact (Option.some.inj e).symm
  obtain ⟨s', hok⟩ := stor_step (g := ghostRun (constructUser h w sp n f d) ⟨shown h w f d, h.size⟩ ops) op i' r' hL
  exact ⟨s', hok.ok, fun b k h1 h2 h3 h4 => hok.frame b k ⟨h1, h2, h3⟩ h4⟩

/-- C53: releasing a block that is not admitted changes nothing. -/
theorem C53_release_released (s : World R) (u : Bool) (ha : s.m.admitted = false) : Stor.release s u = some s := by
  simp [Stor.release, ha]

/-- The claim that `release(true)` works on every block fails: a block without user storage has nothing to release to (the assertion at
user.hpp l.153, or a null pointer). -/
theorem C53_release_false : ∃ (n : Nat) (h : Heap Nat), Stor.release (construct h 2 false n true) true = none :=
  ⟨1, exHeap, by decide⟩

/-- Likewise a block constructed with a null pointer cannot be admitted with update. -/
theorem C53_admit_null_false : ∃ (n : Nat) (h : Heap Nat), Stor.admit (constructUser h 1 false n .array .null) true = none :=
  ⟨1, exHeap, by decide⟩

/-- an interleaved user buffer and a split block; the buffer is written, admitted, changed through the block and released -/
example : ((storRun (constructUser exHeap 2 true 2 .inter ⟨some ⟨0, 0⟩, none⟩)
      [.userWrite 1 [7, 8], .admit true, .put 0 [5, 6], .release true, .rebind .split ⟨some ⟨1, 0⟩, some ⟨2, 0⟩⟩ 2, .admit false]).map fun s =>
    ((List.range 4).map fun k => s.h.load (some ⟨0, k⟩), Stor.hostGet s 1)) = some ([some 5, some 6, some 7, some 8], some [11, 21]) := by decide

example : Typed 2 .inter ∧ (∀ b, exHeap.size b ≠ none → b < exHeap.next) ∧ (∀ b, uses false ⟨some ⟨0, 0⟩, none⟩ b → b < exHeap.next) ∧
    StorLegalRun (constructUser exHeap 2 true 2 .inter ⟨some ⟨0, 0⟩, none⟩) [.userWrite 1 [7, 8], .admit true, .release true] := by
  refine ⟨Or.inr ⟨rfl, by simp⟩, ?_, ?_, ⟨rfl, by decide, rfl⟩, fun s' _ => ⟨trivial, fun _ _ => ⟨trivial, fun _ _ => trivial⟩⟩⟩
  · intro b hb
    simp only [exHeap] at hb ⊢
    by_contra hh
    exact hb (by rw [if_neg (by omega), if_neg (by omega)])
  · intro b hb
    simp [uses] at hb
    subst hb
    decide

end Verif.Props
