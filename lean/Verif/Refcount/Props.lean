import Verif.Refcount.Model
import Mathlib.Data.List.Basic
import Mathlib.Data.List.Count
import Mathlib.Data.List.Nodup
import Mathlib.Data.Nat.Basic
/-!
C56: reference counting.
-/
namespace Verif.Props
open Verif.Ref

/-! ### Specification -/

inductive RefOp where
  | new
  | mk (h : Nat) (owner p : Option Nat) (addRef : Bool)
  | copy (h : Nat) (owner : Option Nat) (h' : Nat)
  | destroy (h : Nat)
  | assign (h h' : Nat)
  | reset (h : Nat) (p : Option Nat) (increment : Bool)
  | rawInc (p : Nat)
  | rawDec (p : Nat)
  | use (h : Nat)
deriving DecidableEq

def refStep (s : St) : RefOp → Option St
  | .new => some (Ref.new s)
  | .mk h o p a => Ref.mk s h o p a
  | .copy h o h' => Ref.copy s h o h'
  | .destroy h => Ref.destroy s h
  | .assign h h' => Ref.assign s h h'
  | .reset h p i => Ref.reset s h p i
  | .rawInc p => Ref.rawInc s p
  | .rawDec p => Ref.rawDec s p
  | .use h => (Ref.use s h).map fun _ => s

def refRun : St → List RefOp → Option St
  | s, [] => some s
  | s, op :: ops => (refStep s op).bind fun s => refRun s ops

/-- number of references to an object: handles and raw references -/
def refs (s : St) (p : Nat) : Nat := s.hs.countP (fun h => h.ptr = some p) + s.raw p

/-- the place of a handle: not a member of an object, or a member of an object that exists -/
def Place (s : St) : Option Nat → Prop
  | none => True
  | some o => 0 < refs s o

/-- the place does not depend on other handles -/
def Rooted (s : St) : Option Nat → Prop
  | none => True
  | some o => 0 < s.raw o

/-- Rules of use: handles are created under a new name in an existing place, from a raw reference (which is handed over unless `addRef`) or from
another existing handle; raw references are dropped at most once.  Assignment: the source is not null unless both are, and when the old object may
go away neither handle may depend on it.  `reset`: to null, or to an object with a raw reference. -/
def RefLegal (s : St) : RefOp → Prop
  | .new => True
  | .mk h o p a => (∀ x ∈ s.hs, x.id ≠ h) ∧ Place s o ∧ ∀ q, p = some q → if a then 0 < refs s q else 0 < s.raw q
  | .copy h o h' => (∀ x ∈ s.hs, x.id ≠ h) ∧ Place s o ∧ ∃ x ∈ s.hs, x.id = h'
  | .destroy h => ∃ x ∈ s.hs, x.id = h ∧ x.owner = none
  | .assign h h' => ∃ x ∈ s.hs, ∃ y ∈ s.hs, x.id = h ∧ y.id = h' ∧
      (x.ptr = y.ptr ∨ (y.ptr ≠ none ∧ (x.ptr = none ∨ (Rooted s x.owner ∧ Rooted s y.owner))))
  | .reset h p i => (∃ x ∈ s.hs, x.id = h ∧ Rooted s x.owner) ∧ (i = true → p ≠ none) ∧ ∀ q, p = some q → 0 < s.raw q
  | .rawInc p => 0 < refs s p
  | .rawDec p => 0 < s.raw p
  | .use h => ∃ x ∈ s.hs, x.id = h ∧ x.ptr ≠ none

def RefLegalRun : St → List RefOp → Prop
  | _, [] => True
  | s, op :: ops => RefLegal s op ∧ ∀ s', refStep s op = some s' → RefLegalRun s' ops

/-! ### Invariant -/

structure RefInv (s : St) (pend : List Nat) : Prop where
  nodup : (s.hs.map (·.id)).Nodup
  count : ∀ p c, s.obj p = some c → c = refs s p + pend.count p ∧ 0 < c ∧ c < 4294967296
  dead : ∀ p, s.obj p = none → refs s p + pend.count p = 0
  owner : ∀ h ∈ s.hs, ∀ o, h.owner = some o → s.obj o ≠ none
  fresh : ∀ p, s.next ≤ p → s.obj p = none

theorem lookup_mem {s : St} {x : Handle} (hn : (s.hs.map (·.id)).Nodup) (hx : x ∈ s.hs) : lookup s x.id = some x := by
  unfold lookup
  induction hl : s.hs generalizing s with
  | nil => rw [hl] at hx; cases hx
  | cons a l ih =>
    rw [hl] at hx hn
    simp only [List.map_cons, List.nodup_cons] at hn
    rcases List.mem_cons.mp hx with rfl | hx
    · simp
    · have hne : a.id ≠ x.id := fun e => hn.1 (e ▸ List.mem_map_of_mem hx)
      rw [List.find?_cons_of_neg (by simpa using hne)]
      exact ih (s := { s with hs := l }) hn.2 hx rfl

theorem count_filterMap_ptr (l : List Handle) (q : Nat) : (l.filterMap (·.ptr)).count q = l.countP (fun h => h.ptr = some q) := by
  induction l with
  | nil => rfl
  | cons a l ih =>
    cases hp : a.ptr with
    | none => rw [List.filterMap_cons_none hp, ih, List.countP_cons]; simp [hp]
    | some r =>
      rw [List.filterMap_cons_some hp, List.count_cons, ih, List.countP_cons]
      by_cases e : r = q
      · subst e; simp [hp]
      · have e' : ¬ some r = some q := fun h => e (Option.some.inj h)
        simp [e, hp]

theorem countP_split (l : List Handle) (P Q : Handle → Prop) [DecidablePred P] [DecidablePred Q] :
    (l.filter fun h => ¬ Q h).countP (fun h => P h) + (l.filter fun h => Q h).countP (fun h => P h) = l.countP fun h => P h := by
  induction l with
  | nil => rfl
  | cons a l ih =>
    by_cases hq : Q a <;> by_cases hp : P a <;> simp [List.filter_cons, List.countP_cons, hq, hp] at ih ⊢ <;> omega

theorem length_split (l : List Handle) (Q : Handle → Prop) [DecidablePred Q] :
    (l.filter fun h => ¬ Q h).length + (l.filter fun h => Q h).length = l.length := by
  induction l with
  | nil => rfl
  | cons a l ih => by_cases hq : Q a <;> simp [List.filter_cons, hq] at ih ⊢ <;> omega

/-- all pending decrements can be carried out; raw references, and with them rooted handles, stay -/
theorem decs_inv : ∀ (k : Nat) (s : St) (pend : List Nat), RefInv s pend → pend.length + s.hs.length ≤ k →
    ∃ s', decs k s pend = some s' ∧ RefInv s' [] ∧ s'.raw = s.raw ∧ s'.next = s.next ∧ s'.hs.Sublist s.hs ∧
      (∀ q, s.obj q = none → s'.obj q = none) ∧ ∀ h ∈ s.hs, Rooted s h.owner → h ∈ s'.hs := by
  intro k
  induction k with
  | zero =>
    intro s pend hI hk
    have : pend = [] := List.length_eq_zero_iff.mp (by omega)
    subst this
    exact ⟨s, rfl, hI, rfl, rfl, List.Sublist.refl _, fun _ h => h, fun _ h _ => h⟩
  | succ k ih =>
    intro s pend hI hk
    cases pend with
    | nil => exact ⟨s, rfl, hI, rfl, rfl, List.Sublist.refl _, fun _ h => h, fun _ h _ => h⟩
    | cons p ps =>
      have hpos : 0 < (p :: ps).count p := by simp
      cases hc : s.obj p with
      | none => have := hI.dead p hc; omega
      | some c =>
        obtain ⟨e, h1, h2⟩ := hI.count p c hc
        rw [List.count_cons_self] at e
        unfold decs
        simp only [hc]
        by_cases hone : c = 1
        · rw [if_pos hone]
          have hr : refs s p = 0 := by omega
          have hps : ps.count p = 0 := by omega
          have hraw : s.raw p = 0 := by unfold refs at hr; omega
          have hcp : s.hs.countP (fun h => h.ptr = some p) = 0 := by unfold refs at hr; omega
          have split := fun q => countP_split s.hs (fun h => h.ptr = some q) (fun h => h.owner = some p)
          have hI' : RefInv { s with obj := Function.update s.obj p none, hs := s.hs.filter fun h => h.owner ≠ some p }
              ((s.hs.filter fun h => h.owner = some p).filterMap (·.ptr) ++ ps) := by
            have cnt : ∀ q, q ≠ p → refs { s with obj := Function.update s.obj p none, hs := s.hs.filter fun h => h.owner ≠ some p } q +
                ((s.hs.filter fun h => h.owner = some p).filterMap (·.ptr) ++ ps).count q = refs s q + (p :: ps).count q := by
              intro q hq
              have := split q
              rw [List.count_append, count_filterMap_ptr, List.count_cons_of_ne (Ne.symm hq)]
              unfold refs
              simp only [ne_eq] at this ⊢
              omega
            refine ⟨?_, ?_, ?_, ?_, ?_⟩
            · exact hI.nodup.sublist (List.Sublist.map _ List.filter_sublist)
            · intro q d hq
              by_cases e : q = p
              · subst e; simp at hq
              · simp only [Function.update_of_ne e] at hq
                rw [cnt q e]; exact hI.count q d hq
            · intro q hq
              by_cases e : q = p
              · subst e
                have := split q
                rw [List.count_append, count_filterMap_ptr]
                unfold refs
                simp only [ne_eq] at this ⊢
                omega
              · simp only [Function.update_of_ne e] at hq
                rw [cnt q e]; exact hI.dead q hq
            · intro h hh o ho
              obtain ⟨hm, hne⟩ := List.mem_filter.mp hh
              have : o ≠ p := fun e => by subst e; simp [ho] at hne
              simp only [Function.update_of_ne this]
              exact hI.owner h hm o ho
            · intro q hq
              by_cases e : q = p
              · subst e; simp
              · simp only [Function.update_of_ne e]; exact hI.fresh q hq
          have hlen : ((s.hs.filter fun h => h.owner = some p).filterMap (·.ptr) ++ ps).length +
              (s.hs.filter fun h => h.owner ≠ some p).length ≤ k := by
            have h3 := length_split s.hs (fun h => h.owner = some p)
            have h4 := List.length_filterMap_le (fun h : Handle => h.ptr) (s.hs.filter fun h => h.owner = some p)
            simp only [List.length_cons] at hk
            rw [List.length_append]
            simp only [ne_eq] at h3 ⊢
            omega
          obtain ⟨s', e', i', r', n', m', o', k'⟩ := ih _ _ hI' hlen
          refine ⟨s', e', i', r', n', m'.trans List.filter_sublist, fun q hq => o' q (by simp only [Function.update_apply]; split <;> [rfl; exact hq]),
            fun h hh hroot => k' h ?_ ?_⟩
          · refine List.mem_filter.mpr ⟨hh, ?_⟩
            simp only [ne_eq, decide_eq_true_eq]
            intro ho
            rw [ho] at hroot
            have : 0 < s.raw p := hroot
            omega
          · exact hroot
        · rw [if_neg hone]
          have hw : wrap32 (c + 4294967295) = c - 1 := by unfold wrap32; omega
          rw [hw]
          have hI' : RefInv { s with obj := Function.update s.obj p (some (c - 1)) } ps := by
            refine ⟨hI.nodup, ?_, ?_, ?_, ?_⟩
            · intro q d hq
              by_cases e' : q = p
              · subst e'
                simp at hq
                subst hq
                refine ⟨?_, by omega, by omega⟩
                show c - 1 = refs s q + _
                omega
              · simp only [Function.update_of_ne e'] at hq
                have := hI.count q d hq
                rw [List.count_cons_of_ne (Ne.symm e')] at this
                exact this
            · intro q hq
              by_cases e' : q = p
              · subst e'; simp at hq
              · simp only [Function.update_of_ne e'] at hq
                have := hI.dead q hq
                rw [List.count_cons_of_ne (Ne.symm e')] at this
                exact this
            · intro h hh o ho
              by_cases e' : o = p
              · subst e'; simp
              · simp only [Function.update_of_ne e']; exact hI.owner h hh o ho
            · intro q hq
              by_cases e' : q = p
              · subst e'; have := hI.fresh q hq; simp [hc] at this
              · simp only [Function.update_of_ne e']; exact hI.fresh q hq
          obtain ⟨s', e', i', r', n', m', o', k'⟩ := ih _ _ hI' (by simp only [List.length_cons] at hk; simp only; omega)
          refine ⟨s', e', i', r', n', m', fun q hq => o' q ?_, k'⟩
          have : q ≠ p := fun e => by rw [e, hc] at hq; cases hq
          simp only [Function.update_of_ne this]; exact hq

/-- an increment for a reference already counted by `refs` -/
theorem inc_inv {s : St} {p : Nat} (hn : (s.hs.map (·.id)).Nodup) (hp : s.obj p ≠ none)
    (hc : ∀ q c, s.obj q = some c → c + (if q = p then 1 else 0) = refs s q ∧ 0 < c ∧ refs s q < 4294967296)
    (hd : ∀ q, s.obj q = none → refs s q = 0) (ho : ∀ h ∈ s.hs, ∀ o, h.owner = some o → s.obj o ≠ none)
    (hf : ∀ q, s.next ≤ q → s.obj q = none) :
    ∃ s', inc s p = some s' ∧ RefInv s' [] ∧ s'.hs = s.hs ∧ s'.raw = s.raw ∧ s'.next = s.next ∧
      ∀ q, s.obj q = none → s'.obj q = none := by
  obtain ⟨c, e⟩ := Option.ne_none_iff_exists'.mp hp
  obtain ⟨h1, h2, h3⟩ := hc p c e
  rw [if_pos rfl] at h1
  have hw : wrap32 (c + 1) = c + 1 := by unfold wrap32; omega
  refine ⟨{ s with obj := Function.update s.obj p (some (c + 1)) }, by simp [inc, e, hw], ⟨hn, ?_, ?_, ?_, ?_⟩, rfl, rfl, rfl, ?_⟩
  · intro q d hq
    simp only [List.count_nil, Nat.add_zero]
    show d = refs s q ∧ _
    by_cases e' : q = p
    · subst e'; simp at hq; subst hq; exact ⟨h1, by omega, by omega⟩
    · simp only [Function.update_of_ne e'] at hq
      have := hc q d hq
      rw [if_neg e'] at this
      exact ⟨this.1, this.2.1, by omega⟩
  · intro q hq
    simp only [List.count_nil, Nat.add_zero]
    by_cases e' : q = p
    · subst e'; simp at hq
    · simp only [Function.update_of_ne e'] at hq; exact hd q hq
  · intro h hh o hoo
    by_cases e' : o = p
    · subst e'; simp
    · simp only [Function.update_of_ne e']; exact ho h hh o hoo
  · intro q hq
    by_cases e' : q = p
    · subst e'; exact absurd (hf q hq) hp
    · simp only [Function.update_of_ne e']; exact hf q hq
  · intro q hq
    have : q ≠ p := fun e => hp (e ▸ hq)
    simp only [Function.update_of_ne this]; exact hq

theorem RefInv.live_iff {s : St} (hI : RefInv s []) (p : Nat) : s.obj p ≠ none ↔ 0 < refs s p := by
  constructor
  · intro h
    obtain ⟨c, e⟩ := Option.ne_none_iff_exists'.mp h
    have := hI.count p c e
    simp at this; omega
  · intro h e
    have := hI.dead p e
    omega

/-- the other handles stay, the pointer of one changes -/
theorem countP_set {l : List Handle} {x : Handle} (hn : (l.map (·.id)).Nodup) (hx : x ∈ l) (p : Option Nat) (q : Nat) :
    (l.map (Handle.set x.id p)).countP (fun h => h.ptr = some q) + (if x.ptr = some q then 1 else 0) =
      l.countP (fun h => h.ptr = some q) + (if p = some q then 1 else 0) := by
  induction l with
  | nil => cases hx
  | cons a l ih =>
    simp only [List.map_cons, List.nodup_cons] at hn
    rcases List.mem_cons.mp hx with rfl | hx
    · have : l.map (Handle.set x.id p) = l := by
        conv_rhs => rw [← List.map_id l]
        refine List.map_congr_left fun y hy => ?_
        have : y.id ≠ x.id := fun e => hn.1 (e ▸ List.mem_map_of_mem hy)
        simp [Handle.set, this]
      rw [List.map_cons, this, List.countP_cons, List.countP_cons]
      simp only [Handle.set, if_true, decide_eq_true_eq]
      omega
    · have hne : a.id ≠ x.id := fun e => hn.1 (e ▸ List.mem_map_of_mem hx)
      have hs : Handle.set x.id p a = a := by simp [Handle.set, hne]
      have := ih hn.2 hx
      rw [List.map_cons, hs, List.countP_cons, List.countP_cons]
      omega

theorem map_set_id (l : List Handle) (h : Nat) (p : Option Nat) : (l.map (Handle.set h p)).map (·.id) = l.map (·.id) := by
  rw [List.map_map]
  refine List.map_congr_left fun y _ => ?_
  simp only [Function.comp, Handle.set]; split <;> rfl

theorem map_set_owner {l : List Handle} {h : Nat} {p : Option Nat} {y : Handle} (hy : y ∈ l.map (Handle.set h p)) :
    ∃ z ∈ l, z.owner = y.owner := by
  obtain ⟨z, hz, rfl⟩ := List.mem_map.mp hy
  refine ⟨z, hz, ?_⟩
  simp only [Handle.set]; split <;> rfl

theorem refs_pos_of_mem {s : St} {x : Handle} {p : Nat} (hx : x ∈ s.hs) (hp : x.ptr = some p) : 0 < refs s p := by
  have : 0 < s.hs.countP (fun h => h.ptr = some p) := List.countP_pos_iff.mpr ⟨x, hx, by simp [hp]⟩
  unfold refs; omega

/-- dropping the pointer of a handle -/
theorem drop_inv {s : St} {x : Handle} (hI : RefInv s []) (hx : x ∈ s.hs) :
    ∃ s', Ref.drop s x.id x.ptr = some s' ∧ RefInv s' [] ∧ s'.raw = s.raw ∧ s'.next = s.next ∧ (∀ q, refs s' q ≤ refs s q) ∧
      (∀ q, s.obj q = none → s'.obj q = none) ∧
      (∀ y ∈ s.hs, y.id ≠ x.id → x.ptr = none ∨ Rooted s y.owner → y ∈ s'.hs) ∧
      (x.ptr = none ∨ Rooted s x.owner → { x with ptr := none } ∈ s'.hs) := by
  cases hp : x.ptr with
  | none =>
    refine ⟨s, rfl, hI, rfl, rfl, fun _ => le_rfl, fun _ h => h, fun y hy _ _ => hy, fun _ => ?_⟩
    have : { x with ptr := none } = x := by cases x; simp_all
    rw [this]; exact hx
  | some p =>
    have cs := fun q => countP_set hI.nodup hx none q
    simp only [hp, reduceCtorEq, if_false, Nat.add_zero] at cs
    have hI' : RefInv { s with hs := s.hs.map (Handle.set x.id none) } [p] := by
      have cnt : ∀ q, refs { s with hs := s.hs.map (Handle.set x.id none) } q + [p].count q = refs s q := by
        intro q
        have := cs q
        unfold refs
        rw [List.count_singleton]
        simp only [Option.some.injEq] at this
        by_cases e : p = q
        · simp [e] at this ⊢; omega
        · simp [e] at this ⊢; omega
      refine ⟨by rw [map_set_id]; exact hI.nodup, ?_, ?_, ?_, hI.fresh⟩
      · intro q c hq
        rw [cnt]; simpa using hI.count q c hq
      · intro q hq
        rw [cnt]; simpa using hI.dead q hq
      · intro h hh o ho
        obtain ⟨z, hz, e⟩ := map_set_owner hh
        exact hI.owner z hz o (e.trans ho)
    obtain ⟨s', e', i', r', n', m', o', k'⟩ := decs_inv (s.hs.length + 1) _ _ hI' (by simp; omega)
    refine ⟨s', by simpa [Ref.drop, dec] using e', i', r', n', fun q => ?_, o', ?_, ?_⟩
    · have h1 := m'.countP_le (p := fun h => h.ptr = some q)
      have h2 := cs q
      unfold refs
      rw [r']
      simp only at h1 ⊢
      omega
    · rintro y hy hne (hc | hr)
      · cases hc
      · refine k' y (List.mem_map.mpr ⟨y, hy, by simp [Handle.set, hne]⟩) hr
    · rintro (hc | hr)
      · cases hc
      · exact k' _ (List.mem_map.mpr ⟨x, hx, by simp [Handle.set]⟩) hr

/-- what a step guarantees -/
structure RefStepOk (s : St) (k : Nat) (op : RefOp) (s' : St) : Prop where
  ok : refStep s op = some s'
  inv : RefInv s' []
  bound : ∀ q, refs s' q ≤ k + 1
  gone : ∀ q < s.next, s.obj q = none → s'.obj q = none

theorem mk_step {s : St} {k : Nat} {h : Nat} {o p : Option Nat} {a : Bool} (hI : RefInv s []) (hk : ∀ q, refs s q ≤ k)
    (hb : k + 1 < 4294967296) (hh : ∀ x ∈ s.hs, x.id ≠ h) (hp : Place s o)
    (hq : ∀ q, p = some q → if a then 0 < refs s q else 0 < s.raw q) :
    ∃ s', Ref.mk s h o p a = some s' ∧ RefInv s' [] ∧ (∀ q, refs s' q ≤ k + 1) ∧ ∀ q, s.obj q = none → s'.obj q = none := by
  have nd : ((⟨h, o, p⟩ :: s.hs).map (·.id)).Nodup := by
    rw [List.map_cons, List.nodup_cons]
    exact ⟨fun hm => by obtain ⟨x, hx, e⟩ := List.mem_map.mp hm; exact hh x hx e, hI.nodup⟩
  have own : ∀ y ∈ (⟨h, o, p⟩ :: s.hs : List Handle), ∀ o', y.owner = some o' → s.obj o' ≠ none := by
    intro y hy o' ho
    rcases List.mem_cons.mp hy with rfl | hy
    · simp only at ho; subst ho; exact (hI.live_iff o').mpr hp
    · exact hI.owner y hy o' ho
  cases p with
  | none =>
    have cnt : ∀ q, refs { s with hs := ⟨h, o, none⟩ :: s.hs } q = refs s q := fun q => by
      unfold refs; simp only; rw [List.countP_cons_of_neg (by simp)]
    exact ⟨_, rfl, ⟨nd, fun q c hc => by rw [cnt]; exact hI.count q c hc, fun q hc => by rw [cnt]; exact hI.dead q hc, own, hI.fresh⟩,
      fun q => by rw [cnt]; have := hk q; omega, fun q hq => hq⟩
  | some p =>
    have hp' := hq p rfl
    have cnt : ∀ q, s.hs.countP (fun h => h.ptr = some q) + (if q = p then 1 else 0) =
        (⟨h, o, some p⟩ :: s.hs : List Handle).countP (fun h => h.ptr = some q) := fun q => by
      rw [List.countP_cons]; simp [eq_comm]
    cases a with
    | true =>
      simp only [if_true] at hp'
      obtain ⟨s', e', i', h1, h2, _, h4⟩ := inc_inv (s := { s with hs := ⟨h, o, some p⟩ :: s.hs }) (p := p) nd ((hI.live_iff p).mpr hp')
        (fun q c hc => by
          have h1 := hI.count q c hc
          have h2 := cnt q
          have h3 := hk q
          simp only [List.count_nil, Nat.add_zero] at h1
          unfold refs at h1 h3 ⊢
          simp only
          split at h2 <;> rename_i hqp
          · rw [if_pos hqp]; omega
          · rw [if_neg hqp]; omega)
        (fun q hc => by
          have h1 := hI.dead q hc
          have h2 := cnt q
          have : q ≠ p := fun e => (hI.live_iff p).mpr hp' (e ▸ hc)
          rw [if_neg this] at h2
          simp only [List.count_nil, Nat.add_zero] at h1
          unfold refs at h1 ⊢
          simp only; omega) own hI.fresh
      refine ⟨s', by simpa [Ref.mk] using e', i', fun q => ?_, h4⟩
      have h2' := cnt q
      have h3 := hk q
      unfold refs at h3 ⊢
      rw [h1, h2]
      simp only
      split at h2' <;> omega
    | false =>
      simp only [Bool.false_eq_true, if_false] at hp'
      have cnt2 : ∀ q, refs { s with hs := ⟨h, o, some p⟩ :: s.hs, raw := Function.update s.raw p (s.raw p - 1) } q = refs s q := fun q => by
        have := cnt q
        unfold refs
        simp only [Function.update_apply]
        by_cases e : q = p
        · subst e; simp at this ⊢; omega
        · simp [e] at this ⊢; omega
      exact ⟨_, rfl, ⟨nd, fun q c hc => by rw [cnt2]; exact hI.count q c hc, fun q hc => by rw [cnt2]; exact hI.dead q hc, own, hI.fresh⟩,
        fun q => by rw [cnt2]; have := hk q; omega, fun q hq => hq⟩

/-- writing a pointer into an empty handle, and counting it -/
theorem set_inv {s : St} {k : Nat} {x : Handle} {p : Nat} (hI : RefInv s []) (hk : ∀ q, refs s q ≤ k) (hb : k + 1 < 4294967296)
    (hx : x ∈ s.hs) (hn : x.ptr = none) (hp : 0 < refs s p) :
    ∃ s', setPtr s x.id (some p) = some { s with hs := s.hs.map (Handle.set x.id (some p)) } ∧
      inc { s with hs := s.hs.map (Handle.set x.id (some p)) } p = some s' ∧ RefInv s' [] ∧ (∀ q, refs s' q ≤ k + 1) ∧
      ∀ q, s.obj q = none → s'.obj q = none := by
  have cs := fun q => countP_set hI.nodup hx (some p) q
  simp only [hn, reduceCtorEq, if_false, Nat.add_zero] at cs
  obtain ⟨s', e', i', h1, h2, _, h4⟩ := inc_inv (s := { s with hs := s.hs.map (Handle.set x.id (some p)) }) (p := p)
    (by rw [map_set_id]; exact hI.nodup) ((hI.live_iff p).mpr hp)
    (fun q c hc => by
      have h1 := hI.count q c hc
      have h2 := cs q
      have h3 := hk q
      simp only [List.count_nil, Nat.add_zero] at h1
      unfold refs at h1 h3 ⊢
      simp only
      by_cases e : q = p
      · subst e; simp at h2 ⊢; omega
      · simp [e, Ne.symm e] at h2 ⊢; omega)
    (fun q hc => by
      have h1 := hI.dead q hc
      have h2 := cs q
      have : q ≠ p := fun e => (hI.live_iff p).mpr hp (e ▸ hc)
      simp only [List.count_nil, Nat.add_zero] at h1
      unfold refs at h1 ⊢
      rw [if_neg (fun e => this (Option.some.inj e).symm)] at h2
      simp only; omega)
    (fun y hy o ho => by obtain ⟨z, hz, e⟩ := map_set_owner hy; exact hI.owner z hz o (e.trans ho)) hI.fresh
  refine ⟨s', by simp [setPtr, lookup_mem hI.nodup hx], e', i', fun q => ?_, h4⟩
  have h2' := cs q
  have h3 := hk q
  unfold refs at h3 ⊢
  rw [h1, h2]
  simp only
  by_cases e : some p = some q
  · rw [if_pos e] at h2'; omega
  · rw [if_neg e] at h2'; omega

theorem ref_step {s : St} {k : Nat} (op : RefOp) (hI : RefInv s []) (hk : ∀ q, refs s q ≤ k) (hb : k + 1 < 4294967296) (hL : RefLegal s op) :
    ∃ s', RefStepOk s k op s' := by
  cases op with
  | new =>
    have hf := hI.fresh s.next le_rfl
    have h0 := hI.dead _ hf
    simp only [List.count_nil, Nat.add_zero] at h0
    have cnt : ∀ q, refs (Ref.new s) q = refs s q + if q = s.next then 1 else 0 := fun q => by
      unfold refs at h0 ⊢
      simp only [Ref.new, Function.update_apply]
      by_cases e : q = s.next
      · subst e; simp; omega
      · simp [e]
    refine ⟨Ref.new s, rfl, ⟨hI.nodup, ?_, ?_, ?_, ?_⟩, fun q => ?_, ?_⟩
    · intro q c hc
      rw [cnt]
      simp only [Ref.new, Function.update_apply] at hc
      by_cases e : q = s.next
      · subst e; simp at hc ⊢; omega
      · rw [if_neg e] at hc ⊢; exact hI.count q c hc
    · intro q hc
      rw [cnt]
      simp only [Ref.new, Function.update_apply] at hc
      by_cases e : q = s.next
      · subst e; simp at hc
      · rw [if_neg e] at hc ⊢; exact hI.dead q hc
    · intro h hh o ho
      simp only [Ref.new, Function.update_apply]
      split
      · simp
      · exact hI.owner h hh o ho
    · intro q hq
      simp only [Ref.new, Function.update_apply] at hq ⊢
      rw [if_neg (by omega)]; exact hI.fresh q (by omega)
    · rw [cnt]; have := hk q; split <;> omega
    · intro q hq hn
      simp only [Ref.new, Function.update_apply]
      rw [if_neg (by omega)]; exact hn
  | mk h o p a =>
    obtain ⟨h1, h2, h3⟩ := hL
    obtain ⟨s', e, i, b, g⟩ := mk_step hI hk hb h1 h2 h3
    exact ⟨s', e, i, b, fun q _ => g q⟩
  | copy h o h' =>
    obtain ⟨h1, h2, x, hx, rfl⟩ := hL
    obtain ⟨s', e, i, b, g⟩ := mk_step (a := true) (p := x.ptr) hI hk hb h1 h2 (fun q hq => by simp; exact refs_pos_of_mem hx hq)
    exact ⟨s', by simp [refStep, Ref.copy, lookup_mem hI.nodup hx, e], i, b, fun q _ => g q⟩
  | destroy h =>
    obtain ⟨x, hx, rfl, ho⟩ := hL
    have hfil : ∀ q, (s.hs.filter fun y => y.id ≠ x.id).countP (fun h => h.ptr = some q) + (if x.ptr = some q then 1 else 0) =
        s.hs.countP (fun h => h.ptr = some q) := by
      intro q
      have key : ∀ l : List Handle, (l.map (·.id)).Nodup → x ∈ l →
          (l.filter fun y => y.id ≠ x.id).countP (fun h => h.ptr = some q) + (if x.ptr = some q then 1 else 0) =
          l.countP (fun h => h.ptr = some q) := by
        intro l
        induction l with
        | nil => intro _ h; cases h
        | cons a l ih =>
          intro hn hm
          simp only [List.map_cons, List.nodup_cons] at hn
          rcases List.mem_cons.mp hm with rfl | hm
          · have : (l.filter fun y => y.id ≠ x.id) = l := List.filter_eq_self.mpr fun y hy => by
              have : y.id ≠ x.id := fun e => hn.1 (e ▸ List.mem_map_of_mem hy)
              simp [this]
            rw [List.filter_cons_of_neg (by simp), this, List.countP_cons]
            simp
          · have hne : a.id ≠ x.id := fun e => hn.1 (e ▸ List.mem_map_of_mem hm)
            have := ih hn.2 hm
            rw [List.filter_cons_of_pos (by simpa using hne), List.countP_cons, List.countP_cons]
            omega
      exact key s.hs hI.nodup hx
    have nd : ((s.hs.filter fun y => y.id ≠ x.id).map (·.id)).Nodup := hI.nodup.sublist (List.Sublist.map _ List.filter_sublist)
    have own : ∀ y ∈ s.hs.filter (fun y => y.id ≠ x.id), ∀ o, y.owner = some o → s.obj o ≠ none := fun y hy o ho =>
      hI.owner y (List.mem_filter.mp hy).1 o ho
    cases hp : x.ptr with
    | none =>
      have cnt : ∀ q, refs { s with hs := s.hs.filter fun y => y.id ≠ x.id } q = refs s q := fun q => by
        have := hfil q; unfold refs; simp [hp] at this ⊢; omega
      exact ⟨{ s with hs := s.hs.filter fun y => y.id ≠ x.id }, by simp [refStep, Ref.destroy, lookup_mem hI.nodup hx, hp],
        ⟨nd, fun q c hc => by rw [cnt]; exact hI.count q c hc, fun q hc => by rw [cnt]; exact hI.dead q hc, own, hI.fresh⟩,
        fun q => by rw [cnt]; have := hk q; omega, fun q _ h => h⟩
    | some p =>
      have cnt : ∀ q, refs { s with hs := s.hs.filter fun y => y.id ≠ x.id } q + [p].count q = refs s q := fun q => by
        have := hfil q
        unfold refs
        rw [List.count_singleton]
        simp only [hp, Option.some.injEq] at this
        by_cases e : p = q
        · subst e; simp at this ⊢; omega
        · simp [e] at this ⊢; omega
      obtain ⟨s', e', i', r', n', m', o', k'⟩ := decs_inv ((s.hs.filter fun y => y.id ≠ x.id).length + 1)
        { s with hs := s.hs.filter fun y => y.id ≠ x.id } [p]
        ⟨nd, fun q c hc => by rw [cnt]; simpa using hI.count q c hc, fun q hc => by rw [cnt]; simpa using hI.dead q hc, own, hI.fresh⟩
        (by simp; omega)
      refine ⟨s', by simpa [refStep, Ref.destroy, lookup_mem hI.nodup hx, hp, dec] using e', i', fun q => ?_, fun q _ => o' q⟩
      have h1 := m'.countP_le (p := fun h => h.ptr = some q)
      have h2 := cnt q
      have h3 := hk q
      unfold refs at h2 h3 ⊢
      rw [r']
      simp only at h1 h2 ⊢
      omega
  | assign h h' =>
    obtain ⟨x, hx, y, hy, rfl, rfl, hc⟩ := hL
    by_cases he : x.ptr = y.ptr
    · exact ⟨s, by simp [refStep, Ref.assign, lookup_mem hI.nodup hx, lookup_mem hI.nodup hy, he], hI,
        fun q => by have := hk q; omega, fun q _ h => h⟩
    · obtain ⟨hyn, hroot⟩ := hc.resolve_left he
      obtain ⟨p, hp⟩ := Option.ne_none_iff_exists'.mp hyn
      obtain ⟨s1, e1, i1, r1, n1, b1, o1, k1, x1⟩ := drop_inv hI hx
      have hne : y.id ≠ x.id := fun e => by
        have h1 := lookup_mem hI.nodup hy
        rw [e, lookup_mem hI.nodup hx] at h1
        exact he (by rw [Option.some.inj h1])
      have hy1 : y ∈ s1.hs := k1 y hy hne (hroot.imp id (·.2))
      have hx1 := x1 (hroot.imp id (·.1))
      obtain ⟨s', e2, e3, i', b', g'⟩ := set_inv (k := k) i1 (fun q => Nat.le_trans (b1 q) (hk q)) hb hx1 rfl (refs_pos_of_mem hy1 hp)
      refine ⟨s', ?_, i', b', fun q _ hq => g' q (o1 q hq)⟩
      simp only [refStep, Ref.assign, lookup_mem hI.nodup hx, lookup_mem hI.nodup hy, Option.bind_some]
      rw [if_neg he]
      simp only [e1, Option.bind_some, lookup_mem i1.nodup hy1, hp]
      simp only at e2 e3
      rw [e2, Option.bind_some, e3]
  | reset h p i =>
    obtain ⟨⟨x, hx, rfl, hr⟩, hip, hq⟩ := hL
    obtain ⟨s1, e1, i1, r1, n1, b1, o1, k1, x1⟩ := drop_inv hI hx
    have hx1 := x1 (Or.inr hr)
    have hk1 : ∀ q, refs s1 q ≤ k := fun q => Nat.le_trans (b1 q) (hk q)
    have cs := fun q => countP_set i1.nodup hx1 p q
    simp only [reduceCtorEq, if_false, Nat.add_zero] at cs
    have l1 : lookup s1 x.id = some { x with ptr := none } := lookup_mem i1.nodup hx1
    cases p with
    | none =>
      have hi : i = false := by cases i with | false => rfl | true => exact absurd rfl (hip rfl)
      simp only [reduceCtorEq, if_false, Nat.add_zero] at cs
      have cnt : ∀ q, refs { s1 with hs := s1.hs.map (Handle.set x.id none) } q = refs s1 q := fun q => by
        have := cs q; unfold refs; simp only; omega
      refine ⟨{ s1 with hs := s1.hs.map (Handle.set x.id none) }, ?_, ⟨by rw [map_set_id]; exact i1.nodup, fun q c hc => by rw [cnt]; exact i1.count q c hc,
        fun q hc => by rw [cnt]; exact i1.dead q hc,
        fun y hy o ho => by obtain ⟨z, hz, e⟩ := map_set_owner hy; exact i1.owner z hz o (e.trans ho), i1.fresh⟩,
        fun q => by rw [cnt]; have := hk1 q; omega, fun q _ hq => o1 q hq⟩
      simp [refStep, Ref.reset, lookup_mem hI.nodup hx, e1, setPtr, l1, hi]
    | some p =>
      have hraw : 0 < s1.raw p := by rw [r1]; exact hq p rfl
      have hpos : 0 < refs s1 p := by unfold refs; omega
      cases i with
      | true =>
        obtain ⟨s', e2, e3, i', b', g'⟩ := set_inv (k := k) i1 hk1 hb hx1 rfl hpos
        simp only at e2 e3
        exact ⟨s', by simp [refStep, Ref.reset, lookup_mem hI.nodup hx, e1, e2, e3], i', b', fun q _ hq => g' q (o1 q hq)⟩
      | false =>
        have cnt : ∀ q, refs { s1 with hs := s1.hs.map (Handle.set x.id (some p)), raw := Function.update s1.raw p (s1.raw p - 1) } q = refs s1 q := fun q => by
          have := cs q
          unfold refs
          simp only [Function.update_apply]
          by_cases e : q = p
          · subst e; simp at this ⊢; omega
          · simp [e, Ne.symm e] at this ⊢; omega
        refine ⟨{ s1 with hs := s1.hs.map (Handle.set x.id (some p)), raw := Function.update s1.raw p (s1.raw p - 1) }, ?_,
          ⟨by rw [map_set_id]; exact i1.nodup, fun q c hc => by rw [cnt]; exact i1.count q c hc,
          fun q hc => by rw [cnt]; exact i1.dead q hc,
          fun y hy o ho => by obtain ⟨z, hz, e⟩ := map_set_owner hy; exact i1.owner z hz o (e.trans ho), i1.fresh⟩,
          fun q => by rw [cnt]; have := hk1 q; omega, fun q _ hq => o1 q hq⟩
        simp [refStep, Ref.reset, lookup_mem hI.nodup hx, e1, setPtr, l1]
  | rawInc p =>
    have cnt : ∀ q, refs { s with raw := Function.update s.raw p (s.raw p + 1) } q = refs s q + if q = p then 1 else 0 := fun q => by
      unfold refs
      simp only [Function.update_apply]
      by_cases e : q = p
      · subst e; simp; omega
      · simp [e]
    obtain ⟨s', e', i', h1, h2, _, h4⟩ := inc_inv (s := { s with raw := Function.update s.raw p (s.raw p + 1) }) (p := p) hI.nodup
      ((hI.live_iff p).mpr hL)
      (fun q c hc => by
        have h1 := hI.count q c hc
        have h3 := hk q
        simp only [List.count_nil, Nat.add_zero] at h1
        rw [cnt]; split <;> omega)
      (fun q hc => by
        have h1 := hI.dead q hc
        have : q ≠ p := fun e => (hI.live_iff p).mpr hL (e ▸ hc)
        simp only [List.count_nil, Nat.add_zero] at h1
        rw [cnt, if_neg this]; exact h1) hI.owner hI.fresh
    refine ⟨s', e', i', fun q => ?_, fun q _ => h4 q⟩
    have h3 := hk q
    have h5 := cnt q
    unfold refs at h3 h5 ⊢
    rw [h1, h2]
    simp only at h5 ⊢
    split at h5 <;> omega
  | rawDec p =>
    have hL' : 0 < s.raw p := hL
    have cnt : ∀ q, refs { s with raw := Function.update s.raw p (s.raw p - 1) } q + [p].count q = refs s q := fun q => by
      unfold refs
      rw [List.count_singleton]
      simp only [Function.update_apply]
      by_cases e : q = p
      · subst e; simp; omega
      · simp [e, Ne.symm e]
    obtain ⟨s', e', i', r', n', m', o', k'⟩ := decs_inv (s.hs.length + 1) { s with raw := Function.update s.raw p (s.raw p - 1) } [p]
      ⟨hI.nodup, fun q c hc => by rw [cnt]; simpa using hI.count q c hc, fun q hc => by rw [cnt]; simpa using hI.dead q hc, hI.owner, hI.fresh⟩
      (by simp; omega)
    refine ⟨s', e', i', fun q => ?_, fun q _ => o' q⟩
    have h1 := m'.countP_le (p := fun h => h.ptr = some q)
    have h2 := cnt q
    have h3 := hk q
    unfold refs at h2 h3 ⊢
    rw [r']
    simp only at h1 h2 ⊢
    omega
  | use h =>
    obtain ⟨x, hx, rfl, hn⟩ := hL
    obtain ⟨p, hp⟩ := Option.ne_none_iff_exists'.mp hn
    obtain ⟨c, hc⟩ := Option.ne_none_iff_exists'.mp ((hI.live_iff p).mpr (refs_pos_of_mem hx hp))
    exact ⟨s, by simp [refStep, Ref.use, lookup_mem hI.nodup hx, hp, hc], hI, fun q => by have := hk q; omega, fun q _ h => h⟩

theorem ref_run : ∀ (ops : List RefOp) (s : St) (k : Nat), RefInv s [] → (∀ q, refs s q ≤ k) → k + ops.length < 4294967296 → RefLegalRun s ops →
    ∃ s', refRun s ops = some s' ∧ RefInv s' [] ∧ ∀ q, refs s' q ≤ k + ops.length
  | [], s, k, hI, hk, _, _ => ⟨s, rfl, hI, hk⟩
  | op :: ops, s, k, hI, hk, hb, hL => by
    simp only [List.length_cons] at hb ⊢
    obtain ⟨s1, h1⟩ := ref_step op hI hk (by omega) hL.1
    obtain ⟨s', e, i', b'⟩ := ref_run ops s1 (k + 1) h1.inv h1.bound (by omega) (hL.2 s1 h1.ok)
    exact ⟨s', by simp [refRun, h1.ok, e], i', fun q => by have := b' q; omega⟩

theorem ref_init : RefInv init [] :=
  ⟨by simp [init], by simp [init], by simp [init, refs], by simp [init], by simp [init]⟩

/-- C56: under every legal history of fewer than 2^32 operations no null pointer, destroyed object or destroyed handle is accessed, and at every
point (the prefixes of a legal history are legal) the objects alive are exactly those with a reference.  Missing for the full claim: assigning a null
handle, assigning from or to a handle that goes away with the old object, `reset` with increment to an object that only this handle refers to, and
more than 2^32 references, for all of which it is false (below). -/
theorem C56_history_partial (ops : List RefOp) (hl : ops.length < 4294967296) (hL : RefLegalRun init ops) :
    ∃ s, refRun init ops = some s ∧ ∀ p, s.obj p ≠ none ↔ 0 < refs s p := by
  obtain ⟨s, e, i, _⟩ := ref_run ops init 0 ref_init (by simp [init, refs]) (by omega) hL
  exact ⟨s, e, fun p => i.live_iff p⟩

/-- C56: an object that has been destroyed stays destroyed: with the theorem above, it is destroyed exactly once, when its last reference goes.
Missing: as above. -/
theorem C56_once_partial (ops : List RefOp) (op : RefOp) (hl : ops.length + 1 < 4294967296) (hL : RefLegalRun init ops) {s s' : St}
    (hr : refRun init ops = some s) (hop : RefLegal s op) (hs : refStep s op = some s') :
    ∀ p < s.next, s.obj p = none → s'.obj p = none ∧ refs s' p = 0 := by
  obtain ⟨s1, e, i, b⟩ := ref_run ops init 0 ref_init (by simp [init, refs]) (by omega) hL
  obtain rfl : s1 = s := Option.some.inj (e.symm.trans hr)
  obtain ⟨s2, h2⟩ := ref_step (k := 0 + ops.length) op i b (by omega) hop
  obtain rfl : s2 = s' := Option.some.inj (h2.ok.symm.trans hs)
  intro p hp hd
  have := h2.gone p hp hd
  exact ⟨this, by simpa using h2.inv.dead p this⟩

/-- a list of two nodes (object 1 is referred to by a member of object 0), built, copied, shortened and dropped -/
def refExample : List RefOp :=
  [.new, .mk 0 none (some 0) false, .new, .mk 1 (some 0) (some 1) false, .copy 2 none 1, .mk 3 none none true, .assign 3 2, .destroy 0, .use 3]

example : (refRun init refExample).map (fun s => (s.obj 0, s.obj 1, s.hs.map (·.id))) = some (none, some 2, [3, 2]) := by decide

theorem legalRun_intro {s : St} {op : RefOp} {ops : List RefOp} {s1 : St} (e : refStep s op = some s1) (h : RefLegal s op) (h' : RefLegalRun s1 ops) :
    RefLegalRun s (op :: ops) := ⟨h, fun s' e' => by rw [e] at e'; cases e'; exact h'⟩

example : RefLegalRun init refExample := by
  refine legalRun_intro rfl trivial (legalRun_intro rfl ?_ (legalRun_intro rfl trivial (legalRun_intro rfl ?_ (legalRun_intro rfl ?_
    (legalRun_intro rfl ?_ (legalRun_intro rfl ?_ (legalRun_intro rfl ?_ (legalRun_intro rfl ?_ trivial))))))))
  · exact ⟨by decide, trivial, fun q hq => by cases hq; decide⟩
  · exact ⟨by decide, by show 0 < refs _ 0; decide, fun q hq => by cases hq; decide⟩
  · exact ⟨by decide, trivial, ⟨1, some 0, some 1⟩, by decide, rfl⟩
  · exact ⟨by decide, trivial, fun q hq => by cases hq⟩
  · exact ⟨⟨3, none, none⟩, by decide, ⟨2, none, some 1⟩, by decide, rfl, rfl, Or.inr ⟨by decide, Or.inl rfl⟩⟩
  · exact ⟨⟨0, none, some 0⟩, by decide, rfl, rfl⟩
  · exact ⟨⟨3, none, some 1⟩, by decide, rfl, by decide⟩

/-- The claim is false for null handles: assigning a null handle to one that is not calls `increment_count` on a null pointer (refcounted.hpp
l.83). -/
theorem C56_null_false : ∃ ops : List RefOp, refRun init ops ≠ none ∧ refRun init (ops ++ [.assign 0 1]) = none ∧
    ops = [.new, .mk 0 none (some 0) false, .mk 1 none none true] := ⟨_, by decide, by decide, rfl⟩

/-- It is false for aliasing: assigning to the last handle on an object a handle that is a member of this object (`p = p->next`) destroys the source
before it is read (l.81-82). -/
theorem C56_member_false : ∃ ops : List RefOp, refRun init ops ≠ none ∧ refRun init (ops ++ [.assign 0 1]) = none ∧
    ops = [.new, .mk 0 none (some 0) false, .new, .mk 1 (some 0) (some 1) false] := ⟨_, by decide, by decide, rfl⟩

/-- It is false for `reset` with increment to the same object: the count drops to zero before it is incremented (l.90-93). -/
theorem C56_reset_false : ∃ ops : List RefOp, refRun init ops ≠ none ∧ refRun init (ops ++ [.reset 0 (some 0) true]) = none ∧
    ops = [.new, .mk 0 none (some 0) false] := ⟨_, by decide, by decide, rfl⟩

theorem many_refs (n : Nat) : ∃ s, refRun init (.new :: List.replicate n (.rawInc 0)) = some s ∧
    s.obj 0 = some (wrap32 (n + 1)) ∧ s.raw 0 = n + 1 ∧ s.hs = [] := by
  have key : ∀ (n c : Nat) (s : St), s.obj 0 = some (wrap32 c) → ∃ s', refRun s (List.replicate n (.rawInc 0)) = some s' ∧
      s'.obj 0 = some (wrap32 (n + c)) ∧ s'.raw 0 = s.raw 0 + n ∧ s'.hs = s.hs := by
    intro n
    induction n with
    | zero => intro c s h; exact ⟨s, rfl, by simpa using h, rfl, rfl⟩
    | succ n ih =>
      intro c s h
      have hw : wrap32 (wrap32 c + 1) = wrap32 (c + 1) := by unfold wrap32; omega
      obtain ⟨s', e, h1, h2, h3⟩ := ih (c + 1)
        { s with obj := Function.update s.obj 0 (some (wrap32 (c + 1))), raw := Function.update s.raw 0 (s.raw 0 + 1) } (by simp)
      refine ⟨s', ?_, by rw [h1]; congr 2; omega, by rw [h2]; simp; omega, h3⟩
      rw [List.replicate_succ]
      simp only [refRun, refStep, Ref.rawInc, inc, h, Option.map_some, Option.bind_some, hw]
      exact e
  obtain ⟨s, e, h1, h2, h3⟩ := key n 1 (Ref.new init) (by simp [Ref.new, init, wrap32])
  refine ⟨s, e, h1, ?_, h3⟩
  rw [h2]; simp [Ref.new, init]; omega

/-- It is false when there are more references than an `unsigned int` can count (l.59-61): with 2^32 + 1 references the count is 1, so dropping one of
them destroys the object. -/
theorem C56_overflow_false : ∃ (ops : List RefOp) (s : St), refRun init ops = some s ∧ 4294967296 ≤ refs s 0 ∧ s.obj 0 = none := by
  obtain ⟨s, e, h1, h2, h3⟩ := many_refs 4294967296
  have hone : wrap32 (4294967296 + 1) = 1 := by unfold wrap32; omega
  rw [hone] at h1
  refine ⟨(.new :: List.replicate 4294967296 (.rawInc 0)) ++ [.rawDec 0],
    { s with obj := Function.update s.obj 0 none, raw := Function.update s.raw 0 4294967296 }, ?_, ?_, by simp⟩
  · have app : ∀ (l : List RefOp) (s0 s1 : St), refRun s0 l = some s1 → refRun s0 (l ++ [.rawDec 0]) = Ref.rawDec s1 0 := by
      intro l
      induction l with
      | nil => intro s0 s1 h; cases h; simp [refRun, refStep]
      | cons op l ih =>
        intro s0 s1 h
        simp only [refRun, List.cons_append] at h ⊢
        cases hs : refStep s0 op with
        | none => rw [hs] at h; cases h
        | some s2 => rw [hs] at h; exact ih s2 s1 h
    rw [app _ _ _ e]
    simp only [Ref.rawDec, dec, h3, h2]
    simp [decs, h1]
  · unfold refs
    simp only [Function.update_self]
    omega

end Verif.Props
