import Verif.Coherence.Model
import Mathlib.Data.Nat.Notation
/-!
C55: coherence of the host and device copies.
-/
namespace Verif.Props
open Verif.Coh
variable {V : Type}

/-! ### Specification -/

/-- accesses on either side -/
inductive CohOp (V : Type) where
  | get (i : Nat)
  | put (i : Nat) (v : V)
  | ptrWrite (i : Nat) (v : V)
  | refWrite (i : Nat) (v : V)
  | devRead (i : Nat)
  | devWrite (i : Nat) (v : V)
  | admit (u : Bool)
  | release (u : Bool)
  | userRead (i : Nat)
  | userWrite (i : Nat) (v : V)

/-- the index an access needs to be in the block -/
def CohOp.index : CohOp V → Option Nat
  | .get i | .put i _ | .ptrWrite i _ | .refWrite i _ | .devRead i | .devWrite i _ | .userRead i | .userWrite i _ => some i
  | .admit _ | .release _ => none

/-- the element written -/
def CohOp.written : CohOp V → Option (Nat × V)
  | .put i v | .ptrWrite i v | .refWrite i v | .devWrite i v | .userWrite i v => some (i, v)
  | _ => none

/-- one access: the value read, if it is a read, and the state afterwards -/
def cohStep (s : Mgr V) : CohOp V → Option (Option V × Mgr V)
  | .get i => (Coh.get s i).map fun r => (some r.1, r.2)
  | .put i v => (Coh.put s i v).map (none, ·)
  | .ptrWrite i v => (ptrWrite s i v).map (none, ·)
  | .refWrite i v => (refWrite s i v).map (none, ·)
  | .devRead i => (devRead s i).map fun r => (some r.1, r.2)
  | .devWrite i v => (devWrite s i v).map (none, ·)
  | .admit u => some (none, Coh.admit s u)
  | .release u => some (none, Coh.release s u)
  | .userRead i => (userRead s i).map fun r => (some r, s)
  | .userWrite i v => (userWrite s i v).map (none, ·)

/-- the values read by a history -/
def cohRun : Mgr V → List (CohOp V) → Option (List (Option V))
  | _, [] => some []
  | s, op :: ops => (cohStep s op).bind fun r => (cohRun r.2 ops).map (r.1 :: ·)

/-- the last value written to element `i` -/
def lastWrite (i : Nat) : List (CohOp V) → Option V
  | [] => none
  | op :: ops => (lastWrite i ops).or (op.written.bind fun w => if w.1 = i then some w.2 else none)

/-- every read sees the most recent write to that element by the history -/
def Coherent (s : Mgr V) (ops : List (CohOp V)) : Prop :=
  ∃ rs, cohRun s ops = some rs ∧ ∀ k i v, (ops[k]? = some (.get i) ∨ ops[k]? = some (.devRead i) ∨ ops[k]? = some (.userRead i)) →
    lastWrite i (ops.take k) = some v → rs[k]? = some (some v)

/-- histories without user storage in which references are written only when a write by `put` or a pointer has followed the last device access -/
def GuardedRefs : Bool → List (CohOp V) → Prop
  | _, [] => True
  | b, op :: ops => match op with
    | .put _ _ | .ptrWrite _ _ => GuardedRefs true ops
    | .devRead _ | .devWrite _ _ => GuardedRefs false ops
    | .refWrite _ _ => b = true ∧ GuardedRefs b ops
    | .get _ => GuardedRefs b ops
    | .admit _ | .release _ | .userRead _ | .userWrite _ _ => False

/-! ### Proof -/

structure CohInv (s : Mgr V) (A : Nat → Option V) (b : Bool) : Prop where
  one : s.hv = true ∨ s.dv = true
  h : s.hv = true → ∀ i < s.n, ∀ v, A i = some v → s.host i = v
  d : s.dv = true → ∀ i < s.n, ∀ v, A i = some v → s.dev i = v
  ha : s.dv = false → s.hostAlloc = true
  da : s.hv = false → s.devAlloc = true
  g : b = true → s.dv = false

theorem syncHost_inv {s : Mgr V} {A : Nat → Option V} {b : Bool} (hI : CohInv s A b) :
    ∃ s', syncHost s = some s' ∧ CohInv s' A b ∧ s'.n = s.n ∧ s'.hv = true ∧ s'.dv = s.dv ∧ s'.hostAlloc = true := by
  unfold syncHost
  cases hh : s.hv with
  | true =>
    simp only [Bool.not_true, Bool.false_eq_true, if_false]
    exact ⟨_, rfl, ⟨Or.inl rfl, fun _ => hI.h hh, hI.d, fun _ => rfl, by simp, hI.g⟩, rfl, rfl, rfl, rfl⟩
  | false =>
    have hd : s.dv = true := hI.one.resolve_left (by simp [hh])
    simp only [Bool.not_false, if_true, hI.da hh]
    refine ⟨_, rfl, ⟨Or.inl rfl, fun _ i hi v hv => ?_, hI.d, fun _ => rfl, fun h => by simp at h, hI.g⟩, rfl, rfl, rfl, rfl⟩
    simp only [copyAll]
    rw [if_pos hi]
    exact hI.d hd i hi v hv

theorem syncDev_inv {s : Mgr V} {A : Nat → Option V} {b : Bool} (hI : CohInv s A b) :
    ∃ s', syncDev s = some s' ∧ CohInv s' A false ∧ s'.n = s.n ∧ s'.dv = true ∧ s'.devAlloc = true := by
  unfold syncDev
  cases hd : s.dv with
  | true =>
    simp only [Bool.not_true, Bool.false_eq_true, if_false]
    exact ⟨_, rfl, ⟨Or.inr rfl, hI.h, fun _ => hI.d hd, by simp, fun _ => rfl, by simp⟩, rfl, rfl, rfl⟩
  | false =>
    have hh : s.hv = true := hI.one.resolve_right (by simp [hd])
    simp only [Bool.not_false, if_true, hI.ha hd]
    refine ⟨_, rfl, ⟨Or.inr rfl, hI.h, fun _ i hi v hv => ?_, fun h => by simp at h, fun _ => rfl, by simp⟩, rfl, rfl, rfl⟩
    simp only [copyAll]
    rw [if_pos hi]
    exact hI.h hh i hi v hv

/-- writing to the element on a side that is then the only valid one -/
theorem update_agrees {A : Nat → Option V} {a : Nat → V} {n i : Nat} {v : V} (h : ∀ j < n, ∀ u, A j = some u → a j = u) :
    ∀ j < n, ∀ u, Function.update A i (some v) j = some u → Function.update a i v j = u := by
  intro j hj u hu
  by_cases e : j = i
  · subst e; simp at hu ⊢; exact hu
  · rw [Function.update_of_ne e] at hu ⊢; exact h j hj u hu

/-- the record of the last writes after an access -/
def noteWrite (A : Nat → Option V) (op : CohOp V) : Nat → Option V :=
  match op.written with
  | some (i, v) => Function.update A i (some v)
  | none => A

def nextGuard (b : Bool) : CohOp V → Bool
  | .put _ _ | .ptrWrite _ _ => true
  | .devRead _ | .devWrite _ _ => false
  | _ => b

theorem coh_step {s : Mgr V} {A : Nat → Option V} {b : Bool} (hI : CohInv s A b) (op : CohOp V) (ops : List (CohOp V))
    (hi : ∀ i, op.index = some i → i < s.n) (hg : GuardedRefs b (op :: ops)) :
    ∃ r s', cohStep s op = some (r, s') ∧ CohInv s' (noteWrite A op) (nextGuard b op) ∧ s'.n = s.n ∧ GuardedRefs (nextGuard b op) ops ∧
      ∀ i v, (op = .get i ∨ op = .devRead i) → A i = some v → r = some v := by
  cases op with
  | get i =>
    obtain ⟨s', e, h', hn, hh, _⟩ := syncHost_inv hI
    have hl : i < s'.n := by rw [hn]; exact hi i rfl
    refine ⟨some (s'.host i), s', by simp [cohStep, Coh.get, e, elem, hl], h', hn, hg, ?_⟩
    rintro j v (e | e) hv
    · injection e with e; subst e; rw [h'.h hh i hl v hv]
    · cases e
  | put i v =>
    obtain ⟨s', e, h', hn, hh, _, ha⟩ := syncHost_inv hI
    have hl : i < s'.n := by rw [hn]; exact hi i rfl
    refine ⟨none, { s' with host := Function.update s'.host i v, dv := false },
      by simp [cohStep, Coh.put, e, setElem, hl, invalidate], ⟨Or.inl hh, fun _ => update_agrees (h'.h hh), by simp, fun _ => ha, by simp [hh],
        by simp⟩, hn, hg, by rintro j u (e | e) <;> cases e⟩
  | ptrWrite i v =>
    obtain ⟨s', e, h', hn, hh, _, ha⟩ := syncHost_inv hI
    have hl : i < s'.n := by rw [hn]; exact hi i rfl
    refine ⟨none, { s' with host := Function.update s'.host i v, dv := false },
      by simp [cohStep, Coh.ptrWrite, e, setElem, hl, invalidate], ⟨Or.inl hh, fun _ => update_agrees (h'.h hh), by simp, fun _ => ha, by simp [hh],
        by simp⟩, hn, hg, by rintro j u (e | e) <;> cases e⟩
  | refWrite i v =>
    obtain ⟨s', e, h', hn, hh, hd, ha⟩ := syncHost_inv hI
    have hl : i < s'.n := by rw [hn]; exact hi i rfl
    have hdv : s'.dv = false := by rw [hd]; exact hI.g hg.1
    refine ⟨none, { s' with host := Function.update s'.host i v },
      by simp [cohStep, Coh.refWrite, e, setElem, hl], ⟨Or.inl hh, fun _ => update_agrees (h'.h hh), by simp [hdv], fun _ => ha, by simp [hh],
        fun _ => hdv⟩, hn, hg.2, by rintro j u (e | e) <;> cases e⟩
  | devRead i =>
    obtain ⟨s', e, h', hn, hd, ha⟩ := syncDev_inv hI
    have hl : i < s'.n := by rw [hn]; exact hi i rfl
    refine ⟨some (s'.dev i), { s' with hv := false }, by simp [cohStep, Coh.devRead, e, elem, hl, invalidate],
      ⟨Or.inr hd, by simp, h'.d, by simp [hd], fun _ => ha, by simp [nextGuard]⟩, hn, hg, ?_⟩
    rintro j v (e | e) hv
    · cases e
    · injection e with e; subst e; rw [h'.d hd i hl v hv]
  | devWrite i v =>
    obtain ⟨s', e, h', hn, hd, ha⟩ := syncDev_inv hI
    have hl : i < s'.n := by rw [hn]; exact hi i rfl
    refine ⟨none, { s' with hv := false, dev := Function.update s'.dev i v }, by simp [cohStep, Coh.devWrite, e, setElem, hl, invalidate],
      ⟨Or.inr hd, by simp, fun _ => update_agrees (h'.d hd), by simp [hd], fun _ => ha, by simp [nextGuard]⟩, hn, hg, ?_⟩
    rintro j u (e | e) <;> cases e
  | admit u => exact absurd hg (by simp [GuardedRefs])
  | release u => exact absurd hg (by simp [GuardedRefs])
  | userRead i => exact absurd hg (by simp [GuardedRefs])
  | userWrite i v => exact absurd hg (by simp [GuardedRefs])

theorem coh_run : ∀ (ops : List (CohOp V)) (s : Mgr V) (A : Nat → Option V) (b : Bool), CohInv s A b →
    (∀ op ∈ ops, ∀ i, op.index = some i → i < s.n) → GuardedRefs b ops →
    ∃ rs, cohRun s ops = some rs ∧ ∀ k i v, (ops[k]? = some (.get i) ∨ ops[k]? = some (.devRead i)) →
      (lastWrite i (ops.take k)).or (A i) = some v → rs[k]? = some (some v)
  | [], s, A, b, _, _, _ => ⟨[], rfl, by simp⟩
  | op :: ops, s, A, b, hI, hi, hg => by
    obtain ⟨r, s', e, h', hn, hg', hr⟩ := coh_step hI op ops (hi op (by simp)) hg
    obtain ⟨rs, e', h''⟩ := coh_run ops s' _ _ h' (fun o ho i hh => by rw [hn]; exact hi o (by simp [ho]) i hh) hg'
    refine ⟨r :: rs, by simp [cohRun, e, e'], ?_⟩
    intro k i v hk hv
    cases k with
    | zero =>
      simp only [List.getElem?_cons_zero, Option.some.injEq] at hk ⊢
      exact hr i v hk (by simpa [lastWrite] using hv)
    | succ k =>
      simp only [List.getElem?_cons_succ] at hk ⊢
      refine h'' k i v hk ?_
      rw [← hv, List.take_succ_cons, lastWrite]
      unfold noteWrite
      cases hw : op.written with
      | none => simp
      | some w =>
        obtain ⟨j, u⟩ := w
        by_cases ej : j = i
        · subst ej; simp
        · simp [Function.update_of_ne (Ne.symm ej), ej]

/-- C55 for blocks without user storage: a read on host or device sees the most recent write on either side and no copy touches unallocated memory,
provided references from `at()` are written only when a host write by `put` or pointer has followed the last device access.  Missing for the full
claim: unguarded writes through references and blocks with user storage, for which it is false (below). -/
theorem C55_history_partial (n : Nat) (alloc : Bool) (host dev user : Nat → V) (ops : List (CohOp V))
    (hi : ∀ op ∈ ops, ∀ i, op.index = some i → i < n) (hg : GuardedRefs false ops) :
    Coherent (construct n alloc host dev user) ops := by
  obtain ⟨rs, e, h⟩ := coh_run ops (construct n alloc host dev user) (fun _ => none) false
    ⟨Or.inl rfl, by simp, by simp, by simp [construct], by simp [construct], by simp⟩ hi hg
  refine ⟨rs, e, fun k i v hk hv => h k i v ?_ (by simp [hv])⟩
  rcases hk with hk | hk | hk
  · exact Or.inl hk
  · exact Or.inr hk
  · exfalso
    have : ∀ (ops : List (CohOp V)) (b : Bool) (k : Nat), GuardedRefs b ops → ops[k]? ≠ some (.userRead i) := by
      intro ops
      induction ops with
      | nil => intro b k _; simp
      | cons op ops ih =>
        intro b k hg
        cases k with
        | zero => cases op <;> simp [GuardedRefs] at hg ⊢
        | succ k => cases op <;> simp only [GuardedRefs, List.getElem?_cons_succ] at hg ⊢ <;> first | exact ih _ k hg | exact ih _ k hg.2
    exact this ops false k hg hk

example : GuardedRefs false ([.put 0 1, .devWrite 1 2, .get 1, .ptrWrite 0 3, .refWrite 1 4, .devRead 1, .get 0] : List (CohOp Nat)) ∧
    cohRun (construct 2 false (fun _ => 90) (fun _ => 91) (fun _ => 92))
      ([.put 0 1, .devWrite 1 2, .get 1, .ptrWrite 0 3, .refWrite 1 4, .devRead 1, .get 0] : List (CohOp Nat)) =
      some [none, none, some 2, none, none, some 4, some 3] := by
  refine ⟨by simp [GuardedRefs], by decide⟩

/-- The claim is false for writes through a reference (manager.hpp l.308-312 does not invalidate the device): here the device has read the block,
the host reads it, an element is written by reference, and the device still sees the old value. -/
theorem C55_reference_false : ∃ (s : Mgr Nat) (ops : List (CohOp Nat)), s = construct 1 true (fun _ => 0) (fun _ => 0) (fun _ => 0) ∧
    (∀ op ∈ ops, ∀ i, op.index = some i → i < s.n) ∧ ¬ Coherent s ops := by
  refine ⟨_, [.put 0 1, .devRead 0, .get 0, .refWrite 0 2, .devRead 0], rfl, by decide, ?_⟩
  rintro ⟨rs, e, h⟩
  have e' : cohRun (construct 1 true (fun _ => 0) (fun _ => 0) (fun _ => 0)) ([.put 0 1, .devRead 0, .get 0, .refWrite 0 2, .devRead 0] : List (CohOp Nat)) =
    some [none, some 1, some 1, none, some 1] := by decide
  rw [e'] at e
  cases e
  have := h 4 0 2 (Or.inr (Or.inl rfl)) (by decide)
  revert this; decide

/-- It is false for a block with user storage: the device storage counts as valid from the start (manager.hpp l.70-76), so after `admit` the
device does not see the user's data ... -/
theorem C55_admit_false : ∀ compatible : Bool, ∃ (ops : List (CohOp Nat)),
    ¬ Coherent (constructUser 1 compatible (fun _ => 0) (fun _ => 0) (fun _ => 0)) ops ∧ ops = [.userWrite 0 5, .admit true, .devRead 0] := by
  intro c
  refine ⟨_, ?_, rfl⟩
  rintro ⟨rs, e, h⟩
  have e' : cohRun (constructUser 1 c (fun _ => 0) (fun _ => 0) (fun _ => 0)) ([.userWrite 0 5, .admit true, .devRead 0] : List (CohOp Nat)) =
    some [none, none, some 0] := by cases c <;> decide
  rw [e'] at e
  cases e
  have := h 2 0 5 (Or.inr (Or.inl rfl)) (by decide)
  revert this; decide

/-- ... and `release` does not bring data written on the device to the user (manager.hpp l.215-222 does not call `sync`). -/
theorem C55_release_false : ∀ compatible : Bool, ∃ (ops : List (CohOp Nat)),
    ¬ Coherent (constructUser 1 compatible (fun _ => 0) (fun _ => 0) (fun _ => 0)) ops ∧
      ops = [.admit true, .devWrite 0 5, .release true, .userRead 0] := by
  intro c
  refine ⟨_, ?_, rfl⟩
  rintro ⟨rs, e, h⟩
  have e' : cohRun (constructUser 1 c (fun _ => 0) (fun _ => 0) (fun _ => 0))
    ([.admit true, .devWrite 0 5, .release true, .userRead 0] : List (CohOp Nat)) = some [none, none, none, some 0] := by cases c <;> decide
  rw [e'] at e
  cases e
  have := h 3 0 5 (Or.inr (Or.inr rfl)) (by decide)
  revert this; decide

end Verif.Props
