import Verif.MpiSend.Model
import Mathlib.Tactic.IntervalCases
/-!
# C104: data types of the MPI copy benchmark
-/
namespace Verif.Props
open Verif.MpiSend

theorem mps_narrow {n : ℕ} (h : n < 2147483648) : narrow n = n := by unfold narrow; omega

/-- what holds between calls -/
def MpsInv (mode c : ℕ) (s : St) : Prop :=
  if mode = 0 then s.live = [] ∧ s.dt = some .float ∧ s.len = c
  else if mode = 1 then s.live = [(0, c)] ∧ s.h0 = some (.made 0) ∧ s.dt = some (.made 0) ∧ s.len = 1
  else if mode = 2 then s.live = [(1, c), (0, c)] ∧ s.h0 = some (.made 0) ∧ s.h1 = some (.made 1) ∧ s.dt = some (.made 1) ∧ s.len = 1
  else if mode = 3 then s.live = [(0, c)] ∧ s.h0 = some (.made 0) ∧ 0 < s.next
  else s.live = []

theorem mps_ctor {mode n c : ℕ} (hm : mode ≤ 5) (hn : narrow n = c) : ∃ s, ctor mode n St.init = some s ∧ MpsInv mode c s := by
  have h0 : ¬ narrow n < 0 := by omega
  have h1 : (narrow n).toNat = c := by omega
  interval_cases mode <;> simp [ctor, St.vector, St.struct, St.floats, St.init, h0, h1, MpsInv, List.lookup]

theorem mps_call {mode n c : ℕ} (hm : mode ≤ 5) (hn : narrow n = c) {s : St} (hs : MpsInv mode c s) :
    ∃ s', call mode n s = some (c, s') ∧ MpsInv mode c s' := by
  have h0 : ¬ narrow n < 0 := by omega
  have h1 : (narrow n).toNat = c := by omega
  obtain ⟨live, next, g0, g1, dt, len⟩ := s
  interval_cases mode
  · obtain ⟨rfl, rfl, rfl⟩ : live = [] ∧ dt = some .float ∧ len = c := by simpa [MpsInv] using hs
    simp [call, St.transfer, St.floats, MpsInv]
  · obtain ⟨rfl, rfl, rfl, rfl⟩ : live = [(0, c)] ∧ g0 = some (.made 0) ∧ dt = some (.made 0) ∧ len = 1 := by simpa [MpsInv] using hs
    simp [call, St.transfer, St.floats, MpsInv, List.lookup]
  · obtain ⟨rfl, rfl, rfl, rfl, rfl⟩ : live = [(1, c), (0, c)] ∧ g0 = some (.made 0) ∧ g1 = some (.made 1) ∧ dt = some (.made 1) ∧ len = 1 := by
      simpa [MpsInv] using hs
    simp [call, St.transfer, St.floats, MpsInv, List.lookup]
  · obtain ⟨rfl, rfl, hp⟩ : live = [(0, c)] ∧ g0 = some (.made 0) ∧ 0 < next := by simpa [MpsInv] using hs
    have hne : ¬ (0 = next) := by omega
    simp [call, St.transfer, St.floats, St.struct, St.free, MpsInv, List.lookup, hne]
  · obtain rfl : live = [] := by simpa [MpsInv] using hs
    simp [call, St.transfer, St.floats, St.vector, St.free, MpsInv, List.lookup, h0, h1]
  · obtain rfl : live = [] := by simpa [MpsInv] using hs
    have hne : ¬ (next = next + 1) := by omega
    have hb : (next == next + 1) = false := by simp
    simp [call, St.transfer, St.floats, St.vector, St.struct, St.free, MpsInv, List.lookup, h0, h1, hb]

theorem mps_calls {mode n c : ℕ} (hm : mode ≤ 5) (hn : narrow n = c) (k : ℕ) {s : St} (hs : MpsInv mode c s) :
    ∃ s', calls mode n k s = some (List.replicate k c, s') ∧ MpsInv mode c s' := by
  induction k generalizing s with
  | zero => exact ⟨s, rfl, hs⟩
  | succ k ih =>
    obtain ⟨s1, e1, i1⟩ := mps_call hm hn hs
    obtain ⟨s2, e2, i2⟩ := ih i1
    refine ⟨s2, ?_, i2⟩
    simp [calls, e1, e2, List.replicate_succ]

theorem mps_dtor {mode c : ℕ} (hm : mode ≤ 5) {s : St} (hs : MpsInv mode c s) : ∃ s', dtor mode s = some s' ∧ s'.live = [] := by
  obtain ⟨live, next, g0, g1, dt, len⟩ := s
  interval_cases mode
  · obtain ⟨rfl, rfl, rfl⟩ : live = [] ∧ dt = some .float ∧ len = c := by simpa [MpsInv] using hs
    simp [dtor]
  · obtain ⟨rfl, rfl, rfl, rfl⟩ : live = [(0, c)] ∧ g0 = some (.made 0) ∧ dt = some (.made 0) ∧ len = 1 := by simpa [MpsInv] using hs
    simp [dtor, St.free, List.lookup]
  · obtain ⟨rfl, rfl, rfl, rfl, rfl⟩ : live = [(1, c), (0, c)] ∧ g0 = some (.made 0) ∧ g1 = some (.made 1) ∧ dt = some (.made 1) ∧ len = 1 := by
      simpa [MpsInv] using hs
    simp [dtor, St.free, List.lookup]
  · obtain ⟨rfl, rfl, hp⟩ : live = [(0, c)] ∧ g0 = some (.made 0) ∧ 0 < next := by simpa [MpsInv] using hs
    simp [dtor, St.free, List.lookup]
  · obtain rfl : live = [] := by simpa [MpsInv] using hs
    simp [dtor]
  · obtain rfl : live = [] := by simpa [MpsInv] using hs
    simp [dtor]

theorem mps_isend {mode n c : ℕ} (hm : mode ≤ 5) (hn : narrow n = c) (k : ℕ) : isend mode n k = some (List.replicate k c, []) := by
  obtain ⟨s1, e1, i1⟩ := mps_ctor hm hn
  obtain ⟨s2, e2, i2⟩ := mps_calls hm hn k i1
  obtain ⟨s3, e3, i3⟩ := mps_dtor hm i2
  simp [isend, e1, e2, e3, i3]

theorem mps_persistent {mode n c : ℕ} (hm : mode ≤ 2) (hn : narrow n = c) (k : ℕ) : persistent mode n k = some (List.replicate k c, []) := by
  have h0 : ¬ narrow n < 0 := by omega
  have h1 : (narrow n).toNat = c := by omega
  interval_cases mode <;> simp [persistent, ctor, dtor, St.transfer, St.vector, St.struct, St.free, St.floats, St.init, h0, h1, List.lookup]

/-- **C104, partial (transfers).** In each mode and for any number of calls, each call transfers as many floats as the vectors have, no type is used before it is made or after
it is freed, and every type is freed once.  Missing: vectors of 2^31 elements and more, see `C104_size_false`. -/
theorem C104_transfers_partial (mode n k : ℕ) (hn : n < 2147483648) :
    (mode ≤ 5 → isend mode n k = some (List.replicate k n, [])) ∧ (mode ≤ 2 → persistent mode n k = some (List.replicate k n, [])) :=
  ⟨fun hm => mps_isend hm (mps_narrow hn) k, fun hm => mps_persistent hm (mps_narrow hn) k⟩

example : isend 5 7 2 = some ([7, 7], []) ∧ isend 3 7 2 = some ([7, 7], []) ∧ persistent 2 7 3 = some ([7, 7, 7], []) := by decide +kernel

/-- **C104 (other modes).** A mode that is not in the table transfers with a type that was never set: with the first class at the first call, with the second
in the constructor. -/
theorem C104_modes (mode n k : ℕ) : (5 < mode → isend mode n (k + 1) = none) ∧ (2 < mode → persistent mode n k = none) := by
  refine ⟨fun h => ?_, fun h => ?_⟩
  · have e : ∀ i ≤ 5, mode ≠ i := by intro i hi; omega
    simp [isend, ctor, calls, call, St.transfer, St.init, e 0 (by omega), e 1 (by omega), e 2 (by omega), e 3 (by omega), e 4 (by omega), e 5 (by omega)]
  · have : ¬ mode ≤ 2 := by omega
    simp [persistent, ctor, St.transfer, St.init, this]

example : isend 6 4 1 = none ∧ persistent 3 4 1 = none := by decide +kernel

/-- **C104 is false (large vectors).** Sizes are converted to `int`: of vectors of 2^32 elements and some more only these are transferred, in every mode. -/
theorem C104_size_false (mode r k : ℕ) (hr : r < 2147483648) (hm : mode ≤ 5) :
    isend mode (4294967296 + r) k = some (List.replicate k r, []) ∧ (mode ≤ 2 → persistent mode (4294967296 + r) k = some (List.replicate k r, [])) := by
  have e : narrow (4294967296 + r) = r := by unfold narrow; omega
  exact ⟨mps_isend hm e k, fun h => mps_persistent h e k⟩

#print axioms C104_transfers_partial
#print axioms C104_modes
#print axioms C104_size_false

end Verif.Props
