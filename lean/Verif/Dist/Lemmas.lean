import Verif.Dist.Model
import Mathlib.Tactic.Linarith
import Mathlib.Tactic.Ring
import Mathlib.Data.Nat.ModEq
namespace Verif.Dist
open Verif

/-! ### block -/

theorem seg_next (n p pos : Nat) : segmentStart n p (pos + 1) = segmentStart n p pos + segmentSize n p pos := by
  unfold segmentStart segmentSize
  rw [Nat.add_mul]
  split <;> omega

theorem seg_start_zero (n p : Nat) : segmentStart n p 0 = 0 := by simp [segmentStart]

theorem seg_start_end (n p : Nat) (hp : 0 < p) : segmentStart n p p = n := by
  unfold segmentStart
  have h1 := Nat.div_add_mod n p
  have h2 := Nat.mod_lt n hp
  rw [Nat.min_eq_right (by omega)]
  omega

theorem seg_start_mono (n p : Nat) {a b : Nat} (h : a ≤ b) : segmentStart n p a ≤ segmentStart n p b := by
  unfold segmentStart
  have := Nat.mul_le_mul_right (n / p) h
  omega

/-- the block arithmetic: where a global index lives -/
theorem block_home (n p i : Nat) (hp : 0 < p) (hi : i < n) :
    (block p).subblockFromIndex? n i = some ((block p).subblockFromIndex n i) ∧
    (block p).localFromGlobal? n i = some ((block p).localFromGlobal n i) ∧
    (block p).subblockFromIndex n i < p ∧
    (block p).localFromGlobal n i < segmentSize n p ((block p).subblockFromIndex n i) ∧
    i = segmentStart n p ((block p).subblockFromIndex n i) + (block p).localFromGlobal n i := by
  simp only [subblockFromIndex?, subblockFromIndex, localFromGlobal?, localFromGlobal, div?, mod?,
    segmentSize, segmentStart]
  have e := Nat.div_add_mod n p
  have hr := Nat.mod_lt n hp
  by_cases h : i < (n / p + 1) * (n % p)
  · simp only [if_pos h]
    generalize n / p = q at *
    generalize n % p = r at *
    have h1 : i / (q + 1) < r := Nat.div_lt_of_lt_mul h
    have h2 := Nat.div_add_mod i (q + 1)
    have h3 := Nat.mod_lt i (show 0 < q + 1 by omega)
    generalize i / (q + 1) = a at *
    generalize i % (q + 1) = b at *
    rw [if_neg (by omega), if_neg (by omega), if_pos h1]
    refine ⟨rfl, rfl, by omega, by omega, ?_⟩
    rw [Nat.min_eq_left (by omega)]
    rw [Nat.add_mul] at h2
    rw [Nat.mul_comm a q]
    omega
  · simp only [if_neg h]
    generalize n / p = q at *
    generalize n % p = r at *
    have hq : q ≠ 0 := by
      rintro rfl
      simp at h e
      omega
    rw [if_neg hq, if_neg hq]
    rw [Nat.add_mul] at h
    have h1 : (i - r) / q < p := by
      apply Nat.div_lt_of_lt_mul
      rw [Nat.mul_comm]
      omega
    have h2 := Nat.div_add_mod (i - r) q
    have h3 := Nat.mod_lt (i - r) (show 0 < q by omega)
    have h4 : r ≤ (i - r) / q := by
      rw [Nat.le_div_iff_mul_le (by omega), Nat.mul_comm]
      omega
    generalize (i - r) / q = a at *
    generalize (i - r) % q = b at *
    rw [if_neg (by omega)]
    refine ⟨rfl, rfl, h1, by omega, ?_⟩
    rw [Nat.min_eq_right h4, Nat.mul_comm a q]
    omega

/-- segments do not overlap -/
theorem seg_unique (n p : Nat) {a b i : Nat}
    (ha : segmentStart n p a ≤ i ∧ i < segmentStart n p a + segmentSize n p a)
    (hb : segmentStart n p b ≤ i ∧ i < segmentStart n p b + segmentSize n p b) : a = b := by
  rw [← seg_next] at ha hb
  rcases Nat.lt_trichotomy a b with h | h | h
  · have := seg_start_mono n p (show a + 1 ≤ b by omega)
    omega
  · exact h
  · have := seg_start_mono n p (show b + 1 ≤ a by omega)
    omega

/-! ### cyclic -/

theorem numChunks_spec (n c : Nat) (hc : 0 < c) :
    (n ≤ numChunks n c * c) ∧ (∀ g, g < numChunks n c ↔ g * c < n) := by
  unfold numChunks
  have e := Nat.div_add_mod n c
  have hr := Nat.mod_lt n hc
  have key : n ≤ (n / c + (if n % c ≠ 0 then 1 else 0)) * c := by
    split
    · rw [Nat.add_mul, Nat.mul_comm]; omega
    · rw [Nat.add_zero, Nat.mul_comm]; omega
  refine ⟨key, ?_⟩
  intro g
  constructor
  · intro h
    split at h
    · have : g * c ≤ (n / c) * c := Nat.mul_le_mul_right _ (by omega)
      rw [Nat.mul_comm (n / c)] at this
      omega
    · have : (g + 1) * c ≤ (n / c) * c := Nat.mul_le_mul_right _ (by omega)
      rw [Nat.mul_comm (n / c), Nat.add_mul] at this
      omega
  · intro h
    by_contra hcon
    have : (n / c + (if n % c ≠ 0 then 1 else 0)) * c ≤ g * c := Nat.mul_le_mul_right _ (by omega)
    omega

/-- `x` chunks dealt to `num` subblocks: subblock `pos` receives the chunks `pos + k*num`. -/
theorem dealt (nc num pos k : Nat) (hpos : pos < num) :
    k < nc / num + (if pos < nc % num then 1 else 0) ↔ pos + k * num < nc := by
  have e := Nat.div_add_mod nc num
  have hr := Nat.mod_lt nc (show 0 < num by omega)
  generalize nc / num = q at *
  generalize nc % num = r at *
  rw [Nat.mul_comm] at e
  constructor
  · intro h
    by_cases hk : k < q
    · have : (k + 1) * num ≤ q * num := Nat.mul_le_mul_right _ (by omega)
      rw [Nat.add_mul] at this
      omega
    · split at h
      · have : k = q := by omega
        subst this; omega
      · omega
  · intro h
    by_contra hc
    split at hc
    · have : (q + 1) * num ≤ k * num := Nat.mul_le_mul_right _ (by omega)
      rw [Nat.add_mul] at this
      omega
    · have : q * num ≤ k * num := Nat.mul_le_mul_right _ (by omega)
      omega

/-- the condition "this is the subblock of the last, partial chunk" -/
theorem last_owner (nc num pos : Nat) (hpos : pos < num) (hnc : 0 < nc) :
    (pos + 1) % num = nc % num ↔ pos = (nc - 1) % num := by
  obtain ⟨m, rfl⟩ : ∃ m, nc = m + 1 := ⟨nc - 1, by omega⟩
  simp only [Nat.add_sub_cancel]
  constructor
  · intro h
    have h2 : pos ≡ m [MOD num] := Nat.ModEq.add_right_cancel' 1 h
    have h3 : pos % num = m % num := h2
    rw [Nat.mod_eq_of_lt hpos] at h3
    exact h3
  · rintro rfl
    exact (Nat.mod_modEq m num).add_right 1

/-- the chunk with global number `sb + p*num` is the last chunk exactly when the code's condition holds -/
theorem is_last_chunk (nc num sb p : Nat) (hsb : sb < num)
    (hp : p < nc / num + (if sb < nc % num then 1 else 0)) :
    ((sb + 1) % num = nc % num ∧ p = (nc / num + (if sb < nc % num then 1 else 0)) - 1) ↔
      sb + p * num = nc - 1 := by
  have hlt := (dealt nc num sb p hsb).1 hp
  have hnc : 0 < nc := by omega
  rw [last_owner nc num sb hsb hnc]
  constructor
  · rintro ⟨h1, h2⟩
    have hnot : ¬ (sb + (p + 1) * num < nc) := by
      rw [← dealt nc num sb (p + 1) hsb]
      omega
    -- `sb ≡ nc - 1` and `sb + p num ≤ nc - 1 < sb + (p+1) num`
    have e := Nat.div_add_mod (nc - 1) num
    rw [← h1] at e
    rw [Nat.mul_comm] at e
    have : (nc - 1) / num = p := by
      have hle : p ≤ (nc - 1) / num := by
        rw [Nat.le_div_iff_mul_le (by omega)]
        omega
      have hge : (nc - 1) / num < p + 1 := by
        rw [Nat.div_lt_iff_lt_mul (by omega)]
        rw [Nat.add_mul] at *
        by_contra hc
        have : (p + 1) ≤ (nc - 1) / num := by
          rw [Nat.le_div_iff_mul_le (by omega), Nat.add_mul]
          omega
        have := Nat.mul_le_mul_right num this
        rw [Nat.add_mul] at this
        omega
      omega
    rw [this] at e
    omega
  · intro h
    have h1 : (nc - 1) % num = sb := by
      rw [← h, Nat.add_mul_mod_self_right, Nat.mod_eq_of_lt hsb]
    refine ⟨h1.symm, ?_⟩
    by_contra hc
    have : p + 1 < nc / num + (if sb < nc % num then 1 else 0) := by omega
    have := (dealt nc num sb (p + 1) hsb).1 this
    rw [Nat.add_mul] at this
    omega

/-- size of the chunk with number `g` of `n` indices cut into chunks of `c` -/
theorem chunk_bound (n c g : Nat) (hc : 0 < c) (hg : g < numChunks n c) :
    (if n % c ≠ 0 ∧ g = numChunks n c - 1 then n % c else c) = min c (n - g * c) := by
  have h1 := (numChunks_spec n c hc).1
  have h2 := (numChunks_spec n c hc).2
  have e := Nat.div_add_mod n c
  have hr := Nat.mod_lt n hc
  have hg2 := (h2 g).1 hg
  by_cases hrem : n % c = 0
  · rw [if_neg (by omega)]
    -- `g < n / c`
    have : numChunks n c = n / c := by simp [numChunks, hrem]
    rw [this] at hg
    have : (g + 1) * c ≤ (n / c) * c := Nat.mul_le_mul_right _ (by omega)
    rw [Nat.mul_comm (n / c), Nat.add_mul] at this
    omega
  · have hnc : numChunks n c = n / c + 1 := by simp [numChunks, hrem]
    by_cases hl : g = numChunks n c - 1
    · rw [if_pos ⟨hrem, hl⟩]
      have : g = n / c := by omega
      rw [this, Nat.mul_comm]
      omega
    · rw [if_neg (by tauto)]
      have : (g + 1) * c ≤ (n / c) * c := Nat.mul_le_mul_right _ (by omega)
      rw [Nat.mul_comm (n / c), Nat.add_mul] at this
      omega

theorem chunkSize_eq (n num c sb p : Nat) (hc : 0 < c) (hsb : sb < num) (hp : p < segmentChunks n num c sb) :
    segmentChunkSize n num c sb p = min c (n - (sb + p * num) * c) := by
  unfold segmentChunks at hp
  simp only at hp
  have hlt := (dealt (numChunks n c) num sb p hsb).1 hp
  rw [← chunk_bound n c _ hc hlt]
  unfold segmentChunkSize
  simp only
  have := is_last_chunk (numChunks n c) num sb p hsb hp
  by_cases hl : sb + p * num = numChunks n c - 1
  · have h2 := this.2 hl
    simp only [hl, h2.1, ← h2.2, and_true]
  · have h2 : ¬ ((sb + 1) % num = numChunks n c % num ∧
        p = numChunks n c / num + (if sb < numChunks n c % num then 1 else 0) - 1) := fun h => hl (this.1 h)
    rw [if_neg (by tauto), if_neg (by tauto)]

/-- where a global index lives under the cyclic distribution -/
theorem cyclic_home (n num c i : Nat) (hnum : 0 < num) (hc : 0 < c) (hi : i < n) :
    let d := cyclic num c
    let sb := d.subblockFromIndex n i
    let p := d.patchFromIndex n i
    sb < num ∧ p < segmentChunks n num c sb ∧
    i / c = sb + p * num ∧
    d.localFromGlobal n i = p * c + i % c ∧
    i % c < segmentChunkSize n num c sb p ∧
    i = (sb + p * num) * c + i % c := by
  intro d sb p
  have hsb : sb < num := Nat.mod_lt _ hnum
  have hg : i / c = sb + p * num := by
    have e := Nat.div_add_mod (i / c) num
    have : p = i / c / num := by
      show (i / c - i / c % num) / num = i / c / num
      have : i / c - i / c % num = num * (i / c / num) := by omega
      rw [this, Nat.mul_div_cancel_left _ hnum]
    have e2 : i / c % num = sb := rfl
    rw [this, Nat.mul_comm]
    omega
  have hlt : i / c < numChunks n c := by
    rw [(numChunks_spec n c hc).2]
    have := Nat.div_mul_le_self i c
    omega
  have hp : p < segmentChunks n num c sb := by
    unfold segmentChunks
    simp only
    rw [dealt _ _ _ _ hsb, ← hg]
    exact hlt
  have e := Nat.div_add_mod i c
  have hm := Nat.mod_lt i hc
  refine ⟨hsb, hp, hg, rfl, ?_, ?_⟩
  · rw [chunkSize_eq n num c sb p hc hsb hp, ← hg]
    have : i / c * c = c * (i / c) := Nat.mul_comm _ _
    omega
  · rw [← hg, Nat.mul_comm]; omega

/-- size of a cyclic subblock: a local index `l` is in range iff its chunk exists and covers it -/
theorem cyclic_size (n num c sb l : Nat) (hc : 0 < c) (hsb : sb < num) :
    l < segmentSizeCyclic n num c sb ↔
      (l / c < segmentChunks n num c sb ∧ l % c < segmentChunkSize n num c sb (l / c)) := by
  have e := Nat.div_add_mod l c
  have hm := Nat.mod_lt l hc
  unfold segmentSizeCyclic segmentChunks segmentChunkSize
  simp only
  generalize hS : numChunks n c / num + (if sb < numChunks n c % num then 1 else 0) = S
  by_cases hcond : n % c ≠ 0 ∧ (sb + 1) % num = numChunks n c % num
  · rw [if_pos hcond]
    have hS1 : 0 < S := by
      -- the last chunk is here
      have hnc : 0 < numChunks n c := by
        unfold numChunks; rw [if_pos hcond.1]; exact Nat.succ_pos _
      have h1 := (last_owner _ num sb hsb hnc).1 hcond.2
      have e2 := Nat.div_add_mod (numChunks n c - 1) num
      rw [← h1, Nat.mul_comm] at e2
      have := (dealt (numChunks n c) num sb ((numChunks n c - 1) / num) hsb).2 (by omega)
      rw [hS] at this
      exact Nat.lt_of_le_of_lt (Nat.zero_le _) this
    have hr := Nat.mod_lt n hc
    obtain ⟨T, rfl⟩ : ∃ T, S = T + 1 := ⟨S - 1, by omega⟩
    simp only [Nat.add_sub_cancel, Nat.add_mul, Nat.one_mul]
    constructor
    · intro h
      by_cases hk : l / c < T
      · refine ⟨by omega, ?_⟩
        rw [if_neg (by omega)]; exact hm
      · have hk2 : l / c ≤ T := by
          have : l / c < T + 1 := by
            rw [Nat.div_lt_iff_lt_mul hc, Nat.add_mul]
            omega
          omega
        have hk3 : l / c = T := by omega
        refine ⟨by omega, ?_⟩
        rw [if_pos ⟨hcond.1, hcond.2, hk3⟩]
        rw [hk3, Nat.mul_comm] at e
        omega
    · rintro ⟨h1, h2⟩
      by_cases hk : l / c = T
      · rw [if_pos ⟨hcond.1, hcond.2, hk⟩] at h2
        rw [hk, Nat.mul_comm] at e
        omega
      · have : (l / c + 1) * c ≤ T * c := Nat.mul_le_mul_right _ (by omega)
        rw [Nat.add_mul, Nat.mul_comm (l / c)] at this
        omega
  · rw [if_neg hcond, if_neg (by tauto)]
    rw [← Nat.div_lt_iff_lt_mul hc]
    tauto

end Verif.Dist
