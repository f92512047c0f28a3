import Verif.Turn.Sets
import Mathlib.Data.Nat.ModEq
/-!
C81: the corner-turn programs.
-/
namespace Verif.Props
open Verif Verif.Turn

variable {V : Type}

/-! ### `MPI_Alltoall` -/

theorem turn_stores_dest {A : Nat → Nat → V} {col : Bool} {rows nr nc d n : Nat} {ls : List Nat} (hls : ∀ s ∈ ls, s < n) (hall : ∀ s, s < n → s ∈ ls)
    (hr : nr * n = rows) (mem : List V) (hl : mem.length = rows * nc) :
    ∃ m, stores mem (ls.flatMap fun s => blkW A col rows nr nc s d) = some m ∧ IsDest A col rows nc d m := by
  obtain ⟨m, h1, h2, h3, _⟩ := stores_right (target A col rows nc d) (ls.flatMap fun s => blkW A col rows nr nc s d) mem (by
    intro x hx
    obtain ⟨s, hs, hx⟩ := List.mem_flatMap.1 hx
    rw [hl]
    exact blkW_right A col nc d (mul_block hr (hls s hs)) x hx)
  refine ⟨m, h1, isDest_of (h2.trans hl) fun r c hr' hc => h3 _ ?_⟩
  obtain ⟨b1, b2, b3⟩ := row_block hr hr'
  refine List.mem_map.2 ⟨(dOff col rows nc r c, A r (d * nc + c)), List.mem_flatMap.2 ⟨r / nr, hall _ b1, mem_blk.2 ⟨r % nr, c, b3, hc, ?_⟩⟩, rfl⟩
  rw [b2]

theorem turn_alltoall {A : Nat → Nat → V} {n rows cols : Nat} {src : Nat → List V} (col : Bool) (hA : accepts rows cols n n = true)
    (hsrc : ∀ s, s < n → IsSource A (rows / n) cols s (src s)) {d : Nat} (hd : d < n) (mem : List V) (hl : mem.length = rows * (cols / n)) :
    ∃ m, alltoall col n rows cols src d mem = some m ∧ IsDest A col rows (cols / n) d m := by
  obtain ⟨_, _, hr, hc⟩ := accepts_div hA
  unfold alltoall
  dsimp only
  rw [foldlM_stores (ws := fun s => blkW A col rows (rows / n) (cols / n) s d)]
  · exact turn_stores_dest (n := n) (fun s hs => List.mem_range.1 hs) (fun s hs => List.mem_range.2 hs) hr mem hl
  · intro s hs m
    exact data_stores (hsrc s (List.mem_range.1 hs)) (mul_block hc hd) (places_src _ _ _ _) (places_ext col _ _ _ _) m

/-- **C81, partial (`Impl_alltoall`).** Whenever the constructor accepts the sizes, every process ends with its columns of the matrix, stored by columns or by rows, for any number of
processes and any matrix.
Missing: matrices that are not square; the constructor rejects them (`C81_check_false`) although the communication itself would be right. -/
theorem C81_alltoall_partial {A : Nat → Nat → V} {n rows cols : Nat} {src : Nat → List V} (col : Bool) (hA : acceptsAlltoall rows cols n n = true)
    (hsrc : ∀ s, s < n → IsSource A (rows / n) cols s (src s)) {d : Nat} (hd : d < n) (mem : List V) (hl : mem.length = rows * (cols / n)) :
    ∃ m, alltoall col n rows cols src d mem = some m ∧ IsDest A col rows (cols / n) d m :=
  turn_alltoall col (by unfold acceptsAlltoall at hA; rw [Bool.and_eq_true] at hA; exact hA.1) hsrc hd mem hl

example : acceptsAlltoall 4 4 2 2 = true ∧
    (alltoall true 2 4 4 (fun s => (List.range 8).map (· + 8 * s)) 1 (List.replicate 8 99)) = some [2, 6, 10, 14, 3, 7, 11, 15] := by decide +kernel

/-- **C81 is false (check of the columns).** `Impl_alltoall` compares the number of columns of all receivers with the number of rows: a 48 by 64 matrix, which two processes can
exchange, is rejected; no matrix that is not square passes. -/
theorem C81_check_false : (accepts 48 64 2 2 = true ∧ acceptsAlltoall 48 64 2 2 = false ∧
      ∀ (A : Nat → Nat → V) (src : Nat → List V), (∀ s, s < 2 → IsSource A 24 64 s (src s)) → ∀ d, d < 2 → ∀ mem : List V, mem.length = 48 * 32 →
        ∃ m, alltoall true 2 48 64 src d mem = some m ∧ IsDest A true 48 32 d m) ∧
    ∀ rows cols n, rows ≠ cols → acceptsAlltoall rows cols n n = false := by
  refine ⟨⟨by decide, by decide, fun A src hs d hd mem hl => turn_alltoall true (by decide) hs hd mem hl⟩, ?_⟩
  intro rows cols n hne
  cases h : acceptsAlltoall rows cols n n with
  | false => rfl
  | true =>
    exfalso
    unfold acceptsAlltoall at h
    rw [Bool.and_eq_true] at h
    obtain ⟨_, _, _, hc⟩ := accepts_div h.1
    have := eq_of_beq h.2
    omega

/-! ### `MPI_Alltoallv` -/

/-- **C81, partial (`Impl_alltoallv`).** For any disjoint or overlapping sets of senders and receivers, every receiver ends with its columns of the matrix, if local data go through MPI or if
the processes that send and receive have the same position in both sets.
Missing: local data copied by `test_fixup` in a process with different positions; refuted by `C81_fixup_false`. -/
theorem C81_alltoallv_partial {A : Nat → Nat → V} {np rows cols : Nat} {S D : List Nat} {src : Nat → List V} (col copyLocal : Bool)
    (hA : accepts rows cols S.length D.length = true) (hS : S.Nodup) (hSn : ∀ p ∈ S, p < np)
    (hcl : copyLocal = true ∨ ∀ p sr dr, rankOf S p = some sr → rankOf D p = some dr → sr = dr)
    (hsrc : ∀ p s, rankOf S p = some s → IsSource A (rows / S.length) cols s (src p))
    {p d : Nat} (hd : rankOf D p = some d) (mem : List V) (hl : mem.length = rows * (cols / D.length)) :
    ∃ m, alltoallv col copyLocal np rows cols S D src p mem = some m ∧ IsDest A col rows (cols / D.length) d m := by
  obtain ⟨_, _, hr, hc⟩ := accepts_div hA
  have hdl := (rank_lt hd).1
  -- the blocks that arrive, in the order of the processes
  unfold alltoallv
  dsimp only
  rw [foldlM_stores (ws := fun q => (if !copyLocal && q == p then none else rankOf S q).toList.flatMap fun s => blkW A col rows (rows / S.length) (cols / D.length) s d)
    (List.range np) mem (by
    intro q _ m
    unfold srcDisp dstDisp
    rw [show (p == q) = (q == p) from Bool.beq_comm]
    cases hs : rankOf S q with
    | none =>
      simp only [hd]
      cases (!copyLocal && q == p) <;> simp [stores]
    | some s =>
      cases hx : (!copyLocal && q == p)
      · simp only [hd, Option.isNone_some, Bool.or_false, Bool.false_eq_true, if_false, Option.toList, List.flatMap_cons, List.flatMap_nil, List.append_nil]
        exact data_stores (hsrc q s hs) (mul_block hc hdl) (places_src _ _ _ _) (places_ext col _ _ _ _) m
      · simp [hd, stores])]
  rw [← List.flatMap_assoc]
  -- which senders these are
  cases hb : (copyLocal : Bool) with
  | true =>
    obtain ⟨m, h1, h2⟩ := turn_stores_dest (A := A) (col := col) (d := d) (nc := cols / D.length) (n := S.length)
      (ls := (List.range np).flatMap fun q => (if !true && q == p then none else rankOf S q).toList) (by
        intro s hs
        obtain ⟨q, _, hq⟩ := List.mem_flatMap.1 hs
        simp at hq
        exact (rank_lt hq).1) (by
        intro s hs
        refine List.mem_flatMap.2 ⟨S.getD s 0, List.mem_range.2 (hSn _ (rank_mem (rank_getD hS hs))), ?_⟩
        simp only [Bool.not_true, Bool.false_and, Bool.false_eq_true, if_false, rank_getD hS hs]
        simp) hr mem hl
    refine ⟨m, ?_, h2⟩
    rw [h1]
    rfl
  | false =>
    have heq := hcl.resolve_left (by simp [hb])
    cases hs : rankOf S p with
    | none =>
      obtain ⟨m, h1, h2⟩ := turn_stores_dest (A := A) (col := col) (d := d) (nc := cols / D.length) (n := S.length)
        (ls := (List.range np).flatMap fun q => (if !false && q == p then none else rankOf S q).toList) (by
          intro s hs
          obtain ⟨q, _, hq⟩ := List.mem_flatMap.1 hs
          simp at hq
          exact (rank_lt hq.2).1) (by
          intro s hs'
          refine List.mem_flatMap.2 ⟨S.getD s 0, List.mem_range.2 (hSn _ (rank_mem (rank_getD hS hs'))), ?_⟩
          have hne : (S.getD s 0 == p) = false := by
            rw [beq_eq_false_iff_ne]
            intro h
            have := rank_getD hS hs'
            rw [h, hs] at this
            cases this
          rw [hne, rank_getD hS hs']
          simp) hr mem hl
      refine ⟨m, ?_, h2⟩
      rw [h1]
      rfl
    | some sr =>
      have e := heq p sr d hs hd
      subst e
      obtain ⟨m, h1, h2⟩ := turn_stores_dest (A := A) (col := col) (d := sr) (nc := cols / D.length) (n := S.length)
        (ls := ((List.range np).flatMap fun q => (if !false && q == p then none else rankOf S q).toList) ++ [sr]) (by
          intro s hs2
          rcases List.mem_append.1 hs2 with hs2 | hs2
          · obtain ⟨q, _, hq⟩ := List.mem_flatMap.1 hs2
            simp at hq
            exact (rank_lt hq.2).1
          · rw [List.mem_singleton.1 hs2]
            exact (rank_lt hs).1) (by
          intro s hs'
          by_cases hsr : s = sr
          · exact List.mem_append.2 (.inr (List.mem_singleton.2 hsr))
          · refine List.mem_append.2 (.inl (List.mem_flatMap.2 ⟨S.getD s 0, List.mem_range.2 (hSn _ (rank_mem (rank_getD hS hs'))), ?_⟩))
            have hne : (S.getD s 0 == p) = false := by
              rw [beq_eq_false_iff_ne]
              intro h
              have := rank_getD hS hs'
              rw [h, hs] at this
              exact hsr (Option.some.inj this).symm
            rw [hne, rank_getD hS hs']
            simp) hr mem hl
      refine ⟨m, ?_, h2⟩
      rw [List.flatMap_append, stores_append] at h1
      rw [← h1, hd]
      congr 1
      funext m'
      refine (copy_right (hsrc p sr hs) (mul_block hc hdl) col rows m').trans ?_
      rw [List.flatMap_cons, List.flatMap_nil, List.append_nil]

example : accepts 2 4 2 2 = true ∧ alltoallv true true 3 2 4 [0, 1] [1, 2] (fun p => [[0, 1, 2, 3], [4, 5, 6, 7], []].getD p []) 1 [9, 9, 9, 9] = some [0, 4, 1, 5] ∧
    alltoallv false false 4 2 4 [0, 1] [2, 3] (fun p => [[0, 1, 2, 3], [4, 5, 6, 7], [], []].getD p []) 3 [9, 9, 9, 9] = some [2, 3, 6, 7] := by decide +kernel

/-- **C81 is false (`test_fixup`).** A process that is the second sender and the first receiver copies its second column block into the first row block: element (0, 0) of the matrix, which
has arrived, is overwritten with element (1, 1), and element (1, 0) never arrives. -/
theorem C81_fixup_false : ∃ (src : Nat → List Nat) (m : List Nat), IsSource (fun r c => 10 * r + c) 1 2 0 (src 0) ∧ IsSource (fun r c => 10 * r + c) 1 2 1 (src 1) ∧
    accepts 2 2 2 2 = true ∧ alltoallv false false 3 2 2 [0, 1] [1, 2] src 1 [99, 99] = some m ∧ m = [11, 99] ∧ ¬IsDest (fun r c => 10 * r + c) false 2 1 0 m := by
  refine ⟨fun p => if p = 0 then [0, 1] else [10, 11], [11, 99], ⟨rfl, ?_⟩, ⟨rfl, ?_⟩, by decide, by decide +kernel, rfl, ?_⟩
  · intro r c hr hc
    have : r = 0 := by omega
    subst this
    rcases (show c = 0 ∨ c = 1 by omega) with rfl | rfl <;> rfl
  · intro r c hr hc
    have : r = 0 := by omega
    subst this
    rcases (show c = 0 ∨ c = 1 by omega) with rfl | rfl <;> rfl
  · intro h
    have := h.2 0 0 (by omega) (by omega)
    simp at this

/-! ### `MPI_Isend` -/

/-- **C81 (`Impl_isend`).** However `n` processes are interleaved and however often the corner turn is repeated, they neither deadlock nor leave their buffers, and every process ends
with its columns of the matrix. -/
theorem C81_isend {A : Nat → Nat → V} {n rows cols L : Nat} {src init : Nat → List V} (col : Bool) (hA : accepts rows cols n n = true) (hL : 1 ≤ L)
    (hsrc : ∀ s, s < n → IsSource A (rows / n) cols s (src s)) (hinit : ∀ d, d < n → (init d).length = rows * (cols / n)) :
    Works n (fun p => if p < n then (List.range L).flatMap fun _ => isendProg col n rows cols else []) src init
      fun mem => ∀ d, d < n → IsDest A col rows (cols / n) d (mem d) := by
  obtain ⟨_, _, hr, hc⟩ := accepts_div hA
  have P := finish (sqPat (init := init) col false id (fun _ _ h => h) hr hc hsrc).bodyA (noTail n src _ _) hL
    (fun p d hd => by obtain ⟨h, rfl⟩ := rankN_some hd; exact hinit d h)
    (sq_cov col false id (fun _ _ h => h) hr hc hsrc _ _ (fun p q h => lbA_rs _ h) (fun p i h => lbA_mid _ h))
  have e : (fun p => if p < n then (List.range L).flatMap fun _ => isendProg col n rows cols else []) =
      loopProg (sqPat (init := init) col false id (fun _ _ h => h) hr hc hsrc).bodyA (noTail n src _ _) L := by
    funext p
    rw [loopProg, calls]
    refine Eq.trans ?_ (List.append_nil _).symm
    split
    · next hp =>
      apply flatMap_cong
      intro _ _
      refine Eq.trans ?_ (lbA_snd _ p).symm
      simp only [sqPat, hp, if_true, isendProg, peersN, Bool.not_false, Bool.true_or, List.filter_true, Bool.false_eq_true, and_false, if_false, List.append_nil,
        List.map_map, List.flatMap_map]
      rfl
    · next hp =>
      have := (sqPat (init := init) col false id (fun _ _ h => h) hr hc hsrc).bodyA.hnp p (by omega)
      rw [this]
      exact (calls_nil L).symm
  rw [e]
  exact P.mono fun m h d hd => h d d (if_pos hd)

/-- **C81 (`Impl_isend_x`).** The same when each process copies its own block itself and exchanges only the others. -/
theorem C81_isend_x {A : Nat → Nat → V} {n rows cols L : Nat} {src init : Nat → List V} (col : Bool) (hA : accepts rows cols n n = true) (hL : 1 ≤ L)
    (hsrc : ∀ s, s < n → IsSource A (rows / n) cols s (src s)) (hinit : ∀ d, d < n → (init d).length = rows * (cols / n)) :
    Works n (fun p => if p < n then (List.range L).flatMap fun _ => isendXProg col n rows cols p else []) src init
      fun mem => ∀ d, d < n → IsDest A col rows (cols / n) d (mem d) := by
  obtain ⟨_, _, hr, hc⟩ := accepts_div hA
  have P := finish (sqPat (init := init) col true id (fun _ _ h => h) hr hc hsrc).bodyA (noTail n src _ _) hL
    (fun p d hd => by obtain ⟨h, rfl⟩ := rankN_some hd; exact hinit d h)
    (sq_cov col true id (fun _ _ h => h) hr hc hsrc _ _ (fun p q h => lbA_rs _ h) (fun p i h => lbA_mid _ h))
  have e : (fun p => if p < n then (List.range L).flatMap fun _ => isendXProg col n rows cols p else []) =
      loopProg (sqPat (init := init) col true id (fun _ _ h => h) hr hc hsrc).bodyA (noTail n src _ _) L := by
    funext p
    rw [loopProg, calls]
    refine Eq.trans ?_ (List.append_nil _).symm
    split
    · next hp =>
      apply flatMap_cong
      intro _ _
      refine Eq.trans ?_ (lbA_snd _ p).symm
      simp only [sqPat, hp, if_true, isendXProg, peersN, Bool.not_true, Bool.false_or, and_self, List.map_map, List.flatMap_map]
      rfl
    · next hp =>
      have := (sqPat (init := init) col true id (fun _ _ h => h) hr hc hsrc).bodyA.hnp p (by omega)
      rw [this]
      exact (calls_nil L).symm
  rw [e]
  exact P.mono fun m h d hd => h d d (if_pos hd)

/-- **C81 (`Impl_persistent`).** The same with persistent requests, all started and then waited for together. -/
theorem C81_persistent {A : Nat → Nat → V} {n rows cols L : Nat} {src init : Nat → List V} (col : Bool) (hA : accepts rows cols n n = true) (hL : 1 ≤ L)
    (hsrc : ∀ s, s < n → IsSource A (rows / n) cols s (src s)) (hinit : ∀ d, d < n → (init d).length = rows * (cols / n)) :
    Works n (fun p => if p < n then (List.range L).flatMap fun _ => persistentProg col n rows cols else []) src init
      fun mem => ∀ d, d < n → IsDest A col rows (cols / n) d (mem d) := by
  obtain ⟨_, _, hr, hc⟩ := accepts_div hA
  have hinj : ∀ i j, n + i = n + j → i = j := fun _ _ h => by omega
  have P := finish (sqPat (init := init) col false (n + ·) hinj hr hc hsrc).bodyB (noTail n src _ _) hL
    (fun p d hd => by obtain ⟨h, rfl⟩ := rankN_some hd; exact hinit d h)
    (sq_cov col false (n + ·) hinj hr hc hsrc _ _ (fun p q h => lbB_rs _ h) (fun p i h => lbB_mid _ h))
  have e : (fun p => if p < n then (List.range L).flatMap fun _ => persistentProg col n rows cols else []) =
      loopProg (sqPat (init := init) col false (n + ·) hinj hr hc hsrc).bodyB (noTail n src _ _) L := by
    funext p
    rw [loopProg, calls]
    refine Eq.trans ?_ (List.append_nil _).symm
    split
    · next hp =>
      apply flatMap_cong
      intro _ _
      refine Eq.trans ?_ (lbB_snd _ p).symm
      simp only [sqPat, hp, if_true, persistentProg, peersN, Bool.not_false, Bool.true_or, List.filter_true, Bool.false_eq_true, and_false, if_false, List.append_nil,
        List.map_map]
      rfl
    · next hp =>
      have := (sqPat (init := init) col false (n + ·) hinj hr hc hsrc).bodyB.hnp p (by omega)
      rw [this]
      exact (calls_nil L).symm
  rw [e]
  exact P.mono fun m h d hd => h d d (if_pos hd)

/-- run a schedule and read the buffers -/
def turnRun (prog : Nat → List (Ins Nat)) (src init : Nat → List Nat) (l : List Nat) (np : Nat) : Option (List (List Nat)) :=
  (run prog src ⟨fun _ => 0, init⟩ l).map fun n => (List.range np).map n.mem

example : accepts 2 4 2 2 = true ∧
    turnRun (fun p => if p < 2 then isendProg true 2 2 4 else []) (fun s => [4 * s, 4 * s + 1, 4 * s + 2, 4 * s + 3]) (fun _ => [9, 9, 9, 9])
      [0, 0, 0, 1, 1, 1, 0, 1, 1, 1, 0, 1, 0, 0, 1, 0] 2 = some [[0, 4, 1, 5], [2, 6, 3, 7]] ∧
    turnRun (fun p => if p < 2 then isendXProg false 2 2 4 p else []) (fun s => [4 * s, 4 * s + 1, 4 * s + 2, 4 * s + 3]) (fun _ => [9, 9, 9, 9])
      [0, 0, 0, 1, 1, 1, 0, 1, 1, 0] 2 = some [[0, 1, 4, 5], [2, 3, 6, 7]] ∧
    turnRun (fun p => if p < 2 then persistentProg true 2 2 4 else []) (fun s => [4 * s, 4 * s + 1, 4 * s + 2, 4 * s + 3]) (fun _ => [9, 9, 9, 9])
      [0, 0, 0, 0, 1, 1, 1, 1, 0, 1, 0, 1, 1, 1, 0, 0] 2 = some [[0, 4, 1, 5], [2, 6, 3, 7]] := by decide +kernel

/-! ### Persistent requests between sets of processes -/

theorem turn_order {phase a n : Nat} (hn1 : 1 ≤ n) (ha : a < W₆₄) (h : phase = 0 ∨ n ∣ W₆₄) : Order n (recvSb phase a n) := by
  rcases Nat.eq_zero_or_pos phase with h0 | h0
  · subst h0
    exact ⟨fun i hi => hi, fun i j _ _ e => e⟩
  · have hn := h.resolve_left (by omega)
    refine ⟨fun i hi => ?_, fun i j hi hj e => ?_⟩
    · rw [recvSb_any h0 hn ha hi]
      exact Nat.mod_lt _ (by omega)
    · rw [recvSb_any h0 hn ha hi, recvSb_any h0 hn ha hj, show a + n - i = a + (n - i) by omega, show a + n - j = a + (n - j) by omega,
        ← Nat.mod_add_mod a, ← Nat.mod_add_mod a n (n - j)] at e
      have hm := Nat.mod_lt a (show n > 0 by omega)
      rw [mod2 (a := a % n + (n - i)) (n := n) (by omega), mod2 (a := a % n + (n - j)) (n := n) (by omega)] at e
      split at e <;> split at e <;> omega

theorem turn_orderS {phase a n : Nat} (hn : 1 ≤ n) (h : a + n ≤ W₆₄) : Order n (sendSb phase a n) := by
  rcases Nat.eq_zero_or_pos phase with h0 | h0
  · subst h0
    exact ⟨fun i hi => hi, fun i j _ _ e => e⟩
  · refine ⟨fun i hi => ?_, fun i j hi hj e => ?_⟩
    · rw [sendSb, if_pos h0]
      exact Nat.mod_lt _ (by omega)
    · simp only [sendSb, if_pos h0] at e
      rw [Nat.mod_eq_of_lt (show a + i < W₆₄ by omega), Nat.mod_eq_of_lt (show a + j < W₆₄ by omega)] at e
      rw [← Nat.mod_add_mod a n i, ← Nat.mod_add_mod a n j] at e
      have ha := Nat.mod_lt a hn
      rw [mod2 (a := a % n + i) (n := n) (by omega), mod2 (a := a % n + j) (n := n) (by omega)] at e
      split at e <;> split at e <;> omega

/-- **C81, partial (`Impl_persistent_x`).** Persistent requests between any sets of senders and receivers, one element at a time or with MPI types, all started together: no interleaving of
the processes deadlocks or leaves a buffer, and after any number of calls every receiver has its columns of the matrix.
Missing: a rotated order of the receives (`phase > 0`) when the number of senders does not divide 2^64, refuted by `C81_phase_false`; a process that sends and receives
with different positions, refuted by `C81_local_copy_false`. -/
theorem C81_persistent_x_partial {A : Nat → Nat → V} {np rows cols phase L : Nat} {S D : List Nat} {src init : Nat → List V} (col opt copyLocal : Bool)
    (hA : accepts rows cols S.length D.length = true) (hL : 1 ≤ L) (hph : phase ≠ 2) (hS : S.Nodup) (hD : D.Nodup) (hSn : ∀ p ∈ S, p < np) (hDn : ∀ p ∈ D, p < np)
    (hfit : S.length + D.length ≤ W₆₄) (hdvd : phase = 0 ∨ S.length ∣ W₆₄)
    (heq : ∀ p sr dr, rankOf S p = some sr → rankOf D p = some dr → sr = dr)
    (hsrc : ∀ p s, rankOf S p = some s → IsSource A (rows / S.length) cols s (src p))
    (hinit : ∀ p d, rankOf D p = some d → (init p).length = rows * (cols / D.length)) :
    Works np (fun p => persistentXLoop col opt copyLocal phase rows cols S D L p) src init
      fun mem => ∀ p d, rankOf D p = some d → IsDest A col rows (cols / D.length) d (mem p) := by
  obtain ⟨h1, h2, hr, hc⟩ := accepts_div hA
  have hoS : ∀ sr, sr < S.length → Order D.length (sendSb phase sr D.length) := fun sr h => turn_orderS h2 (by omega)
  have hoR : ∀ dr, dr < D.length → Order S.length (recvSb phase dr S.length) := fun dr _ => turn_order h1 (by omega) hdvd
  exact set_all col opt copyLocal hS hD hSn hDn hr hc hsrc heq hoS hoR hL hph hinit

/-- **C81, partial (`Impl_persistent_x` in phases).** The same when in every phase a process waits for its send and its receive before it starts the next, for equally many senders and
receivers whose number divides 2^64.
Missing: sets of different sizes; other numbers of processes, refuted by `C81_phase_false`; different positions, refuted by `C81_local_copy_false`. -/
theorem C81_phases_partial {A : Nat → Nat → V} {np rows cols L : Nat} {S D : List Nat} {src init : Nat → List V} (col opt copyLocal : Bool)
    (hA : accepts rows cols S.length D.length = true) (hL : 1 ≤ L) (hS : S.Nodup) (hD : D.Nodup) (hSn : ∀ p ∈ S, p < np) (hDn : ∀ p ∈ D, p < np)
    (hlen : S.length = D.length) (hdvd : D.length ∣ W₆₄)
    (heq : ∀ p sr dr, rankOf S p = some sr → rankOf D p = some dr → sr = dr)
    (hsrc : ∀ p s, rankOf S p = some s → IsSource A (rows / S.length) cols s (src p))
    (hinit : ∀ p d, rankOf D p = some d → (init p).length = rows * (cols / D.length)) :
    Works np (fun p => persistentXLoop col opt copyLocal 2 rows cols S D L p) src init
      fun mem => ∀ p d, rankOf D p = some d → IsDest A col rows (cols / D.length) d (mem p) := by
  obtain ⟨_, _, hr, hc⟩ := accepts_div hA
  exact set_phases col opt copyLocal hS hD hSn hDn hr hc hsrc heq hlen rfl hdvd hL hinit

example : accepts 2 4 2 2 = true ∧ 2 ∣ W₆₄ ∧
    turnRun (fun p => persistentXLoop true true false 1 2 4 [0, 1] [0, 1] 1 p) (fun s => [4 * s, 4 * s + 1, 4 * s + 2, 4 * s + 3]) (fun _ => [9, 9, 9, 9])
      [0, 0, 1, 1, 1, 0, 0, 0, 1, 1] 2 = some [[0, 4, 1, 5], [2, 6, 3, 7]] ∧
    turnRun (fun p => persistentXLoop false true true 2 2 4 [0, 1] [2, 3] 1 p) (fun s => [4 * s, 4 * s + 1, 4 * s + 2, 4 * s + 3]) (fun _ => [9, 9, 9, 9])
      [0, 1, 2, 3, 0, 1, 2, 3, 0, 1, 2, 3, 0, 1, 2, 3] 4 = some [[9, 9, 9, 9], [9, 9, 9, 9], [0, 1, 4, 5], [2, 3, 6, 7]] := by decide +kernel

/-- no process can go on, and some have not finished -/
def turnStuck (prog : Nat → List (Ins Nat)) (src init : Nat → List Nat) (l : List Nat) (np : Nat) : Bool :=
  match run prog src ⟨fun _ => 0, init⟩ l with
  | none => false
  | some n => ((List.range np).all fun p => match step prog src n p with | .blocked => true | .done => true | _ => false) &&
      (List.range np).any fun p => match step prog src n p with | .blocked => true | _ => false

theorem turn_stuck {prog : Nat → List (Ins Nat)} {src init : Nat → List Nat} {l : List Nat} {np : Nat} (hnp : ∀ p, np ≤ p → prog p = [])
    (h : turnStuck prog src init l np = true) (good) : ¬Works np prog src init good := by
  intro hw
  unfold turnStuck at h
  cases hr : run prog src ⟨fun _ => 0, init⟩ l with
  | none => rw [hr] at h; cases h
  | some n =>
    rw [hr] at h
    simp only [Bool.and_eq_true, List.all_eq_true, List.any_eq_true, List.mem_range] at h
    obtain ⟨h1, p, hp, h2⟩ := h
    rcases (hw l n hr).2.2 with ⟨q, n', hq⟩ | ⟨hd, _⟩
    · rcases Nat.lt_or_ge q np with hlt | hge
      · have := h1 q hlt
        rw [hq] at this
        cases this
      · have e : step prog src n q = .done := by
          rw [step, hnp q hge]
          rfl
        rw [e] at hq
        cases hq
    · rw [hd p] at h2
      cases h2

/-- **C81 is false (rotated receives).** The subblock of a receive is an unsigned difference modulo the number of senders: when that number does not divide 2^64, the first receiver never
receives from some sender.  Of three processes two wait for ever. -/
theorem C81_phase_false : (∀ n, n < W₆₄ → ¬n ∣ W₆₄ → 1 ≤ n → ∃ s, s < n ∧ ∀ phase, 0 < phase → ∀ i, i < n → recvSb phase 0 n i ≠ s) ∧
    accepts 3 3 3 3 = true ∧ ∀ good,
      ¬Works 3 (fun p => persistentXLoop true true true 1 3 3 [0, 1, 2] [0, 1, 2] 1 p) (fun s => [3 * s, 3 * s + 1, 3 * s + 2]) (fun _ => [9, 9, 9]) good := by
  constructor
  · intro n hn hd h1
    refine ⟨W₆₄ % n, Nat.mod_lt _ h1, fun phase hp i hi h => ?_⟩
    rw [recvSb, if_pos hp] at h
    cases i with
    | zero =>
      have e : toIdx ((0 : Nat) - (0 : Nat) : Int) = 0 := by decide
      rw [e, Nat.zero_mod] at h
      exact hd (Nat.dvd_of_mod_eq_zero h.symm)
    | succ i =>
      have e : toIdx ((0 : Nat) - ((i + 1 : Nat) : Int) : Int) = W₆₄ - (i + 1) := by
        simp only [toIdx]
        omega
      rw [e] at h
      have h2 : n ∣ i + 1 := by
        have h3 : (W₆₄ - (i + 1)) ≡ W₆₄ [MOD n] := h
        have h4 := (Nat.modEq_iff_dvd' (by omega)).1 h3
        rwa [show W₆₄ - (W₆₄ - (i + 1)) = i + 1 by omega] at h4
      have := Nat.le_of_dvd (by omega) h2
      omega
  · refine ⟨by decide, fun good => turn_stuck (l := [0, 0, 0, 0, 1, 1, 1, 1, 1, 2, 2, 2, 2, 2, 0, 0, 0, 1, 2]) ?_ (by decide +kernel) good⟩
    intro p hp
    have e : rankOf [0, 1, 2] p = none := by
      have h0 : (0 == p) = false := beq_eq_false_iff_ne.2 (by omega)
      have h1 : (1 == p) = false := beq_eq_false_iff_ne.2 (by omega)
      have h2 : (2 == p) = false := beq_eq_false_iff_ne.2 (by omega)
      simp [rankOf, List.findIdx?_cons, h0, h1, h2]
    simp [persistentXLoop, persistentX, sends, recvs, localCopy, e]

/-- **C81 is false (local copy of persistent requests).** A process that is the second sender and the first receiver copies its second column block into the first row block, and its
columns are wrong. -/
theorem C81_local_copy_false : accepts 2 2 2 2 = true ∧
    turnRun (fun p => persistentXLoop false true true 0 2 2 [0, 1] [1, 2] 1 p) (fun s => [10 * s, 10 * s + 1]) (fun _ => [99, 99])
      [0, 0, 1, 1, 1, 2, 2, 0, 0, 1, 1, 2, 2] 3 = some [[99, 99], [0, 99], [1, 11]] ∧
    ¬IsDest (fun r c => 10 * r + c) false 2 1 0 [0, 99] := by
  refine ⟨by decide, by decide +kernel, ?_⟩
  intro h
  have := h.2 1 0 (by omega) (by omega)
  simp at this

end Verif.Props
