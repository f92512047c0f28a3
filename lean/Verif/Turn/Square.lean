import Verif.Turn.Data
/-!
The programs in which all processes send and receive.
-/
namespace Verif.Turn

variable {V : Type}

/-- sizes of the destination buffers -/
def NN (rd : Nat → Option Nat) (init : Nat → List V) (size p : Nat) : Nat := if (rd p).isSome then size else (init p).length

/-- what must be in them -/
def TT (A : Nat → Nat → V) (col : Bool) (rows nc : Nat) (rd : Nat → Option Nat) (p : Nat) : Nat → V := target A col rows nc ((rd p).getD 0)

theorem NN_some {rd : Nat → Option Nat} {init : Nat → List V} {size p d : Nat} (h : rd p = some d) : NN rd init size p = size := by simp [NN, h]

theorem TT_some {A : Nat → Nat → V} {col : Bool} {rows nc : Nat} {rd : Nat → Option Nat} {p d : Nat} (h : rd p = some d) :
    TT A col rows nc rd p = target A col rows nc d := by simp [TT, h]

theorem Works.mono {np : Nat} {prog : Nat → List (Ins V)} {src init : Nat → List V} {g g' : (Nat → List V) → Prop} (h : Works np prog src init g)
    (hg : ∀ m, g m → g' m) : Works np prog src init g' := by
  intro l n hr
  obtain ⟨h1, h2, h3⟩ := h l n hr
  exact ⟨h1, h2, h3.imp id fun h => ⟨h.1, hg _ h.2⟩⟩

/-- nothing after the last call -/
def noTail (np : Nat) (src : Nat → List V) (N : Nat → Nat) (T : Nat → Nat → V) : Tail np src N T where
  tl _ := []
  hnp _ _ := rfl
  hC _ _ h := by simp at h

/-- covered destinations are right -/
theorem finish {A : Nat → Nat → V} {col : Bool} {rows nc np : Nat} {rd : Nat → Option Nat} {src init : Nat → List V}
    (B : Body np src (NN rd init (rows * nc)) (TT A col rows nc rd)) (E : Tail np src (NN rd init (rows * nc)) (TT A col rows nc rd)) {L : Nat} (hL : 1 ≤ L)
    (hinit : ∀ p d, rd p = some d → (init p).length = rows * nc)
    (hcov : ∀ p d, rd p = some d → ∀ r c, r < rows → c < nc → Cov B E p (dOff col rows nc r c)) :
    Works np (loopProg B E L) src init fun mem => ∀ p d, rd p = some d → IsDest A col rows nc d (mem p) := by
  refine (loop_works B E L hL init ?_).mono ?_
  · intro p
    unfold NN
    split
    · next h =>
      obtain ⟨d, hd⟩ := Option.isSome_iff_exists.1 h
      exact hinit p d hd
    · rfl
  · intro m h p d hd
    obtain ⟨h1, h2⟩ := h p
    rw [NN_some hd] at h1
    refine isDest_of h1 fun r c hr hc => ?_
    have := h2 _ (hcov p d hd r c hr hc)
    rw [TT_some hd] at this
    exact this

theorem lbA_rs {np : Nat} {src : Nat → List V} {N : Nat → Nat} {T : Nat → Nat → V} (P : Pat np src N T) {p : Nat} {q : Req} (h : q ∈ P.rs p) :
    ∃ t1 t2, (t1, q.r) ∈ P.bodyA.lb p ∧ (t2, .waitR q.slot) ∈ P.bodyA.lb p := by
  refine ⟨1, 1, ?_, ?_⟩ <;> show _ ∈ P.lbA p <;> simp only [Pat.lbA, List.mem_append, List.mem_flatMap] <;> exact .inl (.inr ⟨q, h, by simp⟩)

theorem lbA_mid {np : Nat} {src : Nat → List V} {N : Nat → Nat} {T : Nat → Nat → V} (P : Pat np src N T) {p : Nat} {i : Ins V} (h : i ∈ P.mid p) :
    ∃ t, (t, i) ∈ P.bodyA.lb p := by
  refine ⟨0, ?_⟩
  show _ ∈ P.lbA p
  simp only [Pat.lbA, List.mem_append, List.mem_map]
  exact .inl (.inl (.inr ⟨i, h, rfl⟩))

theorem lbB_rs {np : Nat} {src : Nat → List V} {N : Nat → Nat} {T : Nat → Nat → V} (P : Pat np src N T) {p : Nat} {q : Req} (h : q ∈ P.rs p) :
    ∃ t1 t2, (t1, q.r) ∈ P.bodyB.lb p ∧ (t2, .waitR q.slot) ∈ P.bodyB.lb p := by
  refine ⟨0, 1, ?_, ?_⟩ <;> show _ ∈ P.lbB p <;> simp only [Pat.lbB, List.mem_append, List.mem_map]
  · exact .inl (.inl (.inl (.inr ⟨q, h, rfl⟩)))
  · exact .inr ⟨q, h, rfl⟩

theorem lbB_mid {np : Nat} {src : Nat → List V} {N : Nat → Nat} {T : Nat → Nat → V} (P : Pat np src N T) {p : Nat} {i : Ins V} (h : i ∈ P.mid p) :
    ∃ t, (t, i) ∈ P.bodyB.lb p := by
  refine ⟨0, ?_⟩
  show _ ∈ P.lbB p
  simp only [Pat.lbB, List.mem_append, List.mem_map]
  exact .inl (.inl (.inr ⟨i, h, rfl⟩))

/-! ### All processes -/

/-- ranks when all of `n` processes take part -/
def rankN (n p : Nat) : Option Nat := if p < n then some p else none

theorem rankN_some {n p d : Nat} (h : rankN n p = some d) : p < n ∧ d = p := by
  unfold rankN at h
  split at h
  · exact ⟨by assumption, (Option.some.inj h).symm⟩
  · cases h

/-- the processes with which `p` exchanges data: all, or all others -/
def peersN (x : Bool) (n p : Nat) : List Nat := (List.range n).filter fun i => !x || i != p

theorem mem_peersN {x : Bool} {n p i : Nat} : i ∈ peersN x n p ↔ i < n ∧ (x = true → i ≠ p) := by
  cases x <;> simp [peersN]

section
variable {A : Nat → Nat → V} {n rows cols : Nat} {src init : Nat → List V}

/-- requests when all processes take part -/
def sqPat (col x : Bool) (slotR : Nat → Nat) (hinj : ∀ i j, slotR i = slotR j → i = j) (hr : rows / n * n = rows) (hc : cols / n * n = cols)
    (hsrc : ∀ s, s < n → IsSource A (rows / n) cols s (src s)) :
    Pat n src (NN (rankN n) init (rows * (cols / n))) (TT A col rows (cols / n) (rankN n)) where
  ss p := if p < n then (peersN x n p).map fun i => ⟨i, i, i * (cols / n), 1, srcType (rows / n) (cols / n) cols⟩ else []
  rs p := if p < n then (peersN x n p).map fun i => ⟨slotR i, i, dstOff col (rows / n) (cols / n) i, 1, dstType col (rows / n) (cols / n) rows⟩ else []
  mid p := if p < n ∧ x = true then [.copy (copyBlock col (rows / n) (cols / n) rows cols p p)] else []
  out p hp := by simp [show ¬p < n by omega]
  slotS p := by
    split
    · rw [List.map_map]
      exact (List.nodup_range.filter _).map_on fun _ _ _ _ h => h
    · exact List.nodup_nil
  slotR p := by
    split
    · rw [List.map_map]
      exact (List.nodup_range.filter _).map_on fun _ _ _ _ h => hinj _ _ h
    · exact List.nodup_nil
  peerS p := by
    split
    · rw [List.map_map]
      exact (List.nodup_range.filter _).map_on fun _ _ _ _ h => h
    · exact List.nodup_nil
  peerR p := by
    split
    · rw [List.map_map]
      exact (List.nodup_range.filter _).map_on fun _ _ _ _ h => h
    · exact List.nodup_nil
  mS p q hq := by
    split at hq
    · next hp =>
      obtain ⟨i, hi, rfl⟩ := List.mem_map.1 hq
      obtain ⟨h1, h2⟩ := mem_peersN.1 hi
      dsimp only
      rw [if_pos h1]
      exact ⟨_, List.mem_map.2 ⟨p, mem_peersN.2 ⟨hp, fun hx => (h2 hx).symm⟩, rfl⟩, rfl⟩
    · cases hq
  mR p q hq := by
    split at hq
    · next hp =>
      obtain ⟨i, hi, rfl⟩ := List.mem_map.1 hq
      obtain ⟨h1, h2⟩ := mem_peersN.1 hi
      dsimp only
      rw [if_pos h1]
      refine ⟨_, List.mem_map.2 ⟨p, mem_peersN.2 ⟨hp, fun hx => (h2 hx).symm⟩, rfl⟩, rfl, ?_⟩
      have hd : rankN n p = some p := if_pos hp
      rw [NN_some hd, TT_some hd]
      exact data_ok (hsrc i h1) (mul_block hc hp) (mul_block hr h1) (places_src _ _ _ _) (places_dst _ _ _ _ _)
    · cases hq
  hC p i hi := by
    split at hi
    · next h =>
      rw [List.mem_singleton] at hi
      subst hi
      have hd : rankN n p = some p := if_pos h.1
      refine ⟨_, blkW A col rows (rows / n) (cols / n) p p, rfl, fun m _ => copy_right (hsrc p h.1) (mul_block hc h.1) col rows m, ?_⟩
      rw [NN_some hd, TT_some hd]
      exact blkW_right A col _ _ (mul_block hr h.1)
    · cases hi

variable (col x : Bool) (slotR : Nat → Nat) (hinj : ∀ i j, slotR i = slotR j → i = j) (hr : rows / n * n = rows) (hc : cols / n * n = cols)
    (hsrc : ∀ s, s < n → IsSource A (rows / n) cols s (src s))

/-- everything is covered -/
theorem sq_cov (B : Body n src (NN (rankN n) init (rows * (cols / n))) (TT A col rows (cols / n) (rankN n)))
    (E : Tail n src (NN (rankN n) init (rows * (cols / n))) (TT A col rows (cols / n) (rankN n)))
    (h1 : ∀ p q, q ∈ (sqPat (init := init) col x slotR hinj hr hc hsrc).rs p → ∃ t1 t2, (t1, q.r) ∈ B.lb p ∧ (t2, .waitR q.slot) ∈ B.lb p)
    (h2 : ∀ p i, i ∈ (sqPat (init := init) col x slotR hinj hr hc hsrc).mid p → ∃ t, (t, i) ∈ B.lb p) :
    ∀ p d, rankN n p = some d → ∀ r c, r < rows → c < cols / n → Cov B E p (dOff col rows (cols / n) r c) := by
  intro p d hd r c hr' hc'
  obtain ⟨hp, rfl⟩ := rankN_some hd
  obtain ⟨b1, b2, b3⟩ := row_block hr hr'
  by_cases hx : x = true → r / (rows / n) ≠ d
  · left
    obtain ⟨t1, t2, e1, e2⟩ := h1 d ⟨slotR (r / (rows / n)), r / (rows / n), dstOff col (rows / n) (cols / n) (r / (rows / n)), 1,
        dstType col (rows / n) (cols / n) rows⟩ (by
      show _ ∈ if d < n then _ else _
      rw [if_pos hp]
      exact List.mem_map.2 ⟨_, mem_peersN.2 ⟨b1, hx⟩, rfl⟩)
    refine ⟨t1, _, _, _, _, _, t2, e1, e2, ?_⟩
    rw [places_dst, mem_blk]
    exact ⟨r % (rows / n), c, b3, hc', by rw [b2]⟩
  · right
    have hx1 : x = true := Classical.byContradiction fun h => hx fun h' => absurd h' h
    have hx2 : r / (rows / n) = d := Classical.byContradiction fun h => hx fun _ => h
    obtain ⟨t, e⟩ := h2 d (.copy (copyBlock col (rows / n) (cols / n) rows cols d d)) (by
      show _ ∈ if d < n ∧ x = true then _ else _
      rw [if_pos ⟨hp, hx1⟩]
      exact List.mem_singleton.2 rfl)
    refine ⟨_, blkW A col rows (rows / n) (cols / n) d d, .inl ⟨t, e⟩, fun m _ => copy_right (hsrc d hp) (mul_block hc hp) col rows m, ?_, ?_⟩
    · rw [NN_some hd, TT_some hd]
      exact blkW_right A col _ _ (mul_block hr hp)
    · rw [blkW, blk_map, mem_blk]
      exact ⟨r % (rows / n), c, b3, hc', by rw [hx2] at b2; rw [b2]⟩

end

theorem accepts_div {rows cols ns nd : Nat} (h : accepts rows cols ns nd = true) :
    1 ≤ ns ∧ 1 ≤ nd ∧ rows / ns * ns = rows ∧ cols / nd * nd = cols := by
  simp only [accepts, Bool.and_eq_true, decide_eq_true_eq, beq_iff_eq] at h
  obtain ⟨⟨⟨h1, h2⟩, h3⟩, h4⟩ := h
  refine ⟨h1, h2, ?_, ?_⟩
  · exact Nat.div_mul_cancel (Nat.dvd_of_mod_eq_zero h3)
  · exact Nat.div_mul_cancel (Nat.dvd_of_mod_eq_zero h4)

theorem calls_nil (k : Nat) : calls ([] : List (Ins V)) k = [] := by simp [calls]

end Verif.Turn
