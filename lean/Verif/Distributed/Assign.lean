import Verif.Distributed.Lemmas
/-! The communication plan of an assignment and its execution. -/
namespace Verif.Par
open Verif Spec

/-- The map's answers form a partition of `ext`, its patches are contiguous, and its answers about processors agree with each other. -/
structure PMap.OK (ext : List Nat) (m : PMap) : Prop where
  part : IsMapPartition ext m.view
  patch : ∀ sb p, sb < m.view.numSb → p < m.view.patches sb → PatchN (m.view.gdom sb p) (m.view.ldom sb p)
  dim : ∀ sb p, sb < m.view.numSb → p < m.view.patches sb → (m.view.gdom sb p).length = ext.length
  held : ∀ pr sb, m.subblock pr = some sb ↔ sb < m.view.numSb ∧ pr ∈ m.procs sb
  owner : ∀ sb, sb < m.view.numSb → m.procs sb ≠ []
  nodup : m.workers.Nodup
  working : ∀ pr, pr ∈ m.workers ↔ m.subblock pr ≠ none

/-- address of element `idx` in the local memory of processor `p` -/
def Side.addr (S : Side) (p : Nat) (idx : List Nat) : Int := offset (S.str p) (ints (S.map.view.toLocal idx))

theorem locate {ext : List Nat} {m : PMap} (h : m.OK ext) {sb p : Nat} {k : List Nat} (h1 : sb < m.view.numSb)
    (h2 : p < m.view.patches sb) (hk : InRange k (lens (m.view.gdom sb p))) :
    ∃ idx, InRange idx ext ∧ m.view.sbOf idx = sb ∧ elemN (m.view.gdom sb p) k = ints idx ∧
      elemN (m.view.ldom sb p) k = ints (m.view.toLocal idx) := by
  obtain ⟨idx, e1, e2, e3, e4⟩ := h.part.only _ sb p h1 h2 (memN_iff_elemN.2 ⟨k, hk, rfl⟩)
  obtain ⟨-, -, k', f1, f2, f3⟩ := h.part.home idx e2
  rw [e3, e4] at f1 f2 f3
  have : k' = k := elemN_inj (h.patch sb p h1 h2) f1 hk (by rw [f2, e1])
  subst this
  exact ⟨idx, e2, e3, e1, f3⟩

/-- the two sides of a message / copy describe the same element -/
def SameElem (ext : List Nat) (L R : Side) (p q ls rs : Nat) (x y : Int) : Prop :=
  ∃ idx, InRange idx ext ∧ R.map.view.sbOf idx = rs ∧ L.map.view.sbOf idx = ls ∧ x = R.addr p idx ∧ y = L.addr q idx

section
variable {ext : List Nat} {L R : Side} (hL : L.map.OK ext) (hR : R.map.OK ext)
include hL hR

theorem same_of_pos {ls rs dp sp : Nat} (h1 : ls < L.map.view.numSb) (h2 : rs < R.map.view.numSb)
    (h3 : dp < L.map.view.patches ls) (h4 : sp < R.map.view.patches rs) {intr : List Dom}
    (hi : intersectN (R.map.view.gdom rs sp) (L.map.view.gdom ls dp) = some intr) {k : List Nat} (hk : InRange k (lens intr)) (p q : Nat) :
    SameElem ext L R p q ls rs (offset (R.str p) (elemN (applyIntrN (R.map.view.ldom rs sp) (R.map.view.gdom rs sp) intr) k))
      (offset (L.str q) (elemN (applyIntrN (L.map.view.ldom ls dp) (L.map.view.gdom ls dp) intr) k)) := by
  obtain ⟨-, -, -, hs⟩ := patchN_some (hR.patch rs sp h2 h4) (hL.patch ls dp h1 h3) hi
  obtain ⟨pa, pb, a1, a2, a3, a4, a5⟩ := hs k hk
  obtain ⟨i1, b1, b2, b3, b4⟩ := locate hR h2 h4 a1
  obtain ⟨i2, c1, c2, c3, c4⟩ := locate hL h1 h3 a2
  have : i1 = i2 := by
    apply ints_inj
    rw [← b3, a3, c3]
  subst this
  exact ⟨i1, b1, b2, c2, by rw [a4, b4]; rfl, by rw [a5, c4]; rfl⟩

theorem pos_of_idx {idx : List Nat} (h : InRange idx ext) :
    ∃ dp sp intr k, dp < L.map.view.patches (L.map.view.sbOf idx) ∧ sp < R.map.view.patches (R.map.view.sbOf idx) ∧
      intersectN (R.map.view.gdom (R.map.view.sbOf idx) sp) (L.map.view.gdom (L.map.view.sbOf idx) dp) = some intr ∧
      InRange k (lens intr) ∧
      elemN (applyIntrN (L.map.view.ldom (L.map.view.sbOf idx) dp) (L.map.view.gdom (L.map.view.sbOf idx) dp) intr) k =
        ints (L.map.view.toLocal idx) := by
  obtain ⟨a1, a2, k1, a3, a4, a5⟩ := hL.part.home idx h
  obtain ⟨b1, b2, k2, b3, b4, b5⟩ := hR.part.home idx h
  obtain ⟨intr, c1, k, c2, c3, c4⟩ := patchN_mem (hR.patch _ _ b1 b2) (hL.patch _ _ a1 a2) b3 a3 (b4.trans a4.symm)
  exact ⟨_, _, intr, k, a2, b2, c1, c2, by rw [c4, a5]⟩

theorem recs_rel {order : List Nat} (ho : IsOrder ext.length order) {p q ls rs : Nat} (hsL : (L.str q).length = ext.length)
    (hsR : (R.str p).length = ext.length) (h1 : ls < L.map.view.numSb) (h2 : rs < R.map.view.numSb) :
    List.Forall₂ (RecRel (SameElem ext L R p q ls rs)) (sendRecs order L R p ls rs) (recvRecs order L R q ls rs) := by
  unfold sendRecs recvRecs
  apply forall2_flatMap
  intro dp hdp
  have hdp := List.mem_range.1 hdp
  apply forall2_flatMap
  intro sp hsp
  have hsp := List.mem_range.1 hsp
  have pL := hL.patch ls dp h1 hdp
  have pR := hR.patch rs sp h2 hsp
  rw [patchN_comm pL pR]
  cases hi : intersectN (R.map.view.gdom rs sp) (L.map.view.gdom ls dp) with
  | none => simp
  | some intr =>
    simp only
    obtain ⟨e1, e2, e3, -⟩ := patchN_some pR pL hi
    have hlen : (applyIntrN (R.map.view.ldom rs sp) (R.map.view.gdom rs sp) intr).length = ext.length := by
      have := congrArg List.length e1
      simp only [lens, List.length_map] at this
      rw [this, e3, hR.dim rs sp h2 hsp]
    refine (chain_rel ho hlen hsR hsL (e1.trans e2.symm)).imp ?_
    rintro ra rb ⟨g1, g2⟩
    refine ⟨g1, ?_⟩
    intro i hii
    obtain ⟨k, k1, k2, k3⟩ := g2 i hii
    rw [k2, k3]
    rw [e1] at k1
    exact same_of_pos hL hR h1 h2 hdp hsp hi k1 p q

theorem recs_cover {order : List Nat} (ho : IsOrder ext.length order) {q : Nat} (hsL : (L.str q).length = ext.length)
    {idx : List Nat} (h : InRange idx ext) :
    L.addr q idx ∈ Rec.offs (recvRecs order L R q (L.map.view.sbOf idx) (R.map.view.sbOf idx)) := by
  obtain ⟨dp, sp, intr, k, a1, a2, a3, a4, a5⟩ := pos_of_idx hL hR h
  have hl := (hL.part.home idx h).1
  have hr := (hR.part.home idx h).1
  have pL := hL.patch _ dp hl a1
  have pR := hR.patch _ sp hr a2
  obtain ⟨e1, e2, e3, -⟩ := patchN_some pR pL a3
  have hlen : (applyIntrN (L.map.view.ldom (L.map.view.sbOf idx) dp) (L.map.view.gdom (L.map.view.sbOf idx) dp) intr).length = ext.length := by
    have := congrArg List.length e2
    simp only [lens, List.length_map] at this
    rw [this, e3, hR.dim _ sp hr a2]
  have hc := chain_cover ho hlen hsL (k := k) (by rw [e2]; exact a4)
  rw [a5] at hc
  unfold Side.addr recvRecs Rec.offs
  simp only [List.mem_flatMap, List.mem_range]
  unfold Rec.offs at hc
  obtain ⟨r, r1, r2⟩ := List.mem_flatMap.1 hc
  refine ⟨r, ⟨dp, a1, sp, a2, ?_⟩, r2⟩
  rw [patchN_comm pL pR, a3]
  exact r1

end

theorem offs_rel {P : Int → Int → Prop} {ra rb : List Rec} (h : List.Forall₂ (RecRel P) ra rb) :
    List.Forall₂ P (Rec.offs ra) (Rec.offs rb) := by
  induction h with
  | nil => exact List.Forall₂.nil
  | cons h _ ih =>
    unfold Rec.offs at *
    simp only [List.flatMap_cons]
    apply List.rel_append _ ih
    rw [← h.1]
    exact forall2_range_map h.2

/-! ### The messages of the plan -/

/-- the message from `p` to `q`, if any -/
def msg (L R : Side) (recs : Nat → Nat → List Rec) (p q : Nat) : Option (List Int) :=
  match R.map.subblock p, L.map.subblock q with
  | some rs, some ls =>
    if firstIs (R.map.procs rs) p = true ∧ q ≠ p ∧ q ∉ R.map.procs rs ∧ recs ls rs ≠ [] then some (Rec.offs (recs ls rs)) else none
  | _, _ => none

theorem sendsTo_append (q : Nat) : ∀ as bs : List Act, sendsTo q (as ++ bs) = sendsTo q as ++ sendsTo q bs
  | [], _ => rfl
  | a :: as, bs => by
      cases a <;> simp only [List.cons_append, sendsTo, sendsTo_append q as bs]
      split <;> simp

theorem recvsFrom_append (q : Nat) : ∀ as bs : List Act, recvsFrom q (as ++ bs) = recvsFrom q as ++ recvsFrom q bs
  | [], _ => rfl
  | a :: as, bs => by
      cases a <;> simp only [List.cons_append, recvsFrom, recvsFrom_append q as bs]
      split <;> simp

theorem touched_append : ∀ as bs : List Act, touched (as ++ bs) = touched as ++ touched bs
  | [], _ => rfl
  | a :: as, bs => by
      cases a <;> simp only [List.cons_append, touched, touched_append as bs, List.append_assoc]

theorem sendsTo_filterMap (q : Nat) (f : Nat → Option (List Int)) : ∀ {W : List Nat}, W.Nodup →
    sendsTo q (W.filterMap fun w => (f w).map (Act.send w)) = if q ∈ W then (f q).toList else []
  | [], _ => rfl
  | w :: W, h => by
      have ih := sendsTo_filterMap q f (List.nodup_cons.1 h).2
      have hw := (List.nodup_cons.1 h).1
      rw [List.filterMap_cons]
      by_cases hq : q = w
      · subst hq
        rw [if_neg hw] at ih
        cases hf : f q <;> simp [sendsTo, ih]
      · cases hf : f w with
        | none => simp only [Option.map_none]; rw [ih]; simp [hq]
        | some o => simp only [Option.map_some, sendsTo]; rw [if_neg (fun e => hq e.symm), ih]; simp [hq]

theorem recvsFrom_filterMap (q : Nat) (f : Nat → Option (List Int)) : ∀ {W : List Nat}, W.Nodup →
    recvsFrom q (W.filterMap fun w => (f w).map (Act.recv w)) = if q ∈ W then (f q).toList else []
  | [], _ => rfl
  | w :: W, h => by
      have ih := recvsFrom_filterMap q f (List.nodup_cons.1 h).2
      have hw := (List.nodup_cons.1 h).1
      rw [List.filterMap_cons]
      by_cases hq : q = w
      · subst hq
        rw [if_neg hw] at ih
        cases hf : f q <;> simp [recvsFrom, ih]
      · cases hf : f w with
        | none => simp only [Option.map_none]; rw [ih]; simp [hq]
        | some o => simp only [Option.map_some, recvsFrom]; rw [if_neg (fun e => hq e.symm), ih]; simp [hq]

theorem sendActs_eq (L R : Side) (recs : Nat → Nat → List Rec) (p : Nat) :
    sendActs L R recs p = L.map.workers.filterMap fun q => (msg L R recs p q).map (Act.send q) := by
  unfold sendActs msg
  cases hs : R.map.subblock p with
  | none => simp
  | some rs =>
    simp only
    split
    · rename_i hf
      apply List.filterMap_congr
      intro q _
      cases hq : L.map.subblock q with
      | none => simp
      | some ls =>
        simp only [hf, true_and]
        by_cases h1 : q = p
        · simp [h1]
        · by_cases h2 : q ∈ R.map.procs rs
          · simp [h1, h2]
          · by_cases h3 : recs ls rs = []
            · simp [h1, h3]
            · simp [h1, h2, h3]
    · rename_i hf
      symm
      rw [List.filterMap_eq_nil_iff]
      intro q _
      cases L.map.subblock q <;> simp [hf]

theorem recvActs_eq (L R : Side) (recs : Nat → Nat → List Rec) (q : Nat) :
    recvActs L R recs q = R.map.workers.filterMap fun p => (msg L R recs p q).map (Act.recv p) := by
  unfold recvActs msg
  cases hs : L.map.subblock q with
  | none =>
    symm
    rw [List.filterMap_eq_nil_iff]
    intro p _
    cases R.map.subblock p <;> simp
  | some ls =>
    simp only
    apply List.filterMap_congr
    intro p _
    cases hq : R.map.subblock p with
    | none => simp
    | some rs =>
      simp only
      by_cases hf : firstIs (R.map.procs rs) p = true
      · simp only [hf, true_and]
        by_cases h1 : p = q
        · simp [h1]
        · have h1' : ¬ q = p := fun e => h1 e.symm
          by_cases h2 : q ∈ R.map.procs rs
          · simp [h1, h2]
          · by_cases h3 : recs ls rs = []
            · simp [h1, h3]
            · simp [h1, h1', h2, h3]
      · simp [hf]

section
variable {ext : List Nat} {L R : Side} (hL : L.map.OK ext) (hR : R.map.OK ext)

include hL in
theorem sendsTo_sendActs (recs : Nat → Nat → List Rec) (p q : Nat) :
    sendsTo q (sendActs L R recs p) = (msg L R recs p q).toList := by
  rw [sendActs_eq, sendsTo_filterMap q _ hL.nodup]
  split
  · rfl
  · rename_i h
    rw [hL.working, not_not] at h
    unfold msg
    rw [h]
    cases R.map.subblock p <;> rfl

include hR in
theorem recvsFrom_recvActs (recs : Nat → Nat → List Rec) (p q : Nat) :
    recvsFrom p (recvActs L R recs q) = (msg L R recs p q).toList := by
  rw [recvActs_eq, recvsFrom_filterMap p _ hR.nodup]
  split
  · rfl
  · rename_i h
    rw [hR.working, not_not] at h
    unfold msg
    rw [h]
    rfl

end

theorem phase_of_filterMap_send {W : List Nat} {f : Nat → Option (List Int)} :
    ∀ a ∈ W.filterMap (fun w => (f w).map (Act.send w)), a.phase = 0 := by
  intro a ha
  obtain ⟨w, -, hw⟩ := List.mem_filterMap.1 ha
  cases hf : f w with
  | none => simp [hf] at hw
  | some o => simp [hf] at hw; subst hw; rfl

theorem phase_of_filterMap_recv {W : List Nat} {f : Nat → Option (List Int)} :
    ∀ a ∈ W.filterMap (fun w => (f w).map (Act.recv w)), a.phase = 2 := by
  intro a ha
  obtain ⟨w, -, hw⟩ := List.mem_filterMap.1 ha
  cases hf : f w with
  | none => simp [hf] at hw
  | some o => simp [hf] at hw; subst hw; rfl

theorem pairwise_same {as : List Act} {n : Nat} (h : ∀ a ∈ as, a.phase = n) : as.Pairwise (fun a b => a.phase ≤ b.phase) :=
  List.pairwise_of_forall_mem_list (fun a ha b hb => by rw [h a ha, h b hb])

theorem mem_touched_recv {as : List Act} {p : Nat} {o : List Int} {x : Int} (h : Act.recv p o ∈ as) (hx : x ∈ o) : x ∈ touched as := by
  induction as with
  | nil => simp at h
  | cons a as ih =>
    rcases List.mem_cons.1 h with rfl | h'
    · simp [touched, hx]
    · have := ih h'
      cases a <;> simp [touched, this]

set_option linter.unusedSectionVars false

/-- A plan: chains for both ends of each message, and local copies. -/
structure Plan (ext : List Nat) (L R : Side) where
  sRecs : Nat → Nat → Nat → List Rec
  rRecs : Nat → Nat → Nat → List Rec
  copies : Nat → List Act

def Plan.prog {ext : List Nat} {L R : Side} (pl : Plan ext L R) (p : Nat) : List Act :=
  sendActs L R (pl.sRecs p) p ++ pl.copies p ++ recvActs L R (pl.rRecs p) p ++ [.wait]

structure Plan.OK {ext : List Nat} {L R : Side} (pl : Plan ext L R) : Prop where
  rel : ∀ p q ls rs, L.map.subblock q = some ls → R.map.subblock p = some rs →
    List.Forall₂ (RecRel (SameElem ext L R p q ls rs)) (pl.sRecs p ls rs) (pl.rRecs q ls rs)
  cover : ∀ q idx, InRange idx ext → L.map.subblock q = some (L.map.view.sbOf idx) →
    L.addr q idx ∈ Rec.offs (pl.rRecs q (L.map.view.sbOf idx) (R.map.view.sbOf idx))
  copies_only : ∀ p, ∀ a ∈ pl.copies p, a.phase = 1
  copies_ok : ∀ p src dst, Act.copy src dst ∈ pl.copies p → ∃ ls rs, L.map.subblock p = some ls ∧ R.map.subblock p = some rs ∧
    List.Forall₂ (SameElem ext L R p p ls rs) src dst
  copies_cover : ∀ p idx, InRange idx ext → L.map.subblock p = some (L.map.view.sbOf idx) →
    R.map.subblock p = some (R.map.view.sbOf idx) → L.addr p idx ∈ touched (pl.copies p)

theorem mem_zip_of_forall2 {α β : Type} {P : α → β → Prop} {as : List α} {bs : List β} (h : List.Forall₂ P as bs) :
    ∀ x ∈ as.zip bs, P x.1 x.2 := by
  induction h with
  | nil => simp
  | cons h _ ih =>
    intro x hx
    simp only [List.zip_cons_cons, List.mem_cons] at hx
    rcases hx with rfl | hx
    · exact h
    · exact ih x hx

section
variable {ext : List Nat} {L R : Side} {pl : Plan ext L R} (hL : L.map.OK ext) (hR : R.map.OK ext) (hp : pl.OK)
include hL hR hp

theorem plan_phase (p : Nat) : (pl.prog p).Pairwise (fun a b => a.phase ≤ b.phase) := by
  unfold Plan.prog
  have hs : ∀ a ∈ sendActs L R (pl.sRecs p) p, a.phase = 0 := by
    rw [sendActs_eq]; exact phase_of_filterMap_send
  have hr : ∀ a ∈ recvActs L R (pl.rRecs p) p, a.phase = 2 := by
    rw [recvActs_eq]; exact phase_of_filterMap_recv
  have hc := hp.copies_only p
  have hw : ∀ a ∈ [Act.wait], a.phase = 3 := by simp [Act.phase]
  rw [List.pairwise_append, List.pairwise_append, List.pairwise_append]
  refine ⟨⟨⟨pairwise_same hs, pairwise_same hc, ?_⟩, pairwise_same hr, ?_⟩, pairwise_same hw, ?_⟩
  · intro a ha b hb; rw [hs a ha, hc b hb]; omega
  · intro a ha b hb
    rw [hr b hb]
    rcases List.mem_append.1 ha with ha | ha
    · rw [hs a ha]; omega
    · rw [hc a ha]; omega
  · intro a ha b hb
    rw [hw b hb]
    cases a <;> simp [Act.phase]

theorem plan_sendsTo (p q : Nat) : sendsTo q (pl.prog p) = (msg L R (pl.sRecs p) p q).toList := by
  unfold Plan.prog
  rw [sendsTo_append, sendsTo_append, sendsTo_append, sendsTo_sendActs hL]
  rw [sendsTo_none (as := pl.copies p) (fun a ha => by rw [hp.copies_only p a ha]; omega)]
  rw [sendsTo_none (as := recvActs L R (pl.rRecs p) p)]
  · simp [sendsTo]
  · rw [recvActs_eq]
    intro a ha
    rw [phase_of_filterMap_recv a ha]; omega

theorem plan_recvsFrom (p q : Nat) : recvsFrom p (pl.prog q) = (msg L R (pl.rRecs q) p q).toList := by
  unfold Plan.prog
  rw [recvsFrom_append, recvsFrom_append, recvsFrom_append, recvsFrom_recvActs hR]
  rw [recvsFrom_none (as := pl.copies q) (fun a ha => by rw [hp.copies_only q a ha]; omega)]
  rw [recvsFrom_none (as := sendActs L R (pl.sRecs q) q)]
  · simp [recvsFrom]
  · rw [sendActs_eq]
    intro a ha
    rw [phase_of_filterMap_send a ha]; omega

/-- both ends of every message agree -/
theorem plan_match (p q : Nat) :
    (msg L R (pl.sRecs p) p q = none ∧ msg L R (pl.rRecs q) p q = none) ∨
    ∃ so ro ls rs, L.map.subblock q = some ls ∧ R.map.subblock p = some rs ∧ q ≠ p ∧ q ∉ R.map.procs rs ∧
      (R.map.procs rs).head? = some p ∧ ro = Rec.offs (pl.rRecs q ls rs) ∧
      msg L R (pl.sRecs p) p q = some so ∧ msg L R (pl.rRecs q) p q = some ro ∧ List.Forall₂ (SameElem ext L R p q ls rs) so ro := by
  unfold msg
  cases hr : R.map.subblock p with
  | none => left; simp
  | some rs =>
    cases hl : L.map.subblock q with
    | none => left; simp
    | some ls =>
      have hrel := hp.rel p q ls rs hl hr
      have hemp : pl.sRecs p ls rs ≠ [] ↔ pl.rRecs q ls rs ≠ [] := by
        have := hrel.length_eq
        rw [← List.length_pos_iff, ← List.length_pos_iff, this]
      simp only
      by_cases hc : firstIs (R.map.procs rs) p = true ∧ q ≠ p ∧ q ∉ R.map.procs rs ∧ pl.sRecs p ls rs ≠ []
      · right
        have hc' := hc
        rw [hemp] at hc'
        rw [if_pos hc, if_pos hc']
        refine ⟨_, _, ls, rs, rfl, rfl, hc.2.1, hc.2.2.1, ?_, rfl, rfl, rfl, offs_rel hrel⟩
        have := hc.1
        simpa [firstIs] using this
      · left
        have hc' := hc
        rw [hemp] at hc'
        rw [if_neg hc, if_neg hc']
        exact ⟨rfl, rfl⟩

variable {V : Type} {g : List Nat → V} {rhs mem : Nat → Int → V}

/-- the memory of `q` after the assignment: `x` holds the value of the element stored there -/
def Delivered (ext : List Nat) (L : Side) (g : List Nat → V) (q ls : Nat) (x : Int) (v : V) : Prop :=
  ∃ idx, InRange idx ext ∧ L.map.view.sbOf idx = ls ∧ x = L.addr q idx ∧ v = g idx

theorem plan_run (hrhs : ∀ p idx, InRange idx ext → R.map.subblock p = some (R.map.view.sbOf idx) → rhs p (R.addr p idx) = g idx)
    (q : Nat) :
    let F := run (rhs q) (fun p => (sendsTo q (pl.prog p)).map (fun o => o.map (rhs p))) (mem q) (pl.prog q)
    (∀ ls, L.map.subblock q = some ls → (∀ idx, InRange idx ext → L.map.view.sbOf idx = ls → Delivered ext L g q ls (L.addr q idx) (F (L.addr q idx))) ∧
      ∀ x, (∀ idx, InRange idx ext → L.map.view.sbOf idx = ls → x ≠ L.addr q idx) → F x = mem q x) ∧
    (L.map.subblock q = none → F = mem q) := by
  intro F
  -- messages and copies carry correct values
  have hgood : ∀ ls p rs so ro, L.map.subblock q = some ls → R.map.subblock p = some rs →
      List.Forall₂ (SameElem ext L R p q ls rs) so ro →
      ∀ x ∈ ro.zip (so.map (rhs p)), Delivered ext L g q ls x.1 x.2 := by
    intro ls p rs so ro hl hr hf
    have : List.Forall₂ (fun y v => Delivered ext L g q ls y v) ro (so.map (rhs p)) := by
      rw [List.forall₂_map_right_iff]
      refine hf.flip.imp ?_
      rintro y x ⟨idx, i1, i2, i3, i4, i5⟩
      refine ⟨idx, i1, i3, i5, ?_⟩
      rw [i4]
      exact hrhs p idx i1 (by rw [hr, i2])
    exact mem_zip_of_forall2 this
  refine ⟨?_, ?_⟩
  · intro ls hl
    obtain ⟨s1, s2⟩ := run_spec (Delivered ext L g q ls) (rhs q) (pl.prog q)
      (fun p => (sendsTo q (pl.prog p)).map (fun o => o.map (rhs p))) (mem q)
      (by
        intro p
        rw [plan_sendsTo hL hR hp, plan_recvsFrom hL hR hp]
        rcases plan_match hL hR hp p q with ⟨m1, m2⟩ | ⟨so, ro, ls', rs, b1, b2, b3, b4, b5, b6, m1, m2, b7⟩
        · rw [m1, m2]; simp
        · rw [m1, m2]
          simp only [Option.toList_some, List.map_cons, List.map_nil, List.forall₂_cons, List.Forall₂.nil, and_true]
          rw [b1] at hl; cases hl
          refine ⟨?_, hgood _ _ _ _ _ b1 b2 b7⟩
          rw [List.length_map, b7.length_eq])
      (by
        intro src dst hcp
        have : Act.copy src dst ∈ pl.copies q := by
          unfold Plan.prog at hcp
          simp only [List.mem_append] at hcp
          rcases hcp with ((hcp | hcp) | hcp) | hcp
          · rw [sendActs_eq] at hcp; have := phase_of_filterMap_send _ hcp; simp [Act.phase] at this
          · exact hcp
          · rw [recvActs_eq] at hcp; have := phase_of_filterMap_recv _ hcp; simp [Act.phase] at this
          · simp at hcp
        obtain ⟨ls', rs, c1, c2, c3⟩ := hp.copies_ok q src dst this
        rw [hl] at c1; cases c1
        exact ⟨c3.length_eq, hgood _ _ _ _ _ hl c2 c3⟩)
    -- only addresses of elements are touched
    refine ⟨?_, ?_⟩
    · intro idx h1 h2
      apply s1
      subst h2
      unfold Plan.prog
      simp only [touched_append, List.mem_append]
      have hrsb := (hR.part.home idx h1).1
      by_cases hq : q ∈ R.map.procs (R.map.view.sbOf idx)
      · left; left; right
        exact hp.copies_cover q idx h1 hl ((hR.held q _).2 ⟨hrsb, hq⟩)
      · left; right
        -- the first processor of the source subblock
        cases hps : R.map.procs (R.map.view.sbOf idx) with
        | nil => exact absurd hps (hR.owner _ hrsb)
        | cons p ps =>
          have hpsb : R.map.subblock p = some (R.map.view.sbOf idx) := (hR.held p _).2 ⟨hrsb, by rw [hps]; simp⟩
          have hcov := hp.cover q idx h1 hl
          have hm : msg L R (pl.rRecs q) p q = some (Rec.offs (pl.rRecs q (L.map.view.sbOf idx) (R.map.view.sbOf idx))) := by
            unfold msg
            rw [hpsb, hl]
            simp only
            rw [if_pos]
            refine ⟨by simp [firstIs, hps], ?_, hq, ?_⟩
            · rintro rfl; exact hq (by rw [hps]; simp)
            · intro he; rw [he] at hcov; simp [Rec.offs] at hcov
          have hw : p ∈ R.map.workers := (hR.working p).2 (by rw [hpsb]; simp)
          rw [recvActs_eq]
          have hmem : Act.recv p (Rec.offs (pl.rRecs q (L.map.view.sbOf idx) (R.map.view.sbOf idx))) ∈
              R.map.workers.filterMap fun p => (msg L R (pl.rRecs q) p q).map (Act.recv p) :=
            List.mem_filterMap.2 ⟨p, hw, by rw [hm]; rfl⟩
          exact mem_touched_recv hmem hcov
    · intro x hx
      apply s2
      intro hxt
      obtain ⟨idx, i1, i2, i3, -⟩ := s1 x hxt
      exact hx idx i1 i2 i3
  · intro hl
    obtain ⟨-, s2⟩ := run_spec (fun _ _ => False) (rhs q) (pl.prog q)
      (fun p => (sendsTo q (pl.prog p)).map (fun o => o.map (rhs p))) (mem q)
      (by
        intro p
        rw [plan_sendsTo hL hR hp, plan_recvsFrom hL hR hp]
        rcases plan_match hL hR hp p q with ⟨m1, m2⟩ | ⟨so, ro, ls', rs, b1, -⟩
        · rw [m1, m2]; simp
        · rw [hl] at b1; cases b1)
      (by
        intro src dst hcp
        have : Act.copy src dst ∈ pl.copies q := by
          unfold Plan.prog at hcp
          simp only [List.mem_append] at hcp
          rcases hcp with ((hcp | hcp) | hcp) | hcp
          · rw [sendActs_eq] at hcp; have := phase_of_filterMap_send _ hcp; simp [Act.phase] at this
          · exact hcp
          · rw [recvActs_eq] at hcp; have := phase_of_filterMap_recv _ hcp; simp [Act.phase] at this
          · simp at hcp
        obtain ⟨ls', rs, c1, c2, c3⟩ := hp.copies_ok q src dst this
        rw [hl] at c1; cases c1)
    funext x
    apply s2
    intro hxt
    obtain ⟨s1, -⟩ := run_spec (fun _ (_ : V) => False) (rhs q) (pl.prog q)
      (fun p => (sendsTo q (pl.prog p)).map (fun o => o.map (rhs p))) (mem q)
      (by
        intro p
        rw [plan_sendsTo hL hR hp, plan_recvsFrom hL hR hp]
        rcases plan_match hL hR hp p q with ⟨m1, m2⟩ | ⟨so, ro, ls', rs, b1, -⟩
        · rw [m1, m2]; simp
        · rw [hl] at b1; cases b1)
      (by
        intro src dst hcp
        have : Act.copy src dst ∈ pl.copies q := by
          unfold Plan.prog at hcp
          simp only [List.mem_append] at hcp
          rcases hcp with ((hcp | hcp) | hcp) | hcp
          · rw [sendActs_eq] at hcp; have := phase_of_filterMap_send _ hcp; simp [Act.phase] at this
          · exact hcp
          · rw [recvActs_eq] at hcp; have := phase_of_filterMap_recv _ hcp; simp [Act.phase] at this
          · simp at hcp
        obtain ⟨ls', rs, c1, c2, c3⟩ := hp.copies_ok q src dst this
        rw [hl] at c1; cases c1)
    exact s1 x hxt

end

end Verif.Par
