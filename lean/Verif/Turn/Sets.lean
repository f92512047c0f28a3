import Verif.Turn.Square
import Mathlib.Data.List.Perm.Subperm
/-!
The persistent program with different senders and receivers.
-/
namespace Verif.Turn

variable {V : Type}

theorem rank_lt {S : List Nat} {p i : Nat} (h : rankOf S p = some i) : i < S.length ∧ S.getD i 0 = p := by
  obtain ⟨hi, h1, _⟩ := List.findIdx?_eq_some_iff_getElem.1 h
  refine ⟨hi, ?_⟩
  rw [List.getD_eq_getElem?_getD, List.getElem?_eq_getElem hi]
  simpa using h1

theorem rank_getD {S : List Nat} (hS : S.Nodup) {i : Nat} (hi : i < S.length) : rankOf S (S.getD i 0) = some i := by
  have e : S.getD i 0 = S[i] := by rw [List.getD_eq_getElem?_getD, List.getElem?_eq_getElem hi]; rfl
  rw [rankOf, List.findIdx?_eq_some_iff_getElem]
  refine ⟨hi, by rw [e]; simp, fun j hj h => ?_⟩
  rw [e] at h
  have := (List.Nodup.getElem_inj_iff hS).1 (by simpa using h)
  omega

theorem rank_mem {S : List Nat} {p i : Nat} (h : rankOf S p = some i) : p ∈ S := by
  obtain ⟨h1, h2⟩ := rank_lt h
  rw [List.getD_eq_getElem?_getD, List.getElem?_eq_getElem h1] at h2
  exact h2 ▸ List.getElem_mem h1

/-- the order in which subblocks are visited -/
structure Order (n : Nat) (f : Nat → Nat) : Prop where
  lt : ∀ i, i < n → f i < n
  inj : ∀ i j, i < n → j < n → f i = f j → i = j

theorem Order.nodup {n : Nat} {f : Nat → Nat} (h : Order n f) : ((List.range n).map f).Nodup :=
  List.nodup_range.map_on fun _ hi _ hj e => h.inj _ _ (List.mem_range.1 hi) (List.mem_range.1 hj) e

theorem Order.mem {n : Nat} {f : Nat → Nat} (h : Order n f) {k : Nat} : k ∈ (List.range n).map f ↔ k < n := by
  have hs : (List.range n).map f ⊆ List.range n := by
    intro x hx
    obtain ⟨i, hi, rfl⟩ := List.mem_map.1 hx
    exact List.mem_range.2 (h.lt i (List.mem_range.1 hi))
  have hp := (List.subperm_of_subset h.nodup hs).perm_of_length_le (by simp)
  rw [hp.mem_iff, List.mem_range]

/-- processes without `p`, with data -/
theorem fst_filterMap {α : Type} (g : Nat → Nat) (h : Nat → α) (p : Nat) : ∀ l : List Nat,
    (l.filterMap fun sb => if g sb ≠ p then some (g sb, h sb) else none).map Prod.fst = (l.map g).filter (· ≠ p)
  | [] => rfl
  | x :: l => by
    rw [List.filterMap_cons, List.map_cons, List.filter_cons]
    by_cases hx : g x = p
    · rw [if_neg (fun h => h hx), if_neg (by simpa using hx)]
      exact fst_filterMap g h p l
    · rw [if_pos hx, if_pos (by simpa using hx), ← fst_filterMap g h p l]
      rfl

/-! ### Requests of a list -/

/-- what a message needs -/
abbrev Msg := Nat × Nat × Nat × DType

def mkReq (l : List Msg) (i : Nat) : Req :=
  let x := l.getD i (0, 0, 0, float)
  ⟨i, x.1, x.2.1, x.2.2.1, x.2.2.2⟩

/-- one request per message, slots in order -/
def reqs (l : List Msg) : List Req := (List.range l.length).map (mkReq l)

theorem reqs_slot (l : List Msg) : (reqs l).map Req.slot = List.range l.length := by
  rw [reqs, List.map_map]
  exact List.map_id _

theorem reqs_peer (l : List Msg) : (reqs l).map Req.peer = l.map Prod.fst := by
  apply List.ext_getElem (by simp [reqs])
  intro i h1 h2
  have h3 : i < l.length := by simpa using h2
  simp only [reqs, List.getElem_map, List.getElem_range, mkReq]
  rw [List.getD_eq_getElem?_getD, List.getElem?_eq_getElem h3]
  rfl

theorem reqs_getElem? (l : List Msg) (i : Nat) : (reqs l)[i]? = l[i]?.map fun x => ⟨i, x.1, x.2.1, x.2.2.1, x.2.2.2⟩ := by
  rcases Nat.lt_or_ge i l.length with h | h
  · rw [reqs, List.getElem?_map, List.getElem?_range h, List.getElem?_eq_getElem h]
    simp only [Option.map_some, mkReq, List.getD_eq_getElem?_getD, List.getElem?_eq_getElem h, Option.getD_some]
  · rw [List.getElem?_eq_none h, List.getElem?_eq_none (by simpa [reqs] using h)]
    rfl

theorem mem_reqs {l : List Msg} {q : Req} (h : q ∈ reqs l) : (q.peer, q.off, q.count, q.t) ∈ l := by
  obtain ⟨i, hi⟩ := List.mem_iff_getElem?.1 h
  rw [reqs_getElem?] at hi
  obtain ⟨x, hx, rfl⟩ := Option.map_eq_some_iff.1 hi
  exact List.mem_of_getElem? hx

theorem reqs_of {l : List Msg} {x : Msg} (h : x ∈ l) : ∃ q ∈ reqs l, q.peer = x.1 ∧ q.off = x.2.1 ∧ q.count = x.2.2.1 ∧ q.t = x.2.2.2 := by
  obtain ⟨i, hi⟩ := List.mem_iff_getElem?.1 h
  refine ⟨⟨i, x.1, x.2.1, x.2.2.1, x.2.2.2⟩, ?_, rfl, rfl, rfl, rfl⟩
  exact List.mem_of_getElem? (i := i) (by rw [reqs_getElem?, hi]; rfl)

theorem startS_reqs (l : List Msg) (i : Nat) : (startS l i : List (Ins V)) = (reqs l)[i]?.toList.map Req.s := by
  rw [reqs_getElem?, startS]
  cases l[i]? with
  | none => rfl
  | some x => rfl

theorem startR_reqs (l : List Msg) (i : Nat) : (startR l i : List (Ins V)) = (reqs l)[i]?.toList.map Req.r := by
  rw [reqs_getElem?, startR]
  cases l[i]? with
  | none => rfl
  | some x => rfl

theorem range_getElem? {α : Type} (l : List α) : ∀ k, l.length ≤ k → (List.range k).filterMap (fun i => l[i]?) = l := by
  intro k hk
  have h : ∀ k, (List.range k).filterMap (fun i => l[i]?) = l.take k := by
    intro k
    induction k with
    | zero => simp
    | succ k ih =>
      rw [List.range_succ, List.filterMap_append, ih, List.take_add_one]
      cases h : l[k]? with
      | none => simp [h]
      | some x => simp [h]
  rw [h, List.take_of_length_le hk]

theorem flatMap_toList {α β : Type} (f : Nat → Option α) (g : α → β) (l : List Nat) :
    (l.flatMap fun i => (f i).toList.map g) = (l.filterMap f).map g := by
  induction l with
  | nil => rfl
  | cons x l ih =>
    rw [List.flatMap_cons, ih, List.filterMap_cons]
    cases f x <;> rfl

theorem reqs_length (l : List Msg) : (reqs l).length = l.length := by simp [reqs]

theorem starts_S (l : List Msg) : ((List.range l.length).flatMap fun i => (startS l i : List (Ins V))) = (reqs l).map Req.s := by
  rw [flatMap_cong (fun i _ => startS_reqs l i), flatMap_toList, range_getElem? _ _ (Nat.le_of_eq (reqs_length l))]

theorem starts_R (l : List Msg) : ((List.range l.length).flatMap fun i => (startR l i : List (Ins V))) = (reqs l).map Req.r := by
  rw [flatMap_cong (fun i _ => startR_reqs l i), flatMap_toList, range_getElem? _ _ (Nat.le_of_eq (reqs_length l))]

theorem waits (l : List Msg) (f : Nat → Ins V) : (List.range l.length).map f = (reqs l).map fun q => f q.slot := by
  have := congrArg (List.map f) (reqs_slot l)
  rw [List.map_map] at this
  exact this.symm

/-! ### Senders and receivers -/

section
variable {A : Nat → Nat → V} {np rows cols : Nat} {S D : List Nat} {src init : Nat → List V} {col opt : Bool} {phase : Nat}

/-- the sends, if the subblocks are visited in some order -/
theorem mem_sends (ho : ∀ sr, sr < S.length → Order D.length (sendSb phase sr D.length)) {p : Nat} {x : Msg} :
    x ∈ sends opt phase rows cols S D p ↔ ∃ sr sb, rankOf S p = some sr ∧ sb < D.length ∧ D.getD sb 0 ≠ p ∧
      x = (D.getD sb 0, sb * (cols / D.length), single opt (rows / S.length) (cols / D.length) (srcType (rows / S.length) (cols / D.length) cols)) := by
  unfold sends
  cases h : rankOf S p with
  | none => simp
  | some sr =>
    have ho' := ho sr (rank_lt h).1
    simp only [List.mem_filterMap]
    constructor
    · rintro ⟨sb, hsb, h2⟩
      rw [ho'.mem] at hsb
      split at h2
      · next hne => exact ⟨sr, sb, rfl, hsb, hne, (Option.some.inj h2).symm⟩
      · cases h2
    · rintro ⟨sr', sb, e, hsb, hne, rfl⟩
      exact ⟨sb, ho'.mem.2 hsb, by rw [if_pos hne]⟩

/-- the receives -/
theorem mem_recvs (ho : ∀ dr, dr < D.length → Order S.length (recvSb phase dr S.length)) {p : Nat} {x : Msg} :
    x ∈ recvs col opt phase rows cols S D p ↔ ∃ dr sb, rankOf D p = some dr ∧ sb < S.length ∧ S.getD sb 0 ≠ p ∧
      x = (S.getD sb 0, dstOff col (rows / S.length) (cols / D.length) sb,
        if col then (1, dstType col (rows / S.length) (cols / D.length) rows)
        else single opt (rows / S.length) (cols / D.length) (dstType col (rows / S.length) (cols / D.length) rows)) := by
  unfold recvs
  cases h : rankOf D p with
  | none => simp
  | some dr =>
    have ho' := ho dr (rank_lt h).1
    simp only [List.mem_filterMap]
    constructor
    · rintro ⟨sb, hsb, h2⟩
      rw [ho'.mem] at hsb
      split at h2
      · next hne => exact ⟨dr, sb, rfl, hsb, hne, (Option.some.inj h2).symm⟩
      · cases h2
    · rintro ⟨dr', sb, e, hsb, hne, rfl⟩
      exact ⟨sb, ho'.mem.2 hsb, by rw [if_pos hne]⟩

theorem getD_inj {S : List Nat} (hS : S.Nodup) {i j : Nat} (hi : i < S.length) (hj : j < S.length) (h : S.getD i 0 = S.getD j 0) : i = j := by
  have := rank_getD hS hi
  rw [h, rank_getD hS hj] at this
  exact (Option.some.inj this).symm

theorem sends_nodup (hD : D.Nodup) (ho : ∀ sr, sr < S.length → Order D.length (sendSb phase sr D.length)) (p : Nat) :
    ((sends opt phase rows cols S D p).map Prod.fst).Nodup := by
  unfold sends
  cases h : rankOf S p with
  | none => exact List.nodup_nil
  | some sr =>
    have ho' := ho sr (rank_lt h).1
    rw [fst_filterMap (fun sb => D.getD sb 0)]
    refine List.Nodup.filter _ (ho'.nodup.map_on ?_)
    intro i hi j hj e
    exact getD_inj hD (ho'.mem.1 hi) (ho'.mem.1 hj) e

theorem recvs_nodup (hS : S.Nodup) (ho : ∀ dr, dr < D.length → Order S.length (recvSb phase dr S.length)) (p : Nat) :
    ((recvs col opt phase rows cols S D p).map Prod.fst).Nodup := by
  unfold recvs
  cases h : rankOf D p with
  | none => exact List.nodup_nil
  | some dr =>
    have ho' := ho dr (rank_lt h).1
    rw [fst_filterMap (fun sb => S.getD sb 0)]
    refine List.Nodup.filter _ (ho'.nodup.map_on ?_)
    intro i hi j hj e
    exact getD_inj hS (ho'.mem.1 hi) (ho'.mem.1 hj) e

theorem places_recv (col opt : Bool) (nr nc rows s : Nat) (x : Nat × DType)
    (hx : x = if col then (1, dstType col nr nc rows) else single opt nr nc (dstType col nr nc rows)) :
    places (dstOff col nr nc s) x.1 x.2 = blk nr nc fun r c => dOff col rows nc (s * nr + r) c := by
  subst hx
  cases col
  · exact places_dstS opt nr nc rows s
  · exact places_dst true nr nc rows s

/-- what the copy within a process does -/
theorem local_right (hr : rows / S.length * S.length = rows) (hc : cols / D.length * D.length = cols)
    (hsrc : ∀ p s, rankOf S p = some s → IsSource A (rows / S.length) cols s (src p))
    (heq : ∀ p sr dr, rankOf S p = some sr → rankOf D p = some dr → sr = dr) (col : Bool) {p : Nat} {i : Ins V} (hi : i ∈ localCopy col rows cols S D p) :
    ∃ k, rankOf S p = some k ∧ rankOf D p = some k ∧ i = .copy (copyBlock col (rows / S.length) (cols / D.length) rows cols k k) ∧
      (∀ m, copyBlock col (rows / S.length) (cols / D.length) rows cols k k (src p) m = stores m (blkW A col rows (rows / S.length) (cols / D.length) k k)) ∧
      RightW (NN (rankOf D) init (rows * (cols / D.length)) p) (TT A col rows (cols / D.length) (rankOf D) p)
        (blkW A col rows (rows / S.length) (cols / D.length) k k) := by
  unfold localCopy at hi
  cases hs : rankOf S p with
  | none => rw [hs] at hi; simp at hi
  | some sr =>
    cases hd : rankOf D p with
    | none => rw [hs, hd] at hi; simp at hi
    | some dr =>
      rw [hs, hd] at hi
      have e := heq p sr dr hs hd
      subst e
      refine ⟨sr, rfl, rfl, List.mem_singleton.1 hi, fun m => copy_right (hsrc p sr hs) (mul_block hc (rank_lt hd).1) col rows m, ?_⟩
      rw [NN_some hd, TT_some hd]
      exact blkW_right A col _ _ (mul_block hr (rank_lt hs).1)

/-- the requests of the persistent program -/
def setPat (col opt copyLocal : Bool) (phase : Nat) (hS : S.Nodup) (hD : D.Nodup) (hSn : ∀ p ∈ S, p < np) (hDn : ∀ p ∈ D, p < np)
    (hr : rows / S.length * S.length = rows) (hc : cols / D.length * D.length = cols)
    (hsrc : ∀ p s, rankOf S p = some s → IsSource A (rows / S.length) cols s (src p))
    (heq : ∀ p sr dr, rankOf S p = some sr → rankOf D p = some dr → sr = dr)
    (hoS : ∀ sr, sr < S.length → Order D.length (sendSb phase sr D.length)) (hoR : ∀ dr, dr < D.length → Order S.length (recvSb phase dr S.length)) :
    Pat np src (NN (rankOf D) init (rows * (cols / D.length))) (TT A col rows (cols / D.length) (rankOf D)) where
  ss p := reqs (sends opt phase rows cols S D p)
  rs p := reqs (recvs col opt phase rows cols S D p)
  mid p := if copyLocal then localCopy col rows cols S D p else []
  out p hp := by
    have h1 : rankOf S p = none := Option.eq_none_iff_forall_ne_some.2 fun i h => by
      have := hSn p (rank_mem h); omega
    have h2 : rankOf D p = none := Option.eq_none_iff_forall_ne_some.2 fun i h => by
      have := hDn p (rank_mem h); omega
    simp [sends, recvs, localCopy, h1, h2, reqs]
  slotS p := by rw [reqs_slot]; exact List.nodup_range
  slotR p := by rw [reqs_slot]; exact List.nodup_range
  peerS p := by rw [reqs_peer]; exact sends_nodup hD hoS p
  peerR p := by rw [reqs_peer]; exact recvs_nodup hS hoR p
  mS p q hq := by
    obtain ⟨sr, sb, h1, h2, h3, h4⟩ := (mem_sends hoS).1 (mem_reqs hq)
    have hp : q.peer = D.getD sb 0 := congrArg Prod.fst h4
    obtain ⟨q', hq', h5, _⟩ := reqs_of ((mem_recvs (col := col) (opt := opt) (rows := rows) (cols := cols) hoR (p := q.peer)).2
      ⟨sb, sr, by rw [hp]; exact rank_getD hD h2, (rank_lt h1).1, by rw [(rank_lt h1).2, hp]; exact h3.symm, rfl⟩)
    exact ⟨q', hq', h5.trans (rank_lt h1).2⟩
  mR p q hq := by
    obtain ⟨dr, sb, h1, h2, h3, h4⟩ := (mem_recvs hoR).1 (mem_reqs hq)
    have hp : q.peer = S.getD sb 0 := congrArg Prod.fst h4
    obtain ⟨q', hq', h5, h6, h7, h8⟩ := reqs_of ((mem_sends (opt := opt) (rows := rows) (cols := cols) hoS (p := q.peer)).2
      ⟨sb, dr, by rw [hp]; exact rank_getD hS h2, (rank_lt h1).1, by rw [(rank_lt h1).2, hp]; exact h3.symm, rfl⟩)
    refine ⟨q', hq', h5.trans (rank_lt h1).2, ?_⟩
    rw [NN_some h1, TT_some h1, h6, h7, h8]
    have h9 := congrArg Prod.snd h4
    have o1 : q.off = dstOff col (rows / S.length) (cols / D.length) sb := congrArg Prod.fst h9
    have o2 : (q.count, q.t) = _ := congrArg Prod.snd h9
    rw [o1]
    refine data_ok (s := sb) (hsrc q.peer sb (by rw [hp]; exact rank_getD hS h2)) (mul_block hc (rank_lt h1).1) (mul_block hr h2)
      (places_srcS opt _ _ _ _) (places_recv col opt _ _ _ _ (q.count, q.t) o2)
  hC p i hi := by
    split at hi
    · obtain ⟨k, _, _, h3, h4, h5⟩ := local_right (init := init) hr hc hsrc heq col hi
      exact ⟨_, _, h3, fun m _ => h4 m, h5⟩
    · cases hi

/-- the copy after the last call -/
def setTail (col copyLocal : Bool) (hSn : ∀ p ∈ S, p < np)
    (hr : rows / S.length * S.length = rows) (hc : cols / D.length * D.length = cols)
    (hsrc : ∀ p s, rankOf S p = some s → IsSource A (rows / S.length) cols s (src p))
    (heq : ∀ p sr dr, rankOf S p = some sr → rankOf D p = some dr → sr = dr) :
    Tail np src (NN (rankOf D) init (rows * (cols / D.length))) (TT A col rows (cols / D.length) (rankOf D)) where
  tl p := if copyLocal then [] else localCopy col rows cols S D p
  hnp p hp := by
    have h1 : rankOf S p = none := Option.eq_none_iff_forall_ne_some.2 fun i h => by
      have := hSn p (rank_mem h); omega
    simp [localCopy, h1]
  hC p i hi := by
    split at hi
    · cases hi
    · obtain ⟨k, _, _, h3, h4, h5⟩ := local_right (init := init) hr hc hsrc heq col hi
      exact ⟨_, _, h3, fun m _ => h4 m, h5⟩

variable (col opt : Bool) (copyLocal : Bool) (hS : S.Nodup) (hD : D.Nodup) (hSn : ∀ p ∈ S, p < np) (hDn : ∀ p ∈ D, p < np)
    (hr : rows / S.length * S.length = rows) (hc : cols / D.length * D.length = cols)
    (hsrc : ∀ p s, rankOf S p = some s → IsSource A (rows / S.length) cols s (src p))
    (heq : ∀ p sr dr, rankOf S p = some sr → rankOf D p = some dr → sr = dr)
    (hoS : ∀ sr, sr < S.length → Order D.length (sendSb phase sr D.length)) (hoR : ∀ dr, dr < D.length → Order S.length (recvSb phase dr S.length))

theorem set_cov (B : Body np src (NN (rankOf D) init (rows * (cols / D.length))) (TT A col rows (cols / D.length) (rankOf D)))
    (h1 : ∀ p q, q ∈ (setPat (init := init) col opt copyLocal phase hS hD hSn hDn hr hc hsrc heq hoS hoR).rs p →
      ∃ t1 t2, (t1, q.r) ∈ B.lb p ∧ (t2, .waitR q.slot) ∈ B.lb p)
    (h2 : ∀ p i, i ∈ (setPat (init := init) col opt copyLocal phase hS hD hSn hDn hr hc hsrc heq hoS hoR).mid p → ∃ t, (t, i) ∈ B.lb p) :
    ∀ p d, rankOf D p = some d → ∀ r c, r < rows → c < cols / D.length →
      Cov B (setTail (np := np) (init := init) col copyLocal hSn hr hc hsrc heq) p (dOff col rows (cols / D.length) r c) := by
  intro p d hd r c hr' hc'
  obtain ⟨b1, b2, b3⟩ := row_block hr hr'
  by_cases hne : S.getD (r / (rows / S.length)) 0 = p
  · right
    have hs : rankOf S p = some (r / (rows / S.length)) := by rw [← hne]; exact rank_getD hS b1
    have hm : (.copy (copyBlock col (rows / S.length) (cols / D.length) rows cols d (r / (rows / S.length))) : Ins V) ∈ localCopy col rows cols S D p := by
      simp [localCopy, hs, hd]
    obtain ⟨k, g1, g2, g3, g4, g5⟩ := local_right (init := init) hr hc hsrc heq col hm
    have e1 : r / (rows / S.length) = k := by rw [hs] at g1; exact Option.some.inj g1
    refine ⟨copyBlock col (rows / S.length) (cols / D.length) rows cols k k, _, ?_, fun m _ => g4 m, g5, ?_⟩
    · rw [← g3]
      cases copyLocal
      · exact .inr hm
      · exact .inl (h2 p _ hm)
    · rw [blkW, blk_map, mem_blk]
      exact ⟨r % (rows / S.length), c, b3, hc', by rw [← e1, b2]⟩
  · left
    obtain ⟨q, hq, h5, h6, h7, h8⟩ := reqs_of ((mem_recvs (col := col) (opt := opt) (rows := rows) (cols := cols) hoR (p := p)).2 ⟨d, r / (rows / S.length), hd, b1, hne, rfl⟩)
    obtain ⟨t1, t2, e1, e2⟩ := h1 p q hq
    refine ⟨t1, _, _, _, _, _, t2, e1, e2, ?_⟩
    rw [h6, h7, h8]
    dsimp only
    rw [places_recv col opt _ _ rows _ _ rfl, mem_blk]
    exact ⟨r % (rows / S.length), c, b3, hc', by rw [b2]⟩

include hS hD hSn hDn hr hc hsrc heq hoS hoR

/-- all requests started, then all waited for -/
theorem set_all {L : Nat} (hL : 1 ≤ L) (hph : phase ≠ 2) (hinit : ∀ p d, rankOf D p = some d → (init p).length = rows * (cols / D.length)) :
    Works np (fun p => persistentXLoop col opt copyLocal phase rows cols S D L p) src init
      fun mem => ∀ p d, rankOf D p = some d → IsDest A col rows (cols / D.length) d (mem p) := by
  have P := finish (setPat (init := init) col opt copyLocal phase hS hD hSn hDn hr hc hsrc heq hoS hoR).bodyB
    (setTail (np := np) (init := init) col copyLocal hSn hr hc hsrc heq) hL hinit
    (set_cov col opt copyLocal hS hD hSn hDn hr hc hsrc heq hoS hoR _ (fun p q h => lbB_rs _ h) (fun p i h => lbB_mid _ h))
  have e : (fun p => persistentXLoop col opt copyLocal phase rows cols S D L p) = loopProg
      (setPat (init := init) col opt copyLocal phase hS hD hSn hDn hr hc hsrc heq hoS hoR).bodyB
      (setTail (np := np) (init := init) col copyLocal hSn hr hc hsrc heq) L := by
    funext p
    rw [loopProg, persistentXLoop]
    congr 1
    rw [calls]
    apply flatMap_cong
    intro _ _
    refine Eq.trans ?_ (lbB_snd _ p).symm
    simp only [persistentX, if_neg hph, starts_S, starts_R]
    rw [waits _ fun i => .waitS i, waits _ fun i => .waitR i]
    rfl
  rw [e]
  exact P

end

/-! ### Phases -/

theorem filterMap_shift {α : Type} {G : Nat → Option α} {off n i : Nat} {x : α} (ho : off ≤ 1) (h1 : off = 1 → G 0 = none)
    (h2 : ∀ i, off ≤ i → i < n → (G i).isSome = true) (h : ((List.range n).filterMap G)[i]? = some x) : i + off < n ∧ G (i + off) = some x := by
  have key : ∀ (G : Nat → Option α) (n : Nat), (∀ i, i < n → (G i).isSome = true) → ((List.range n).filterMap G)[i]? = some x → i < n ∧ G i = some x := by
    intro G n hG h
    have e : (List.range n).filterMap G = (List.range n).map fun i => (G i).getD x := by
      rw [← List.filterMap_eq_map]
      apply List.filterMap_congr
      intro i hi
      obtain ⟨y, hy⟩ := Option.isSome_iff_exists.1 (hG i (List.mem_range.1 hi))
      simp [hy]
    rw [e, List.getElem?_map] at h
    obtain ⟨k, hk, hx⟩ := Option.map_eq_some_iff.1 h
    obtain ⟨h3, h4⟩ := List.getElem?_eq_some_iff.1 hk
    rw [List.getElem_range] at h4
    subst h4
    have h5 : i < n := by simpa using h3
    obtain ⟨y, hy⟩ := Option.isSome_iff_exists.1 (hG i h5)
    refine ⟨h5, ?_⟩
    rw [hy] at hx ⊢
    exact congrArg some hx
  rcases (show off = 0 ∨ off = 1 by omega) with rfl | rfl
  · exact key G n (fun i hi => h2 i (Nat.zero_le _) hi) h
  · cases n with
    | zero => simp at h
    | succ n =>
      rw [List.range_succ_eq_map, List.filterMap_cons, h1 rfl, List.filterMap_map] at h
      obtain ⟨a, b⟩ := key (G ∘ Nat.succ) n (fun i hi => h2 (i + 1) (by omega) (by omega)) h
      exact ⟨by omega, b⟩

theorem mod2 {a n : Nat} (h : a < 2 * n) : a % n = if a < n then a else a - n := by
  split
  · next h1 => exact Nat.mod_eq_of_lt h1
  · next h1 => rw [Nat.mod_eq_sub_mod (show a ≥ n by omega), Nat.mod_eq_of_lt (show a - n < n by omega)]

theorem sendSb_eq {phase n sr i : Nat} (hp : 0 < phase) (hn : n ∣ W₆₄) : sendSb phase sr n i = (sr + i) % n := by
  rw [sendSb, if_pos hp, Nat.mod_mod_of_dvd _ hn]

theorem recvSb_any {phase n dr i : Nat} (hp : 0 < phase) (hn : n ∣ W₆₄) (hd : dr < W₆₄) (hi : i < n) : recvSb phase dr n i = (dr + n - i) % n := by
  rw [recvSb, if_pos hp]
  obtain ⟨k, hk⟩ := hn
  have hn64 : n ≤ W₆₄ := by
    rw [hk]
    rcases Nat.eq_zero_or_pos k with h0 | h0
    · subst h0
      rw [Nat.mul_zero] at hk
      omega
    · exact Nat.le_mul_of_pos_right n h0
  rcases Nat.lt_or_ge dr i with h | h
  · have e : toIdx ((dr : Int) - i) = W₆₄ - (i - dr) := by
      simp only [toIdx]
      omega
    rw [e]
    have e2 : W₆₄ - (i - dr) = (dr + n - i) + n * (k - 1) := by
      have hk1 : 1 ≤ k := by
        rcases Nat.eq_zero_or_pos k with h0 | h0
        · subst h0
          rw [Nat.mul_zero] at hk
          omega
        · exact h0
      have : n * k = n * (k - 1) + n := by
        have := Nat.mul_add n (k - 1) 1
        rw [Nat.sub_add_cancel hk1, Nat.mul_one] at this
        exact this
      omega
    rw [e2, Nat.add_mul_mod_self_left]
  · have e : toIdx ((dr : Int) - i) = dr - i := by
      simp only [toIdx]
      omega
    rw [e, show dr + n - i = (dr - i) + n by omega, Nat.add_mod_right]

theorem recvSb_eq {phase n dr i : Nat} (hp : 0 < phase) (hn : n ∣ W₆₄) (hd : dr < n) (hi : i < n) : recvSb phase dr n i = (dr + n - i) % n :=
  recvSb_any hp hn (Nat.lt_of_lt_of_le hd (Nat.le_of_dvd (by decide) hn)) hi

section
variable {A : Nat → Nat → V} {np rows cols n : Nat} {S D : List Nat} {src init : Nat → List V}

/-- a process that sends and receives skips the first phase -/
def skip (S D : List Nat) (p : Nat) : Nat := if (rankOf S p).isSome && (rankOf D p).isSome then 1 else 0

theorem skip_le (S D : List Nat) (p : Nat) : skip S D p ≤ 1 := by unfold skip; split <;> omega

theorem skip_some {S D : List Nat} {p a b : Nat} (h : rankOf S p = some a) (h' : rankOf D p = some b) : skip S D p = 1 := by simp [skip, h, h']

theorem skip_one {S D : List Nat} {p : Nat} (h : skip S D p = 1) : ∃ a b, rankOf S p = some a ∧ rankOf D p = some b := by
  unfold skip at h
  split at h
  · next h1 =>
    rw [Bool.and_eq_true] at h1
    obtain ⟨a, ha⟩ := Option.isSome_iff_exists.1 h1.1
    obtain ⟨b, hb⟩ := Option.isSome_iff_exists.1 h1.2
    exact ⟨a, b, ha, hb⟩
  · omega

theorem sends_at (hD : D.Nodup) (hSl : S.length = n) (hDl : D.length = n) (hn : n ∣ W₆₄)
    (heq : ∀ p sr dr, rankOf S p = some sr → rankOf D p = some dr → sr = dr) {opt : Bool} {p i : Nat} {q : Req}
    (h : (reqs (sends opt 2 rows cols S D p))[i]? = some q) :
    ∃ sr, rankOf S p = some sr ∧ i + skip S D p < n ∧ q.peer = D.getD ((sr + (i + skip S D p)) % n) 0 := by
  rw [reqs_getElem?] at h
  obtain ⟨x, hx, rfl⟩ := Option.map_eq_some_iff.1 h
  unfold sends at hx
  cases hs : rankOf S p with
  | none => rw [hs] at hx; simp at hx
  | some sr =>
    rw [hs] at hx
    have hsr := (rank_lt hs).1
    rw [hSl] at hsr
    have hpos : 0 < n := by omega
    dsimp only at hx
    rw [List.filterMap_map, hDl] at hx
    obtain ⟨h1, h2⟩ := filterMap_shift (skip_le S D p) (by
      intro h
      obtain ⟨a, b, ha, hb⟩ := skip_one h
      rw [hs] at ha
      cases ha
      have := heq p sr b hs hb
      subst this
      have e := (rank_lt hb).2
      rw [Function.comp_apply, sendSb_eq (by omega) hn, Nat.add_zero, Nat.mod_eq_of_lt hsr, e, if_neg (fun h => h rfl)]) (by
      intro j hj hjn
      rw [Function.comp_apply, sendSb_eq (by omega) hn, if_pos]
      · rfl
      · intro hp
        have hr : rankOf D p = some ((sr + j) % n) := by
          rw [← hp]
          exact rank_getD hD (by rw [hDl]; exact Nat.mod_lt _ hpos)
        have e := heq p _ _ hs hr
        rw [skip_some hs hr] at hj
        rw [mod2 (show sr + j < 2 * n by omega)] at e
        split at e <;> omega) hx
    refine ⟨sr, rfl, h1, ?_⟩
    rw [Function.comp_apply, sendSb_eq (by omega) hn] at h2
    split at h2
    · cases h2; rfl
    · cases h2

theorem recvs_at (hS : S.Nodup) (hSl : S.length = n) (hDl : D.length = n) (hn : n ∣ W₆₄)
    (heq : ∀ p sr dr, rankOf S p = some sr → rankOf D p = some dr → sr = dr) {col opt : Bool} {p i : Nat} {q : Req}
    (h : (reqs (recvs col opt 2 rows cols S D p))[i]? = some q) :
    ∃ dr, rankOf D p = some dr ∧ i + skip S D p < n ∧ q.peer = S.getD ((dr + n - (i + skip S D p)) % n) 0 := by
  rw [reqs_getElem?] at h
  obtain ⟨x, hx, rfl⟩ := Option.map_eq_some_iff.1 h
  unfold recvs at hx
  cases hd : rankOf D p with
  | none => rw [hd] at hx; simp at hx
  | some dr =>
    rw [hd] at hx
    have hdr := (rank_lt hd).1
    rw [hDl] at hdr
    have hpos : 0 < n := by omega
    dsimp only at hx
    rw [List.filterMap_map, hSl] at hx
    obtain ⟨h1, h2⟩ := filterMap_shift (skip_le S D p) (by
      intro h
      obtain ⟨a, b, ha, hb⟩ := skip_one h
      rw [hd] at hb
      cases hb
      have := heq p a dr ha hd
      subst this
      have e := (rank_lt ha).2
      rw [Function.comp_apply, recvSb_eq (by omega) hn hdr hpos, Nat.sub_zero, Nat.add_mod_right, Nat.mod_eq_of_lt hdr, e, if_neg (fun h => h rfl)]) (by
      intro j hj hjn
      rw [Function.comp_apply, recvSb_eq (by omega) hn hdr hjn, if_pos]
      · rfl
      · intro hp
        have hr : rankOf S p = some ((dr + n - j) % n) := by
          rw [← hp]
          exact rank_getD hS (by rw [hSl]; exact Nat.mod_lt _ hpos)
        have e := heq p _ _ hr hd
        rw [skip_some hr hd] at hj
        rw [mod2 (show dr + n - j < 2 * n by omega)] at e
        split at e <;> omega) hx
    refine ⟨dr, rfl, h1, ?_⟩
    rw [Function.comp_apply, recvSb_eq (by omega) hn hdr h1] at h2
    split at h2
    · cases h2; rfl
    · cases h2

/-- the phases of a process -/
def phases (col opt : Bool) (rows cols : Nat) (S D : List Nat) (p : Nat) : List Phase :=
  (List.range (max (sends opt 2 rows cols S D p).length (recvs col opt 2 rows cols S D p).length)).map fun i =>
    (i + skip S D p, (reqs (sends opt 2 rows cols S D p))[i]?, (reqs (recvs col opt 2 rows cols S D p))[i]?)

theorem lt_of_getElem? {α : Type} {l : List α} {i : Nat} {x : α} (h : l[i]? = some x) : i < l.length := (List.getElem?_eq_some_iff.1 h).1

theorem phases_snd (col opt : Bool) (rows cols : Nat) (S D : List Nat) (p : Nat) :
    ((phases col opt rows cols S D p).flatMap phaseIns : List (Nat × Ins V)).map Prod.snd =
    (List.range (max (sends opt 2 rows cols S D p).length (recvs col opt 2 rows cols S D p).length)).flatMap fun i =>
      startS (sends opt 2 rows cols S D p) i ++ startR (recvs col opt 2 rows cols S D p) i ++
        (if i < (sends opt 2 rows cols S D p).length then [.waitS i] else []) ++ (if i < (recvs col opt 2 rows cols S D p).length then [.waitR i] else []) := by
  have hw : ∀ (l : List Msg) (i : Nat) (f : Nat → Ins V), ((reqs l)[i]?.toList.map fun q => f q.slot) = if i < l.length then [f i] else [] := by
    intro l i f
    rw [reqs_getElem?]
    split
    · next h => rw [List.getElem?_eq_getElem h]; rfl
    · next h => rw [List.getElem?_eq_none (by omega)]; rfl
  rw [phases, List.flatMap_map, List.map_flatMap]
  apply flatMap_cong
  intro i _
  simp only [phaseIns, List.map_append, List.map_map, startS_reqs, startR_reqs]
  rw [← hw _ i fun j => .waitS j, ← hw _ i fun j => .waitR j]
  rfl

theorem phase2 (hn : n ∣ W₆₄) : (∀ sr, sr < n → Order n (sendSb 2 sr n)) ∧ ∀ dr, dr < n → Order n (recvSb 2 dr n) := by
  constructor
  · intro sr hsr
    refine ⟨fun i hi => ?_, fun i j hi hj h => ?_⟩
    · rw [sendSb_eq (by omega) hn]
      exact Nat.mod_lt _ (by omega)
    · rw [sendSb_eq (by omega) hn, sendSb_eq (by omega) hn, mod2 (by omega), mod2 (by omega)] at h
      split at h <;> split at h <;> omega
  · intro dr hdr
    refine ⟨fun i hi => ?_, fun i j hi hj h => ?_⟩
    · rw [recvSb_eq (by omega) hn hdr hi]
      exact Nat.mod_lt _ (by omega)
    · rw [recvSb_eq (by omega) hn hdr hi, recvSb_eq (by omega) hn hdr hj, mod2 (by omega), mod2 (by omega)] at h
      split at h <;> split at h <;> omega

variable (col opt : Bool) (copyLocal : Bool) (hS : S.Nodup) (hD : D.Nodup) (hSn : ∀ p ∈ S, p < np) (hDn : ∀ p ∈ D, p < np)
    (hr : rows / S.length * S.length = rows) (hc : cols / D.length * D.length = cols)
    (hsrc : ∀ p s, rankOf S p = some s → IsSource A (rows / S.length) cols s (src p))
    (heq : ∀ p sr dr, rankOf S p = some sr → rankOf D p = some dr → sr = dr)
    (hoS : ∀ sr, sr < S.length → Order D.length (sendSb 2 sr D.length)) (hoR : ∀ dr, dr < D.length → Order S.length (recvSb 2 dr S.length))
    (hSl : S.length = n) (hDl : D.length = n) (hn : n ∣ W₆₄)

/-- the body of the program in phases -/
def setBody : Body np src (NN (rankOf D) init (rows * (cols / D.length))) (TT A col rows (cols / D.length) (rankOf D)) :=
  (setPat (init := init) col opt copyLocal 2 hS hD hSn hDn hr hc hsrc heq hoS hoR).bodyC (phases col opt rows cols S D) n
    (fun p x hx => by
      obtain ⟨i, hi, rfl⟩ := List.mem_map.1 hx
      rw [List.mem_range] at hi
      dsimp only
      rcases (show i < (sends opt 2 rows cols S D p).length ∨ i < (recvs col opt 2 rows cols S D p).length by omega) with h | h
      · rw [← reqs_length] at h
        exact (sends_at hD hSl hDl hn heq (List.getElem?_eq_getElem h)).choose_spec.2.1
      · rw [← reqs_length] at h
        exact (recvs_at hS hSl hDl hn heq (List.getElem?_eq_getElem h)).choose_spec.2.1)
    (fun p => by
      rw [phases, List.pairwise_map]
      exact List.pairwise_lt_range.imp fun h => by dsimp only; omega)
    (fun p => by
      rw [phases, List.filterMap_map]
      exact range_getElem? _ _ (by rw [reqs_length]; omega))
    (fun p => by
      rw [phases, List.filterMap_map]
      exact range_getElem? _ _ (by rw [reqs_length]; omega))
    (fun p hp => by
      obtain ⟨h1, h2, _⟩ := (setPat (init := init) col opt copyLocal 2 hS hD hSn hDn hr hc hsrc heq hoS hoR).out p hp
      have h3 := congrArg List.length h1
      have h4 := congrArg List.length h2
      change (reqs _).length = 0 at h3 h4
      rw [reqs_length] at h3 h4
      rw [phases, h3, h4]
      rfl)
    (fun p x q hx hq q' hq' hp' => by
      obtain ⟨i, hi, rfl⟩ := List.mem_map.1 hx
      obtain ⟨sr, e1, e2, e3⟩ := sends_at hD hSl hDl hn heq hq
      obtain ⟨j, hj⟩ := List.mem_iff_getElem?.1 hq'
      change (reqs (recvs col opt 2 rows cols S D q.peer))[j]? = some q' at hj
      obtain ⟨dr, f1, f2, f3⟩ := recvs_at hS hSl hDl hn heq hj
      have hlj := lt_of_getElem? hj
      rw [reqs_length] at hlj
      refine ⟨_, List.mem_map.2 ⟨j, List.mem_range.2 (by omega), rfl⟩, hj, ?_⟩
      dsimp only
      have hsr := (rank_lt e1).1
      have hdr := (rank_lt f1).1
      rw [hSl] at hsr
      rw [hDl] at hdr
      have g1 : dr = (sr + (i + skip S D p)) % n := by
        have := rank_getD hD (i := (sr + (i + skip S D p)) % n) (by rw [hDl]; exact Nat.mod_lt _ (by omega))
        rw [← e3, f1] at this
        exact Option.some.inj this
      have g2 : sr = (dr + n - (j + skip S D q.peer)) % n := by
        have := rank_getD hS (i := (dr + n - (j + skip S D q.peer)) % n) (by rw [hSl]; exact Nat.mod_lt _ (by omega))
        rw [← f3, hp', e1] at this
        exact Option.some.inj this
      rw [mod2 (by omega)] at g1 g2
      split at g1 <;> split at g2 <;> omega)
    (fun p x q hx hq q' hq' hp' => by
      obtain ⟨i, hi, rfl⟩ := List.mem_map.1 hx
      obtain ⟨dr, f1, f2, f3⟩ := recvs_at hS hSl hDl hn heq hq
      obtain ⟨j, hj⟩ := List.mem_iff_getElem?.1 hq'
      change (reqs (sends opt 2 rows cols S D q.peer))[j]? = some q' at hj
      obtain ⟨sr, e1, e2, e3⟩ := sends_at hD hSl hDl hn heq hj
      have hlj := lt_of_getElem? hj
      rw [reqs_length] at hlj
      refine ⟨_, List.mem_map.2 ⟨j, List.mem_range.2 (by omega), rfl⟩, hj, ?_⟩
      dsimp only
      have hsr := (rank_lt e1).1
      have hdr := (rank_lt f1).1
      rw [hSl] at hsr
      rw [hDl] at hdr
      have g1 : dr = (sr + (j + skip S D q.peer)) % n := by
        have := rank_getD hD (i := (sr + (j + skip S D q.peer)) % n) (by rw [hDl]; exact Nat.mod_lt _ (by omega))
        rw [← e3, hp', f1] at this
        exact Option.some.inj this
      have g2 : sr = (dr + n - (i + skip S D p)) % n := by
        have := rank_getD hS (i := (dr + n - (i + skip S D p)) % n) (by rw [hSl]; exact Nat.mod_lt _ (by omega))
        rw [← f3, e1] at this
        exact Option.some.inj this
      rw [mod2 (by omega)] at g1 g2
      split at g1 <;> split at g2 <;> omega)

include hS hD hSn hDn hr hc hsrc heq hSl hDl hn

/-- phase by phase -/
theorem set_phases {L : Nat} (hL : 1 ≤ L) (hinit : ∀ p d, rankOf D p = some d → (init p).length = rows * (cols / D.length)) :
    Works np (fun p => persistentXLoop col opt copyLocal 2 rows cols S D L p) src init
      fun mem => ∀ p d, rankOf D p = some d → IsDest A col rows (cols / D.length) d (mem p) := by
  have hoS : ∀ sr, sr < S.length → Order D.length (sendSb 2 sr D.length) := by rw [hSl, hDl]; exact (phase2 hn).1
  have hoR : ∀ dr, dr < D.length → Order S.length (recvSb 2 dr S.length) := by rw [hSl, hDl]; exact (phase2 hn).2
  have P := finish (setBody (init := init) col opt copyLocal hS hD hSn hDn hr hc hsrc heq hoS hoR hSl hDl hn)
    (setTail (np := np) (init := init) col copyLocal hSn hr hc hsrc heq) hL hinit
    (set_cov col opt copyLocal hS hD hSn hDn hr hc hsrc heq hoS hoR _ (by
      intro p q h
      obtain ⟨j, hj⟩ := List.mem_iff_getElem?.1 h
      change (reqs (recvs col opt 2 rows cols S D p))[j]? = some q at hj
      have hlj := lt_of_getElem? hj
      rw [reqs_length] at hlj
      have hm : (j + skip S D p, (reqs (sends opt 2 rows cols S D p))[j]?, (reqs (recvs col opt 2 rows cols S D p))[j]?) ∈ phases col opt rows cols S D p :=
        List.mem_map.2 ⟨j, List.mem_range.2 (by omega), rfl⟩
      refine ⟨2 * (j + skip S D p), 2 * (j + skip S D p) + 1, ?_, ?_⟩ <;>
        refine List.mem_append.2 (.inl (List.mem_flatMap.2 ⟨_, hm, ?_⟩)) <;>
        simp only [phaseIns, List.mem_append, List.mem_map, Option.mem_toList]
      · exact .inl (.inl (.inr ⟨q, hj, rfl⟩))
      · exact .inr ⟨q, hj, rfl⟩) (by
      intro p i h
      exact ⟨2 * n, List.mem_append.2 (.inr (List.mem_map.2 ⟨i, h, rfl⟩))⟩))
  have e : (fun p => persistentXLoop col opt copyLocal 2 rows cols S D L p) = loopProg
      (setBody (init := init) col opt copyLocal hS hD hSn hDn hr hc hsrc heq hoS hoR hSl hDl hn)
      (setTail (np := np) (init := init) col copyLocal hSn hr hc hsrc heq) L := by
    funext p
    rw [loopProg, persistentXLoop]
    congr 1
    rw [calls]
    apply flatMap_cong
    intro _ _
    show _ = List.map Prod.snd ((phases col opt rows cols S D p).flatMap phaseIns ++ List.map _ _)
    rw [List.map_append, phases_snd, List.map_map]
    simp only [persistentX, if_true]
    congr 1
    exact (List.map_id _).symm
  rw [e]
  exact P

end

end Verif.Turn
