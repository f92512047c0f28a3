import Verif.Turn.Loop
import Mathlib.Data.List.Nodup
import Mathlib.Data.List.Count
/-!
Communications given by the requests of each process, in the three shapes of the programs.
-/
namespace Verif.Turn

variable {V : Type}

/-- a request -/
structure Req where
  slot : Nat
  peer : Nat
  off : Nat
  count : Nat
  t : DType

/-- start it as a send -/
def Req.s (q : Req) : Ins V := .isend q.slot q.peer q.off q.count q.t

/-- start it as a receive -/
def Req.r (q : Req) : Ins V := .irecv q.slot q.peer q.off q.count q.t

def reqS : Ins V → Option Req
  | .isend a b c d e => some ⟨a, b, c, d, e⟩
  | _ => none

def reqR : Ins V → Option Req
  | .irecv a b c d e => some ⟨a, b, c, d, e⟩
  | _ => none

theorem sentTo_req (d : Nat) : ∀ l : List (Ins V), sentTo d l = ((l.filterMap reqS).map Req.peer).count d
  | [] => rfl
  | i :: l => by
    rw [sentTo_cons, sentTo_req d l]
    cases i <;> simp [sentTo, reqS, List.filterMap_cons, List.count_cons, Nat.add_comm]

theorem recvdFrom_req (d : Nat) : ∀ l : List (Ins V), recvdFrom d l = ((l.filterMap reqR).map Req.peer).count d
  | [] => rfl
  | i :: l => by
    rw [recvdFrom_cons, recvdFrom_req d l]
    cases i <;> simp [recvdFrom, reqR, List.filterMap_cons, List.count_cons, Nat.add_comm]

theorem slotS_req (d : Nat) : ∀ l : List (Ins V), slotS d l = ((l.filterMap reqS).map Req.slot).count d
  | [] => rfl
  | i :: l => by
    rw [slotS_cons, slotS_req d l]
    cases i <;> simp [slotS, reqS, List.filterMap_cons, List.count_cons, Nat.add_comm]

theorem slotR_req (d : Nat) : ∀ l : List (Ins V), slotR d l = ((l.filterMap reqR).map Req.slot).count d
  | [] => rfl
  | i :: l => by
    rw [slotR_cons, slotR_req d l]
    cases i <;> simp [slotR, reqR, List.filterMap_cons, List.count_cons, Nat.add_comm]

/-- the requests of all processes, which match and carry the right data; copies within a process -/
structure Pat (np : Nat) (src : Nat → List V) (N : Nat → Nat) (T : Nat → Nat → V) where
  ss : Nat → List Req
  rs : Nat → List Req
  mid : Nat → List (Ins V)
  out : ∀ p, np ≤ p → ss p = [] ∧ rs p = [] ∧ mid p = []
  slotS : ∀ p, ((ss p).map Req.slot).Nodup
  slotR : ∀ p, ((rs p).map Req.slot).Nodup
  peerS : ∀ p, ((ss p).map Req.peer).Nodup
  peerR : ∀ p, ((rs p).map Req.peer).Nodup
  mS : ∀ p, ∀ q ∈ ss p, ∃ q' ∈ rs q.peer, q'.peer = p
  mR : ∀ p, ∀ q ∈ rs p, ∃ q' ∈ ss q.peer, q'.peer = p ∧ ∃ data, pack (src q.peer) q'.off q'.count q'.t = some data ∧
    (places q.off q.count q.t).length = data.length ∧ RightW (N p) (T p) ((places q.off q.count q.t).zip data)
  hC : ∀ p i, i ∈ mid p → ∃ f ws, i = .copy f ∧ (∀ m : List V, m.length = N p → f (src p) m = stores m ws) ∧ RightW (N p) (T p) ws

section
variable {np : Nat} {src : Nat → List V} {N : Nat → Nat} {T : Nat → Nat → V}

/-- a program of these requests -/
def Pat.body (P : Pat np src N T) (lb : Nat → List (Nat × Ins V)) (M : Nat) (hnp : ∀ p, np ≤ p → lb p = [])
    (sorted : ∀ p, (lb p).Pairwise fun x y => x.1 ≤ y.1) (lt : ∀ p, ∀ x ∈ lb p, x.1 < M)
    (hs : ∀ p, ((lb p).map Prod.snd).filterMap reqS = P.ss p) (hr : ∀ p, ((lb p).map Prod.snd).filterMap reqR = P.rs p)
    (hS : ∀ p a t slot b, lb p = a ++ (t, .waitS slot) :: b → ∃ q ∈ P.ss p, q.slot = slot ∧ (∃ t1, (t1, q.s) ∈ a) ∧
      ∀ q' ∈ P.rs q.peer, q'.peer = p → ∃ t', t' < t ∧ (t', q'.r) ∈ lb q.peer)
    (hR : ∀ p a t slot b, lb p = a ++ (t, .waitR slot) :: b → ∃ q ∈ P.rs p, q.slot = slot ∧ (∃ t1, (t1, q.r) ∈ a) ∧
      ∀ q' ∈ P.ss q.peer, q'.peer = p → ∃ t', t' < t ∧ (t', q'.s) ∈ lb q.peer)
    (hC : ∀ p t f, (t, .copy f) ∈ lb p → .copy f ∈ P.mid p) : Body np src N T where
  lb := lb
  M := M
  hnp := hnp
  sorted := sorted
  lt := lt
  cS p d := by rw [sentTo_req, hs]; exact List.nodup_iff_count_le_one.1 (P.peerS p) d
  cR p d := by rw [recvdFrom_req, hr]; exact List.nodup_iff_count_le_one.1 (P.peerR p) d
  sS p d := by rw [slotS_req, hs]; exact List.nodup_iff_count_le_one.1 (P.slotS p) d
  sR p d := by rw [slotR_req, hr]; exact List.nodup_iff_count_le_one.1 (P.slotR p) d
  hS p a t slot b h := by
    obtain ⟨q, hq, rfl, ⟨t1, h1⟩, h2⟩ := hS p a t slot b h
    obtain ⟨q', hq', h3⟩ := P.mS p q hq
    obtain ⟨t', ht, h4⟩ := h2 q' hq' h3
    subst h3
    exact ⟨t1, q.peer, q.off, q.count, q.t, h1, t', q'.slot, q'.off, q'.count, q'.t, h4, ht⟩
  hR p a t slot b h := by
    obtain ⟨q, hq, rfl, ⟨t1, h1⟩, h2⟩ := hR p a t slot b h
    obtain ⟨q', hq', h3, data, h5, h6, h7⟩ := P.mR p q hq
    obtain ⟨t', ht, h4⟩ := h2 q' hq' h3
    subst h3
    exact ⟨t1, q.peer, q.off, q.count, q.t, h1, t', q'.slot, q'.off, q'.count, q'.t, h4, ht, data, h5, h6, h7⟩
  hC p t f h := by
    obtain ⟨f', ws, h1, h2⟩ := P.hC p _ (hC p t f h)
    cases h1
    exact ⟨ws, h2⟩

theorem filterMap_nil {α β : Type} {f : α → Option β} {l : List α} (h : ∀ x ∈ l, f x = none) : l.filterMap f = [] := by
  rw [List.filterMap_eq_nil_iff]; exact h

theorem filterMap_reqS (l : List Req) : (l.map (Req.s : Req → Ins V)).filterMap reqS = l := by
  rw [List.filterMap_map]
  exact (List.filterMap_congr (fun x _ => rfl)).trans (List.filterMap_some)

theorem filterMap_reqR (l : List Req) : (l.map (Req.r : Req → Ins V)).filterMap reqR = l := by
  rw [List.filterMap_map]
  exact (List.filterMap_congr (fun x _ => rfl)).trans (List.filterMap_some)

theorem mid_copy (P : Pat np src N T) {p : Nat} {i : Ins V} (h : i ∈ P.mid p) : ∃ f, i = .copy f := by
  obtain ⟨f, _, h1, _⟩ := P.hC p i h
  exact ⟨f, h1⟩

/-- all sends, the copy, the receives one by one, then the ends of the sends -/
def Pat.lbA (P : Pat np src N T) (p : Nat) : List (Nat × Ins V) :=
  (P.ss p).map (fun q => (0, q.s)) ++ (P.mid p).map (fun i => (0, i)) ++
  (P.rs p).flatMap (fun q => [(1, q.r), (1, .waitR q.slot)]) ++ (P.ss p).map (fun q => (2, .waitS q.slot))

theorem fm_recv (l : List Req) : (l.flatMap fun q => [(Req.r q : Ins V), .waitR q.slot]).filterMap reqR = l := by
  induction l with
  | nil => rfl
  | cons q l ih =>
    rw [List.flatMap_cons, List.filterMap_append, ih]
    rfl

theorem lbA_snd (P : Pat np src N T) (p : Nat) : (P.lbA p).map Prod.snd = (P.ss p).map Req.s ++ P.mid p ++
    (P.rs p).flatMap (fun q => [q.r, .waitR q.slot]) ++ (P.ss p).map (fun q => .waitS q.slot) := by
  have e : ((P.mid p).map (fun i => (0, i))).map Prod.snd = P.mid p := by
    rw [List.map_map]; exact List.map_id _
  simp only [Pat.lbA, List.map_append, List.map_flatMap, e]
  simp only [List.map_map]
  rfl

/-- the first shape -/
def Pat.bodyA (P : Pat np src N T) : Body np src N T :=
  P.body P.lbA 3
    (fun p hp => by obtain ⟨h1, h2, h3⟩ := P.out p hp; simp [Pat.lbA, h1, h2, h3])
    (fun p => by
      unfold Pat.lbA
      rw [List.pairwise_append, List.pairwise_append, List.pairwise_append]
      refine ⟨⟨⟨?_, ?_, ?_⟩, ?_, ?_⟩, ?_, ?_⟩
      · rw [List.pairwise_map]; exact List.pairwise_of_forall (fun _ _ => Nat.le_refl _)
      · rw [List.pairwise_map]; exact List.pairwise_of_forall (fun _ _ => Nat.le_refl _)
      · intro x hx y hy
        obtain ⟨_, _, rfl⟩ := List.mem_map.1 hx
        exact Nat.zero_le _
      · refine (List.pairwise_of_forall (R := fun _ _ => True) (fun _ _ => trivial)).imp_of_mem ?_
        intro a b ha hb _
        have hone : ∀ z ∈ (P.rs p).flatMap (fun q => [(1, (q.r : Ins V)), (1, .waitR q.slot)]), z.1 = 1 := by
          intro z hz
          obtain ⟨q, _, hq⟩ := List.mem_flatMap.1 hz
          simp at hq
          rcases hq with rfl | rfl <;> rfl
        exact Nat.le_of_eq ((hone a ha).trans (hone b hb).symm)
      · intro x hx y hy
        rcases List.mem_append.1 hx with hx | hx <;> obtain ⟨_, _, rfl⟩ := List.mem_map.1 hx <;> exact Nat.zero_le _
      · rw [List.pairwise_map]; exact List.pairwise_of_forall (fun _ _ => Nat.le_refl _)
      · intro x hx y hy
        obtain ⟨_, _, rfl⟩ := List.mem_map.1 hy
        rcases List.mem_append.1 hx with hx | hx
        · rcases List.mem_append.1 hx with hx | hx <;> obtain ⟨_, _, rfl⟩ := List.mem_map.1 hx <;> exact Nat.zero_le _
        · obtain ⟨q, _, hq⟩ := List.mem_flatMap.1 hx
          simp at hq
          rcases hq with rfl | rfl <;> simp)
    (fun p x hx => by
      simp only [Pat.lbA, List.mem_append, List.mem_map, List.mem_flatMap] at hx
      rcases hx with ((⟨_, _, rfl⟩ | ⟨_, _, rfl⟩) | ⟨q, _, hq⟩) | ⟨_, _, rfl⟩
      · simp
      · simp
      · simp at hq
        rcases hq with rfl | rfl <;> simp
      · simp)
    (fun p => by
      rw [lbA_snd, List.filterMap_append, List.filterMap_append, List.filterMap_append, filterMap_reqS,
        filterMap_nil (l := P.mid p), filterMap_nil (l := (P.rs p).flatMap _), filterMap_nil (l := (P.ss p).map _)]
      · simp
      · intro x hx
        obtain ⟨_, _, rfl⟩ := List.mem_map.1 hx
        rfl
      · intro x hx
        obtain ⟨q, _, hq⟩ := List.mem_flatMap.1 hx
        simp at hq
        rcases hq with rfl | rfl <;> rfl
      · intro x hx
        obtain ⟨f, rfl⟩ := mid_copy P hx
        rfl)
    (fun p => by
      rw [lbA_snd, List.filterMap_append, List.filterMap_append, List.filterMap_append, fm_recv,
        filterMap_nil (l := P.mid p), filterMap_nil (l := (P.ss p).map Req.s), filterMap_nil (l := (P.ss p).map _)]
      · simp
      · intro x hx
        obtain ⟨_, _, rfl⟩ := List.mem_map.1 hx
        rfl
      · intro x hx
        obtain ⟨_, _, rfl⟩ := List.mem_map.1 hx
        rfl
      · intro x hx
        obtain ⟨f, rfl⟩ := mid_copy P hx
        rfl)
    (fun p a t slot b h => by
      rcases dec_append h with ⟨b', h1, _⟩ | ⟨a', h1, h2⟩
      · exfalso
        have : (t, (Ins.waitS slot : Ins V)) ∈ (P.ss p).map (fun q => (0, q.s)) ++ (P.mid p).map (fun i => (0, i)) ++
            (P.rs p).flatMap (fun q => [(1, q.r), (1, .waitR q.slot)]) := by rw [h1]; simp
        simp only [List.mem_append, List.mem_map, List.mem_flatMap] at this
        rcases this with (⟨_, _, h⟩ | ⟨i, hi, h⟩) | ⟨q, _, hq⟩
        · cases h
        · obtain ⟨f, rfl⟩ := mid_copy P hi
          cases h
        · simp [Req.r] at hq
      · obtain ⟨u, q, v, e1, _, e3, _⟩ := dec_map h1
        cases e3
        refine ⟨q, by rw [e1]; simp, rfl, ⟨0, ?_⟩, ?_⟩
        · rw [h2]
          simp only [List.mem_append, List.mem_map]
          exact .inl (.inl (.inl ⟨q, by rw [e1]; simp, rfl⟩))
        · intro q' hq' _
          refine ⟨1, by omega, ?_⟩
          simp only [Pat.lbA, List.mem_append, List.mem_flatMap]
          exact .inl (.inr ⟨q', hq', by simp⟩))
    (fun p a t slot b h => by
      rcases dec_append h with ⟨b', h1, _⟩ | ⟨a', h1, h2⟩
      · rcases dec_append h1 with ⟨b'', h3, _⟩ | ⟨a', h3, h4⟩
        · exfalso
          have : (t, (Ins.waitR slot : Ins V)) ∈ (P.ss p).map (fun q => (0, q.s)) ++ (P.mid p).map (fun i => (0, i)) := by rw [h3]; simp
          simp only [List.mem_append, List.mem_map] at this
          rcases this with (⟨_, _, h⟩ | ⟨i, hi, h⟩)
          · cases h
          · obtain ⟨f, rfl⟩ := mid_copy P hi
            cases h
        · -- the receive is just before
          have key : ∀ (l : List Req) (a' b' : List (Nat × Ins V)), (l.flatMap fun q => [(1, (q.r : Ins V)), (1, .waitR q.slot)]) = a' ++ (t, .waitR slot) :: b' →
              ∃ q ∈ l, q.slot = slot ∧ t = 1 ∧ (1, q.r) ∈ a' := by
            intro l
            induction l with
            | nil => intro a' b' h; simp at h
            | cons q l ih =>
              intro a' b' h
              rw [List.flatMap_cons] at h
              rcases dec_append h with ⟨b2, e1, _⟩ | ⟨a2, e1, e2⟩
              · match a' with
                | [] => simp [Req.r] at e1
                | [x] =>
                  simp at e1
                  obtain ⟨rfl, ⟨e2, e3⟩, _⟩ := e1
                  exact ⟨q, by simp, e3, e2.symm, by simp⟩
                | x :: y :: a'' => simp at e1
              · obtain ⟨q', hq', h1, h2, h3⟩ := ih _ _ e1
                exact ⟨q', by simp [hq'], h1, h2, by rw [e2]; simp [h3]⟩
          obtain ⟨q, hq, hsl, ht, hm⟩ := key _ _ _ h3
          refine ⟨q, hq, hsl, ⟨1, by rw [h4]; simp [hm]⟩, ?_⟩
          intro q' hq' _
          refine ⟨0, by omega, ?_⟩
          simp only [Pat.lbA, List.mem_append, List.mem_map]
          exact .inl (.inl (.inl ⟨q', hq', rfl⟩))
      · exfalso
        obtain ⟨u, q, v, e1, _, e3, _⟩ := dec_map h1
        cases e3)
    (fun p t f h => by
      simp only [Pat.lbA, List.mem_append, List.mem_map, List.mem_flatMap] at h
      rcases h with ((⟨_, _, h⟩ | ⟨i, hi, h⟩) | ⟨q, _, hq⟩) | ⟨_, _, h⟩
      · cases h
      · cases h; exact hi
      · simp [Req.r] at hq
      · cases h)

/-- all starts, the copy, then all ends -/
def Pat.lbB (P : Pat np src N T) (p : Nat) : List (Nat × Ins V) :=
  (P.ss p).map (fun q => (0, q.s)) ++ (P.rs p).map (fun q => (0, q.r)) ++ (P.mid p).map (fun i => (0, i)) ++
  (P.ss p).map (fun q => (1, .waitS q.slot)) ++ (P.rs p).map (fun q => (1, .waitR q.slot))

theorem lbB_snd (P : Pat np src N T) (p : Nat) : (P.lbB p).map Prod.snd = (P.ss p).map Req.s ++ (P.rs p).map Req.r ++ P.mid p ++
    (P.ss p).map (fun q => .waitS q.slot) ++ (P.rs p).map (fun q => .waitR q.slot) := by
  have e : ((P.mid p).map (fun i => (0, i))).map Prod.snd = P.mid p := by
    rw [List.map_map]; exact List.map_id _
  simp only [Pat.lbB, List.map_append, e]
  simp only [List.map_map]
  rfl

/-- the second shape -/
def Pat.bodyB (P : Pat np src N T) : Body np src N T :=
  P.body P.lbB 2
    (fun p hp => by obtain ⟨h1, h2, h3⟩ := P.out p hp; simp [Pat.lbB, h1, h2, h3])
    (fun p => by
      have h0 : ∀ x ∈ (P.ss p).map (fun q => (0, (q.s : Ins V))) ++ (P.rs p).map (fun q => (0, q.r)) ++ (P.mid p).map (fun i => (0, i)), x.1 = 0 := by
        intro x hx
        simp only [List.mem_append, List.mem_map] at hx
        rcases hx with (⟨_, _, rfl⟩ | ⟨_, _, rfl⟩) | ⟨_, _, rfl⟩ <;> rfl
      have h1 : ∀ x ∈ (P.ss p).map (fun q => (1, (Ins.waitS q.slot : Ins V))) ++ (P.rs p).map (fun q => (1, .waitR q.slot)), x.1 = 1 := by
        intro x hx
        simp only [List.mem_append, List.mem_map] at hx
        rcases hx with ⟨_, _, rfl⟩ | ⟨_, _, rfl⟩ <;> rfl
      unfold Pat.lbB
      rw [List.append_assoc, List.pairwise_append]
      refine ⟨?_, ?_, ?_⟩
      · refine (List.pairwise_of_forall (R := fun _ _ => True) (fun _ _ => trivial)).imp_of_mem ?_
        intro a b ha hb _
        exact Nat.le_of_eq ((h0 a ha).trans (h0 b hb).symm)
      · refine (List.pairwise_of_forall (R := fun _ _ => True) (fun _ _ => trivial)).imp_of_mem ?_
        intro a b ha hb _
        exact Nat.le_of_eq ((h1 a ha).trans (h1 b hb).symm)
      · intro a ha b hb
        rw [h0 a ha]
        exact Nat.zero_le _)
    (fun p x hx => by
      simp only [Pat.lbB, List.mem_append, List.mem_map] at hx
      rcases hx with (((⟨_, _, rfl⟩ | ⟨_, _, rfl⟩) | ⟨_, _, rfl⟩) | ⟨_, _, rfl⟩) | ⟨_, _, rfl⟩ <;> simp)
    (fun p => by
      rw [lbB_snd, List.filterMap_append, List.filterMap_append, List.filterMap_append, List.filterMap_append, filterMap_reqS,
        filterMap_nil (l := P.mid p), filterMap_nil (l := (P.rs p).map Req.r), filterMap_nil (l := (P.ss p).map _), filterMap_nil (l := (P.rs p).map _)]
      · simp
      · intro x hx
        obtain ⟨_, _, rfl⟩ := List.mem_map.1 hx
        rfl
      · intro x hx
        obtain ⟨_, _, rfl⟩ := List.mem_map.1 hx
        rfl
      · intro x hx
        obtain ⟨_, _, rfl⟩ := List.mem_map.1 hx
        rfl
      · intro x hx
        obtain ⟨f, rfl⟩ := mid_copy P hx
        rfl)
    (fun p => by
      rw [lbB_snd, List.filterMap_append, List.filterMap_append, List.filterMap_append, List.filterMap_append, filterMap_reqR,
        filterMap_nil (l := P.mid p), filterMap_nil (l := (P.ss p).map Req.s), filterMap_nil (l := (P.ss p).map _), filterMap_nil (l := (P.rs p).map _)]
      · simp
      · intro x hx
        obtain ⟨_, _, rfl⟩ := List.mem_map.1 hx
        rfl
      · intro x hx
        obtain ⟨_, _, rfl⟩ := List.mem_map.1 hx
        rfl
      · intro x hx
        obtain ⟨_, _, rfl⟩ := List.mem_map.1 hx
        rfl
      · intro x hx
        obtain ⟨f, rfl⟩ := mid_copy P hx
        rfl)
    (fun p a t slot b h => by
      unfold Pat.lbB at h
      rcases dec_append h with ⟨b', h1, _⟩ | ⟨a', h1, h2⟩
      · rcases dec_append h1 with ⟨b'', h3, _⟩ | ⟨a', h3, h4⟩
        · exfalso
          have : (t, (Ins.waitS slot : Ins V)) ∈ (P.ss p).map (fun q => (0, q.s)) ++ (P.rs p).map (fun q => (0, q.r)) ++ (P.mid p).map (fun i => (0, i)) := by
            rw [h3]; simp
          simp only [List.mem_append, List.mem_map] at this
          rcases this with (⟨_, _, h⟩ | ⟨_, _, h⟩) | ⟨i, hi, h⟩
          · cases h
          · cases h
          · obtain ⟨f, rfl⟩ := mid_copy P hi
            cases h
        · obtain ⟨u, q, v, e1, _, e3, _⟩ := dec_map h3
          cases e3
          refine ⟨q, by rw [e1]; simp, rfl, ⟨0, ?_⟩, ?_⟩
          · rw [h4]
            simp only [List.mem_append, List.mem_map]
            exact .inl (.inl (.inl ⟨q, by rw [e1]; simp, rfl⟩))
          · intro q' hq' _
            refine ⟨0, by omega, ?_⟩
            simp only [Pat.lbB, List.mem_append, List.mem_map]
            exact .inl (.inl (.inl (.inr ⟨q', hq', rfl⟩)))
      · exfalso
        obtain ⟨u, q, v, e1, _, e3, _⟩ := dec_map h1
        cases e3)
    (fun p a t slot b h => by
      unfold Pat.lbB at h
      rcases dec_append h with ⟨b', h1, _⟩ | ⟨a', h1, h2⟩
      · exfalso
        have : (t, (Ins.waitR slot : Ins V)) ∈ (P.ss p).map (fun q => (0, q.s)) ++ (P.rs p).map (fun q => (0, q.r)) ++ (P.mid p).map (fun i => (0, i)) ++
            (P.ss p).map (fun q => (1, .waitS q.slot)) := by
          rw [h1]; simp
        simp only [List.mem_append, List.mem_map] at this
        rcases this with ((⟨_, _, h⟩ | ⟨_, _, h⟩) | ⟨i, hi, h⟩) | ⟨_, _, h⟩
        · cases h
        · cases h
        · obtain ⟨f, rfl⟩ := mid_copy P hi
          cases h
        · cases h
      · obtain ⟨u, q, v, e1, _, e3, _⟩ := dec_map h1
        cases e3
        refine ⟨q, by rw [e1]; simp, rfl, ⟨0, ?_⟩, ?_⟩
        · rw [h2]
          simp only [List.mem_append, List.mem_map]
          exact .inl (.inl (.inl (.inr ⟨q, by rw [e1]; simp, rfl⟩)))
        · intro q' hq' _
          refine ⟨0, by omega, ?_⟩
          simp only [Pat.lbB, List.mem_append, List.mem_map]
          exact .inl (.inl (.inl (.inl ⟨q', hq', rfl⟩))))
    (fun p t f h => by
      simp only [Pat.lbB, List.mem_append, List.mem_map] at h
      rcases h with (((⟨_, _, h⟩ | ⟨_, _, h⟩) | ⟨i, hi, h⟩) | ⟨_, _, h⟩) | ⟨_, _, h⟩
      · cases h
      · cases h
      · cases h; exact hi
      · cases h
      · cases h)

/-- requests in phases: phase, send, receive -/
abbrev Phase := Nat × Option Req × Option Req

/-- one phase -/
def phaseIns (x : Phase) : List (Nat × Ins V) :=
  (x.2.1.toList.map fun q => (2 * x.1, q.s)) ++ (x.2.2.toList.map fun q => (2 * x.1, q.r)) ++
  (x.2.1.toList.map fun q => (2 * x.1 + 1, .waitS q.slot)) ++ (x.2.2.toList.map fun q => (2 * x.1 + 1, .waitR q.slot))

/-- phase by phase, then the copy -/
def Pat.lbC (P : Pat np src N T) (ph : Nat → List Phase) (n p : Nat) : List (Nat × Ins V) :=
  (ph p).flatMap phaseIns ++ (P.mid p).map (fun i => (2 * n, i))

theorem mem_phaseIns {x : Phase} {t : Nat} {i : Ins V} (h : (t, i) ∈ phaseIns x) :
    (∃ q, x.2.1 = some q ∧ ((t = 2 * x.1 ∧ i = q.s) ∨ (t = 2 * x.1 + 1 ∧ i = .waitS q.slot))) ∨
    (∃ q, x.2.2 = some q ∧ ((t = 2 * x.1 ∧ i = q.r) ∨ (t = 2 * x.1 + 1 ∧ i = .waitR q.slot))) := by
  simp only [phaseIns, List.mem_append, List.mem_map, Option.mem_toList, Prod.mk.injEq] at h
  rcases h with ((⟨q, hq, h1, h2⟩ | ⟨q, hq, h1, h2⟩) | ⟨q, hq, h1, h2⟩) | ⟨q, hq, h1, h2⟩
  · exact .inl ⟨q, hq, .inl ⟨h1.symm, h2.symm⟩⟩
  · exact .inr ⟨q, hq, .inl ⟨h1.symm, h2.symm⟩⟩
  · exact .inl ⟨q, hq, .inr ⟨h1.symm, h2.symm⟩⟩
  · exact .inr ⟨q, hq, .inr ⟨h1.symm, h2.symm⟩⟩

theorem phaseIns_sorted (x : Phase) : (phaseIns x : List (Nat × Ins V)).Pairwise fun a b => a.1 ≤ b.1 := by
  obtain ⟨k, a, b⟩ := x
  cases a <;> cases b <;> simp [phaseIns]

theorem fmS_phase (l : List Phase) : ((l.flatMap phaseIns : List (Nat × Ins V)).map Prod.snd).filterMap reqS = l.filterMap (fun x => x.2.1) := by
  induction l with
  | nil => rfl
  | cons x l ih =>
    rw [List.flatMap_cons, List.map_append, List.filterMap_append, ih]
    obtain ⟨k, a, b⟩ := x
    cases a <;> cases b <;> simp [phaseIns, reqS, Req.s, Req.r]

theorem fmR_phase (l : List Phase) : ((l.flatMap phaseIns : List (Nat × Ins V)).map Prod.snd).filterMap reqR = l.filterMap (fun x => x.2.2) := by
  induction l with
  | nil => rfl
  | cons x l ih =>
    rw [List.flatMap_cons, List.map_append, List.filterMap_append, ih]
    obtain ⟨k, a, b⟩ := x
    cases a <;> cases b <;> simp [phaseIns, reqR, Req.s, Req.r, List.filterMap_cons]

/-- an instruction of the phases belongs to one of them -/
theorem dec_phases : ∀ {l : List Phase} {a b : List (Nat × Ins V)} {x : Nat × Ins V}, l.flatMap phaseIns = a ++ x :: b →
    ∃ u y v a' b', l = u ++ y :: v ∧ phaseIns y = a' ++ x :: b' ∧ a = u.flatMap phaseIns ++ a'
  | [], a, b, x, h => by simp at h
  | y :: l, a, b, x, h => by
    rw [List.flatMap_cons] at h
    rcases dec_append h with ⟨b', h1, _⟩ | ⟨a', h1, h2⟩
    · exact ⟨[], y, l, a, b', rfl, h1, rfl⟩
    · obtain ⟨u, z, v, a2, b2, e1, e2, e3⟩ := dec_phases h1
      exact ⟨y :: u, z, v, a2, b2, by rw [e1]; rfl, e2, by rw [h2, e3, List.flatMap_cons, List.append_assoc]⟩

/-- the third shape: in each phase a send and its receive belong together -/
def Pat.bodyC (P : Pat np src N T) (ph : Nat → List Phase) (n : Nat) (hlt : ∀ p, ∀ x ∈ ph p, x.1 < n)
    (hord : ∀ p, (ph p).Pairwise fun x y => x.1 < y.1) (hss : ∀ p, (ph p).filterMap (fun x => x.2.1) = P.ss p)
    (hrs : ∀ p, (ph p).filterMap (fun x => x.2.2) = P.rs p) (hnp : ∀ p, np ≤ p → ph p = [])
    (hS : ∀ p x q, x ∈ ph p → x.2.1 = some q → ∀ q' ∈ P.rs q.peer, q'.peer = p → ∃ y ∈ ph q.peer, y.2.2 = some q' ∧ y.1 = x.1)
    (hR : ∀ p x q, x ∈ ph p → x.2.2 = some q → ∀ q' ∈ P.ss q.peer, q'.peer = p → ∃ y ∈ ph q.peer, y.2.1 = some q' ∧ y.1 = x.1) : Body np src N T :=
  P.body (P.lbC ph n) (2 * n + 1)
    (fun p hp => by obtain ⟨h1, h2, h3⟩ := P.out p hp; simp [Pat.lbC, h3, hnp p hp])
    (fun p => by
      unfold Pat.lbC
      rw [List.pairwise_append]
      refine ⟨?_, ?_, ?_⟩
      · rw [List.pairwise_flatMap]
        refine ⟨fun x _ => phaseIns_sorted x, (hord p).imp ?_⟩
        intro x y hxy a ha b hb
        rcases mem_phaseIns (t := a.1) (i := a.2) ha with ⟨q, _, ⟨h, _⟩ | ⟨h, _⟩⟩ | ⟨q, _, ⟨h, _⟩ | ⟨h, _⟩⟩ <;>
        rcases mem_phaseIns (t := b.1) (i := b.2) hb with ⟨q', _, ⟨h', _⟩ | ⟨h', _⟩⟩ | ⟨q', _, ⟨h', _⟩ | ⟨h', _⟩⟩ <;> omega
      · rw [List.pairwise_map]; exact List.pairwise_of_forall (fun _ _ => Nat.le_refl _)
      · intro a ha b hb
        obtain ⟨_, _, rfl⟩ := List.mem_map.1 hb
        obtain ⟨x, hx, hax⟩ := List.mem_flatMap.1 ha
        have := hlt p x hx
        rcases mem_phaseIns (t := a.1) (i := a.2) hax with ⟨q, _, ⟨h, _⟩ | ⟨h, _⟩⟩ | ⟨q, _, ⟨h, _⟩ | ⟨h, _⟩⟩ <;> dsimp only <;> omega)
    (fun p a ha => by
      rcases List.mem_append.1 ha with ha | ha
      · obtain ⟨x, hx, hax⟩ := List.mem_flatMap.1 ha
        have := hlt p x hx
        rcases mem_phaseIns (t := a.1) (i := a.2) hax with ⟨q, _, ⟨h, _⟩ | ⟨h, _⟩⟩ | ⟨q, _, ⟨h, _⟩ | ⟨h, _⟩⟩ <;> omega
      · obtain ⟨_, _, rfl⟩ := List.mem_map.1 ha
        dsimp only
        omega)
    (fun p => by
      rw [Pat.lbC, List.map_append, List.filterMap_append, fmS_phase, hss, filterMap_nil (l := ((P.mid p).map _).map _)]
      · simp
      · intro x hx
        rw [List.map_map] at hx
        obtain ⟨i, hi, rfl⟩ := List.mem_map.1 hx
        obtain ⟨f, rfl⟩ := mid_copy P hi
        rfl)
    (fun p => by
      rw [Pat.lbC, List.map_append, List.filterMap_append, fmR_phase, hrs, filterMap_nil (l := ((P.mid p).map _).map _)]
      · simp
      · intro x hx
        rw [List.map_map] at hx
        obtain ⟨i, hi, rfl⟩ := List.mem_map.1 hx
        obtain ⟨f, rfl⟩ := mid_copy P hi
        rfl)
    (fun p a t slot b h => by
      unfold Pat.lbC at h
      rcases dec_append h with ⟨b', h1, _⟩ | ⟨a', h1, h2⟩
      · obtain ⟨u, x, v, a2, b2, e1, e2, e3⟩ := dec_phases h1
        have hx : x ∈ ph p := by rw [e1]; simp
        have hm : (t, (Ins.waitS slot : Ins V)) ∈ phaseIns x := by rw [e2]; simp
        have hq : ∃ q, x.2.1 = some q ∧ t = 2 * x.1 + 1 ∧ slot = q.slot := by
          rcases mem_phaseIns hm with ⟨q, hq, ⟨_, h⟩ | ⟨h9, h'⟩⟩ | ⟨q, _, ⟨_, h⟩ | ⟨_, h⟩⟩
          · cases h
          · cases h'
            exact ⟨q, hq, h9, rfl⟩
          · cases h
          · cases h
        obtain ⟨q, hq, ht, rfl⟩ := hq
        refine ⟨q, by rw [← hss p, List.mem_filterMap]; exact ⟨x, hx, hq⟩, rfl, ⟨2 * x.1, ?_⟩, ?_⟩
        · rw [e3, List.mem_append]
          refine .inr ?_
          have h5 : (2 * x.1, (q.s : Ins V)) ∈ phaseIns x := by
            simp only [phaseIns, List.mem_append, List.mem_map, Option.mem_toList]
            exact .inl (.inl (.inl ⟨q, hq, rfl⟩))
          rw [e2] at h5
          rcases List.mem_append.1 h5 with h6 | h6
          · exact h6
          · exfalso
            have hsorted := phaseIns_sorted (V := V) x
            rw [e2, List.pairwise_append, List.pairwise_cons] at hsorted
            rcases List.mem_cons.1 h6 with h7 | h7
            · cases h7
            · have := hsorted.2.1.1 _ h7
              dsimp only at this
              omega
        · intro q' hq' hp'
          obtain ⟨y, hy, hy2, hy3⟩ := hS p x q hx hq q' hq' hp'
          refine ⟨2 * y.1, by omega, ?_⟩
          rw [Pat.lbC, List.mem_append, List.mem_flatMap]
          refine .inl ⟨y, hy, ?_⟩
          simp only [phaseIns, List.mem_append, List.mem_map, Option.mem_toList]
          exact .inl (.inl (.inr ⟨q', hy2, rfl⟩))
      · exfalso
        obtain ⟨u, i, v, e1, _, e3, _⟩ := dec_map h1
        cases e3
        obtain ⟨f, hf⟩ := mid_copy P (i := .waitS slot) (p := p) (by rw [e1]; simp)
        cases hf)
    (fun p a t slot b h => by
      unfold Pat.lbC at h
      rcases dec_append h with ⟨b', h1, _⟩ | ⟨a', h1, h2⟩
      · obtain ⟨u, x, v, a2, b2, e1, e2, e3⟩ := dec_phases h1
        have hx : x ∈ ph p := by rw [e1]; simp
        have hm : (t, (Ins.waitR slot : Ins V)) ∈ phaseIns x := by rw [e2]; simp
        have hq : ∃ q, x.2.2 = some q ∧ t = 2 * x.1 + 1 ∧ slot = q.slot := by
          rcases mem_phaseIns hm with ⟨q, _, ⟨_, h⟩ | ⟨_, h⟩⟩ | ⟨q, hq, ⟨_, h⟩ | ⟨h9, h'⟩⟩
          · cases h
          · cases h
          · cases h
          · cases h'
            exact ⟨q, hq, h9, rfl⟩
        obtain ⟨q, hq, ht, rfl⟩ := hq
        refine ⟨q, by rw [← hrs p, List.mem_filterMap]; exact ⟨x, hx, hq⟩, rfl, ⟨2 * x.1, ?_⟩, ?_⟩
        · rw [e3, List.mem_append]
          refine .inr ?_
          have h5 : (2 * x.1, (q.r : Ins V)) ∈ phaseIns x := by
            simp only [phaseIns, List.mem_append, List.mem_map, Option.mem_toList]
            exact .inl (.inl (.inr ⟨q, hq, rfl⟩))
          rw [e2] at h5
          rcases List.mem_append.1 h5 with h6 | h6
          · exact h6
          · exfalso
            have hsorted := phaseIns_sorted (V := V) x
            rw [e2, List.pairwise_append, List.pairwise_cons] at hsorted
            rcases List.mem_cons.1 h6 with h7 | h7
            · cases h7
            · have := hsorted.2.1.1 _ h7
              dsimp only at this
              omega
        · intro q' hq' hp'
          obtain ⟨y, hy, hy2, hy3⟩ := hR p x q hx hq q' hq' hp'
          refine ⟨2 * y.1, by omega, ?_⟩
          rw [Pat.lbC, List.mem_append, List.mem_flatMap]
          refine .inl ⟨y, hy, ?_⟩
          simp only [phaseIns, List.mem_append, List.mem_map, Option.mem_toList]
          exact .inl (.inl (.inl ⟨q', hy2, rfl⟩))
      · exfalso
        obtain ⟨u, i, v, e1, _, e3, _⟩ := dec_map h1
        cases e3
        obtain ⟨f, hf⟩ := mid_copy P (i := .waitR slot) (p := p) (by rw [e1]; simp)
        cases hf)
    (fun p t f h => by
      rcases List.mem_append.1 h with h | h
      · exfalso
        obtain ⟨x, _, h⟩ := List.mem_flatMap.1 h
        rcases mem_phaseIns h with ⟨q, hq, ⟨_, h⟩ | ⟨_, h⟩⟩ | ⟨q, _, ⟨_, h⟩ | ⟨_, h⟩⟩ <;> cases h
      · obtain ⟨i, hi, h⟩ := List.mem_map.1 h
        cases h
        exact hi)

end

end Verif.Turn
