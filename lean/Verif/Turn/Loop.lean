import Verif.Turn.Net
/-!
Repeated calls of a communication in which each process sends at most one message to each other.
-/
namespace Verif.Turn

variable {V : Type}

/-- sends started in a slot -/
def slotS (slot : Nat) (l : List (Ins V)) : Nat := l.countP fun | .isend sl _ _ _ _ => sl == slot | _ => false

/-- receives started in a slot -/
def slotR (slot : Nat) (l : List (Ins V)) : Nat := l.countP fun | .irecv sl _ _ _ _ => sl == slot | _ => false

theorem slotS_append (d : Nat) (a b : List (Ins V)) : slotS d (a ++ b) = slotS d a + slotS d b := List.countP_append
theorem slotR_append (d : Nat) (a b : List (Ins V)) : slotR d (a ++ b) = slotR d a + slotR d b := List.countP_append

theorem sentTo_cons (d : Nat) (i : Ins V) (l : List (Ins V)) : sentTo d (i :: l) = sentTo d [i] + sentTo d l := sentTo_append d [i] l
theorem recvdFrom_cons (d : Nat) (i : Ins V) (l : List (Ins V)) : recvdFrom d (i :: l) = recvdFrom d [i] + recvdFrom d l := recvdFrom_append d [i] l
theorem slotS_cons (d : Nat) (i : Ins V) (l : List (Ins V)) : slotS d (i :: l) = slotS d [i] + slotS d l := slotS_append d [i] l
theorem slotR_cons (d : Nat) (i : Ins V) (l : List (Ins V)) : slotR d (i :: l) = slotR d [i] + slotR d l := slotR_append d [i] l

theorem lastSend_none (slot : Nat) : ∀ l : List (Ins V), slotS slot l = 0 → lastSend slot l = none
  | [], _ => rfl
  | i :: l, h => by
    rw [slotS_cons] at h
    have e := lastSend_none slot l (by omega)
    cases i with
    | isend sl d off c t =>
      have h1 : slotS slot [(Ins.isend sl d off c t : Ins V)] = 0 := by omega
      by_cases hs : sl = slot
      · simp [slotS, hs] at h1
      · simp [lastSend, e, hs]
    | irecv => simp [lastSend, e]
    | waitS => simp [lastSend, e]
    | waitR => simp [lastSend, e]
    | copy => simp [lastSend, e]

theorem lastRecv_none (slot : Nat) : ∀ l : List (Ins V), slotR slot l = 0 → lastRecv slot l = none
  | [], _ => rfl
  | i :: l, h => by
    rw [slotR_cons] at h
    have e := lastRecv_none slot l (by omega)
    cases i with
    | irecv sl d off c t =>
      have h1 : slotR slot [(Ins.irecv sl d off c t : Ins V)] = 0 := by omega
      by_cases hs : sl = slot
      · simp [slotR, hs] at h1
      · simp [lastRecv, e, hs]
    | isend => simp [lastRecv, e]
    | waitS => simp [lastRecv, e]
    | waitR => simp [lastRecv, e]
    | copy => simp [lastRecv, e]

theorem lastSend_of (slot d off c : Nat) (t : DType) (v : List (Ins V)) (hv : slotS slot v = 0) :
    ∀ u : List (Ins V), lastSend slot (u ++ .isend slot d off c t :: v) = some (d, sentTo d u)
  | [] => by simp [lastSend, lastSend_none slot v hv, sentTo]
  | i :: u => by
    have e := lastSend_of slot d off c t v hv u
    rw [sentTo_cons, Nat.add_comm]
    cases i <;> simp only [List.cons_append, lastSend, e]

theorem lastRecv_of (slot s off c : Nat) (t : DType) (v : List (Ins V)) (hv : slotR slot v = 0) :
    ∀ u : List (Ins V), lastRecv slot (u ++ .irecv slot s off c t :: v) = some ⟨s, recvdFrom s u, off, c, t⟩
  | [] => by simp [lastRecv, lastRecv_none slot v hv, recvdFrom]
  | i :: u => by
    have e := lastRecv_of slot s off c t v hv u
    rw [recvdFrom_cons, Nat.add_comm]
    cases i <;> simp only [List.cons_append, lastRecv, e]

theorem nthSend_skip (d : Nat) (v : List (Ins V)) (j : Nat) : ∀ u : List (Ins V), nthSend d (u ++ v) (sentTo d u + j) = nthSend d v j
  | [] => by simp [sentTo]
  | i :: u => by
    have ih := nthSend_skip d v j u
    rw [List.cons_append, sentTo_cons]
    cases i with
    | isend sl d' off c t =>
      by_cases hd : d' = d
      · have : sentTo d [(Ins.isend sl d' off c t : Ins V)] = 1 := by simp [sentTo, hd]
        rw [this, show 1 + sentTo d u + j = (sentTo d u + j) + 1 by omega]
        simpa [nthSend, hd] using ih
      · have : sentTo d [(Ins.isend sl d' off c t : Ins V)] = 0 := by simp [sentTo, hd]
        rw [this, Nat.zero_add]
        simpa [nthSend, hd] using ih
    | irecv => simpa [sentTo, nthSend] using ih
    | waitS => simpa [sentTo, nthSend] using ih
    | waitR => simpa [sentTo, nthSend] using ih
    | copy => simpa [sentTo, nthSend] using ih

/-- one call of a communication, with times -/
structure Body (np : Nat) (src : Nat → List V) (N : Nat → Nat) (T : Nat → Nat → V) where
  lb : Nat → List (Nat × Ins V)
  M : Nat
  hnp : ∀ p, np ≤ p → lb p = []
  sorted : ∀ p, (lb p).Pairwise fun x y => x.1 ≤ y.1
  lt : ∀ p, ∀ x ∈ lb p, x.1 < M
  cS : ∀ p d, sentTo d ((lb p).map Prod.snd) ≤ 1
  cR : ∀ p d, recvdFrom d ((lb p).map Prod.snd) ≤ 1
  sS : ∀ p k, slotS k ((lb p).map Prod.snd) ≤ 1
  sR : ∀ p k, slotR k ((lb p).map Prod.snd) ≤ 1
  hS : ∀ p a t slot b, lb p = a ++ (t, .waitS slot) :: b → ∃ t1 d off c ty, (t1, .isend slot d off c ty) ∈ a ∧
    ∃ t' sl off' c' ty', (t', .irecv sl p off' c' ty') ∈ lb d ∧ t' < t
  hR : ∀ p a t slot b, lb p = a ++ (t, .waitR slot) :: b → ∃ t1 s off c ty, (t1, .irecv slot s off c ty) ∈ a ∧
    ∃ t' sl off' c' ty', (t', .isend sl p off' c' ty') ∈ lb s ∧ t' < t ∧
      ∃ data, pack (src s) off' c' ty' = some data ∧ (places off c ty).length = data.length ∧ RightW (N p) (T p) ((places off c ty).zip data)
  hC : ∀ p t f, (t, .copy f) ∈ lb p → ∃ ws, (∀ m : List V, m.length = N p → f (src p) m = stores m ws) ∧ RightW (N p) (T p) ws

/-- instructions after the last call -/
structure Tail (np : Nat) (src : Nat → List V) (N : Nat → Nat) (T : Nat → Nat → V) where
  tl : Nat → List (Ins V)
  hnp : ∀ p, np ≤ p → tl p = []
  hC : ∀ p i, i ∈ tl p → ∃ f ws, i = .copy f ∧ (∀ m : List V, m.length = N p → f (src p) m = stores m ws) ∧ RightW (N p) (T p) ws

section
variable {np : Nat} {src : Nat → List V} {N : Nat → Nat} {T : Nat → Nat → V}

/-- `k` calls -/
def calls (body : List (Ins V)) (k : Nat) : List (Ins V) := (List.range k).flatMap fun _ => body

theorem calls_succ (body : List (Ins V)) (k : Nat) : calls body (k + 1) = calls body k ++ body := by
  simp [calls, List.range_succ, List.flatMap_append]

theorem sentTo_calls (body : List (Ins V)) (d : Nat) : ∀ k, sentTo d (calls body k) = k * sentTo d body
  | 0 => by simp [calls, sentTo]
  | k + 1 => by rw [calls_succ, sentTo_append, sentTo_calls body d k, Nat.succ_mul]

theorem recvdFrom_calls (body : List (Ins V)) (d : Nat) : ∀ k, recvdFrom d (calls body k) = k * recvdFrom d body
  | 0 => by simp [calls, recvdFrom]
  | k + 1 => by rw [calls_succ, recvdFrom_append, recvdFrom_calls body d k, Nat.succ_mul]

/-- the calls with times -/
def tcalls (M : Nat) (lb : List (Nat × Ins V)) (k : Nat) : List (Nat × Ins V) :=
  (List.range k).flatMap fun l => lb.map fun x => (l * M + x.1, x.2)

theorem tcalls_succ (M : Nat) (lb : List (Nat × Ins V)) (k : Nat) :
    tcalls M lb (k + 1) = tcalls M lb k ++ lb.map fun x => (k * M + x.1, x.2) := by
  simp [tcalls, List.range_succ, List.flatMap_append]

theorem tcalls_snd (M : Nat) (lb : List (Nat × Ins V)) : ∀ k, (tcalls M lb k).map Prod.snd = calls (lb.map Prod.snd) k
  | 0 => rfl
  | k + 1 => by
    rw [tcalls_succ, calls_succ, List.map_append, tcalls_snd M lb k]
    simp

theorem tcalls_lt (M : Nat) (lb : List (Nat × Ins V)) (h : ∀ x ∈ lb, x.1 < M) : ∀ k, ∀ x ∈ tcalls M lb k, x.1 < k * M
  | 0, x, hx => by simp [tcalls] at hx
  | k + 1, x, hx => by
    rw [tcalls_succ, List.mem_append] at hx
    rw [Nat.succ_mul]
    rcases hx with hx | hx
    · have := tcalls_lt M lb h k x hx; omega
    · obtain ⟨y, hy, rfl⟩ := List.mem_map.1 hx
      have := h y hy
      dsimp only
      omega

theorem tcalls_sorted (M : Nat) (lb : List (Nat × Ins V)) (h : ∀ x ∈ lb, x.1 < M) (hs : lb.Pairwise fun x y => x.1 ≤ y.1) :
    ∀ k, (tcalls M lb k).Pairwise fun x y => x.1 ≤ y.1
  | 0 => by simp [tcalls]
  | k + 1 => by
    rw [tcalls_succ, List.pairwise_append]
    refine ⟨tcalls_sorted M lb h hs k, ?_, ?_⟩
    · rw [List.pairwise_map]
      exact hs.imp (by intro a b hab; dsimp only; omega)
    · intro x hx y hy
      have := tcalls_lt M lb h k x hx
      obtain ⟨z, _, rfl⟩ := List.mem_map.1 hy
      dsimp only
      omega

/-- an element of a concatenation is in the first or in the second list -/
theorem dec_append {α : Type} : ∀ {l1 l2 a b : List α} {x : α}, l1 ++ l2 = a ++ x :: b →
    (∃ b', l1 = a ++ x :: b' ∧ b = b' ++ l2) ∨ ∃ a', l2 = a' ++ x :: b ∧ a = l1 ++ a'
  | [], l2, a, b, x, h => .inr ⟨a, h, rfl⟩
  | y :: l1, l2, [], b, x, h => by
    rw [List.nil_append, List.cons_append] at h
    cases h
    exact .inl ⟨l1, rfl, rfl⟩
  | y :: l1, l2, z :: a, b, x, h => by
    rw [List.cons_append, List.cons_append] at h
    injection h with h1 h2
    subst h1
    rcases dec_append h2 with ⟨b', h3, h4⟩ | ⟨a', h3, h4⟩
    · exact .inl ⟨b', by rw [h3]; rfl, h4⟩
    · exact .inr ⟨a', h3, by rw [h4]; rfl⟩

theorem dec_map {α β : Type} {f : α → β} : ∀ {l : List α} {a b : List β} {x : β}, l.map f = a ++ x :: b →
    ∃ u y v, l = u ++ y :: v ∧ a = u.map f ∧ x = f y ∧ b = v.map f
  | [], a, b, x, h => by simp at h
  | y :: l, [], b, x, h => by
    rw [List.map_cons, List.nil_append] at h
    injection h with h1 h2
    exact ⟨[], y, l, rfl, rfl, h1.symm, h2.symm⟩
  | y :: l, z :: a, b, x, h => by
    rw [List.map_cons, List.cons_append] at h
    injection h with h1 h2
    obtain ⟨u, w, v, h3, h4, h5, h6⟩ := dec_map h2
    exact ⟨y :: u, w, v, by rw [h3]; rfl, by rw [h4, ← h1]; rfl, h5, h6⟩

/-- an instruction of the calls belongs to one of them -/
theorem dec_tcalls {M : Nat} {lb : List (Nat × Ins V)} : ∀ {k : Nat} {a b : List (Nat × Ins V)} {t : Nat} {i : Ins V},
    tcalls M lb k = a ++ (t, i) :: b → ∃ l a' t0 b', l < k ∧ lb = a' ++ (t0, i) :: b' ∧ t = l * M + t0 ∧
      a.map Prod.snd = calls (lb.map Prod.snd) l ++ a'.map Prod.snd
  | 0, a, b, t, i, h => by simp [tcalls] at h
  | k + 1, a, b, t, i, h => by
    rw [tcalls_succ] at h
    rcases dec_append h with ⟨b', h1, _⟩ | ⟨a', h1, h2⟩
    · obtain ⟨l, a'', t0, b'', e1, e2, e3, e4⟩ := dec_tcalls h1
      exact ⟨l, a'', t0, b'', by omega, e2, e3, e4⟩
    · obtain ⟨u, y, v, e1, e2, e3, _⟩ := dec_map h1
      cases e3
      refine ⟨k, u, y.1, v, by omega, e1, rfl, ?_⟩
      rw [h2, List.map_append, tcalls_snd, e2]
      simp

theorem tcalls_at {M : Nat} {lb : List (Nat × Ins V)} {x y : List (Nat × Ins V)} {t0 : Nat} {i : Ins V} (h : lb = x ++ (t0, i) :: y) :
    ∀ {k l : Nat}, l < k → ∃ X Y, tcalls M lb k = X ++ (l * M + t0, i) :: Y ∧ X.map Prod.snd = calls (lb.map Prod.snd) l ++ x.map Prod.snd
  | 0, l, hl => by omega
  | k + 1, l, hl => by
    rw [tcalls_succ]
    by_cases hk : l = k
    · subst hk
      refine ⟨tcalls M lb l ++ x.map (fun z => (l * M + z.1, z.2)), y.map (fun z => (l * M + z.1, z.2)), ?_, ?_⟩
      · have e : lb.map (fun z : Nat × Ins V => (l * M + z.1, z.2)) =
            x.map (fun z => (l * M + z.1, z.2)) ++ (l * M + t0, i) :: y.map (fun z => (l * M + z.1, z.2)) := by rw [h]; simp
        rw [e, List.append_assoc]
      · rw [List.map_append, tcalls_snd]
        simp
    · obtain ⟨X, Y, h1, h2⟩ := tcalls_at h (show l < k by omega)
      exact ⟨X, Y ++ lb.map fun x => (k * M + x.1, x.2), by rw [h1]; simp, h2⟩

/-- `L` calls and the end -/
def loopProg (B : Body np src N T) (E : Tail np src N T) (L p : Nat) : List (Ins V) := calls ((B.lb p).map Prod.snd) L ++ E.tl p

/-- with times -/
def loopLp (B : Body np src N T) (E : Tail np src N T) (L p : Nat) : List (Nat × Ins V) :=
  tcalls B.M (B.lb p) L ++ (E.tl p).map fun i => (L * B.M, i)

theorem loopLp_snd (B : Body np src N T) (E : Tail np src N T) (L p : Nat) : loopProg B E L p = (loopLp B E L p).map Prod.snd := by
  rw [loopProg, loopLp, List.map_append, tcalls_snd, List.map_map]
  congr 1
  exact (List.map_id _).symm

theorem loop_at (B : Body np src N T) (E : Tail np src N T) {L p l : Nat} (hl : l < L) {x y t0 i} (h : B.lb p = x ++ (t0, i) :: y) :
    ∃ X Y, loopLp B E L p = X ++ (l * B.M + t0, i) :: Y ∧ X.map Prod.snd = calls ((B.lb p).map Prod.snd) l ++ x.map Prod.snd := by
  obtain ⟨X, Y, h1, h2⟩ := tcalls_at (M := B.M) h hl
  exact ⟨X, Y ++ (E.tl p).map fun i => (L * B.M, i), by rw [loopLp, h1]; simp, h2⟩

theorem dec_loop (B : Body np src N T) (E : Tail np src N T) {L p : Nat} {a b t i} (h : loopLp B E L p = a ++ (t, i) :: b) :
    (∃ l a' t0 b', l < L ∧ B.lb p = a' ++ (t0, i) :: b' ∧ t = l * B.M + t0 ∧ a.map Prod.snd = calls ((B.lb p).map Prod.snd) l ++ a'.map Prod.snd) ∨
    i ∈ E.tl p := by
  rcases dec_append h with ⟨b', h1, _⟩ | ⟨a', h1, _⟩
  · exact .inl (dec_tcalls h1)
  · obtain ⟨u, y, v, e1, _, e3, _⟩ := dec_map h1
    cases e3
    exact .inr (by rw [e1]; simp)

/-- the one send of a slot: number and destination -/
theorem one_send (B : Body np src N T) {p a t slot d off c ty x y t0 i} (l : Nat) (hd : B.lb p = x ++ (t0, i) :: y)
    (hm : (t, Ins.isend slot d off c ty) ∈ x) (ha : a = calls ((B.lb p).map Prod.snd) l ++ x.map Prod.snd) :
    lastSend slot a = some (d, l) := by
  obtain ⟨u, v, rfl⟩ := List.append_of_mem hm
  have h1 := B.sS p slot
  have h2 := B.cS p d
  have h3 : sentTo d ((B.lb p).map Prod.snd) = 1 ∧ sentTo d (u.map Prod.snd) = 0 ∧ slotS slot (v.map Prod.snd) = 0 := by
    rw [hd] at h1 h2 ⊢
    simp only [List.map_append, List.map_cons, List.append_assoc, List.cons_append, slotS_append, sentTo_append] at h1 h2 ⊢
    rw [slotS_cons, slotS_append] at h1
    rw [sentTo_cons, sentTo_append] at h2 ⊢
    have e1 : slotS slot [(Ins.isend slot d off c ty : Ins V)] = 1 := by simp [slotS]
    have e2 : sentTo d [(Ins.isend slot d off c ty : Ins V)] = 1 := by simp [sentTo]
    omega
  rw [ha, List.map_append, List.map_cons, ← List.append_assoc, lastSend_of slot d off c ty _ h3.2.2, sentTo_append, sentTo_calls, h3.1, h3.2.1]
  simp

theorem one_recv (B : Body np src N T) {p a t slot d off c ty x y t0 i} (l : Nat) (hd : B.lb p = x ++ (t0, i) :: y)
    (hm : (t, Ins.irecv slot d off c ty) ∈ x) (ha : a = calls ((B.lb p).map Prod.snd) l ++ x.map Prod.snd) :
    lastRecv slot a = some ⟨d, l, off, c, ty⟩ := by
  obtain ⟨u, v, rfl⟩ := List.append_of_mem hm
  have h1 := B.sR p slot
  have h2 := B.cR p d
  have h3 : recvdFrom d ((B.lb p).map Prod.snd) = 1 ∧ recvdFrom d (u.map Prod.snd) = 0 ∧ slotR slot (v.map Prod.snd) = 0 := by
    rw [hd] at h1 h2 ⊢
    simp only [List.map_append, List.map_cons, List.append_assoc, List.cons_append, slotR_append, recvdFrom_append] at h1 h2 ⊢
    rw [slotR_cons, slotR_append] at h1
    rw [recvdFrom_cons, recvdFrom_append] at h2 ⊢
    have e1 : slotR slot [(Ins.irecv slot d off c ty : Ins V)] = 1 := by simp [slotR]
    have e2 : recvdFrom d [(Ins.irecv slot d off c ty : Ins V)] = 1 := by simp [recvdFrom]
    omega
  rw [ha, List.map_append, List.map_cons, ← List.append_assoc, lastRecv_of slot d off c ty _ h3.2.2, recvdFrom_append, recvdFrom_calls, h3.1, h3.2.1]
  simp

/-- the message of call `l` -/
theorem nth_call (B : Body np src N T) {s p t' sl off c ty} (l : Nat) {x y} (hd : B.lb s = x ++ (t', Ins.isend sl p off c ty) :: y) :
    nthSend p (calls ((B.lb s).map Prod.snd) l ++ (x ++ [(t', Ins.isend sl p off c ty)]).map Prod.snd) l = some (off, c, ty) := by
  have h2 := B.cS s p
  have h3 : sentTo p ((B.lb s).map Prod.snd) = 1 ∧ sentTo p (x.map Prod.snd) = 0 := by
    rw [hd] at h2 ⊢
    simp only [List.map_append, List.map_cons, sentTo_append] at h2 ⊢
    rw [sentTo_cons] at h2 ⊢
    have e2 : sentTo p [(Ins.isend sl p off c ty : Ins V)] = 1 := by simp [sentTo]
    omega
  have e := nthSend_skip p [(Ins.isend sl p off c ty : Ins V)] 0 (calls ((B.lb s).map Prod.snd) l ++ x.map Prod.snd)
  rw [sentTo_append, sentTo_calls, h3.1, h3.2, Nat.mul_one, Nat.add_zero] at e
  simp only [List.map_append, List.map_cons, List.map_nil, ← List.append_assoc]
  rw [e]
  simp [nthSend]

/-- the calls are a timed program -/
def loopTimed (B : Body np src N T) (E : Tail np src N T) (L : Nat) : Timed np (loopProg B E L) src N T where
  lp := loopLp B E L
  hlp p := loopLp_snd B E L p
  hnp p hp := by simp [loopLp, tcalls, B.hnp p hp, E.hnp p hp]
  sorted p := by
    rw [loopLp, List.pairwise_append]
    refine ⟨tcalls_sorted B.M _ (B.lt p) (B.sorted p) L, ?_, ?_⟩
    · rw [List.pairwise_map]
      exact List.Pairwise.imp_of_mem (fun _ _ _ => Nat.le_refl _) (List.pairwise_of_forall (R := fun _ _ => True) (fun _ _ => trivial))
    · intro x hx y hy
      have := tcalls_lt B.M _ (B.lt p) L x hx
      obtain ⟨z, _, rfl⟩ := List.mem_map.1 hy
      dsimp only
      omega
  hS p a t slot b h := by
    rcases dec_loop B E h with ⟨l, a', t0, b', hl, h1, h2, h3⟩ | h1
    · obtain ⟨t1, d, off, c, ty, hm, t', sl, off', c', ty', hm', ht⟩ := B.hS p a' t0 slot b' h1
      obtain ⟨x, y, hx⟩ := List.append_of_mem hm'
      obtain ⟨X, Y, hX, hX'⟩ := loop_at B E hl hx
      refine ⟨d, l, X, _, _, Y, one_send B l h1 hm h3, hX, by omega, ?_⟩
      have h4 : recvdFrom p ((B.lb d).map Prod.snd) = 1 := by
        have h2 := B.cR d p
        rw [hx] at h2 ⊢
        simp only [List.map_append, List.map_cons, recvdFrom_append] at h2 ⊢
        rw [recvdFrom_cons] at h2 ⊢
        have e2 : recvdFrom p [(Ins.irecv sl p off' c' ty' : Ins V)] = 1 := by simp [recvdFrom]
        omega
      rw [List.map_append, hX', recvdFrom_append, recvdFrom_append, recvdFrom_calls, h4]
      have e2 : recvdFrom p (List.map Prod.snd [(l * B.M + t', (Ins.irecv sl p off' c' ty' : Ins V))]) = 1 := by simp [recvdFrom]
      omega
    · obtain ⟨f, ws, h2, _⟩ := E.hC p _ h1
      cases h2
  hR p a t slot b h := by
    rcases dec_loop B E h with ⟨l, a', t0, b', hl, h1, h2, h3⟩ | h1
    · obtain ⟨t1, s, off, c, ty, hm, t', sl, off', c', ty', hm', ht, _⟩ := B.hR p a' t0 slot b' h1
      obtain ⟨x, y, hx⟩ := List.append_of_mem hm'
      obtain ⟨X, Y, hX, hX'⟩ := loop_at B E hl hx
      refine ⟨⟨s, l, off, c, ty⟩, (off', c', ty'), X, _, _, Y, one_recv B l h1 hm h3, hX, by omega, ?_⟩
      have := nth_call B l hx
      rw [List.map_append] at this
      rw [List.map_append, hX', List.append_assoc]
      exact this
    · obtain ⟨f, ws, h2, _⟩ := E.hC p _ h1
      cases h2
  hW p a t i b h := by
    rcases dec_loop B E h with ⟨l, a', t0, b', hl, h1, h2, h3⟩ | h1
    · cases i with
      | isend => exact ⟨[], rfl, by simp [RightW]⟩
      | irecv => exact ⟨[], rfl, by simp [RightW]⟩
      | waitS => exact ⟨[], rfl, by simp [RightW]⟩
      | copy f =>
        obtain ⟨ws, hw, hr⟩ := B.hC p t0 f (by rw [h1]; simp)
        exact ⟨ws, hw, hr⟩
      | waitR slot =>
        obtain ⟨t1, s, off, c, ty, hm, t', sl, off', c', ty', hm', ht, data, hd1, hd2, hd3⟩ := B.hR p a' t0 slot b' h1
        obtain ⟨x, y, hx⟩ := List.append_of_mem hm'
        obtain ⟨X, Y, hX, hX'⟩ := loop_at B E hl hx
        refine ⟨_, ⟨⟨s, l, off, c, ty⟩, off', c', ty', data, one_recv B l h1 hm h3, ?_, hd1, hd2, rfl⟩, hd3⟩
        have := nth_call B l hx
        rw [loopLp_snd, hX]
        have e : (X ++ (l * B.M + t', Ins.isend sl p off' c' ty') :: Y).map Prod.snd =
            (calls ((B.lb s).map Prod.snd) l ++ (x ++ [(t', Ins.isend sl p off' c' ty')]).map Prod.snd) ++ Y.map Prod.snd := by
          rw [List.map_append, hX']
          simp
        rw [e]
        exact nthSend_mono p _ _ _ _ this
    · obtain ⟨f, ws, h2, h3, h4⟩ := E.hC p _ h1
      subst h2
      exact ⟨ws, h3, h4⟩

/-- where the calls and the end write -/
def Cov (B : Body np src N T) (E : Tail np src N T) (p o : Nat) : Prop :=
  (∃ t1 slot s off c ty t2, (t1, .irecv slot s off c ty) ∈ B.lb p ∧ (t2, .waitR slot) ∈ B.lb p ∧ o ∈ places off c ty) ∨
  (∃ f ws, ((∃ t, (t, .copy f) ∈ B.lb p) ∨ .copy f ∈ E.tl p) ∧ (∀ m : List V, m.length = N p → f (src p) m = stores m ws) ∧ RightW (N p) (T p) ws ∧
    o ∈ ws.map Prod.fst)

/-- **Repeated calls.** -/
theorem loop_works (B : Body np src N T) (E : Tail np src N T) (L : Nat) (hL : 1 ≤ L) (init : Nat → List V) (hinit : ∀ p, (init p).length = N p) :
    Works np (loopProg B E L) src init fun mem => ∀ p, (mem p).length = N p ∧ ∀ o, Cov B E p o → (mem p)[o]? = some (T p o) := by
  intro l n hr
  obtain ⟨h1, h2, h3⟩ := works (loopTimed B E L) init hinit l n hr
  refine ⟨h1, h2, h3.imp id fun ⟨h4, h5⟩ => ⟨h4, fun p => ⟨(h5 p).1, fun o ho => ?_⟩⟩⟩
  have h6 := (h5 p).2
  rcases ho with ⟨t1, slot, s, off, c, ty, t2, hm1, hm2, ho⟩ | ⟨f, ws, hf, hw, hrw, ho⟩
  · obtain ⟨x, y, hx⟩ := List.append_of_mem hm2
    obtain ⟨X, Y, hX, hX'⟩ := loop_at B E (show 0 < L by omega) hx
    obtain ⟨u1, s', off1, c1, ty1, hm, t', sl, off', c', ty', hm', ht, data, hd1, hd2, hd3⟩ := B.hR p x t2 slot y hx
    obtain ⟨ws, hw, hr⟩ := (loopTimed B E L).hW p _ _ _ _ hX
    have hw' := hw
    obtain ⟨r, o1, o2, o3, data', g1, g2, g3, g4, g5⟩ := hw
    rw [hX', one_recv B 0 hx hm rfl] at g1
    cases g1
    -- the receive of this slot is the given one
    have hsame : (⟨s', 0, off1, c1, ty1⟩ : Rcv) = ⟨s, 0, off, c, ty⟩ := by
      have hms : (t1, Ins.irecv slot s off c ty) ∈ x := by
        have : (t1, Ins.irecv slot s off c ty) ∈ x ++ (t2, Ins.waitR slot) :: y := by rw [← hx]; exact hm1
        rcases List.mem_append.1 this with h | h
        · exact h
        · exfalso
          rcases List.mem_cons.1 h with h | h
          · cases h
          · obtain ⟨u, v, hu⟩ := List.append_of_mem hm
            obtain ⟨u', v', hu'⟩ := List.append_of_mem h
            have h1 := B.sR p slot
            rw [hx, hu, hu'] at h1
            simp only [List.map_append, List.map_cons, List.append_assoc, List.cons_append, slotR_append] at h1
            rw [slotR_cons, slotR_append, slotR_cons slot (Ins.waitR slot), slotR_append,
              slotR_cons slot (Ins.irecv slot s off c ty) (List.map Prod.snd v')] at h1
            have e1 : slotR slot [(Ins.irecv slot s' off1 c1 ty1 : Ins V)] = 1 := by simp [slotR]
            have e2 : slotR slot [(Ins.irecv slot s off c ty : Ins V)] = 1 := by simp [slotR]
            omega
      have e1 := one_recv B 0 hx hm rfl
      rw [one_recv B 0 hx hms rfl] at e1
      exact (Option.some.inj e1).symm
    cases hsame
    refine h6 _ _ _ _ hX ws hw' hr o ?_
    rw [g5, List.map_fst_zip (by dsimp only at g4 ⊢; omega)]
    exact ho
  · rcases hf with ⟨t, hf⟩ | hf
    · obtain ⟨x, y, hx⟩ := List.append_of_mem hf
      obtain ⟨X, Y, hX, _⟩ := loop_at B E (show 0 < L by omega) hx
      exact h6 _ _ _ _ hX ws hw hrw o ho
    · obtain ⟨x, y, hx⟩ := List.append_of_mem hf
      refine h6 (tcalls B.M (B.lb p) L ++ x.map fun i => (L * B.M, i)) (L * B.M) (.copy f) (y.map fun i => (L * B.M, i)) ?_ ws hw hrw o ho
      show loopLp B E L p = _
      rw [loopLp, hx]
      simp

end

end Verif.Turn
