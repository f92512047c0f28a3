import Verif.Turn.Spec
/-!
Programs whose waits can be ordered in time do not deadlock.
-/
namespace Verif.Turn

variable {V : Type}

theorem sentTo_append (d : Nat) (a b : List (Ins V)) : sentTo d (a ++ b) = sentTo d a + sentTo d b := List.countP_append

theorem recvdFrom_append (d : Nat) (a b : List (Ins V)) : recvdFrom d (a ++ b) = recvdFrom d a + recvdFrom d b := List.countP_append

theorem nthSend_mono (d : Nat) : ∀ (a b : List (Ins V)) (j : Nat) (x), nthSend d a j = some x → nthSend d (a ++ b) j = some x
  | [], _, _, _, h => by simp [nthSend] at h
  | i :: a, b, j, x, h => by
    cases i with
    | isend sl d' off c t =>
      simp only [nthSend, List.cons_append] at h ⊢
      split
      · next hd =>
        rw [if_pos hd] at h
        cases j with
        | zero => exact h
        | succ j => exact nthSend_mono d a b j x h
      · next hd =>
        rw [if_neg hd] at h
        exact nthSend_mono d a b j x h
    | irecv => exact nthSend_mono d a b j x h
    | waitS => exact nthSend_mono d a b j x h
    | waitR => exact nthSend_mono d a b j x h
    | copy => exact nthSend_mono d a b j x h

/-! ### Writing to buffers -/

theorem stores_append (m : List V) (a b : List (Nat × V)) : stores m (a ++ b) = (stores m a).bind fun m => stores m b := by
  simp [stores, List.foldlM_append]

/-- the writes are inside the buffer and put the right values -/
def RightW (N : Nat) (T : Nat → V) (ws : List (Nat × V)) : Prop := ∀ x ∈ ws, x.1 < N ∧ x.2 = T x.1

theorem stores_right (T : Nat → V) : ∀ (ws : List (Nat × V)) (m : List V), RightW m.length T ws →
    ∃ m', stores m ws = some m' ∧ m'.length = m.length ∧ (∀ o, o ∈ ws.map Prod.fst → m'[o]? = some (T o)) ∧
      ∀ o, m[o]? = some (T o) → m'[o]? = some (T o)
  | [], m, _ => ⟨m, rfl, rfl, by simp, fun _ h => h⟩
  | (o, v) :: ws, m, h => by
    obtain ⟨h1, h2⟩ := h (o, v) (by simp)
    dsimp only at h1 h2
    obtain ⟨m', e, hl, hc, hk⟩ := stores_right T ws (m.set o v) (by
      intro x hx
      have := h x (by simp [hx])
      simpa using this)
    have ho : (m.set o v)[o]? = some (T o) := by rw [List.getElem?_set_self h1, h2]
    refine ⟨m', ?_, by simpa using hl, ?_, ?_⟩
    · simp only [stores, List.foldlM_cons, store, h1, if_pos]
      exact e
    · intro q hq
      rcases List.mem_cons.1 hq with rfl | hq
      · exact hk _ ho
      · exact hc q hq
    · intro q hq
      apply hk
      by_cases hqo : q = o
      · subst hqo; exact ho
      · rw [List.getElem?_set_ne (fun h => hqo h.symm)]; exact hq

/-- what an instruction of process `p` after the instructions `a` writes -/
def Wr (prog : Nat → List (Ins V)) (src : Nat → List V) (N : Nat) (p : Nat) (a : List (Ins V)) (ws : List (Nat × V)) : Ins V → Prop
  | .waitR slot => ∃ r off c t data, lastRecv slot a = some r ∧ nthSend p (prog r.frm) r.nth = some (off, c, t) ∧
      pack (src r.frm) off c t = some data ∧ (places r.off r.count r.t).length = data.length ∧ ws = (places r.off r.count r.t).zip data
  | .copy f => ∀ m : List V, m.length = N → f (src p) m = stores m ws
  | _ => ws = []

/-- programs with times at their instructions, all waits of which wait for instructions of earlier times -/
structure Timed (np : Nat) (prog : Nat → List (Ins V)) (src : Nat → List V) (N : Nat → Nat) (T : Nat → Nat → V) where
  lp : Nat → List (Nat × Ins V)
  hlp : ∀ p, prog p = (lp p).map Prod.snd
  hnp : ∀ p, np ≤ p → lp p = []
  sorted : ∀ p, (lp p).Pairwise fun x y => x.1 ≤ y.1
  hS : ∀ p a t slot b, lp p = a ++ (t, .waitS slot) :: b → ∃ d j x t' i y, lastSend slot (a.map Prod.snd) = some (d, j) ∧
    lp d = x ++ (t', i) :: y ∧ t' < t ∧ j < recvdFrom p ((x ++ [(t', i)]).map Prod.snd)
  hR : ∀ p a t slot b, lp p = a ++ (t, .waitR slot) :: b → ∃ r z x t' i y, lastRecv slot (a.map Prod.snd) = some r ∧
    lp r.frm = x ++ (t', i) :: y ∧ t' < t ∧ nthSend p ((x ++ [(t', i)]).map Prod.snd) r.nth = some z
  hW : ∀ p a t i b, lp p = a ++ (t, i) :: b → ∃ ws, Wr prog src (N p) p (a.map Prod.snd) ws i ∧ RightW (N p) (T p) ws

section
variable {np : Nat} {prog : Nat → List (Ins V)} {src : Nat → List V} {N : Nat → Nat} {T : Nat → Nat → V}

/-- where process `p` is -/
theorem lp_at (tm : Timed np prog src N T) {p k : Nat} {i : Ins V} (h : (prog p)[k]? = some i) :
    ∃ a t b, tm.lp p = a ++ (t, i) :: b ∧ a.length = k ∧ (prog p).take k = a.map Prod.snd := by
  rw [tm.hlp p, List.getElem?_map] at h
  obtain ⟨⟨t, i'⟩, h1, h2⟩ := Option.map_eq_some_iff.1 h
  dsimp only at h2
  subst h2
  obtain ⟨hk, h1⟩ := List.getElem?_eq_some_iff.1 h1
  refine ⟨(tm.lp p).take k, t, (tm.lp p).drop (k + 1), ?_, by rw [List.length_take]; omega, by rw [tm.hlp p, List.map_take]⟩
  rw [← h1, List.getElem_cons_drop, List.take_append_drop]

/-- time of the current instruction of an unfinished process -/
def timeAt (tm : Timed np prog src N T) (p k : Nat) : Nat := ((tm.lp p)[k]?.map Prod.fst).getD 0

theorem timeAt_eq (tm : Timed np prog src N T) {p : Nat} {a t i b} (h : tm.lp p = a ++ (t, i) :: b) : timeAt tm p a.length = t := by
  unfold timeAt
  rw [h]
  simp

theorem timeAt_mono (tm : Timed np prog src N T) {p k k' : Nat} (h : k ≤ k') (hk : k' < (tm.lp p).length) : timeAt tm p k ≤ timeAt tm p k' := by
  unfold timeAt
  rw [List.getElem?_eq_getElem hk, List.getElem?_eq_getElem (by omega)]
  rcases Nat.lt_or_ge k k' with hlt | hge
  · exact List.pairwise_iff_getElem.1 (tm.sorted p) k k' (by omega) hk hlt
  · have : k = k' := by omega
    subst this
    exact Nat.le_refl _

/-- if `p` is unfinished with the least time, the instructions of smaller times of all other processes are over -/
theorem past (tm : Timed np prog src N T) {pc : Nat → Nat} {t : Nat}
    (hmin : ∀ q, pc q < (tm.lp q).length → t ≤ timeAt tm q (pc q)) {d x t' i y} (hd : tm.lp d = x ++ (t', i) :: y) (ht : t' < t) : x.length < pc d := by
  rcases Nat.lt_or_ge x.length (pc d) with h | h
  · exact h
  · exfalso
    have hx : x.length < (tm.lp d).length := by rw [hd]; simp
    have := hmin d (by omega)
    have h2 := timeAt_mono tm h hx
    rw [timeAt_eq tm hd] at h2
    omega

theorem take_past (tm : Timed np prog src N T) {k d : Nat} {x t' i y} (hd : tm.lp d = x ++ (t', i) :: y) (h : x.length < k) :
    ∃ w, (prog d).take k = (x ++ [(t', i)]).map Prod.snd ++ w := by
  refine ⟨((y.take (k - x.length - 1))).map Prod.snd, ?_⟩
  rw [tm.hlp d, hd, ← List.map_take, ← List.map_append]
  congr 1
  obtain ⟨e, rfl⟩ : ∃ e, k = x.length + (e + 1) := ⟨k - x.length - 1, by omega⟩
  rw [List.take_append, List.take_of_length_le (by omega)]
  have h1 : x.length + (e + 1) - x.length = e + 1 := by omega
  rw [h1, List.take_succ_cons]
  simp

/-- invariant of the buffers -/
structure Inv (tm : Timed np prog src N T) (n : Net V) : Prop where
  pc : ∀ p, n.pc p ≤ (prog p).length
  len : ∀ p, (n.mem p).length = N p
  mem : ∀ p a t i b, tm.lp p = a ++ (t, i) :: b → a.length < n.pc p → ∀ ws, Wr prog src (N p) p (a.map Prod.snd) ws i →
    RightW (N p) (T p) ws → ∀ o ∈ ws.map Prod.fst, (n.mem p)[o]? = some (T p o)

theorem nthSend_full (tm : Timed np prog src N T) {d p j k : Nat} {z} (h : nthSend p ((prog d).take k) j = some z) : nthSend p (prog d) j = some z := by
  rw [← List.take_append_drop k (prog d)]
  exact nthSend_mono p _ _ _ _ h

theorem Wr_fun {N' p : Nat} {a : List (Ins V)} {i : Ins V} {ws ws' : List (Nat × V)} (h : Wr prog src N' p a ws i) (h' : Wr prog src N' p a ws' i)
    (m : List V) (hm : m.length = N') : stores m ws = stores m ws' := by
  cases i with
  | waitR slot =>
    obtain ⟨r, off, c, t, data, h1, h2, h3, _, rfl⟩ := h
    obtain ⟨r', off', c', t', data', h1', h2', h3', _, rfl⟩ := h'
    rw [h1] at h1'; cases h1'
    rw [h2] at h2'; cases h2'
    rw [h3] at h3'; cases h3'
    rfl
  | copy f => rw [← h m hm, ← h' m hm]
  | isend => rw [show ws = [] from h, show ws' = [] from h']
  | irecv => rw [show ws = [] from h, show ws' = [] from h']
  | waitS => rw [show ws = [] from h, show ws' = [] from h']

/-- one step, if not blocked -/
theorem step_eff (tm : Timed np prog src N T) {n : Net V} (inv : Inv tm n) (p : Nat) :
    (step prog src n p = .done ∧ (prog p).length ≤ n.pc p) ∨
    (n.pc p < (prog p).length ∧ (step prog src n p = .blocked ∨
      ∃ m, step prog src n p = .next ⟨upd n.pc p (n.pc p + 1), upd n.mem p m⟩ ∧ m.length = N p ∧
        (∀ o, (n.mem p)[o]? = some (T p o) → m[o]? = some (T p o)) ∧
        ∀ a t i b, tm.lp p = a ++ (t, i) :: b → a.length = n.pc p → ∀ ws, Wr prog src (N p) p (a.map Prod.snd) ws i →
          RightW (N p) (T p) ws → ∀ o ∈ ws.map Prod.fst, m[o]? = some (T p o))) := by
  cases hi : (prog p)[n.pc p]? with
  | none =>
    refine .inl ⟨by simp only [step, hi], ?_⟩
    rw [List.getElem?_eq_none_iff] at hi
    exact hi
  | some i =>
    refine .inr ⟨(List.getElem?_eq_some_iff.1 hi).1, ?_⟩
    obtain ⟨a, t, b, hl, ha, htk⟩ := lp_at tm hi
    obtain ⟨ws, hw, hr⟩ := tm.hW p a t i b hl
    -- storing the right writes
    have key : ∃ m, stores (n.mem p) ws = some m ∧ m.length = N p ∧
        (∀ o, (n.mem p)[o]? = some (T p o) → m[o]? = some (T p o)) ∧
        ∀ a t i b, tm.lp p = a ++ (t, i) :: b → a.length = n.pc p → ∀ ws, Wr prog src (N p) p (a.map Prod.snd) ws i →
          RightW (N p) (T p) ws → ∀ o ∈ ws.map Prod.fst, m[o]? = some (T p o) := by
      obtain ⟨m, e, el, _, ek⟩ := stores_right (T p) ws (n.mem p) (by rw [inv.len]; exact hr)
      refine ⟨m, e, by rw [el, inv.len], ek, ?_⟩
      intro a' t' i' b' hl' ha' ws' hw' hr' o ho
      have hh : a' ++ (t', i') :: b' = a ++ (t, i) :: b := by rw [← hl, ← hl']
      obtain ⟨h1, h2⟩ := List.append_inj hh (by rw [ha', ha])
      subst h1
      cases h2
      obtain ⟨m', e', _, ec', _⟩ := stores_right (T p) ws' (n.mem p) (by rw [inv.len]; exact hr')
      rw [Wr_fun hw' hw (n.mem p) (inv.len p), e] at e'
      cases e'
      exact ec' o ho
    obtain ⟨m, hm, hml, hmk, hmw⟩ := key
    cases i with
    | isend =>
      cases (show ws = [] from hw)
      cases (show some (n.mem p) = some m from hm)
      exact .inr ⟨n.mem p, by simp only [step, hi, Net.adv], hml, hmk, hmw⟩
    | irecv =>
      cases (show ws = [] from hw)
      cases (show some (n.mem p) = some m from hm)
      exact .inr ⟨n.mem p, by simp only [step, hi, Net.adv], hml, hmk, hmw⟩
    | copy f =>
      refine .inr ⟨m, ?_, hml, hmk, hmw⟩
      have : f (src p) (n.mem p) = some m := by rw [← hm]; exact hw _ (inv.len p)
      simp only [step, hi, Net.adv, this]
    | waitS slot =>
      cases (show ws = [] from hw)
      cases (show some (n.mem p) = some m from hm)
      obtain ⟨d, j, _, _, _, _, h1, _⟩ := tm.hS p a t slot b hl
      by_cases hj : j < recvdFrom p ((prog d).take (n.pc d))
      · refine .inr ⟨n.mem p, ?_, hml, hmk, hmw⟩
        simp only [step, hi, htk, h1, Net.adv, if_pos hj]
      · refine .inl ?_
        simp only [step, hi, htk, h1, if_neg hj]
    | waitR slot =>
      obtain ⟨r, off, c, ty, data, h1, h2, h3, h4, h5⟩ := hw
      cases hz : nthSend p ((prog r.frm).take (n.pc r.frm)) r.nth with
      | none =>
        refine .inl ?_
        simp only [step, hi, htk, h1, hz]
      | some z =>
        have := nthSend_full tm hz
        rw [h2] at this
        cases this
        refine .inr ⟨m, ?_, hml, hmk, hmw⟩
        have e : (pack (src r.frm) off c ty).bind (unpack (n.mem p) r.off r.count r.t) = some m := by
          rw [h3, Option.bind_some, unpack, if_pos h4, ← h5, hm]
        simp only [step, hi, htk, h1, hz, e, Net.adv]

theorem upd_self {A : Type} (f : Nat → A) (p : Nat) (a : A) : upd f p a p = a := by simp [upd]
theorem upd_ne {A : Type} (f : Nat → A) {p q : Nat} (a : A) (h : q ≠ p) : upd f p a q = f q := by simp [upd, h]

theorem inv_step (tm : Timed np prog src N T) {n n' : Net V} (inv : Inv tm n) {p : Nat} (h : step prog src n p = .next n') : Inv tm n' ∧
    n'.pc p = n.pc p + 1 ∧ ∀ q, q ≠ p → n'.pc q = n.pc q := by
  rcases step_eff tm inv p with ⟨h1, _⟩ | ⟨hlt, h1 | ⟨m, h1, hl, hk, hw⟩⟩
  · rw [h1] at h; cases h
  · rw [h1] at h; cases h
  · rw [h1] at h
    cases h
    refine ⟨⟨?_, ?_, ?_⟩, upd_self _ _ _, fun q hq => upd_ne _ _ hq⟩
    · intro q
      by_cases hq : q = p
      · subst hq; dsimp only; rw [upd_self]; exact hlt
      · dsimp only; rw [upd_ne _ _ hq]; exact inv.pc q
    · intro q
      by_cases hq : q = p
      · subst hq; dsimp only; rw [upd_self]; exact hl
      · dsimp only; rw [upd_ne _ _ hq]; exact inv.len q
    · intro q a t i b hd ha ws hws hr o ho
      by_cases hq : q = p
      · subst hq
        dsimp only at ha ⊢
        rw [upd_self] at ha ⊢
        rcases Nat.lt_or_ge a.length (n.pc q) with h2 | h2
        · exact hk o (inv.mem q a t i b hd h2 ws hws hr o ho)
        · exact hw a t i b hd (by omega) ws hws hr o ho
      · dsimp only at ha ⊢
        rw [upd_ne _ _ hq] at ha ⊢
        exact inv.mem q a t i b hd ha ws hws hr o ho

/-- an unfinished process of least time exists and is not blocked -/
theorem progress (tm : Timed np prog src N T) {n : Net V} (inv : Inv tm n) {p : Nat} (hp : n.pc p < (prog p).length) :
    ∃ q n', step prog src n q = .next n' := by
  have hlen : ∀ q, (prog q).length = (tm.lp q).length := fun q => by rw [tm.hlp q]; simp
  -- the least time
  have hex : ∃ q, n.pc q < (tm.lp q).length ∧ ∀ q', n.pc q' < (tm.lp q').length → timeAt tm q (n.pc q) ≤ timeAt tm q' (n.pc q') := by
    have : ∀ k q, n.pc q < (tm.lp q).length → timeAt tm q (n.pc q) ≤ k →
        ∃ q, n.pc q < (tm.lp q).length ∧ ∀ q', n.pc q' < (tm.lp q').length → timeAt tm q (n.pc q) ≤ timeAt tm q' (n.pc q') := by
      intro k
      induction k with
      | zero => intro q hq h0; exact ⟨q, hq, fun q' _ => by omega⟩
      | succ k ih =>
        intro q hq hk
        by_cases h : ∃ q', n.pc q' < (tm.lp q').length ∧ timeAt tm q' (n.pc q') ≤ k
        · obtain ⟨q', h1, h2⟩ := h
          exact ih q' h1 h2
        · refine ⟨q, hq, fun q' hq' => ?_⟩
          rcases Nat.lt_or_ge k (timeAt tm q' (n.pc q')) with h3 | h3
          · omega
          · exact absurd ⟨q', hq', h3⟩ h
    exact this _ p (by rw [← hlen]; exact hp) (Nat.le_refl _)
  obtain ⟨q, hq, hmin⟩ := hex
  refine ⟨q, ?_⟩
  rcases step_eff tm inv q with ⟨_, h2⟩ | ⟨_, h1 | ⟨m, h1, _⟩⟩
  · rw [hlen] at h2; omega
  · exfalso
    obtain ⟨i, hi⟩ : ∃ i, (prog q)[n.pc q]? = some i := ⟨_, List.getElem?_eq_getElem (by rw [hlen]; exact hq)⟩
    obtain ⟨a, t, b, hl, ha, htk⟩ := lp_at tm hi
    have ht : timeAt tm q (n.pc q) = t := by rw [← ha]; exact timeAt_eq tm hl
    rw [ht] at hmin
    cases i with
    | isend => simp only [step, hi, Net.adv] at h1; cases h1
    | irecv => simp only [step, hi, Net.adv] at h1; cases h1
    | copy f =>
      simp only [step, hi, Net.adv] at h1
      cases hf : f (src q) (n.mem q) <;> rw [hf] at h1 <;> cases h1
    | waitS slot =>
      obtain ⟨d, j, x, t', i', y, e1, e2, e3, e4⟩ := tm.hS q a t slot b hl
      obtain ⟨w, hw⟩ := take_past tm e2 (past tm hmin e2 e3)
      have : j < recvdFrom q ((prog d).take (n.pc d)) := by rw [hw, recvdFrom_append]; omega
      simp only [step, hi, htk, e1, if_pos this, Net.adv] at h1
      cases h1
    | waitR slot =>
      obtain ⟨r, z, x, t', i', y, e1, e2, e3, e4⟩ := tm.hR q a t slot b hl
      obtain ⟨w, hw⟩ := take_past tm e2 (past tm hmin e2 e3)
      have : nthSend q ((prog r.frm).take (n.pc r.frm)) r.nth = some z := by rw [hw]; exact nthSend_mono q _ _ _ _ e4
      obtain ⟨off, c, ty⟩ := z
      simp only [step, hi, htk, e1, this, Net.adv] at h1
      split at h1 <;> cases h1
  · exact ⟨_, h1⟩

/-- sum of the positions -/
def sumPc (pc : Nat → Nat) : Nat → Nat
  | 0 => 0
  | k + 1 => sumPc pc k + pc k

theorem sumPc_le (pc : Nat → Nat) (h : ∀ p, pc p ≤ (prog p).length) : ∀ k, sumPc pc k ≤ total prog k
  | 0 => Nat.le_refl _
  | k + 1 => by
    have := sumPc_le pc h k
    have := h k
    simp only [sumPc, total]
    omega

theorem sumPc_congr {pc pc' : Nat → Nat} : ∀ {k : Nat}, (∀ q, q < k → pc' q = pc q) → sumPc pc' k = sumPc pc k
  | 0, _ => rfl
  | k + 1, h => by
    simp only [sumPc]
    rw [sumPc_congr (fun q hq => h q (by omega)), h k (by omega)]

theorem sumPc_step {pc pc' : Nat → Nat} {p : Nat} (h1 : pc' p = pc p + 1) (h2 : ∀ q, q ≠ p → pc' q = pc q) :
    ∀ {k : Nat}, p < k → sumPc pc' k = sumPc pc k + 1
  | 0, h => by omega
  | k + 1, h => by
    simp only [sumPc]
    by_cases hk : p = k
    · subst hk
      rw [sumPc_congr (fun q hq => h2 q (by omega)), h1]
      omega
    · rw [sumPc_step h1 h2 (by omega : p < k), h2 k (fun h => hk h.symm)]
      omega

/-- The main theorem on timed programs. -/
theorem works (tm : Timed np prog src N T) (init : Nat → List V) (hinit : ∀ p, (init p).length = N p) :
    Works np prog src init fun mem => ∀ p, (mem p).length = N p ∧
      ∀ a t i b, tm.lp p = a ++ (t, i) :: b → ∀ ws, Wr prog src (N p) p (a.map Prod.snd) ws i → RightW (N p) (T p) ws →
        ∀ o ∈ ws.map Prod.fst, (mem p)[o]? = some (T p o) := by
  intro l n hrun
  have key : ∀ (l : List Nat) (n0 n : Net V), Inv tm n0 → run prog src n0 l = some n → Inv tm n ∧ sumPc n.pc np = sumPc n0.pc np + l.length := by
    intro l
    induction l with
    | nil => intro n0 n inv h; cases h; exact ⟨inv, rfl⟩
    | cons p l ih =>
      intro n0 n inv h
      rw [run] at h
      split at h
      · next n1 hs =>
        obtain ⟨inv1, h1, h2⟩ := inv_step tm inv hs
        obtain ⟨inv2, h3⟩ := ih n1 n inv1 h
        have hp : p < np := by
          rcases Nat.lt_or_ge p np with hh | hh
          · exact hh
          · have := inv1.pc p
            rw [h1, tm.hlp p, tm.hnp p hh] at this
            simp at this
        refine ⟨inv2, ?_⟩
        rw [h3, sumPc_step h1 h2 hp, List.length_cons]
        omega
      · cases h
  obtain ⟨inv, hsum⟩ := key l _ n ⟨fun _ => Nat.zero_le _, hinit, fun p a t i b _ h => absurd h (Nat.not_lt_zero _)⟩ hrun
  have h0 : sumPc (fun _ => 0) np = 0 := by
    have : ∀ k, sumPc (fun _ => 0) k = 0 := by
      intro k
      induction k with
      | zero => rfl
      | succ k ih => simp only [sumPc, ih]
    exact this np
  refine ⟨?_, ?_, ?_⟩
  · have := sumPc_le n.pc inv.pc np
    rw [hsum, h0] at this
    omega
  · intro p hb
    rcases step_eff tm inv p with ⟨h1, _⟩ | ⟨_, h1 | ⟨m, h1, _⟩⟩ <;> rw [h1] at hb <;> cases hb
  · by_cases hall : ∃ p, n.pc p < (prog p).length
    · obtain ⟨p, hp⟩ := hall
      exact .inl (progress tm inv hp)
    · have hge : ∀ p, (prog p).length ≤ n.pc p := fun p => by
        rcases Nat.lt_or_ge (n.pc p) (prog p).length with h | h
        · exact absurd ⟨p, h⟩ hall
        · exact h
      refine .inr ⟨?_, ?_⟩
      · intro p
        rcases step_eff tm inv p with ⟨h1, _⟩ | ⟨h2, _⟩
        · exact h1
        · have := hge p; omega
      · intro p
        refine ⟨inv.len p, fun a t i b hl ws hw hr o ho => inv.mem p a t i b hl ?_ ws hw hr o ho⟩
        have h1 := hge p
        rw [tm.hlp p, hl] at h1
        simp at h1
        omega

end

end Verif.Turn
