import Verif.Persist.Model
import Verif.Access.Props
/-!
Properties of the data access of distributed assignments of vectors (C93).
-/
namespace Verif.Props

open Verif Verif.Pdd

section persist
variable {V : Type}

theorem pd_upd_self (f : Nat → V) (i : Nat) (x : V) : upd f i x i = x := if_pos rfl

theorem pd_upd_ne (f : Nat → V) {i j : Nat} (x : V) (h : j ≠ i) : upd f i x j = f j := if_neg h

theorem pd_copyLoop (n : Nat) (src dst : Nat → V) (i : Nat) : copyLoop n src dst i = if i < n then src i else dst i := by
  induction n with
  | zero => simp [copyLoop]
  | succ n ih =>
    have e : copyLoop (n + 1) src dst = upd (copyLoop n src dst) n (src n) := by
      simp only [copyLoop, List.range_succ, List.foldl_append, List.foldl_cons, List.foldl_nil]
    rw [e]
    by_cases h : i = n
    · subst h
      rw [pd_upd_self, if_pos (Nat.lt_succ_self i)]
    · rw [pd_upd_ne _ _ h, ih]
      by_cases hi : i < n
      · rw [if_pos hi, if_pos (by omega)]
      · rw [if_neg hi, if_neg (by omega)]

theorem pd_step_blk (inn out direct tests : Bool) (n : Nat) (s : S V) (op : Op V) (h : ∀ i x, op ≠ .blkPut i x)
    (hd : direct = false) : (step (persistent inn out direct tests n) s op).blk = s.blk := by
  subst hd
  cases op with
  | syncIn =>
    cases inn <;> simp [step, syncIn, bkIn, persistent]
  | syncOut =>
    cases out <;> simp [step, syncOut, bkOut, persistent]
  | write o x => simp [step, put, persistent]
  | blkPut i x => exact absurd rfl (h i x)

/-- **C93 is false (writing).** Whatever policy a `Persistent_data` is given (`dda::out`, or `dda::inout`, the default): if the block cannot be reached
directly, nothing written through its pointer arrives in the block, not by `sync_out` and not by the destructor, because the accessor inside always has the
policy `dda::in`. -/
theorem C93_write_false (inn out tests : Bool) (n : Nat) (blk buf : Nat → V) (ops : List (Op V)) (h : ∀ op ∈ ops, ∀ i x, op ≠ .blkPut i x) :
    (destroy (persistent inn out false tests n) (run (persistent inn out false tests n) (construct (persistent inn out false tests n) blk buf) ops)).blk = blk := by
  have key : ∀ (ops : List (Op V)) (s : S V), (∀ op ∈ ops, ∀ i x, op ≠ .blkPut i x) → (run (persistent inn out false tests n) s ops).blk = s.blk := by
    intro ops
    induction ops with
    | nil => intro s _; rfl
    | cons op ops ih =>
      intro s h
      have h1 := ih (step (persistent inn out false tests n) s op) (fun o ho => h o (List.mem_cons_of_mem _ ho))
      exact h1.trans (pd_step_blk inn out false tests n s op (h op (List.mem_cons_self ..)) rfl)
  have hd : ∀ s : S V, (destroy (persistent inn out false tests n) s).blk = s.blk := by
    intro s; simp [destroy, bkOut, persistent]
  rw [hd, key ops _ h]
  simp [construct, bkIn, persistent]

example : (destroy (persistent true true false false 3) (run (persistent true true false false 3)
    (construct (persistent true true false false 3) (fun _ => (0 : Nat)) (fun _ => 9)) [.write 1 5, .syncOut])).blk 1 = 0 ∧
    (run (persistent true true false false 3) (construct (persistent true true false false 3) (fun _ => (0 : Nat)) (fun _ => 9)) [.write 1 5]).buf 1 = 5 := by decide

/-- **C93 (writing directly).** If the block is reached directly, what is written through the pointer is in the block at once, and nothing else ever
changes it. -/
theorem C93_write (inn out tests : Bool) (n : Nat) (blk buf : Nat → V) (ws : List (Nat × V)) :
    (destroy (persistent inn out true tests n) (run (persistent inn out true tests n) (construct (persistent inn out true tests n) blk buf)
      (ws.flatMap fun w => [.syncIn, .write w.1 w.2, .syncOut]))).blk = putAll blk ws := by
  have one : ∀ (s : S V) (op : Op V), (step (persistent inn out true tests n) s op).blk = (match op with
      | .write o x => upd s.blk o x | .blkPut o x => upd s.blk o x | _ => s.blk) := by
    intro s op
    cases op <;> simp [step, syncIn, syncOut, bkIn, bkOut, put, persistent]
  have key : ∀ (ws : List (Nat × V)) (s : S V), (run (persistent inn out true tests n) s (ws.flatMap fun w => [.syncIn, .write w.1 w.2, .syncOut])).blk =
      putAll s.blk ws := by
    intro ws
    induction ws with
    | nil => intro s; rfl
    | cons w ws ih =>
      intro s
      have := ih (step (persistent inn out true tests n) (step (persistent inn out true tests n) (step (persistent inn out true tests n) s .syncIn) (.write w.1 w.2)) .syncOut)
      rw [List.flatMap_cons, run, List.foldl_append]
      refine this.trans ?_
      rw [one, one, one]
      rfl
  have hd : ∀ s : S V, (destroy (persistent inn out true tests n) s) = s := by
    intro s; simp [destroy, bkOut, persistent]
  rw [hd, key]
  simp [construct, bkIn, persistent]

example : (destroy (persistent false true true false 3) (run (persistent false true true false 3)
    (construct (persistent false true true false 3) (fun _ => (0 : Nat)) (fun _ => 9)) ([(1, 5)].flatMap fun w => [.syncIn, .write w.1 w.2, .syncOut]))).blk 1 = 5 := by decide

/-- **C93 (reading).** After `sync_in` of a `Persistent_data` meant for reading the pointer shows what the block holds now, however it was used and however the
block was changed since it was constructed; `sync_in` does not change the block. -/
theorem C93_read (out direct tests : Bool) (n : Nat) (blk buf : Nat → V) (ops : List (Op V)) (i : Nat) (hi : i < n) :
    view (persistent true out direct tests n).bk (step (persistent true out direct tests n) (run (persistent true out direct tests n)
      (construct (persistent true out direct tests n) blk buf) ops) .syncIn) i =
      (run (persistent true out direct tests n) (construct (persistent true out direct tests n) blk buf) ops).blk i ∧
    (step (persistent true out direct tests n) (run (persistent true out direct tests n) (construct (persistent true out direct tests n) blk buf) ops) .syncIn).blk =
      (run (persistent true out direct tests n) (construct (persistent true out direct tests n) blk buf) ops).blk := by
  generalize run (persistent true out direct tests n) (construct (persistent true out direct tests n) blk buf) ops = s
  cases direct
  · simp [step, syncIn, bkIn, persistent, view, pd_copyLoop, hi]
  · simp [step, syncIn, bkIn, persistent, view]

example : view (persistent true false false false 3).bk (step (persistent true false false false 3) (run (persistent true false false false 3)
    (construct (persistent true false false false 3) (fun k => k) (fun _ => 9)) [.blkPut 2 7, .write 2 4]) .syncIn) 2 = 7 := by decide

/-- **C93 (constructing).** A new `Persistent_data` shows the block's values, whatever its policy. -/
theorem C93_construct (inn out direct tests : Bool) (n : Nat) (blk buf : Nat → V) (i : Nat) (hi : i < n) :
    view (persistent inn out direct tests n).bk (construct (persistent inn out direct tests n) blk buf) i = blk i ∧
      (construct (persistent inn out direct tests n) blk buf).blk = blk ∧
        ∀ o, n ≤ o → (construct (persistent inn out direct tests n) blk buf).buf o = buf o := by
  cases direct
  · refine ⟨by simp [construct, bkIn, persistent, view, pd_copyLoop, hi], by simp [construct, bkIn, persistent], ?_⟩
    intro o ho
    simp [construct, bkIn, persistent, pd_copyLoop, Nat.not_lt.2 ho]
  · simp [construct, bkIn, persistent, view]

example : view (persistent false true false true 3).bk (construct (persistent false true false true 3) (fun k => k + 5) (fun _ => 0)) 2 = 7 := by decide

/-! ### Assignment -/

theorem pd_recvData (k : Bk) (hk : k.direct = true) : ∀ (data : List V) (o : Nat) (s : S V),
    (recvData k o data s).blk = arrived s.blk ⟨o, data⟩
  | [], o, s => by funext i; simp [recvData, arrived]
  | x :: xs, o, s => by
      rw [recvData, pd_recvData k hk xs (o + 1) (put k o x s)]
      funext i
      simp only [put, hk, if_true, arrived, upd, List.length_cons]
      by_cases h0 : i = o
      · subst h0
        rw [dif_neg (by omega), if_pos rfl, dif_pos (by omega)]
        simp
      · by_cases h1 : o + 1 ≤ i ∧ i - (o + 1) < xs.length
        · rw [dif_pos h1, dif_pos (by omega)]
          have e : i - o = (i - (o + 1)) + 1 := by omega
          simp only [e, List.getElem_cons_succ]
        · rw [dif_neg h1, if_neg h0, dif_neg (by omega)]

theorem pd_recvData_copied (k : Bk) (hk : k.direct = false) : ∀ (data : List V) (o : Nat) (s : S V), (recvData k o data s).blk = s.blk
  | [], _, _ => rfl
  | x :: xs, o, s => by rw [recvData, pd_recvData_copied k hk xs]; simp [put, hk]

theorem pd_execCopy : ∀ (l : List (Nat × V)) (s : S V), (execCopy s l).blk = putAll s.blk l
  | [], _ => rfl
  | q :: l, s => by
      have := pd_execCopy l { s with blk := upd s.blk q.1 q.2 }
      exact this

theorem pd_execRecv (tests : Bool) (n : Nat) : ∀ (ms : List (Msg V)) (s : S V),
    (execRecv (persistent false true true tests n) s ms).blk = allArrived s.blk ms
  | [], _ => rfl
  | m :: ms, s => by
      have := pd_execRecv tests n ms (syncOut (persistent false true true tests n) (recvData (persistent false true true tests n).bk m.off m.data
        (syncIn (persistent false true true tests n) s)))
      refine this.trans ?_
      have e : (syncOut (persistent false true true tests n) (recvData (persistent false true true tests n).bk m.off m.data
        (syncIn (persistent false true true tests n) s))).blk = arrived s.blk m := by
        have h1 : ∀ t : S V, syncOut (persistent false true true tests n) t = t := by intro t; simp [syncOut, bkOut, persistent]
        have h2 : ∀ t : S V, syncIn (persistent false true true tests n) t = t := by intro t; simp [syncIn, persistent]
        rw [h1, h2, pd_recvData _ rfl]
      rw [e]
      rfl

theorem pd_execRecv_copied (tests : Bool) (n : Nat) : ∀ (ms : List (Msg V)) (s : S V),
    (execRecv (persistent false true false tests n) s ms).blk = s.blk
  | [], _ => rfl
  | m :: ms, s => by
      have := pd_execRecv_copied tests n ms (syncOut (persistent false true false tests n) (recvData (persistent false true false tests n).bk m.off m.data
        (syncIn (persistent false true false tests n) s)))
      refine this.trans ?_
      have h1 : ∀ t : S V, syncOut (persistent false true false tests n) t = t := by intro t; simp [syncOut, bkOut, persistent]
      have h2 : ∀ t : S V, syncIn (persistent false true false tests n) t = t := by intro t; simp [syncIn, persistent]
      rw [h1, h2, pd_recvData_copied _ rfl]

/-- **C93, partial (receiving).** If the local block of the destination is reached directly, then after any number of executions of an assignment it holds what it
held before, with the elements this process copied itself and the messages it received in their places, one execution after the other.  Missing:
destinations whose local block must be copied (refuted). -/
theorem C93_receive_partial (tests : Bool) (n : Nat) (blk buf : Nat → V) (rounds : List (List (Nat × V) × List (Msg V))) :
    assign true tests n blk buf rounds = rounds.foldl (fun b r => allArrived (putAll b r.1) r.2) blk := by
  have key : ∀ (rounds : List (List (Nat × V) × List (Msg V))) (s : S V),
      (rounds.foldl (fun s r => execRecv (persistent false true true tests n) (execCopy s r.1) r.2) s).blk =
        rounds.foldl (fun b r => allArrived (putAll b r.1) r.2) s.blk := by
    intro rounds
    induction rounds with
    | nil => intro s; rfl
    | cons r rounds ih =>
      intro s
      rw [List.foldl_cons, ih, List.foldl_cons, pd_execRecv, pd_execCopy]
  have hd : ∀ t : S V, destroy (persistent false true true tests n) t = t := by intro t; simp [destroy, bkOut, persistent]
  have h1 : ∀ t : S V, syncOut (persistent false true true tests n) t = t := by intro t; simp [syncOut, bkOut, persistent]
  have h2 : ∀ t : S V, syncIn (persistent false true true tests n) t = t := by intro t; simp [syncIn, persistent]
  unfold assign
  simp only [hd, h1, h2]
  rw [key]
  simp [construct, bkIn, persistent]

example : (List.range 4).map (assign true false 4 (fun _ => 0) (fun _ => 9) [([(0, 5)], [⟨2, [7, 8]⟩])]) = [5, 0, 7, 8] := by decide

/-- **C93 is false (receiving).** If the local block of the destination must be copied, every message is lost: after any number of executions the block holds what
it held before with the elements copied by the process itself, as if no message had come. -/
theorem C93_receive_false (tests : Bool) (n : Nat) (blk buf : Nat → V) (rounds : List (List (Nat × V) × List (Msg V))) :
    assign false tests n blk buf rounds = rounds.foldl (fun b r => putAll b r.1) blk := by
  have key : ∀ (rounds : List (List (Nat × V) × List (Msg V))) (s : S V),
      (rounds.foldl (fun s r => execRecv (persistent false true false tests n) (execCopy s r.1) r.2) s).blk =
        rounds.foldl (fun b r => putAll b r.1) s.blk := by
    intro rounds
    induction rounds with
    | nil => intro s; rfl
    | cons r rounds ih =>
      intro s
      rw [List.foldl_cons, ih, List.foldl_cons, pd_execRecv_copied, pd_execCopy]
  have hd : ∀ t : S V, destroy (persistent false true false tests n) t = t := by intro t; simp [destroy, bkOut, persistent]
  have h1 : ∀ t : S V, syncOut (persistent false true false tests n) t = t := by intro t; simp [syncOut, bkOut, persistent]
  have h2 : ∀ t : S V, syncIn (persistent false true false tests n) t = t := by intro t; simp [syncIn, persistent]
  unfold assign
  simp only [hd, h1, h2]
  rw [key]
  simp [construct, bkIn, persistent]

/-- process 1 holds the elements 2 and 3 of the destination; process 0, which holds all of the source, sends 7 and 8 -/
example : (List.range 2).map (assign false false 2 (fun _ => 0) (fun _ => 9) [([], [⟨0, [7, 8]⟩])]) = [0, 0] ∧
    (List.range 2).map (allArrived (fun _ => 0) [⟨0, [7, 8]⟩]) = [7, 8] := by decide

theorem pd_send_stable (direct tests : Bool) (n : Nat) (s : S V) (i : Nat) (hi : i < n) : ∀ k : Nat,
    view (source direct tests n).bk ((sendStep (source direct tests n))^[k + 1] s) i = s.blk i ∧ ((sendStep (source direct tests n))^[k + 1] s).blk = s.blk := by
  have one : ∀ s : S V, view (source direct tests n).bk (sendStep (source direct tests n) s) i = s.blk i ∧ (sendStep (source direct tests n) s).blk = s.blk := by
    intro s
    cases direct
    · simp [sendStep, source, syncIn, syncOut, bkIn, persistent, view, pd_copyLoop, hi]
    · simp [sendStep, source, syncIn, syncOut, bkIn, persistent, view]
  intro k
  induction k generalizing s with
  | zero => exact one s
  | succ k ih =>
    rw [Function.iterate_succ_apply]
    have := ih (sendStep (source direct tests n) s)
    rw [(one s).2] at this
    exact this

/-- **C93 (sending).** Sends are not waited for one by one, and the source is synchronised anew before each of them.  A message which begins at `off` shows, from
its own send on until after the last send, the values which the block holds when the sends begin. -/
theorem C93_send (direct tests : Bool) (n : Nat) (s : S V) (off size k : Nat) (h : off + size ≤ n) :
    sent (source direct tests n) ((sendStep (source direct tests n))^[k + 1] s) off size = (List.range size).map fun j => s.blk (off + j) := by
  unfold sent
  apply List.map_congr_left
  intro j hj
  have : j < size := List.mem_range.1 hj
  exact (pd_send_stable direct tests n s (off + j) (by omega) k).1

example : sent (source false false 3) ((sendStep (source false false 3))^[2] (⟨fun k => k + 4, fun _ => 0, false⟩ : S Nat)) 1 2 = [5, 6] := by decide

/-- **C93 (sending copies).** If the source is copied, messages under way are not touched by changes of the block, for example by what the process stores in a
destination that shares its data. -/
theorem C93_send_copied (tests : Bool) (n : Nat) (s : S V) (off size k : Nat) (h : off + size ≤ n) (l : List (Nat × V)) :
    sent (source false tests n) (execCopy ((sendStep (source false tests n))^[k + 1] s) l) off size = (List.range size).map fun j => s.blk (off + j) := by
  have hbuf : ∀ (l : List (Nat × V)) (t : S V), (execCopy t l).buf = t.buf := by
    intro l
    induction l with
    | nil => intro t; rfl
    | cons q l ih =>
      intro t
      have := ih { t with blk := upd t.blk q.1 q.2 }
      exact this
  rw [← C93_send false tests n s off size k h]
  unfold sent
  apply List.map_congr_left
  intro j _
  show (execCopy _ l).buf (off + j) = _
  rw [hbuf]
  rfl

example : sent (source false true 2) (execCopy ((sendStep (source false true 2))^[1] (⟨fun k => k + 4, fun _ => 0, false⟩ : S Nat)) [(0, 9), (1, 9)]) 0 2 = [4, 5] := by decide

/-- **C93 is false (sending directly).** If the source is reached directly and shares its data with the destination, what the process stores while its messages are
under way changes them. -/
theorem C93_send_false : sent (source true false 2) (execCopy ((sendStep (source true false 2))^[1] (⟨fun k => k + 4, fun _ => 0, false⟩ : S Nat)) [(0, 9)]) 0 2 ≠
    (List.range 2).map fun j => j + 4 := by decide

end persist

/-! ### Which blocks are copied -/

/-- **C93 (which blocks are copied).** A local vector is reached directly exactly if its layout is dense by declaration or its stride is one; otherwise it is
copied into a dense buffer of its size. -/
theorem C93_kind (asserts : Bool) (c : Acc.Ctx) (v : Vw.View) (buf : Nat → Int) (n : Nat) (hd : (Acc.declared c.ly v).dim = 1) (hs : v.sizes = [n]) :
    ((Acc.declared c.ly v).packing = .dense ∨ v.strides.getD 0 0 = 1 → Acc.access asserts false c v (request (Acc.declared c.ly v)) buf = .seen false (Acc.seenDirect c v)) ∧
    (¬ ((Acc.declared c.ly v).packing = .dense ∨ v.strides.getD 0 0 = 1) →
      ∃ s, Acc.access asserts false c v (request (Acc.declared c.ly v)) buf = .seen true s ∧ s.sizes = [n] ∧ s.strides = [1] ∧
        Acc.requiredBuffer asserts false c v (request (Acc.declared c.ly v)) = some n) := by
  have hm : Acc.maybeOk (Acc.declared c.ly v) (request (Acc.declared c.ly v)) = true := by
    simp [Acc.maybeOk, request, Acc.orderOk, Acc.fmtOk]
  have hcomp : Acc.isCompatible asserts (request (Acc.declared c.ly v)) (Acc.declared c.ly v) (Acc.seenDirect c v) (Acc.valueSize c v) =
      Acc.Ans.of (v.strides.getD 0 0 == 1) := by
    simp [Acc.isCompatible, request, hd, Acc.seenDirect]
  by_cases hp : (Acc.declared c.ly v).packing = .dense
  · have hk : Acc.accessKind .local true false (Acc.declared c.ly v) (request (Acc.declared c.ly v)) = .direct := by
      have h1 : Acc.packingOk (request (Acc.declared c.ly v)).packing (Acc.declared c.ly v).packing = true := by simp [Acc.packingOk, request, hp]
      simp [Acc.accessKind, hm, Acc.layoutOk, h1]
    exact ⟨fun _ => by simp only [Acc.access, hk], fun h => absurd (Or.inl hp) h⟩
  · have hk : Acc.accessKind .local true false (Acc.declared c.ly v) (request (Acc.declared c.ly v)) = .maybe := by
      have h1 : Acc.packingOk (request (Acc.declared c.ly v)).packing (Acc.declared c.ly v).packing = false := by
        simp [Acc.packingOk, request, Ne.symm hp]
      simp [Acc.accessKind, hm, Acc.layoutOk, h1]
    by_cases h1 : v.strides.getD 0 0 = 1
    · refine ⟨fun _ => ?_, fun h => absurd (Or.inr h1) h⟩
      have : Acc.Ans.of (v.strides.getD 0 0 == 1) = .yes := by rw [h1]; rfl
      simp only [Acc.access, hk, hcomp, this]
    · refine ⟨fun h => absurd h (by simp only [hp, h1, or_self, not_false_eq_true]), fun _ => ?_⟩
      have hno : Acc.Ans.of (v.strides.getD 0 0 == 1) = .no := by
        have : (v.strides.getD 0 0 == 1) = false := by simpa using h1
        rw [this]; rfl
      have ha : Acc.applied (Acc.copyLayout (request (Acc.declared c.ly v)) (Acc.declared c.ly v)) [n] = some ([1], n) := by
        simp [Acc.copyLayout, request, Acc.applied, Lay.dense1]
      have key : Acc.access asserts false c v (request (Acc.declared c.ly v)) buf = .seen true ⟨(Acc.copyLayout (request (Acc.declared c.ly v)) (Acc.declared c.ly v)).dim,
          (Acc.copyLayout (request (Acc.declared c.ly v)) (Acc.declared c.ly v)).order, [n], [1],
          if Acc.isCx c v = true ∧ (Acc.copyLayout (request (Acc.declared c.ly v)) (Acc.declared c.ly v)).fmt = .split then [buf 0, buf 1] else [buf 0],
          Acc.unitOf (Acc.isCx c v) (Acc.copyLayout (request (Acc.declared c.ly v)) (Acc.declared c.ly v)).fmt c.tau⟩ := by
        simp only [Acc.access, hk, hcomp, hno, Acc.copied, hs, ha]
        rfl
      refine ⟨_, key, rfl, rfl, ?_⟩
      simp only [Acc.requiredBuffer, hk, hcomp, hno, hs, ha, Option.map_some]

/-- a complex vector of 4 elements, stored interleaved -/
def pdVector : Acc.Ctx := ⟨⟨1, [0, 1, 2], .dense, .array⟩, true, 8, fun _ => 64⟩

example : Acc.access true false pdVector (.base [4] [1] 0) (request (Acc.declared pdVector.ly (.base [4] [1] 0))) (fun _ => 0) =
    .seen false (Acc.seenDirect pdVector (.base [4] [1] 0)) :=
  (C93_kind true pdVector (.base [4] [1] 0) (fun _ => 0) 4 rfl rfl).1 (Or.inl rfl)

/-- **C93 is false (real and imaginary parts).** The real or imaginary part of a complex vector which is not split is always copied, whatever its length and
stride: a distributed assignment to it loses every message. -/
theorem C93_part_false (asserts : Bool) (c : Acc.Ctx) (k n : Nat) (v : Vw.View) (buf : Nat → Int) (hd : (Acc.declared c.ly v).dim = 1) (hs : v.sizes = [n])
    (hf : (Acc.declared c.ly v).fmt ≠ .split) :
    (∃ s, Acc.access asserts false c (.component false k v) (request (Acc.declared c.ly (.component false k v))) buf = .seen true s) ∧
    ∀ (V : Type) (tests : Bool) (blk b : Nat → V) (ms : List (Msg V)), assign false tests n blk b [([], ms)] = blk := by
  have h := (C93_kind asserts c (.component false k v) buf n hd hs).2 ?_
  · obtain ⟨s, h, -⟩ := h
    exact ⟨⟨s, h⟩, fun V tests blk b ms => by rw [C93_receive_false]; rfl⟩
  · rintro (h | h)
    · simp [Acc.declared, hf] at h
    · revert h
      have e : ∀ l : List Int, (l.map fun s => if false = true then 1 * s else 2 * s).getD 0 0 = 2 * l.getD 0 0 := by
        intro l; cases l <;> simp
      show (v.strides.map fun s => if false = true then 1 * s else 2 * s).getD 0 0 = 1 → False
      rw [e]
      omega

example : ∃ s, Acc.access true false pdVector (.component false 0 (.base [4] [1] 0)) (request (Acc.declared pdVector.ly (.component false 0 (.base [4] [1] 0)))) (fun _ => 0) = .seen true s :=
  (C93_part_false true pdVector 0 4 (.base [4] [1] 0) (fun _ => 0) rfl rfl (by decide)).1

/-! ### Processors that hold a subblock -/

theorem pd_toIdx {n : Nat} (h : n < W₆₄) : toIdx (n : Int) = n := by
  unfold toIdx
  omega

theorem pd_hasBlock (pset : List Nat) (hn : pset.length < W₆₄) (id : Nat → Nat) (proc i0 : Nat) : ∀ (r j k : Nat), j + r = pset.length →
    hasBlock pset id proc (r + 1) k ⟨i0, pset, j⟩ = if proc ∈ pset.drop j then .yes else .no
  | 0, j, k, h => by
      have hj : j = pset.length := by omega
      subst hj
      simp [hasBlock, VIt.ne, procEnd]
  | r + 1, j, k, h => by
      have hj : j < pset.length := by omega
      have hne : VIt.ne ⟨i0, pset, j⟩ (procEnd (id k) pset) = true := by
        simp [VIt.ne, procEnd]; omega
      have hinc : VIt.inc ⟨i0, pset, j⟩ = ⟨i0, pset, j + 1⟩ := by
        have := pd_toIdx (n := j + 1) (by omega)
        simp only [VIt.inc]
        push_cast at this
        rw [this]
      have hde : VIt.deref ⟨i0, pset, j⟩ = some pset[j] := by simp [VIt.deref, hj]
      rw [hasBlock, if_pos hne, hde]
      simp only [hinc]
      rw [pd_hasBlock pset hn id proc i0 r (j + 1) (k + 1) (by omega), List.drop_eq_getElem_cons hj]
      by_cases hq : pset[j] = proc
      · rw [if_pos hq, if_pos (by simp [hq])]
      · rw [if_neg hq]
        simp only [List.mem_cons, Ne.symm hq, false_or]

/-- **C93 (processors).** `processor_has_block` with a replicated map says whether the processor is in the map's set, in as many turns as the set has
processors, and never reads outside of it.  The iterators come from different copies of the set; this works because their comparison never looks at the
vectors (refuted below). -/
theorem C93_processors (pset : List Nat) (hn : pset.length < W₆₄) (id : Nat → Nat) (i0 proc : Nat) :
    hasBlock pset id proc (pset.length + 1) 0 (procBegin i0 pset) = if proc ∈ pset then .yes else .no := by
  have := pd_hasBlock pset hn id proc i0 pset.length 0 0 (by omega)
  simpa [procBegin] using this

example : hasBlock [4, 2, 7] (fun k => k + 10) 7 4 0 (procBegin 1 [4, 2, 7]) = .yes ∧ hasBlock [4, 2, 7] (fun k => k + 10) 3 4 0 (procBegin 1 [4, 2, 7]) = .no := by decide

/-- **C93 (moving iterators).** Moving an iterator by any number of elements within its vector and back gives it back, and it shows the element it is moved to. -/
theorem C93_move (id : Nat) (vals : List Nat) (i j : Nat) (hi : i ≤ vals.length) (hj : j < vals.length) (hn : vals.length < W₆₄) :
    (VIt.add ⟨id, vals, i⟩ ((j : Int) - i)).deref = some vals[j] ∧ VIt.sub (VIt.add ⟨id, vals, i⟩ ((j : Int) - i)) ((j : Int) - i) = ⟨id, vals, i⟩ ∧
      (VIt.dec (VIt.inc ⟨id, vals, i⟩)) = ⟨id, vals, i⟩ := by
  have e1 : toIdx ((i : Int) + ((j : Int) - i)) = j := by
    rw [show (i : Int) + ((j : Int) - i) = (j : Nat) by omega]
    exact pd_toIdx (by omega)
  refine ⟨?_, ?_, ?_⟩
  · simp only [VIt.add, VIt.deref, e1, List.getElem?_eq_getElem hj]
  · simp only [VIt.add, VIt.sub, e1]
    rw [show (j : Int) - ((j : Int) - i) = (i : Nat) by omega, pd_toIdx (by omega)]
  · simp only [VIt.inc, VIt.dec]
    congr 1
    have : (toIdx (i + 1) : Int) = ((i : Int) + 1) % (W₆₄ : Int) := by unfold toIdx; omega
    rw [this]
    unfold toIdx
    omega

example : (VIt.add ⟨0, [5, 6, 7], 2⟩ ((0 : Int) - 2)).deref = some 5 := by decide

/-- **C93, partial (distances).** The difference of two iterators is that of their positions.  Missing: distances of `2 ^ 31` elements and more (refuted). -/
theorem C93_distance_partial (a b : VIt) (h : ((a.idx : Int) - b.idx) < 2 ^ 31 ∧ -(2 ^ 31) ≤ (a.idx : Int) - b.idx) :
    a.diff b = (a.idx : Int) - b.idx := by
  unfold VIt.diff toIdx
  generalize (a.idx : Int) - b.idx = d at h
  rw [Int.bmod_def]
  have : ((d % (W₆₄ : Int)).toNat : Int) = d % (W₆₄ : Int) := by omega
  omega

example : VIt.diff ⟨0, [], 3⟩ ⟨0, [], 8⟩ = -5 := by decide

/-- **C93 is false (comparing and counting iterators).** Iterators over different vectors are equal if their positions are, because `operator==` compares the address of
its left operand's block with itself; the difference of iterators `2 ^ 31` elements apart is negative; the value of `i++` and `i--` is a reference to a variable that no longer exists. -/
theorem C93_iterator_false : VIt.eq ⟨1, [4], 0⟩ ⟨2, [5], 0⟩ = true ∧ VIt.ne ⟨1, [4], 0⟩ ⟨2, [5], 0⟩ = false ∧
    VIt.diff ⟨0, [], 2 ^ 31⟩ ⟨0, [], 0⟩ = -2 ^ 31 ∧ ∀ i : VIt, i.postInc = none :=
  ⟨by decide, by decide, by decide, fun _ => rfl⟩

end Verif.Props

#print axioms Verif.Props.C93_write_false
#print axioms Verif.Props.C93_write
#print axioms Verif.Props.C93_read
#print axioms Verif.Props.C93_construct
#print axioms Verif.Props.C93_receive_partial
#print axioms Verif.Props.C93_receive_false
#print axioms Verif.Props.C93_send
#print axioms Verif.Props.C93_send_copied
#print axioms Verif.Props.C93_send_false
#print axioms Verif.Props.C93_kind
#print axioms Verif.Props.C93_part_false
#print axioms Verif.Props.C93_processors
#print axioms Verif.Props.C93_move
#print axioms Verif.Props.C93_distance_partial
#print axioms Verif.Props.C93_iterator_false
