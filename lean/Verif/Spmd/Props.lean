import Verif.Spmd.Stmt
/-!
# C79: programs of statements on distributed arrays

All processes run the same statements; no statement ends with a barrier.  The specification is one process with all the data, which evaluates each right-hand side
index by index (`Ex.val`, `values`).
-/
set_option linter.unusedSectionVars false
namespace Verif.Props
open Verif Verif.Spec Verif.Par Verif.Spmd

variable {A V : Type} [DecidableEq A]

/-! ## Messages of several statements -/

/-- **C79, communication.** For every sequence of statements whose messages match one by one, from any memories, under any interleaving of the processes, with `MPI_Wait` blocking or not:
as long as some process has work left, some process can take a step (no deadlock), each step takes one action off the list of one process (so the program
ends), and when all are done every memory is what it would be had the statements been run one after the other, although no statement waits for the others. -/
theorem C79_network {eager : Bool} {P : List Nat} {sts : List (Stage A V)} (hg : ∀ st ∈ sts, st.Good P) (M : Nat → Mem A V) {s : MSt A V}
    (hr : MReach eager P (MSt.init P sts M) s) :
    (¬ s.final P → ∃ p ∈ P, ∃ s', MStep eager s p s') ∧
    (∀ p s', MStep eager s p s' → (s.todo p).length = (s'.todo p).length + 1 ∧ ∀ q, q ≠ p → s'.todo q = s.todo q) ∧
    (s.final P → ∀ p, s.mem p = effects P sts M p) := by
  have hM : ∀ j st, sts[j]? = some st → before P sts M (j + 1) = st.effect P (before P sts M j) := fun j st h => before_succ h
  have h0 : before P sts M 0 = M := rfl
  have hi := minv_init hM hg
  rw [h0] at hi
  have h := minv_reach hM hg hi hr
  refine ⟨fun hn => minv_progress h hn, ?_, ?_⟩
  · intro p s' hs
    cases hs with
    | send j d r q offs as h =>
      refine ⟨?_, fun q hq => ?_⟩
      · simp only [Function.update_self, h, List.length_cons]
      · exact Function.update_of_ne hq _ _
    | copy j d r src dst as h =>
      refine ⟨?_, fun q hq => ?_⟩
      · simp only [Function.update_self, h, List.length_cons]
      · exact Function.update_of_ne hq _ _
    | recv j d r q offs as t vals vs h hc hl =>
      refine ⟨?_, fun q hq => ?_⟩
      · simp only [Function.update_self, h, List.length_cons]
      · exact Function.update_of_ne hq _ _
    | wait j d r as h hd =>
      refine ⟨?_, fun q hq => ?_⟩
      · simp only [Function.update_self, h, List.length_cons]
      · exact Function.update_of_ne hq _ _
    | loc j f as h =>
      refine ⟨?_, fun q hq => ?_⟩
      · simp only [Function.update_self, h, List.length_cons]
      · exact Function.update_of_ne hq _ _
  · intro hf p
    rw [minv_final hM h hf p]
    simp [before]

/-- two statements of a relay: 0 sends array `a` to 1's `b`, then 1 sends `b` to 0's `c` -/
def relay : List (Stage Nat Nat) :=
  [.net 1 0 fun p => if p = 0 then [.send 1 [0], .wait] else if p = 1 then [.recv 0 [0], .wait] else [],
   .net 2 1 fun p => if p = 1 then [.send 0 [0], .wait] else if p = 0 then [.recv 1 [0], .wait] else []]

example : ∀ st ∈ relay, st.Good [0, 1] := by
  intro st hs
  simp only [relay, List.mem_cons, List.not_mem_nil, or_false] at hs
  rcases hs with rfl | rfl
  · refine ⟨by decide, fun p => ?_, fun p q => ?_⟩
    · dsimp only
      split
      · decide
      · split <;> decide
    · by_cases h0 : p = 0 <;> by_cases h1 : p = 1 <;> by_cases k0 : q = 0 <;> by_cases k1 : q = 1 <;>
        simp [inside, h0, h1, k0, k1, sendsTo, recvsFrom] <;> omega
  · refine ⟨by decide, fun p => ?_, fun p q => ?_⟩
    · dsimp only
      split
      · decide
      · split <;> decide
    · by_cases h0 : p = 0 <;> by_cases h1 : p = 1 <;> by_cases k0 : q = 0 <;> by_cases k1 : q = 1 <;>
        simp [inside, h0, h1, k0, k1, sendsTo, recvsFrom] <;> omega
example : effects [0, 1] relay (fun p a _ => 10 * p + a) 0 2 0 = 0 ∧ effects [0, 1] relay (fun p a _ => 10 * p + a) 1 1 0 = 0 ∧
    effects [0, 1] relay (fun p a _ => 10 * p + a) 1 2 0 = 12 := by decide

/-! ## Programs -/

theorem program_effect {P : List Nat} (hP : P.Nodup) {Γ : A → Arr} (hΓ : ∀ a, (Γ a).OK P) : ∀ {sts : List (Stmt A V)} {ss : List (Stage (A ⊕ Nat) V)}
    {G : A → List Nat → V} {M : Nat → Mem (A ⊕ Nat) V}, (∀ st ∈ sts, st.Conform Γ) → compile Γ P sts = some ss → HoldsAll Γ G M →
    (∀ s ∈ ss, s.Good P) ∧ HoldsAll Γ (values G sts) (effects P ss M) ∧
    (∀ p a x, (∀ idx, InRange idx (Γ a).dmap.ext → (Γ a).dmap.pmap.subblock p = some ((Γ a).dmap.pmap.view.sbOf idx) → x ≠ (Γ a).side.addr p idx) →
      effects P ss M p (.inl a) x = M p (.inl a) x)
  | [], ss, G, M, _, h, hM => by
      simp only [compile, Option.some.injEq] at h
      subst h
      exact ⟨by simp, hM, fun _ _ _ _ => rfl⟩
  | st :: sts, ss, G, M, hc, h, hM => by
      simp only [compile] at h
      split at h
      · cases hk : compile Γ P sts with
        | none => rw [hk] at h; simp at h
        | some ss' =>
          rw [hk] at h
          simp only [Option.map_some, Option.some.injEq] at h
          subst h
          obtain ⟨⟨e1, e2⟩, hg⟩ := stages_executed hP (hΓ st.lhs) (fun a _ => hΓ a) (hc st List.mem_cons_self) hM
          have hu : effects P (stages Γ st ++ ss') M = effects P ss' (effects P (stages Γ st) M) := by
            unfold effects; rw [List.foldl_append]
          have hM1 : HoldsAll Γ (Function.update G st.lhs fun idx => st.rhs.val G idx) (effects P (stages Γ st) M) := by
            intro a
            by_cases ha : a = st.lhs
            · subst ha
              rw [Function.update_self]
              intro p idx hi hs
              exact (e1 p).1 idx hi hs
            · rw [Function.update_of_ne ha]
              have : (fun p => effects P (stages Γ st) M p (.inl a)) = fun p => M p (.inl a) := by
                funext p; exact e2 p a ha
              rw [this]
              exact hM a
          obtain ⟨i1, i2, i3⟩ := program_effect hP hΓ (fun s hs => hc s (List.mem_cons_of_mem _ hs)) hk hM1
          rw [hu]
          refine ⟨?_, i2, ?_⟩
          · intro s hs
            rcases List.mem_append.1 hs with hs | hs
            · exact hg s hs
            · exact i1 s hs
          · intro p a x hx
            rw [i3 p a x hx]
            by_cases ha : a = st.lhs
            · subst ha
              exact (e1 p).2 x hx
            · rw [e2 p a ha]
      · cases h

/-- **C79, partial (programs).** For all maps (block, cyclic, whole, replicated; different ones for different arrays; some processes without data), all
storage of the local blocks with distinct addresses, all sequences of conforming statements `array = expression of arrays, scalars and index functions`, for
which the program is built without failed assertion: from any memories in which every process holds the values `G` of its elements, under any
interleaving, with or without blocking waits, some process can go on until all are done, and then every process holds, for each of its
elements of each array, the value that one process with all the data would have computed, and no other cell of an array has changed.
Missing: index functions assigned to arrays replicated over some of the processes only (`C79_replicated_false`), expressions that may not be reorganised,
arrays that share storage, interleaved complex elements (`C15_complex_false`). -/
theorem C79_program_partial {eager : Bool} {P : List Nat} (hP : P.Nodup) {Γ : A → Arr} (hΓ : ∀ a, (Γ a).OK P) {sts : List (Stmt A V)}
    (hc : ∀ st ∈ sts, st.Conform Γ) {ss : List (Stage (A ⊕ Nat) V)} (hk : compile Γ P sts = some ss) {G : A → List Nat → V}
    {M : Nat → Mem (A ⊕ Nat) V} (hM : HoldsAll Γ G M) {s : MSt (A ⊕ Nat) V} (hr : MReach eager P (MSt.init P ss M) s) :
    (¬ s.final P → ∃ p ∈ P, ∃ s', MStep eager s p s') ∧
    (s.final P → HoldsAll Γ (values G sts) s.mem ∧
      ∀ p a x, (∀ idx, InRange idx (Γ a).dmap.ext → (Γ a).dmap.pmap.subblock p = some ((Γ a).dmap.pmap.view.sbOf idx) → x ≠ (Γ a).side.addr p idx) →
        s.mem p (.inl a) x = M p (.inl a) x) := by
  obtain ⟨h1, h2, h3⟩ := program_effect hP hΓ hc hk hM
  obtain ⟨n1, -, n3⟩ := C79_network h1 M hr
  refine ⟨n1, fun hf => ?_⟩
  have e : s.mem = effects P ss M := funext (n3 hf)
  rw [e]
  exact ⟨h2, h3⟩

/-- **C79, partial (building).** The program is built if every array assigned an expression with an index function has a `Map`, or is replicated over all processes of
the communicator.  Missing: arrays replicated over some of the processes (`C79_replicated_false`). -/
theorem C79_built_partial {P : List Nat} {Γ : A → Arr} {sts : List (Stmt A V)}
    (h : ∀ st ∈ sts, st.rhs.hasGen = true → match (Γ st.lhs).dmap with
      | .map _ _ => True
      | .repl m => ∀ p ∈ P, p ∈ m.pset) :
    ∃ ss, compile Γ P sts = some ss := by
  induction sts with
  | nil => exact ⟨[], rfl⟩
  | cons st sts ih =>
    obtain ⟨ss, hs⟩ := ih fun st' hs => h st' (List.mem_cons_of_mem _ hs)
    refine ⟨stages Γ st ++ ss, ?_⟩
    have hb : P.all (buildable Γ st) = true := by
      rw [List.all_eq_true]
      intro p hp
      have h1 := h st List.mem_cons_self
      unfold buildable
      cases hg : st.rhs.hasGen with
      | false => simp
      | true =>
        have h2 := h1 hg
        cases hd : (Γ st.lhs).dmap with
        | map m r => simp
        | repl m =>
          rw [hd] at h2
          have h3 : m.subblock p = some 0 := (C10_replicated m p).1.2 (h2 p hp)
          simp [h3]
    simp only [compile, hb, if_true, hs, Option.map_some]

/-! ### Memories and arrays for the examples -/

/-- every assignment of values to the elements is held by some memories -/
theorem C79_initial [Inhabited V] {P : List Nat} {Γ : A → Arr} (hΓ : ∀ a, (Γ a).OK P) (G : A → List Nat → V) :
    ∃ M : Nat → Mem (A ⊕ Nat) V, HoldsAll Γ G M := by
  classical
  refine ⟨fun p a x => match a with
    | .inl a => if h : ∃ idx, InRange idx (Γ a).dmap.ext ∧ (Γ a).side.map.subblock p = some ((Γ a).side.map.view.sbOf idx) ∧ x = (Γ a).side.addr p idx
        then G a h.choose else default
    | .inr _ => default, ?_⟩
  intro a p idx hi hs
  have h : ∃ idx', InRange idx' (Γ a).dmap.ext ∧ (Γ a).side.map.subblock p = some ((Γ a).side.map.view.sbOf idx') ∧
    (Γ a).side.addr p idx = (Γ a).side.addr p idx' := ⟨idx, hi, hs, rfl⟩
  simp only [dif_pos h]
  congr 1
  have hc := h.choose_spec
  exact (hΓ a).layout p _ _ hc.1 hi hc.2.1 hs hc.2.2.symm

/-- dense local blocks are properly built -/
theorem dense_arr_ok {P : List Nat} {m : DMap} (h : m.OK) {order : List Nat} (ho : IsOrder m.ext.length order) (hp : ∀ p ∈ m.pmap.workers, p ∈ P) :
    (Arr.mk m (tmpStr m order) order).OK P where
  map := h
  str _ := tmpStr_length _ _ _
  layout := tmp_layout h ho
  order := ho
  procs := hp
  unit hb p := tmp_unit ho hb p

/-- array 0 distributed cyclically over processes 7 and 3, array 1 by blocks over 3 and 2, array 2 replicated on 2 and 7 -/
def exArrs (n : Fin 3) : Arr :=
  let m : DMap := match n with
    | 0 => .map exMapC []
    | 1 => .map ⟨[(.block 2, 5)], [3, 2]⟩ [.block 1, .whole]
    | 2 => .repl ⟨[5], [2, 7]⟩
  ⟨m, tmpStr m [0], [0]⟩

theorem exArrs_ok : ∀ n, (exArrs n).OK [2, 3, 7] := by
  have ho : IsOrder 1 [0] := ⟨by decide, by decide, by decide⟩
  intro n
  match n with
  | 0 => exact dense_arr_ok (m := .map exMapC []) ⟨exMapC_ok, by simp⟩ ho (by decide)
  | 1 => exact dense_arr_ok (m := .map ⟨[(.block 2, 5)], [3, 2]⟩ [.block 1, .whole]) ⟨⟨by decide, by decide, by decide, by decide⟩, by decide⟩ ho (by decide)
  | 2 => exact dense_arr_ok (m := .repl ⟨[5], [2, 7]⟩) ⟨by decide, by decide, by decide⟩ ho (by decide)

/-- `a0 = a1 + ramp; a1 = a0; a2 = a1 * a2; a1 = a1 + 3` -/
def exProg : List (Stmt (Fin 3) Nat) :=
  [⟨0, .bin (· + ·) (.arr 1) (.gen fun i => 10 * i.getD 0 0)⟩, ⟨1, .arr 0⟩, ⟨2, .bin (· * ·) (.arr 1) (.arr 2)⟩, ⟨1, .bin (· + ·) (.arr 1) (.scal 3)⟩]

example : (∀ st ∈ exProg, st.Conform exArrs) ∧ (∃ ss, compile exArrs [2, 3, 7] exProg = some ss) ∧
    (∃ M : Nat → Mem (Fin 3 ⊕ Nat) Nat, HoldsAll exArrs (fun _ idx => idx.getD 0 0 + 1) M) ∧
    values (fun _ idx => idx.getD 0 0 + 1) exProg 2 [3] = 34 * 4 := by
  refine ⟨?_, C79_built_partial ?_, C79_initial exArrs_ok _, by decide⟩
  · intro st hs
    simp only [exProg, List.mem_cons, List.not_mem_nil, or_false] at hs
    rcases hs with rfl | rfl | rfl | rfl <;> intro a ha <;> simp [Spmd.Ex.leaves] at ha
    · subst ha; rfl
    · subst ha; rfl
    · rcases ha with rfl | rfl <;> rfl
    · subst ha; rfl
  · intro st hs hg
    simp only [exProg, List.mem_cons, List.not_mem_nil, or_false] at hs
    rcases hs with rfl | rfl | rfl | rfl <;> trivial

/-! ## What is false -/

/-- the statement `a2 = ramp` -/
def exRamp : Stmt (Fin 3) Nat := ⟨2, .gen fun i => i.getD 0 0⟩

/-- **C79 is false (index functions on replicated arrays).** A vector replicated over processes 2 and 7 of the communicator {2, 3, 7} is assigned a ramp: process 3, which
holds none of it, asks the `Replicated_map` for the domain of subblock `no_subblock`, and the assertion `sb == 0` stops it (expr.hpp l.150-152,
replicated_map.hpp l.159-162).  The same vector distributed by a `Map` over processes that do not include all is accepted. -/
theorem C79_replicated_false :
    exRamp.Conform exArrs ∧ compile exArrs [2, 3, 7] [exRamp] = none ∧ (compile exArrs [2, 7] [exRamp]).isSome = true ∧
    (compile exArrs [2, 3, 7] [(⟨1, .gen fun i => i.getD 0 0⟩ : Stmt (Fin 3) Nat)]).isSome = true := by
  refine ⟨by intro a ha; simp [exRamp, Spmd.Ex.leaves] at ha, by rfl, by rfl, by rfl⟩

/-! ## Mixing local and distributed data -/

/-- all arrays can be used together, on the local data of each process or on distributed data -/
def Legal (lhs : MapSort) (rhs : Shape) : Prop :=
  (lhs ≠ .globalOnly ∧ ∀ s ∈ rhs.sorts, s ≠ .globalOnly) ∨ (lhs ≠ .localOnly ∧ ∀ s ∈ rhs.sorts, s ≠ .localOnly)

/-- the first operand that is not a scalar decides, and shows an array -/
def Visible : Shape → Prop
  | .arr _ => True
  | .scal => False
  | .gen => False
  | .un x => Visible x
  | .bin x y => Visible x ∨ (x = .scal ∧ Visible y)
  | .tern x y _ => Visible x ∨ (x = .scal ∧ Visible y)

theorem mapSort_mem : ∀ x : Shape, x.mapSort = .either ∨ x.mapSort ∈ x.sorts
  | .arr s => .inr (by simp [Shape.mapSort, Shape.sorts])
  | .scal => .inl rfl
  | .gen => .inl rfl
  | .un x => mapSort_mem x
  | .bin x y => by
      have hx := mapSort_mem x
      have hy := mapSort_mem y
      have : (Shape.bin x y).mapSort = x.mapSort ∨ (Shape.bin x y).mapSort = y.mapSort := by
        cases x <;> simp [Shape.mapSort]
      rcases this with h | h <;> rw [h] <;> simp only [Shape.sorts, List.mem_append] <;> tauto
  | .tern x y z => by
      have hx := mapSort_mem x
      have hy := mapSort_mem y
      have : (Shape.tern x y z).mapSort = x.mapSort ∨ (Shape.tern x y z).mapSort = y.mapSort := by
        cases x <;> simp [Shape.mapSort]
      rcases this with h | h <;> rw [h] <;> simp only [Shape.sorts, List.mem_append] <;> tauto

theorem mapSort_visible : ∀ x : Shape, Visible x → x.mapSort ∈ x.sorts
  | .arr s, _ => by simp [Shape.mapSort, Shape.sorts]
  | .scal, h => h.elim
  | .gen, h => h.elim
  | .un x, h => mapSort_visible x h
  | .bin x y, h => by
      rcases h with h | ⟨rfl, h⟩
      · have e : (Shape.bin x y).mapSort = x.mapSort := by
          cases x <;> simp_all [Shape.mapSort, Visible]
        rw [e]
        exact List.mem_append_left _ (mapSort_visible x h)
      · exact List.mem_append_right _ (mapSort_visible y h)
  | .tern x y z, h => by
      rcases h with h | ⟨rfl, h⟩
      · have e : (Shape.tern x y z).mapSort = x.mapSort := by
          cases x <;> simp_all [Shape.mapSort, Visible]
        rw [e]
        exact List.mem_append_left _ (List.mem_append_left _ (mapSort_visible x h))
      · exact List.mem_append_left _ (List.mem_append_right _ (mapSort_visible y h))

/-- **C79, partial (mixing).** Every legal assignment is accepted; an accepted one is legal if its operands all have the same sort of map and one of them is looked at.
Missing: operands of different sorts, arrays hidden behind scalars or index functions (`C79_mix_false`). -/
theorem C79_mix_partial (lhs : MapSort) (rhs : Shape) :
    (Legal lhs rhs → accepted lhs rhs = true) ∧
    (∀ s, (∀ t ∈ rhs.sorts, t = s) → Visible rhs → accepted lhs rhs = true → Legal lhs rhs) := by
  constructor
  · intro h
    unfold accepted MapSort.isLocal MapSort.isGlobal
    rcases h with ⟨h1, h2⟩ | ⟨h1, h2⟩
    · have : rhs.mapSort ≠ .globalOnly := by
        rcases mapSort_mem rhs with h | h
        · rw [h]; decide
        · exact h2 _ h
      simp [h1, this]
    · have : rhs.mapSort ≠ .localOnly := by
        rcases mapSort_mem rhs with h | h
        · rw [h]; decide
        · exact h2 _ h
      simp [h1, this]
  · intro s hs hv ha
    have e := hs _ (mapSort_visible rhs hv)
    unfold accepted MapSort.isLocal MapSort.isGlobal at ha
    rw [e] at ha
    simp only [Bool.or_eq_true, Bool.and_eq_true, bne_iff_ne, ne_eq] at ha
    rcases ha with ⟨h1, h2⟩ | ⟨h1, h2⟩
    · exact .inl ⟨h1, fun t ht => by rw [hs t ht]; exact h2⟩
    · exact .inr ⟨h1, fun t ht => by rw [hs t ht]; exact h2⟩

example : Visible (.bin .scal (.un (.arr .globalOnly))) ∧ accepted .globalOnly (.bin .scal (.un (.arr .globalOnly))) = true ∧
    accepted .localOnly (.bin .scal (.un (.arr .globalOnly))) = false ∧ Legal .globalOnly (.bin .scal (.un (.arr .globalOnly))) :=
  ⟨.inr ⟨rfl, trivial⟩, by decide, by decide, .inr ⟨by decide, by decide⟩⟩

/-- **C79 is false (mixing local and distributed data).** The check looks at the map of the first operand that is not a scalar (binary.hpp l.28-40, ternary.hpp l.28-43): a
distributed array may be assigned the sum of a distributed and a local array; a local array may be assigned `ite(scalar, scalar, distributed)` or a ramp plus a distributed array. -/
theorem C79_mix_false :
    (accepted .globalOnly (.bin (.arr .globalOnly) (.arr .localOnly)) = true ∧ ¬ Legal .globalOnly (.bin (.arr .globalOnly) (.arr .localOnly))) ∧
    (accepted .localOnly (.tern .scal .scal (.arr .globalOnly)) = true ∧ ¬ Legal .localOnly (.tern .scal .scal (.arr .globalOnly))) ∧
    (accepted .localOnly (.bin .gen (.arr .globalOnly)) = true ∧ ¬ Legal .localOnly (.bin .gen (.arr .globalOnly))) := by
  refine ⟨⟨by decide, ?_⟩, ⟨by decide, ?_⟩, ⟨by decide, ?_⟩⟩ <;> simp [Legal, Shape.sorts]

end Verif.Props
