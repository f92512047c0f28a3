import Verif.Ocl.Lemmas
/-!
C83: the classes around OpenCL count references as the C interface asks for, return the texts of the runtime, move data to and from buffers and pass arguments to kernels.
-/
namespace Verif.Props
open Verif.Ocl

/-- a program that is right in the terms of references alone -/
def ocl_prog : List Op := [.dflt, .create, .copy 1, .assign 0 2, .assign 0 0, .destroy 1, .use 0, .rawCreate, .adopt 1 true, .assign 0 3, .rawRelease 1, .use 3, .destroy 0, .destroy 2]

/-- **C83 (contexts and queues).**  For every program with variables of class `context` or `command_queue` that uses no destroyed variable, no null handle, and no reference it does not have: nothing is
undefined, nothing throws, every variable holds the object it should, and each object is counted exactly once for each reference, so that it lives exactly as long as somebody refers to it. -/
theorem C83_handles (c : Cls) (hc : c = context ∨ c = queue) (l : List Op) (r : Ref) (h : sems ⟨true, true, true⟩ Ref.init l = some r) :
    ∃ s, run c init l = .ok s ∧ Counts s r := by
  rcases hc with rfl | rfl <;> exact run_counts _ l r h

example : ∃ r, sems ⟨true, true, true⟩ Ref.init ocl_prog = some r ∧ r.refs 0 = 0 ∧ r.refs 1 = 1 := ⟨_, rfl, rfl, rfl⟩

/-- **C83 (null handles).**  After every such program a call through a variable with a null handle throws. -/
theorem C83_null_use (c : Cls) (hc : c = context ∨ c = queue) (l : List Op) (r : Ref) (h : sems ⟨true, true, true⟩ Ref.init l = some r) (v : Nat)
    (hv : r.vars[v]? = some (some none)) : run c init (l ++ [.use v]) = .throws := by
  obtain ⟨s, e, hs, _⟩ := C83_handles c hc l r h
  have app : ∀ (l : List Op) (s0 : St), run c s0 l = .ok s → run c s0 (l ++ [.use v]) = run c s [.use v] := by
    intro l
    induction l with
    | nil => intro s0 h; simp only [run] at h; injection h with h; subst h; rfl
    | cons op l ih =>
      intro s0 h
      simp only [run, List.cons_append] at h ⊢
      cases hop : step c s0 op with
      | ok s1 => rw [hop] at h; exact ih s1 h
      | ub => rw [hop] at h; cases h
      | throws => rw [hop] at h; cases h
      | terminate => rw [hop] at h; cases h
  rw [app l init e]
  have : s.vars[v]? = some (some none) := by rw [hs]; exact hv
  simp only [run, step, this, Res.bind]

example : ∃ r, sems ⟨true, true, true⟩ Ref.init [.create, .dflt, .copy 1] = some r ∧ r.vars[2]? = some (some none) := ⟨_, rfl, rfl⟩

/-- **C83, partial (kernels and programs).**  The same for `kernel` and `program`.  Missing: programs that destroy a variable with a null handle (`C83_null_destroyed_false`). -/
theorem C83_kernels_partial (c : Cls) (hc : c = kernel ∨ c = program) (l : List Op) (r : Ref) (h : sems ⟨true, false, true⟩ Ref.init l = some r) :
    ∃ s, run c init l = .ok s ∧ Counts s r := by
  rcases hc with rfl | rfl <;> exact run_counts _ l r h

example : ∃ r, sems ⟨true, false, true⟩ Ref.init ocl_prog = some r ∧ r.refs 0 = 0 ∧ r.refs 1 = 1 := ⟨_, rfl, rfl, rfl⟩

/-- **C83 is false (null kernels).**  The destructors of `kernel` and `program` release the handle without testing it: destroying a default-constructed kernel ends the program, and so does `device`. -/
theorem C83_null_destroyed_false : (sems ⟨true, true, true⟩ Ref.init [.dflt, .destroy 0]).isSome ∧
    run kernel init [.dflt, .destroy 0] = .terminate ∧ run program init [.dflt, .destroy 0] = .terminate ∧ run device init [.dflt, .destroy 0] = .terminate :=
  ⟨rfl, rfl, rfl, rfl⟩

/-- **C83, partial (buffers).**  The same for `buffer`.  Missing: programs that assign buffers (`C83_buffer_assign_false`). -/
theorem C83_buffers_partial (l : List Op) (r : Ref) (h : sems ⟨true, true, false⟩ Ref.init l = some r) :
    ∃ s, run buffer init l = .ok s ∧ Counts s r := run_counts _ l r h

example : ∃ r, sems ⟨true, true, false⟩ Ref.init [.create, .copy 0, .dflt, .destroy 0, .destroy 2, .use 1] = some r ∧ r.refs 0 = 1 := ⟨_, rfl, rfl⟩

/-- **C83 is false (assignment of buffers).**  `buffer::operator=` has no return statement: every assignment is undefined, and with it every allocation of an OpenCL storage. -/
theorem C83_buffer_assign_false : (sems ⟨true, true, true⟩ Ref.init [.create, .create, .assign 0 1]).isSome ∧ run buffer init [.create, .create, .assign 0 1] = .ub ∧
    ∀ (s : St) (v : Nat), s.vars[v]? = some (some none) → allocate s v = .ub := by
  refine ⟨rfl, rfl, fun s v h => ?_⟩
  have hl : v < s.vars.length := (List.getElem?_eq_some_iff.1 h).1
  have h1 : (s.vars ++ [some (some s.next)])[v]? = some (some none) := by rw [List.getElem?_append_left hl]; exact h
  have h2 : (s.vars ++ [some (some s.next)])[s.vars.length]? = some (some (some s.next)) := by simp
  simp only [allocate, h, run, step, Res.bind, h1, h2, buffer, Bool.false_eq_true, if_false]

example : (⟨fun _ => 0, fun _ => 0, fun _ => none, 0, [some none]⟩ : St).vars[0]? = some (some none) := rfl

/-- **C83, partial (devices).**  The same for `device`.  Missing: programs that copy devices (`C83_device_copy_false`) or destroy a null device (`C83_null_destroyed_false`). -/
theorem C83_devices_partial (l : List Op) (r : Ref) (h : sems ⟨false, false, true⟩ Ref.init l = some r) :
    ∃ s, run device init l = .ok s ∧ Counts s r := run_counts _ l r h

example : ∃ r, sems ⟨false, false, true⟩ Ref.init [.rawCreate, .adopt 0 true, .dflt, .assign 1 0, .destroy 0, .use 1] = some r ∧ r.refs 0 = 2 := ⟨_, rfl, rfl⟩

/-- **C83 is false (copies of devices).**  The copy constructor of `device` does not retain, its destructor releases: when a copy and its original are destroyed (as in `devices.push_back(device(id))`) the
reference of the rest of the program is gone too, and the next call of its owner is undefined. -/
theorem C83_device_copy_false :
    (sems ⟨true, true, true⟩ Ref.init [.rawCreate, .adopt 0 true, .copy 0, .destroy 0, .destroy 1, .rawRelease 0]).isSome ∧
    run device init [.rawCreate, .adopt 0 true, .copy 0, .destroy 0, .destroy 1, .rawRelease 0] = .ub ∧
    run device init [.create, .copy 0, .destroy 0, .use 1] = .ub := ⟨rfl, rfl, rfl⟩

/-- **C83 is false (callback of a context).**  The runtime keeps the address of the variable that created the context: once this variable is destroyed, an error of the context, still referred to by a copy,
is reported to a dead variable; for `default_context` the variable is a temporary, so every report is undefined. -/
theorem C83_callback_false : run context init [.create, .copy 0, .destroy 0, .report 0] = .ub ∧
    ((run context init [.dflt]).bind fun s => (defaultGet context s).bind fun s => step context s (.report 0)) = .ub := ⟨rfl, rfl⟩

/-- `default_context()` or `default_queue()` called `n` times -/
def ocl_gets (c : Cls) : Nat → St → Res St
  | 0, s => .ok s
  | n + 1, s => (ocl_gets c n s).bind (defaultGet c)

/-- **C83 (default context and queue).**  However often the default is asked for, only one object is created, all callers get it, and it is counted once for each of them and once for the static variable. -/
theorem C83_default_once (c : Cls) (hc : c = context ∨ c = queue) (n : Nat) :
    ∃ s, (run c init [.dflt]).bind (ocl_gets c (n + 1)) = .ok s ∧ s.next = 1 ∧ s.cnt 0 = n + 2 ∧
      s.vars = [some (some 0), none] ++ List.replicate (n + 1) (some (some 0)) := by
  have hret : c.copyRetains = true := by rcases hc with rfl | rfl <;> rfl
  induction n with
  | zero => rcases hc with rfl | rfl <;> exact ⟨_, rfl, rfl, rfl, rfl⟩
  | succ n ih =>
    obtain ⟨s, h1, h2, h3, h4⟩ := ih
    refine ⟨{ s with cnt := (fun x => if x = 0 then s.cnt x + 1 else s.cnt x), vars := s.vars ++ [some (some 0)] }, ?_, h2, ?_, ?_⟩
    · have h0 : s.vars[0]? = some (some (some 0)) := by rw [h4]; rfl
      have hd : defaultGet c s = .ok { s with cnt := (fun x => if x = 0 then s.cnt x + 1 else s.cnt x), vars := s.vars ++ [some (some 0)] } := by
        simp only [defaultGet, h0, run, step, hret, if_true, retain?, retain_ok s 0 (by omega), Res.bind]
      have e : (run c init [.dflt]).bind (ocl_gets c (n + 1 + 1)) = ((run c init [.dflt]).bind (ocl_gets c (n + 1))).bind (defaultGet c) := by
        show ocl_gets c (n + 1 + 1) _ = (ocl_gets c (n + 1) _).bind (defaultGet c)
        rfl
      rw [e, h1]
      exact hd
    · show (if (0 : Nat) = 0 then s.cnt 0 + 1 else s.cnt 0) = _
      rw [if_pos rfl, h3]
    · show s.vars ++ [some (some 0)] = _
      rw [h4, List.replicate_succ' (n := n + 1), List.append_assoc]

example : ∃ s, (run context init [.dflt]).bind (ocl_gets context 3) = .ok s ∧ s.vars.length = 5 := ⟨_, rfl, rfl⟩

/-- **C83, partial (extensions).**  For texts of at most 1023 characters `extensions` gives exactly the words of the text.  Missing: longer texts (`C83_long_text_false`). -/
theorem C83_extensions_partial (t : List Char) (h : t.length ≤ 1023) (l : List (List Char)) : extensions t = .ok l ↔ Splits t l := by
  have e : extensions t = .ok (words t []) := by simp only [extensions, info, if_pos (show t.length + 1 ≤ 1024 by omega), Res.bind]
  rw [e]
  constructor
  · intro h1; injection h1 with h1; subst h1; exact splits_words t [] (by simp)
  · intro h1; rw [words_of_splits t l h1]

example : extensions " cl_khr_fp64  cl_khr_icd ".toList = .ok ["cl_khr_fp64".toList, "cl_khr_icd".toList] := by decide +kernel

/-- **C83 is false (long texts).**  A text with more than 1023 characters, as lists of extensions are, throws. -/
theorem C83_long_text_false (t : List Char) (h : 1023 < t.length) : extensions t = .throws := by
  simp only [extensions, info, if_neg (show ¬t.length + 1 ≤ 1024 by omega), Res.bind]

example : 1023 < (List.replicate 1024 'a').length := by decide +kernel

/-- **C83, partial (access).**  Whatever kernels and synchronisations a program runs while an `opencl::Data` object exists, for every policy, the block has in the end the value it would have if there were only
the block and the buffer; the block may be changed meanwhile if it is accessed directly.  Missing: changes to blocks that are copied (`C83_access_false`). -/
theorem C83_access_partial {V : Type} (p : Pol) (b junk : V) (l : List (AOp V)) (h : p.direct = true ∨ ∀ op ∈ l, op.isWrite = false) :
    destruct p (l.foldl (accStep p) (construct p b junk)) = twoEnd p.out (l.foldl (twoStep p.inn p.out) (twoStart p.inn b junk)) :=
  same_end p _ _ (same_run p l _ _ h (same_start p b junk))

example : destruct ⟨true, true, false⟩ ([AOp.kernel (· + 1), .syncOut, .kernel (· * 2), .syncIn, .kernel (· * 10)].foldl (accStep ⟨true, true, false⟩) (construct ⟨true, true, false⟩ 4 99)) = 50 := by
  decide +kernel

/-- **C83 (kernels).**  With a policy that copies in and out, kernels applied one after the other change the block as they should. -/
theorem C83_kernels {V : Type} (direct : Bool) (b junk : V) (gs : List (V → V)) :
    destruct ⟨true, true, direct⟩ ((gs.map AOp.kernel).foldl (accStep ⟨true, true, direct⟩) (construct ⟨true, true, direct⟩ b junk)) = gs.foldl (fun x g => g x) b := by
  rw [C83_access_partial _ _ _ _ (Or.inr (by simp [AOp.isWrite]))]
  have : ∀ m : Two V, ((gs.map AOp.kernel).foldl (twoStep true true) m).dev = gs.foldl (fun x g => g x) m.dev := by
    induction gs with
    | nil => intro m; rfl
    | cons g gs ih => intro m; simp only [List.map_cons, List.foldl_cons]; rw [ih]; rfl
  simp only [twoEnd, if_true, this, twoStart]

/-- **C83 is false (synchronisation of copied blocks).**  When the block is not accessed directly, `sync_in` copies the old copy on the host, not what the block holds now, and `sync_out` does not reach the
block before the object is destroyed. -/
theorem C83_access_false :
    destruct ⟨true, true, false⟩ ([AOp.write (fun _ => 7), .syncIn].foldl (accStep ⟨true, true, false⟩) (construct ⟨true, true, false⟩ 4 99)) = 4 ∧
    twoEnd true ([AOp.write (fun _ => 7), .syncIn].foldl (twoStep true true) (twoStart true 4 99)) = 7 ∧
    ([AOp.kernel (· + 1), .syncOut].foldl (accStep ⟨true, true, false⟩) (construct ⟨true, true, false⟩ 4 99)).blk = 4 ∧
    ([AOp.kernel (· + 1), .syncOut].foldl (twoStep true true) (twoStart true 4 99)).blk = 5 := by decide +kernel

/-- **C83, partial (layout).**  If the block is in the requested order, or has no OpenCL buffer, element `(i, j)` is found at the offset of the requested order, and the size of the storage without an OpenCL
buffer is the number of elements.  Missing: blocks with OpenCL buffers in another order, and their size (`C83_layout_false`). -/
theorem C83_layout_partial (hasBuffer blockRow reqRow : Bool) (r c i j : Nat) (h : hasBuffer = false ∨ blockRow = reqRow) :
    i * (strides hasBuffer blockRow reqRow r c).1 + j * (strides hasBuffer blockRow reqRow r c).2 = offset reqRow r c i j ∧ storageSize false (r * c) 4 = r * c := by
  refine ⟨?_, rfl⟩
  rcases h with rfl | rfl
  · cases reqRow <;> simp [strides, offset, Nat.add_comm]
  · cases hasBuffer <;> cases blockRow <;> simp [strides, offset, Nat.add_comm]

example : strides true true true 2 3 = (3, 1) ∧ offset true 2 3 1 2 = 5 := by decide +kernel

/-- **C83 is false (layout and size of buffers).**  For a block with an OpenCL buffer the requested order is ignored, and `storage_size` is in bytes instead of elements. -/
theorem C83_layout_false : 1 * (strides true true false 2 3).1 + 0 * (strides true true false 2 3).2 ≠ offset false 2 3 1 0 ∧ storageSize true 6 4 = 24 := by decide +kernel

/-- **C83, partial (Python: kernels).**  A kernel called with one to four buffers gets buffer `i` as argument `i`, and no other argument; with more it throws.  Missing: kernels without buffers
(`C83_python_kernel_false`). -/
theorem C83_python_kernel_partial {B : Type} (bufs : List B) (h : bufs ≠ []) :
    (bufs.length ≤ 4 → ∃ l, runKernel bufs = .ok l ∧ ∀ i b, (i, b) ∈ l ↔ bufs[i]? = some b) ∧ (4 < bufs.length → runKernel bufs = .throws) := by
  match bufs, h with
  | [a], _ =>
    refine ⟨fun _ => ⟨_, rfl, fun i b => ?_⟩, by simp⟩
    match i with
    | 0 => simp [eq_comm]
    | i + 1 => simp
  | [a, a1], _ =>
    refine ⟨fun _ => ⟨_, rfl, fun i b => ?_⟩, by simp⟩
    match i with
    | 0 => simp [eq_comm]
    | 1 => simp [eq_comm]
    | i + 2 => simp
  | [a, a1, a2], _ =>
    refine ⟨fun _ => ⟨_, rfl, fun i b => ?_⟩, by simp⟩
    match i with
    | 0 => simp [eq_comm]
    | 1 => simp [eq_comm]
    | 2 => simp [eq_comm]
    | i + 3 => simp
  | [a, a1, a2, a3], _ =>
    refine ⟨fun _ => ⟨_, rfl, fun i b => ?_⟩, by simp⟩
    match i with
    | 0 => simp [eq_comm]
    | 1 => simp [eq_comm]
    | 2 => simp [eq_comm]
    | 3 => simp [eq_comm]
    | i + 4 => simp
  | a :: a1 :: a2 :: a3 :: a4 :: l, _ => exact ⟨by simp, fun _ => rfl⟩

example : runKernel ["in", "out"] = .ok [(1, "out"), (0, "in")] := rfl

/-- **C83 is false (Python: kernels without buffers).**  A kernel called without buffers throws "too many arguments". -/
theorem C83_python_kernel_false : runKernel ([] : List String) = .throws := rfl

/-- **C83, partial (Python: data).**  What is written to a buffer is read back, and what was behind it is unchanged.  Missing: nothing written or read (`C83_python_data_false`). -/
theorem C83_python_data_partial {A : Type} (vals buf : List A) (h0 : vals ≠ []) (h : vals.length ≤ buf.length) :
    ∃ buf', writeData vals buf = .ok buf' ∧ buf'.length = buf.length ∧ readData buf' vals.length = .ok vals ∧ ∀ i, vals.length ≤ i → buf'[i]? = buf[i]? := by
  have hl : (vals ++ buf.drop vals.length).length = buf.length := by simp; omega
  have hv : vals.length ≠ 0 := by simpa using h0
  refine ⟨vals ++ buf.drop vals.length, ?_, hl, ?_, fun i hi => ?_⟩
  · simp only [writeData, if_neg h0, if_neg (show ¬buf.length < vals.length by omega)]
  · simp only [readData, if_neg hv, hl, if_neg (show ¬buf.length < vals.length by omega), List.take_left']
  · rw [List.getElem?_append_right hi, List.getElem?_drop]
    congr 1; omega

example : writeData [1, 2] [7, 8, 9] = .ok [1, 2, 9] ∧ readData [1, 2, 9] 2 = .ok [1, 2] := by decide +kernel

/-- **C83 is false (Python: no data).**  An empty list written, or no elements read, takes the address of the first element of an empty vector. -/
theorem C83_python_data_false : writeData ([] : List Nat) [1, 2] = .ub ∧ readData [1, 2] 0 = .ub := ⟨rfl, rfl⟩

#print axioms C83_handles
#print axioms C83_null_use
#print axioms C83_kernels_partial
#print axioms C83_null_destroyed_false
#print axioms C83_buffers_partial
#print axioms C83_buffer_assign_false
#print axioms C83_devices_partial
#print axioms C83_device_copy_false
#print axioms C83_callback_false
#print axioms C83_default_once
#print axioms C83_extensions_partial
#print axioms C83_long_text_false
#print axioms C83_access_partial
#print axioms C83_kernels
#print axioms C83_access_false
#print axioms C83_layout_partial
#print axioms C83_layout_false
#print axioms C83_python_kernel_partial
#print axioms C83_python_kernel_false
#print axioms C83_python_data_partial
#print axioms C83_python_data_false

end Verif.Props
