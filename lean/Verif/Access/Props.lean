import Verif.Dda.Model
import Verif.Access.Copies
import Verif.Views.Props
import Verif.Py.Model
/-!
C86: the layout a view declares is true of its strides, and direct data access delivers the packing asked for.
-/
namespace Verif.Props
open Verif Spec Lay Vw Acc

/-- **C86, declared layouts.** Whatever stack of subsets, slices, transposes, permutations, diagonals and parts a view is, its declared number of dimensions is the
view's, its declared order is an order of that many dimensions, and its pointer and strides keep the promise of its declared packing if the stored block's do. -/
theorem C86_declared (c : Ctx) (v : View) (h : v.WF) (ht : Typed c v) (hb : Honest c v) :
    (declared c.ly v).dim = v.sizes.length ∧ (declared c.ly v).order ∈ orders v.sizes.length ∧ (seenDirect c v).Meets (declared c.ly v).packing :=
  ⟨(declared_shape c v h ht).1, (declared_shape c v h ht).2, declared_meets c v h ht hb⟩

/-- a stored row-major matrix of 4 by 6 numbers of 8 bytes at address 64 -/
def accMatrix : Ctx := ⟨⟨2, [0, 1, 2], .dense, .array⟩, false, 8, fun _ => 64⟩
def accWhole : View := .base [4, 6] [6, 1] 0

theorem acc_matrix_honest : Honest accMatrix accWhole :=
  ⟨rfl, cont2 [0, 1, 2] (by decide) 4 6 6 1 _ _ rfl (Or.inl rfl)⟩

/-- A row of a dense matrix declares unit stride; a column does not. -/
example : (declared accMatrix.ly (.sliced 0 2 accWhole)).packing = .unitStride ∧ (seenDirect accMatrix (.sliced 0 2 accWhole)).Adjacent ∧
    (declared accMatrix.ly (.sliced 1 2 accWhole)).packing = .any := by
  have h : (View.sliced 0 2 accWhole).WF := ⟨⟨rfl, by decide, by decide, by decide⟩, by decide, by decide, by decide⟩
  have ht : Typed accMatrix (.sliced 0 2 accWhole) := ⟨rfl, by decide, by decide, fun _ => rfl⟩
  exact ⟨by decide, (C86_declared _ _ h ht acc_matrix_honest).2.2, by decide⟩

theorem acc_copied (c : Ctx) (v : View) (r : Rq) (buf : Nat → Int) (h : v.WF) (ht : Typed c v) (hd : r.dim = v.sizes.length) (hor : ∀ o, r.order = some o → o ∈ orders r.dim)
    (hroom : Room v.sizes) (hp : r.packing = .any ∨ r.packing = .unitStride ∨ r.packing = .dense ∨ ∃ A ∈ alignments, r.packing = .alignedTo A)
    (hbuf : ∀ A, r.packing = .alignedTo A → ∀ k, (A : Int) ∣ buf k) :
    ∃ s T, copied r (declared c.ly v) v.sizes (isCx c v) c.tau buf = .seen true s ∧ s.Meets r.packing ∧ s.dim = r.dim ∧ s.sizes = v.sizes ∧ (r.order = none ∨ r.order = some s.order) ∧
      applied (copyLayout r (declared c.ly v)) v.sizes = some (s.strides.map Int.toNat, T) ∧ Placed v.sizes s.strides T := by
  obtain ⟨i1, i2⟩ := declared_shape c v h ht
  set l := copyLayout r (declared c.ly v) with hl
  have ho : l.order ∈ orders l.dim := by
    show (r.order.getD _) ∈ orders r.dim
    cases e : r.order with
    | none => rw [hd]; exact i2
    | some o => exact hor o e
  have hlp : l.packing = .dense ∨ ∃ A ∈ alignments, l.packing = .alignedTo A := by
    have hlp : l.packing = if r.packing = .unitStride ∨ r.packing = .any then Packing.dense else r.packing := rfl
    rw [hlp]
    rcases hp with e | e | e | ⟨A, hA, e⟩ <;> rw [e]
    · left; simp
    · left; simp
    · left; simp
    · right; exact ⟨A, hA, by simp⟩
  obtain ⟨st, T, ea, g1, g2, g3⟩ := applied_good l v.sizes hd.symm ho hroom hlp
  have hm := g3 (if isCx c v = true ∧ l.fmt = .split then [buf 0, buf 1] else [buf 0]) (unitOf (isCx c v) l.fmt c.tau) (by
    intro A hA p hq
    have : r.packing = .alignedTo A := by
      have hA' : (if r.packing = .unitStride ∨ r.packing = .any then Packing.dense else r.packing) = .alignedTo A := hA
      split at hA'
      · simp at hA'
      · exact hA'
    split at hq
    · simp only [List.mem_cons, List.not_mem_nil, or_false] at hq
      rcases hq with rfl | rfl <;> exact hbuf A this _
    · simp only [List.mem_cons, List.not_mem_nil, or_false] at hq
      subst hq; exact hbuf A this _)
  refine ⟨⟨l.dim, l.order, v.sizes, ints' st, if isCx c v = true ∧ l.fmt = .split then [buf 0, buf 1] else [buf 0], unitOf (isCx c v) l.fmt c.tau⟩, T, ?_, ?_, ?_, ?_, ?_, ?_, ?_⟩
  · unfold copied
    simp only [← hl, ea]
    rfl
  · have hlp' : l.packing = if r.packing = .unitStride ∨ r.packing = .any then Packing.dense else r.packing := rfl
    rw [hlp'] at hm
    split at hm
    · rename_i hc
      rcases hc with e | e <;> rw [e]
      · exact hm.1
      · trivial
    · exact hm
  · rfl
  · rfl
  · cases e : r.order with
    | none => left; rfl
    | some o => right; show some o = some (r.order.getD _); rw [e]; rfl
  · rw [ea]
    have : (ints' st).map Int.toNat = st := by
      rw [ints', List.map_map]
      exact (List.map_congr_left fun k _ => Int.toNat_natCast k).trans (List.map_id' st)
    simp only [this]
  · exact g2

/-- the packings that can be asked for if the copy is forced: all but `aligned` -/
def accAll (p : Packing) : Prop := p = .any ∨ p = .unitStride ∨ p = .dense ∨ ∃ A ∈ alignments, p = .alignedTo A

/-- **C86, forced copies.** If copying is forced, the buffer has the packing, order and sizes asked for, for every view and every packing but `aligned`, given buffers on the
boundary asked for, and the elements have places of their own in a buffer of the required size. -/
theorem C86_forced (asserts : Bool) (c : Ctx) (v : View) (r : Rq) (buf : Nat → Int) (h : v.WF) (ht : Typed c v) (hd : r.dim = v.sizes.length)
    (hor : ∀ o, r.order = some o → o ∈ orders r.dim) (hroom : Room v.sizes) (hp : accAll r.packing) (hbuf : ∀ A, r.packing = .alignedTo A → ∀ k, (A : Int) ∣ buf k) :
    ∃ s T, access asserts true c v r buf = .seen true s ∧ s.Meets r.packing ∧ s.dim = r.dim ∧ s.sizes = v.sizes ∧ (r.order = none ∨ r.order = some s.order) ∧
      requiredBuffer asserts true c v r = some T ∧ Placed v.sizes s.strides T ∧ rtCost asserts true c v r = some 2 := by
  obtain ⟨s, T, e, m, m1, m2, m3, m4, m5⟩ := acc_copied c v r buf h ht hd hor hroom hp hbuf
  have hk : accessKind .local true true (declared c.ly v) r = .copy := by simp [accessKind]
  exact ⟨s, T, by simp only [access, hk, e], m, m1, m2, m3, by simp only [requiredBuffer, hk, m4, Option.map_some], m5, by simp only [rtCost, hk]⟩

/-- **C86, partial (packing).** Access to any view, with any request for one of the packings but `aligned` and `aligned_512`, never fails an assertion and delivers the packing, order
and sizes asked for, whether it is granted directly or by copying; a direct grant costs nothing and needs no buffer, a copy has its elements at places of their own in a buffer
of the required size.  Missing: `aligned`, `aligned_512`, aligned split data, and allocations that are not on the boundary asked for, for which this is false. -/
theorem C86_packing_partial (asserts forced : Bool) (c : Ctx) (v : View) (r : Rq) (buf : Nat → Int) (h : v.WF) (ht : Typed c v) (hb : Honest c v) (hd : r.dim = v.sizes.length)
    (hor : ∀ o, r.order = some o → o ∈ orders r.dim) (hroom : Room v.sizes) (hk : Known r.packing)
    (hsplit : (∃ A, r.packing = .alignedTo A) → isCx c v = true → (declared c.ly v).fmt ≠ .split)
    (hbuf : ∀ A, r.packing = .alignedTo A → ∀ k, (A : Int) ∣ buf k) :
    ∃ cp s T, access asserts forced c v r buf = .seen cp s ∧ s.Meets r.packing ∧ s.dim = r.dim ∧ s.sizes = v.sizes ∧ (r.order = none ∨ r.order = some s.order) ∧
      requiredBuffer asserts forced c v r = some T ∧ (cp = false → s = seenDirect c v ∧ T = 0 ∧ rtCost asserts forced c v r = some 0) ∧
        (cp = true → Placed v.sizes s.strides T ∧ rtCost asserts forced c v r = some 2) := by
  obtain ⟨i1, i2, i3⟩ := C86_declared c v h ht hb
  have hp : accAll r.packing := by
    revert hk
    cases r.packing with
    | any => exact fun _ => Or.inl rfl
    | unitStride => exact fun _ => Or.inr (Or.inl rfl)
    | dense => exact fun _ => Or.inr (Or.inr (Or.inl rfl))
    | aligned => exact fun q => q.elim
    | alignedTo A => exact fun q => Or.inr (Or.inr (Or.inr ⟨A, (align_known q).2.2.2.2, rfl⟩))
  obtain ⟨s, T, e, m, m1, m2, m3, m4, m5⟩ := acc_copied c v r buf h ht hd hor hroom hp hbuf
  have copyCase : ∀ k, accessKind .local true forced (declared c.ly v) r = k → k ≠ .direct → k ≠ .maybe → ∃ cp s T, access asserts forced c v r buf = .seen cp s ∧ s.Meets r.packing ∧
      s.dim = r.dim ∧ s.sizes = v.sizes ∧ (r.order = none ∨ r.order = some s.order) ∧
      requiredBuffer asserts forced c v r = some T ∧ (cp = false → s = seenDirect c v ∧ T = 0 ∧ rtCost asserts forced c v r = some 0) ∧
        (cp = true → Placed v.sizes s.strides T ∧ rtCost asserts forced c v r = some 2) := by
    intro k ek h1 h2
    refine ⟨true, s, T, ?_, m, m1, m2, m3, ?_, fun q => by simp at q, fun _ => ⟨m5, ?_⟩⟩
    · unfold access; simp only [ek]; cases k <;> simp_all
    · unfold requiredBuffer; simp only [ek]; cases k <;> simp_all
    · unfold rtCost; simp only [ek]
  cases hkind : accessKind .local true forced (declared c.ly v) r with
  | direct =>
    have hok : layoutOk (declared c.ly v) r = true := by
      simp only [accessKind, if_true] at hkind
      split at hkind
      · rename_i q; simp only [Bool.and_eq_true] at q; exact q.2
      · split at hkind <;> simp at hkind
    simp only [layoutOk, maybeOk, Bool.and_eq_true] at hok
    obtain ⟨⟨⟨-, o1⟩, -⟩, p1⟩ := hok
    refine ⟨false, seenDirect c v, 0, by simp only [access, hkind], meets_of_ok i3 p1, ?_, rfl, ?_, by simp only [requiredBuffer, hkind], fun _ => ⟨rfl, rfl, by simp only [rtCost, hkind]⟩, fun q => by simp at q⟩
    · show (declared c.ly v).dim = _; rw [i1, hd]
    · simp only [orderOk, Bool.or_eq_true, beq_iff_eq] at o1
      exact o1
  | «maybe» =>
    cases hc : isCompatible asserts r (declared c.ly v) (seenDirect c v) (valueSize c v) with
    | bad => exact absurd hc (compatible_ok _ _ _ _ _ hk)
    | no =>
      exact ⟨true, s, T, by simp only [access, hkind, hc, e], m, m1, m2, m3, by simp only [requiredBuffer, hkind, hc, m4, Option.map_some], fun q => by simp at q,
        fun _ => ⟨m5, by simp only [rtCost, hkind, hc]⟩⟩
    | yes =>
      have hl := sizes_len h
      obtain ⟨q1, q2, -⟩ := compatible_meets asserts r (declared c.ly v) (seenDirect c v) (valueSize c v) hk (show (declared c.ly v).dim = _ by rw [i1, hd]) hd.symm (hl.1.trans hd.symm) rfl
        (by rw [hd]; exact i2) hroom (by
          intro hA
          have := hsplit hA
          show unitOf _ _ _ = valueSize c v
          unfold unitOf valueSize
          by_cases hx : isCx c v = true
          · rw [if_pos ⟨hx, this hx⟩, if_pos hx]
          · rw [if_neg (fun q => hx q.1), if_neg hx]) hc
      exact ⟨false, seenDirect c v, 0, by simp only [access, hkind, hc], q1, show (declared c.ly v).dim = _ by rw [i1, hd], rfl, Or.inr q2,
        by simp only [requiredBuffer, hkind, hc], fun _ => ⟨rfl, rfl, by simp only [rtCost, hkind, hc]⟩, fun q => by simp at q⟩
  | copy => exact copyCase _ hkind (by simp) (by simp)
  | «local» => exact copyCase _ hkind (by simp) (by simp)
  | remote => exact copyCase _ hkind (by simp) (by simp)

/-- Every other column of the matrix, asked for dense: the answer is a copy with room for 12 numbers. -/
example : ∃ s, access true false accMatrix (.subset [⟨0, 1, 4⟩, ⟨0, 2, 3⟩] accWhole) ⟨2, some [0, 1, 2], .dense, .array⟩ (fun _ => 0) = .seen true s ∧ s.strides = [3, 1] ∧
    requiredBuffer true false accMatrix (.subset [⟨0, 1, 4⟩, ⟨0, 2, 3⟩] accWhole) ⟨2, some [0, 1, 2], .dense, .array⟩ = some 12 := ⟨_, rfl, by decide, by decide⟩

/-- All rows and all columns of the matrix, asked for dense: granted directly. -/
example : access true false accMatrix (.subset [⟨0, 1, 4⟩, ⟨0, 1, 6⟩] accWhole) ⟨2, some [0, 1, 2], .dense, .array⟩ (fun _ => 0) =
    .seen false (seenDirect accMatrix (.subset [⟨0, 1, 4⟩, ⟨0, 1, 6⟩] accWhole)) := by rfl

/-- The hypotheses are met by a column of the matrix asked for on a boundary of 64 bytes. -/
example : ∃ cp s, access true false accMatrix (.sliced 1 2 accWhole) ⟨1, none, .alignedTo 64, .any⟩ (fun k => 128 * k) = .seen cp s ∧ s.Meets (.alignedTo 64) := by
  have h : (View.sliced 1 2 accWhole).WF := ⟨⟨rfl, by decide, by decide, by decide⟩, by decide, by decide, by decide⟩
  have ht : Typed accMatrix (.sliced 1 2 accWhole) := ⟨rfl, by decide, by decide, fun _ => rfl⟩
  obtain ⟨cp, s, T, e, m, -⟩ := C86_packing_partial true false accMatrix (.sliced 1 2 accWhole) ⟨1, none, .alignedTo 64, .any⟩ (fun k => 128 * k) h ht acc_matrix_honest (by decide)
    (by simp) (by unfold Room; decide) (by unfold Known; decide) (fun _ q => by simp [isCx, accMatrix, accWhole] at q)
    (by intro A hA k; simp only [Packing.alignedTo.injEq] at hA; subst hA; exact ⟨2 * k, by push_cast; ring⟩)
  exact ⟨cp, s, e, m⟩

/-- **C86, reach.** The pointer and strides of direct access lead to the element the view itself reads. -/
theorem C86_reach (c : Ctx) (v : View) (h : v.WF) (i : List Nat) (hi : InRange i v.sizes) :
    v.access i = (v.ptr.1, v.ptr.2 + Seen.off (seenDirect c v).strides i) := by
  rw [C22_address v h i hi, off_eq_dot]
  rfl

example : (View.sliced 1 2 accWhole).access [3] = (0, 2 + Seen.off (seenDirect accMatrix (.sliced 1 2 accWhole)).strides [3]) :=
  C86_reach accMatrix (.sliced 1 2 accWhole) ⟨⟨rfl, by decide, by decide, by decide⟩, by decide, by decide, by decide⟩ [3] (by decide)

/-- **C86, default layout.** Asked for its own layout, a block that offers its data is accessed directly at no cost, whatever it is. -/
theorem C86_default (asserts : Bool) (c : Ctx) (v : View) (buf : Nat → Int) :
    access asserts false c v (defaultLayout true (declared c.ly v)) buf = .seen false (seenDirect c v) ∧
      requiredBuffer asserts false c v (defaultLayout true (declared c.ly v)) = some 0 ∧ rtCost asserts false c v (defaultLayout true (declared c.ly v)) = some 0 ∧
        ctCost (accessKind .local true false (declared c.ly v) (defaultLayout true (declared c.ly v))) = 0 := by
  have hk : accessKind .local true false (declared c.ly v) (defaultLayout true (declared c.ly v)) = .direct := by
    simp [accessKind, defaultLayout, maybeOk, layoutOk, orderOk, fmtOk, packingOk]
  exact ⟨by simp only [access, hk], by simp only [requiredBuffer, hk], by simp only [rtCost, hk], by rw [hk]; rfl⟩

/-- what was asked for, or the block's own format if the request leaves it open, is split -/
def accSplit (c : Ctx) (v : View) (r : Rq) : Prop := isCx c v = true ∧ (r.fmt = .split ∨ (r.fmt = .any ∧ (declared c.ly v).fmt = .split))

instance (c : Ctx) (v : View) (r : Rq) : Decidable (accSplit c v r) := by unfold accSplit; infer_instance

/-- **C86, format.** Complex data comes as two arrays of parts if that was asked for (or the block stores it so and the request leaves it open), and as one array of pairs otherwise. -/
theorem C86_format (asserts forced : Bool) (c : Ctx) (v : View) (r : Rq) (buf : Nat → Int) (ht : Typed c v) (cp : Bool) (s : Seen) (h : access asserts forced c v r buf = .seen cp s) :
    s.starts.length = (if accSplit c v r then 2 else 1) ∧ s.unit = (if isCx c v = true ∧ ¬ accSplit c v r then 2 * c.tau else c.tau) := by
  have hf := (fmt_of_part c v ht).2
  have direct : fmtOk r.fmt (declared c.ly v).fmt = true → s = seenDirect c v →
      s.starts.length = (if accSplit c v r then 2 else 1) ∧ s.unit = (if isCx c v = true ∧ ¬ accSplit c v r then 2 * c.tau else c.tau) := by
    rintro q rfl
    have key : ((declared c.ly v).fmt = .split) ↔ (r.fmt = .split ∨ (r.fmt = .any ∧ (declared c.ly v).fmt = .split)) := by
      revert q hf
      generalize (declared c.ly v).fmt = f
      generalize r.fmt = g
      revert f g
      intro f g
      cases f <;> cases g <;> decide
    simp only [seenDirect, startsOf, unitOf, accSplit, ← key]
    by_cases hx : isCx c v = true <;> by_cases hy : (declared c.ly v).fmt = .split <;> simp [hx, hy]
  have copy : copied r (declared c.ly v) v.sizes (isCx c v) c.tau buf = .seen cp s →
      s.starts.length = (if accSplit c v r then 2 else 1) ∧ s.unit = (if isCx c v = true ∧ ¬ accSplit c v r then 2 * c.tau else c.tau) := by
    intro q
    have key : ((copyLayout r (declared c.ly v)).fmt = .split) ↔ (r.fmt = .split ∨ (r.fmt = .any ∧ (declared c.ly v).fmt = .split)) := by
      show adjustFmt r.fmt (declared c.ly v).fmt = .split ↔ _
      revert hf
      generalize (declared c.ly v).fmt = f
      generalize r.fmt = g
      revert f g
      intro f g
      cases f <;> cases g <;> decide
    unfold copied at q
    simp only at q
    split at q
    · simp at q
    · simp only [Got.seen.injEq] at q
      rw [← q.2]
      simp only [unitOf, accSplit, ← key]
      by_cases hx : isCx c v = true <;> by_cases hy : (copyLayout r (declared c.ly v)).fmt = .split <;> simp [hx, hy]
  have hmf : ∀ k, accessKind .local true forced (declared c.ly v) r = k → k = .direct ∨ k = .maybe → fmtOk r.fmt (declared c.ly v).fmt = true := by
    intro k hk hor
    have : maybeOk (declared c.ly v) r = true := by
      simp only [accessKind, if_true] at hk
      split at hk
      · rename_i q; simp only [Bool.and_eq_true] at q; exact q.1.2
      · split at hk
        · rename_i q; simp only [Bool.and_eq_true] at q; exact q.2
        · subst hk; simp at hor
    simp only [maybeOk, Bool.and_eq_true] at this
    exact this.2
  unfold access at h
  simp only at h
  cases hk : accessKind .local true forced (declared c.ly v) r with
  | direct =>
    rw [hk] at h
    simp only [Got.seen.injEq] at h
    exact direct (hmf _ hk (Or.inl rfl)) h.2.symm
  | «maybe» =>
    rw [hk] at h
    simp only at h
    cases hc : isCompatible asserts r (declared c.ly v) (seenDirect c v) (valueSize c v) with
    | yes =>
      rw [hc] at h
      simp only [Got.seen.injEq] at h
      exact direct (hmf _ hk (Or.inr rfl)) h.2.symm
    | no => rw [hc] at h; exact copy h
    | bad => rw [hc] at h; simp at h
  | copy => rw [hk] at h; exact copy h
  | «local» => rw [hk] at h; exact copy h
  | remote => rw [hk] at h; exact copy h

/-- a complex row-major matrix of 2 by 2 single-precision values in two arrays -/
def accSplitMatrix : Ctx := ⟨⟨2, [0, 1, 2], .dense, .split⟩, true, 4, fun k => 64 * k⟩

example : ∃ s, access true false accSplitMatrix (.base [2, 2] [2, 1] 0) ⟨2, none, .dense, .inter⟩ (fun _ => 0) = .seen true s ∧ s.starts.length = 1 ∧ s.unit = 8 := ⟨_, rfl, rfl, rfl⟩

/-- **C86, stored blocks.** A block stored with one of the compile-time layouts keeps the promise of its packing if its arrays are on the boundary it names. -/
theorem C86_stored (l : Ly) (ext : List Nat) (cx : Bool) (tau : Nat) (addr : Nat → Int) (hd : ext.length = l.dim) (ho : l.order ∈ orders l.dim) (hroom : Room ext)
    (hp : l.packing = .dense ∨ ∃ A ∈ alignments, l.packing = .alignedTo A) (ha : ∀ A, l.packing = .alignedTo A → ∀ k, (A : Int) ∣ addr k) :
    ∃ st T, applied l ext = some (st, T) ∧ Honest ⟨l, cx, tau, addr⟩ (.base ext (ints' st) 0) ∧ Placed ext (ints' st) T ∧ (View.base ext (ints' st) 0).WF := by
  obtain ⟨st, T, e, g1, g2, g3⟩ := applied_good l ext hd ho hroom hp
  refine ⟨st, T, e, g3 _ _ ?_, g2, ?_, ?_, ?_, ?_⟩
  · intro A hA p hq
    simp only [startsOf, isCx, declared, View.ptr, Int.zero_mul, Int.add_zero] at hq
    split at hq
    · simp only [List.mem_cons, List.not_mem_nil, or_false] at hq
      rcases hq with rfl | rfl <;> exact ha A hA _
    · simp only [List.mem_cons, List.not_mem_nil, or_false] at hq
      subst hq; exact ha A hA _
  · simp [ints', g1, hd]
  · rcases orders_dim ho with q | q | q <;> omega
  · rcases orders_dim ho with q | q | q <;> omega
  · intro n hn
    rcases orders_dim ho with q | q | q
    · obtain ⟨a, rfl⟩ := len1 (hd.trans q)
      have := room1 hroom
      simp only [List.mem_cons, List.not_mem_nil, or_false] at hn
      omega
    · obtain ⟨a, b, rfl⟩ := len2 (hd.trans q)
      have h1 := room_le2 (room2 hroom) (x := a) (y := 1) (by omega) (by omega)
      have h2 := room_le2 (room2 hroom) (x := 1) (y := b) (by omega) (by omega)
      simp only [List.mem_cons, List.not_mem_nil, or_false] at hn
      omega
    · obtain ⟨a, b, d, rfl⟩ := len3 (hd.trans q)
      have h1 := room_le3 (room3 hroom) (x := a) (y := 1) (z := 1) (by omega) (by omega) (by omega)
      have h2 := room_le3 (room3 hroom) (x := 1) (y := b) (z := 1) (by omega) (by omega) (by omega)
      have h3 := room_le3 (room3 hroom) (x := 1) (y := 1) (z := d) (by omega) (by omega) (by omega)
      simp only [List.mem_cons, List.not_mem_nil, or_false] at hn
      omega

example : ∃ st T, applied ⟨3, [2, 0, 1], .alignedTo 16, .array⟩ [3, 5, 2] = some (st, T) ∧ st = [16, 1, 48] ∧ Honest ⟨⟨3, [2, 0, 1], .alignedTo 16, .array⟩, false, 4, fun _ => 32⟩ (.base [3, 5, 2] (ints' st) 0) := by
  obtain ⟨st, T, e, hh, -⟩ := C86_stored ⟨3, [2, 0, 1], .alignedTo 16, .array⟩ [3, 5, 2] false 4 (fun _ => 32) rfl (by decide) (by unfold Room; decide) (Or.inr ⟨16, by decide, rfl⟩)
    (by intro A hA k; simp only [Packing.alignedTo.injEq] at hA; subst hA; exact ⟨2, rfl⟩)
  refine ⟨st, T, e, ?_, hh⟩
  have : applied ⟨3, [2, 0, 1], .alignedTo 16, .array⟩ [3, 5, 2] = some ([16, 1, 48], 96) := by decide +kernel
  rw [this] at e
  simp only [Option.some.injEq, Prod.mk.injEq] at e
  exact e.1.symm

/-- **C86, one dimension.** A stored dense block of any number of dimensions is handed out directly as one line of all its elements, and is one. -/
theorem C86_flat (asserts : Bool) (c : Ctx) (ext : List Nat) (st : List Int) (p : Int) (hl : c.ly.packing = .dense) :
    flat asserts false c ext st p ⟨1, none, .dense, .any⟩ = some (ext.prod, 1) ∧ flat asserts false c ext st p ⟨1, some c.ly.order, .dense, c.ly.fmt⟩ = some (ext.prod, 1) := by
  constructor
  · have hk : accessKind .local true false c.ly ⟨1, none, .dense, .any⟩ = .direct := by simp [accessKind, maybeOk, layoutOk, orderOk, fmtOk, packingOk, hl]
    simp only [flat, hk]
  · have hk : accessKind .local true false c.ly ⟨1, some c.ly.order, .dense, c.ly.fmt⟩ = .direct := by simp [accessKind, maybeOk, layoutOk, orderOk, fmtOk, packingOk, hl]
    simp only [flat, hk]

example : flat true false accMatrix [4, 6] [6, 1] 0 ⟨1, none, .dense, .any⟩ = some (24, 1) := (C86_flat true accMatrix [4, 6] [6, 1] 0 rfl).1

/-! ### Where it is false -/

/-- every other row and column of an 8 by 8 matrix of 8-byte numbers at address 512 -/
def accOther : Ctx := ⟨⟨2, [0, 1, 2], .dense, .array⟩, false, 8, fun _ => 512⟩
def accOtherView : View := .subset [⟨0, 2, 4⟩, ⟨0, 2, 4⟩] (.base [8, 8] [8, 1] 0)

/-- **C86 is false (aligned_512).** `is_packing_aligned` has no entry for `aligned_512`, so `is_compatible` takes the branch of `any_packing`: a failed assertion, or without
assertions a direct grant of data that is not even adjacent. -/
theorem C86_512_false : access true false accOther accOtherView ⟨2, some [0, 1, 2], .alignedTo 512, .array⟩ (fun _ => 0) = .bad ∧
    ∃ s, access false false accOther accOtherView ⟨2, some [0, 1, 2], .alignedTo 512, .array⟩ (fun _ => 0) = .seen false s ∧ ¬ s.Meets (.alignedTo 512) := by
  refine ⟨rfl, _, rfl, ?_⟩
  rintro ⟨h, -⟩
  revert h
  simp only [Seen.Adjacent]
  decide

/-- **C86 is false (aligned).** A request for `aligned` data divides by the boundary, which is zero: the test of any block that has the order and format
asked for does, and so does the layout of a copy. -/
theorem C86_aligned_false : access false false accOther accOtherView ⟨2, some [0, 1, 2], .aligned, .array⟩ (fun _ => 0) = .bad ∧
    ∀ (asserts : Bool) (r : Rq) (d : Ly) (s : Seen) (v : Nat), r.packing = .aligned → d.fmt = r.fmt → some d.order = r.order →
      isCompatible asserts r d s v = .bad := by
  refine ⟨rfl, ?_⟩
  intro asserts r d s v hp hf ho
  simp [isCompatible, hp, hf, ho, packingAligned, packingAlignment]

/-- a block stored with `aligned_64` at an address that is a multiple of 32 -/
def accLow : Ctx := ⟨⟨1, [0, 1, 2], .alignedTo 64, .array⟩, false, 4, fun _ => 32⟩

/-- **C86 is false (allocation).** Memory is allocated on the boundary of the build (`OVXX_ALLOC_ALIGNMENT`, 32 by default), whatever the packing: a block stored with `aligned_64`
is handed out for `aligned_64` without a look at its address, and a copy for `aligned_64` is put in such memory, too. -/
theorem C86_allocation_false : (∀ k, (32 : Int) ∣ accLow.addr k) ∧
    (∃ s, access true false accLow (.base [10] [1] 0) ⟨1, some [0, 1, 2], .alignedTo 64, .array⟩ (fun _ => 32) = .seen false s ∧ ¬ s.Meets (.alignedTo 64)) ∧
      ∃ s, access true true accLow (.base [10] [1] 0) ⟨1, some [0, 1, 2], .alignedTo 64, .array⟩ (fun _ => 32) = .seen true s ∧ ¬ s.Meets (.alignedTo 64) := by
  refine ⟨fun _ => ⟨1, rfl⟩, ⟨_, rfl, ?_⟩, ⟨_, rfl, ?_⟩⟩
  · rintro ⟨-, h⟩
    have := h 32 (by decide) [0] (by decide) rfl
    revert this
    decide
  · rintro ⟨-, h⟩
    have := h 32 (by decide) [0] (by decide) rfl
    revert this
    decide

/-- **C86 is false (split data).** `is_compatible` multiplies strides by the size of the complex value; the arrays of split data have elements of half that size.  The second row of
this matrix starts 8 bytes after a multiple of 16. -/
theorem C86_split_false : ∃ s, access true false accSplitMatrix (.base [2, 2] [2, 1] 0) ⟨2, some [0, 1, 2], .alignedTo 16, .split⟩ (fun _ => 0) = .seen false s ∧
    ¬ s.Meets (.alignedTo 16) := by
  refine ⟨_, rfl, ?_⟩
  rintro ⟨-, h⟩
  have := h 0 (by decide) [1, 0] (by decide) rfl
  revert this
  decide

/-- **C86 is false (layout type).** The layout an accessor names for a request that leaves the packing open is dense where the block promises nothing, though the strides are the block's own. -/
theorem C86_layout_type_false : (adjustLayout ⟨2, none, .any, .any⟩ (declared accOther.ly accOtherView)).packing = .dense ∧
    ∃ s, access true false accOther accOtherView ⟨2, none, .any, .any⟩ (fun _ => 0) = .seen false s ∧ ¬ s.Meets .dense := by
  refine ⟨rfl, _, rfl, ?_⟩
  rintro ⟨h, -⟩
  revert h
  simp only [Seen.Adjacent]
  decide

/-- **C86 is false (size of a copied line).** Undecided access with one dimension to a dense matrix reports the number of rows instead of the number of elements if it has to copy. -/
theorem C86_flat_size_false : flat true false ⟨⟨2, [0, 1, 2], .dense, .array⟩, false, 8, fun _ => 8⟩ [2, 3] [3, 1] 0 ⟨1, some [0, 1, 2], .alignedTo 16, .array⟩ = some (2, 1) := by decide

/-- **C86 is false (parts as one line).** A part of a dense matrix of split data is handed out directly with one dimension, but its stride is the stride of its rows. -/
theorem C86_part_false : accessKind .local true false (declared accSplitMatrix.ly (.component true 0 (.base [2, 3] [3, 1] 0))) ⟨1, some [0, 1, 2], .dense, .array⟩ = .direct ∧
    partFlatStride false true (.base [2, 3] [3, 1] 0) = some 3 ∧ partFlatStride true true (.base [2, 3] [3, 1] 0) = none := by decide

/-- **C86 is false (size with a run-time layout).** `size()` of access with a run-time layout is the number of elements if it is direct and includes the padding if it copies. -/
theorem C86_rt_size_false : rtSize true 15 (rt2 (blockLayout (.alignedTo 8) ![0, 1]) ![3, 5] 1).total = 15 ∧ rtSize false 15 (rt2 (blockLayout (.alignedTo 8) ![0, 1]) ![3, 5] 1).total = 24 := by decide

/-- **C86 is false (storage size).** `storage_size()` of direct access is the number of elements, also where padding puts the last element behind that. -/
theorem C86_storage_size_false : (applied ⟨2, [0, 1, 2], .alignedTo 8, .array⟩ [3, 5]).map Prod.fst = some [8, 1] ∧
    access true false ⟨⟨2, [0, 1, 2], .alignedTo 8, .array⟩, false, 8, fun _ => 64⟩ (.base [3, 5] [8, 1] 0) ⟨2, some [0, 1, 2], .alignedTo 8, .array⟩ (fun _ => 0) =
      .seen false (seenDirect ⟨⟨2, [0, 1, 2], .alignedTo 8, .array⟩, false, 8, fun _ => 64⟩ (.base [3, 5] [8, 1] 0)) ∧
    storageSize (.base [3, 5] [8, 1] 0) = 15 ∧ Seen.off [8, 1] [2, 4] = 20 := ⟨by decide, rfl, by decide, by decide⟩

/-- the C++ view of a Python vector -/
def accPy (b : Py.Blk 1) : View := .base [b.size 0] [b.stride 0] b.offset

/-- **C86 is false (Python blocks).** Blocks of the Python bindings declare themselves dense.  `v[::2]` of a vector of ten numbers shares its data with stride 2 and is handed out directly to functions asking for dense data. -/
theorem C86_python_false : ∃ b, Py.subblock1 (Py.fresh1 10) ⟨none, none, some 2⟩ = .val b ∧
    ∃ s, access true false ⟨⟨1, [0, 1, 2], .dense, .array⟩, false, 8, fun _ => 0⟩ (accPy b) ⟨1, some [0, 1, 2], .dense, .array⟩ (fun _ => 0) = .seen false s ∧ ¬ s.Meets .dense := by
  refine ⟨_, rfl, _, rfl, ?_⟩
  rintro ⟨h, -⟩
  revert h
  simp only [Seen.Adjacent]
  decide

/-- **C86 (order of slices).** Whatever the order of a three-dimensional block and whichever dimension is fixed, the order declared for the
slice has the remaining dimensions, renumbered, in the block's order. -/
theorem C86_slice_order (o : List Nat) (ho : o ∈ [[0, 1, 2], [0, 2, 1], [1, 0, 2], [1, 2, 0], [2, 0, 1], [2, 1, 0]]) (d : Nat) (hd : d < 3) :
    sliceOrder o 3 d = (o.filter (· ≠ d)).map (fun x => if x > d then x - 1 else x) ++ [2] := by
  have h : ∀ o ∈ [[0, 1, 2], [0, 2, 1], [1, 0, 2], [1, 2, 0], [2, 0, 1], [2, 1, 0]], ∀ d : Fin 3,
      sliceOrder o 3 d = (o.filter (· ≠ (d : Nat))).map (fun x => if x > (d : Nat) then x - 1 else x) ++ [2] := by decide +kernel
  exact h o ho ⟨d, hd⟩

example : sliceOrder [2, 0, 1] 3 1 = [1, 0, 2] := by decide

/-- **C86 (alignments tested).** The test of a block against a packing aligned to a number never divides by zero: it answers yes or no whatever the block. -/
theorem C86_divisor (asserts : Bool) (r : Rq) (d : Ly) (s : Seen) (v : Nat) (h : packingAligned r.packing = true) (hn : r.packing ≠ .aligned) :
    isCompatible asserts r d s v = .yes ∨ isCompatible asserts r d s v = .no := by
  have hA : packingAlignment r.packing ≠ 0 := by
    cases hp : r.packing with
    | alignedTo A =>
      rw [hp] at h
      have hA : A ∈ [8, 16, 32, 64, 128, 256, 1024] := of_decide_eq_true h
      simp only [packingAlignment, if_pos hA]
      rintro rfl
      exact absurd hA (by decide)
    | aligned => exact absurd hp hn
    | _ => rw [hp] at h; cases h
  have of : ∀ b : Bool, Ans.of b = .yes ∨ Ans.of b = .no := by decide
  have h1 : r.packing ≠ .unitStride := by intro e; rw [e] at h; cases h
  have h2 : r.packing ≠ .dense := by intro e; rw [e] at h; cases h
  unfold isCompatible
  simp only [h, h1, h2, hA, if_false, if_true]
  repeat' split
  all_goals first | exact of _ | exact Or.inr rfl

example : packingAligned (.alignedTo 64) = true := by decide

/-- **C86 (alignments of blocks).** The layout of a block names an alignment only if its packing is one of those aligned to a number of bytes; then it is that
number. -/
theorem C86_block_alignment {D : Nat} (p : Packing) (o : Fin D → Fin D) (h : (blockLayout p o).alignment ≠ 0) : p = .alignedTo (blockLayout p o).alignment := by
  cases p with
  | alignedTo A =>
    simp only [blockLayout, packingAlignment] at h ⊢
    split at h
    · rename_i hA; rw [if_pos hA]
    · exact absurd rfl h
  | _ => exact absurd rfl h
example : (blockLayout (.alignedTo 16) (id : Fin 2 → Fin 2)).alignment = 16 := by decide

/-- **C26 (unit stride).** A block passes for one of unit stride exactly if the next index in the last dimension of the order is the next address. -/
theorem C26_unit {D : Nat} (last : Fin D) (st : Fin D → Int) :
    Dda.compatUnit last st = true ↔ ∀ p i : Int, (p + (i + 1) * st last) = (p + i * st last) + 1 := by
  simp only [Dda.compatUnit, beq_iff_eq]
  constructor
  · intro h p i; rw [h]; omega
  · intro h
    have := h 0 0
    omega
example : Dda.compatUnit (1 : Fin 2) (fun d => if d = 1 then 1 else 5) = true ∧ Dda.compatUnit (0 : Fin 2) (fun d => if d = 1 then 1 else 5) = false := by decide

end Verif.Props
#print axioms Verif.Props.C86_declared
#print axioms Verif.Props.C86_forced
#print axioms Verif.Props.C86_packing_partial
#print axioms Verif.Props.C86_reach
#print axioms Verif.Props.C86_default
#print axioms Verif.Props.C86_format
#print axioms Verif.Props.C86_stored
#print axioms Verif.Props.C86_flat
#print axioms Verif.Props.C86_512_false
#print axioms Verif.Props.C86_aligned_false
#print axioms Verif.Props.C86_allocation_false
#print axioms Verif.Props.C86_split_false
#print axioms Verif.Props.C86_layout_type_false
#print axioms Verif.Props.C86_flat_size_false
#print axioms Verif.Props.C86_part_false
#print axioms Verif.Props.C86_rt_size_false
#print axioms Verif.Props.C86_storage_size_false
#print axioms Verif.Props.C86_python_false
#print axioms Verif.Props.C86_slice_order
#print axioms Verif.Props.C86_divisor
#print axioms Verif.Props.C86_block_alignment
#print axioms Verif.Props.C26_unit
