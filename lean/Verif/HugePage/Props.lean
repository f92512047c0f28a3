import Verif.HugePage.Steps
/-!
C58: the pool allocator.
-/
namespace Verif.Props
open Verif.Huge

/-- the bytes a request takes up: the next multiple of 128 -/
def cell (n : Nat) : Nat := 128 * ((max n 1 + 127) / 128)

theorem round_eq_cell {n : Nat} (h : n + 128 ≤ 18446744073709551616) : Huge.round n = cell n := by
  simp only [Huge.round, cell]
  have : max n 1 = if n < 1 then 1 else n := by split <;> omega
  rw [this]
  split <;> split <;> split <;> omega

/-- what a program does with the pool: ask for memory, give it back, store a word in memory it was given -/
inductive PoolOp where
  | alloc (n : Nat)
  | free (r n : Nat)
  | write (w v : Nat)
deriving DecidableEq

/-- one operation; the second component lists the blocks the program holds, with the sizes it asked for -/
def poolOp (fuel : Nat) (s : Pool) (live : List (Nat × Nat)) : PoolOp → Option (Pool × List (Nat × Nat))
  | .alloc n => (allocate fuel s n).map fun (s', p) => (s', match p with | some p => (p, n) :: live | none => live)
  | .free r n => (deallocate fuel s r n).map fun s' => (s', live.erase (r, n))
  | .write w v => some (s.set w v, live)

def poolRun (fuel : Nat) : Pool → List (Nat × Nat) → List PoolOp → Option (Pool × List (Nat × Nat))
  | s, live, [] => some (s, live)
  | s, live, op :: ops => (poolOp fuel s live op).bind fun (s', live') => poolRun fuel s' live' ops

/-- the byte is in the pool and in no block the program holds -/
def FreeAt (base size : Nat) (live : List (Nat × Nat)) (x : Nat) : Prop :=
  base ≤ x ∧ x < base + size ∧ ∀ b ∈ live, ¬ (b.1 ≤ x ∧ x < b.1 + cell b.2)

/-- Requests do not wrap; the program stores only into memory it holds; and it gives back only what it holds, at a time when some byte further up is
free and the byte before the block is not – or the free bytes before it are as many as the block has. -/
def PoolOk (base size : Nat) (live : List (Nat × Nat)) : PoolOp → Prop
  | .alloc n => n + 128 ≤ 18446744073709551616
  | .free r n => (r, n) ∈ live ∧ (∃ x, r < x ∧ FreeAt base size live x) ∧
      (r = base ∨ ¬ FreeAt base size live (r - 1) ∨
        (base + cell n ≤ r ∧ (∀ x, r - cell n ≤ x → x < r → FreeAt base size live x) ∧ (r - cell n = base ∨ ¬ FreeAt base size live (r - cell n - 1))))
  | .write w _ => ∃ b ∈ live, b.1 ≤ w ∧ w + 8 ≤ b.1 + cell b.2

def poolOk (fuel base size : Nat) : Pool → List (Nat × Nat) → List PoolOp → Prop
  | _, _, [] => True
  | s, live, op :: ops => PoolOk base size live op ∧ ∀ s' live', poolOp fuel s live op = some (s', live') → poolOk fuel base size s' live' ops

def cells (live : List (Nat × Nat)) : List Blk := live.map fun b => (b.1, cell b.2)

structure RunInv (base size : Nat) (s : Pool) (live : List (Nat × Nat)) : Prop where
  base : s.base = base
  size : s.size = size
  fits : ∀ b ∈ live, b.2 + 128 ≤ 18446744073709551616
  inv : ∃ F, PoolInv s F (cells live)

theorem PoolInv.permLive {s : Pool} {F live live' : List Blk} (h : PoolInv s F live) (p : live.Perm live') : PoolInv s F live' :=
  ⟨h.pos, h.lim, h.seg, h.tile.perm (p.append_left F), h.gap, h.avail⟩

/-- a free byte lies in a block of the free list, and the bytes of free blocks are free -/
theorem freeAt_iff {base size : Nat} {s : Pool} {live : List (Nat × Nat)} {F : List Blk} (hb : s.base = base) (hs : s.size = size)
    (hI : PoolInv s F (cells live)) (x : Nat) : FreeAt base size live x ↔ ∃ b ∈ F, b.1 ≤ x ∧ x < b.1 + b.2 := by
  subst hb hs
  constructor
  · rintro ⟨h1, h2, h3⟩
    obtain ⟨b, hb, h4, h5⟩ := hI.tile.cover x h1 h2
    rcases List.mem_append.mp hb with hb | hb
    · exact ⟨b, hb, h4, h5⟩
    · obtain ⟨c, hc, rfl⟩ := List.mem_map.mp hb
      exact absurd ⟨h4, h5⟩ (h3 c hc)
  · rintro ⟨b, hb, h4, h5⟩
    have := hI.tile.inside b (List.mem_append_left _ hb)
    refine ⟨by omega, by omega, fun c hc h => ?_⟩
    have := hI.tile.cross hb (List.mem_map.mpr ⟨c, hc, rfl⟩)
    simp only [BlkApart] at this; omega

theorem pair_of_ne {α : Type} {R : α → α → Prop} {l : List α} (h : l.Pairwise R) {a b : α} (ha : a ∈ l) (hb : b ∈ l) (hne : a ≠ b) : R a b ∨ R b a := by
  obtain ⟨i, hi, ei⟩ := List.mem_iff_getElem.mp ha
  obtain ⟨j, hj, ej⟩ := List.mem_iff_getElem.mp hb
  rcases Nat.lt_trichotomy i j with hij | hij | hij
  · left; have := List.pairwise_iff_getElem.mp h i j hi hj hij; rw [ei, ej] at this; exact this
  · subst hij; exact absurd (ei.symm.trans ej) hne
  · right; have := List.pairwise_iff_getElem.mp h j i hj hi hij; rw [ei, ej] at this; exact this

/-- a run of free bytes lies in one free block -/
theorem run_in_block {base size : Nat} {s : Pool} {live : List (Nat × Nat)} {F : List Blk} (hb : s.base = base) (hs : s.size = size)
    (hI : PoolInv s F (cells live)) {a k : Nat} (hk : 0 < k) (h : ∀ x, a ≤ x → x < a + k → FreeAt base size live x) :
    ∃ b ∈ F, b.1 ≤ a ∧ a + k ≤ b.1 + b.2 := by
  obtain ⟨b, hb1, h1, h2⟩ := (freeAt_iff hb hs hI a).mp (h a (Nat.le_refl _) (by omega))
  by_cases hc : a + k ≤ b.1 + b.2
  · exact ⟨b, hb1, h1, hc⟩
  · obtain ⟨c, hc1, h3, h4⟩ := (freeAt_iff hb hs hI (b.1 + b.2)).mp (h _ (by omega) (by omega))
    exfalso
    have hne : c ≠ b := fun e => by subst e; omega
    have hg := hI.gap
    have hb128 := hI.big b (List.mem_append_left _ hb1)
    have : b.1 + b.2 < c.1 ∨ c.1 + c.2 < b.1 := by
      exact pair_of_ne hg hb1 hc1 (Ne.symm hne)
    omega

theorem pool_op {base size fuel : Nat} (hf : size < fuel) {s : Pool} {live : List (Nat × Nat)} (hI : RunInv base size s live) (op : PoolOp)
    (hok : PoolOk base size live op) : ∃ s' live', poolOp fuel s live op = some (s', live') ∧ RunInv base size s' live' ∧
      ((∀ w v, op ≠ .write w v) → ∀ b ∈ live, b ∈ live' → ∀ w, b.1 ≤ w → w < b.1 + cell b.2 → s'.mem w = s.mem w) := by
  obtain ⟨hb, hs, hfit, F, hP⟩ := hI
  cases op with
  | alloc n =>
    rcases alloc_spec hP (fuel := fuel) (by omega) hok with ⟨e, -⟩ | ⟨s', p, F', e, h1, h2, h3, h4⟩
    · exact ⟨s, live, by simp [poolOp, e], ⟨hb, hs, hfit, F, hP⟩, fun _ _ _ _ _ _ _ => rfl⟩
    · refine ⟨s', (p, n) :: live, by simp [poolOp, e], ⟨h1.trans hb, h2.trans hs, ?_, F', ?_⟩,
        fun _ b hb _ w w1 w2 => h4 (b.1, cell b.2) (List.mem_map.mpr ⟨b, hb, rfl⟩) w w1 w2⟩
      · intro b hb
        rcases List.mem_cons.mp hb with rfl | hb
        · exact hok
        · exact hfit b hb
      · rw [round_eq_cell hok] at h3; exact h3
  | free r n =>
    obtain ⟨hmem, ⟨x, hx, hfx⟩, hB⟩ := hok
    have hn := hfit _ hmem
    simp only at hn
    have hperm : (cells live).Perm ((r, Huge.round n) :: cells (live.erase (r, n))) := by
      rw [round_eq_cell hn]
      exact (List.perm_cons_erase hmem).map _
    have hP' := hP.permLive hperm
    have hz : 128 ≤ Huge.round n := (round_spec hn).2.2.2.1
    have hrF : ∀ b ∈ F, BlkApart b (r, Huge.round n) := fun b hb => hP'.tile.cross hb (by simp)
    have hrin := hP'.tile.inside (r, Huge.round n) (by simp)
    simp only at hrin
    obtain ⟨s', F', e, h1, h2, h3, h4⟩ := dealloc_spec hP' (fuel := fuel) (by omega) (by
        obtain ⟨b, hb1, h4, h5⟩ := (freeAt_iff hb hs hP x).mp hfx
        refine ⟨b, hb1, ?_⟩
        have := hrF b hb1
        simp only [BlkApart] at this
        omega) (by
        intro b hbF hadj
        have hb128 := hP.big b (List.mem_append_left _ hbF)
        have hbase := (hP.tile.inside b (List.mem_append_left _ hbF)).1
        rcases hB with h | h | ⟨h4, h5, h6⟩
        · omega
        · exact absurd ((freeAt_iff hb hs hP (r - 1)).mpr ⟨b, hbF, by omega, by omega⟩) h
        · rw [round_eq_cell hn] at hz hrin ⊢
          obtain ⟨c, hc, h7, h8⟩ := run_in_block hb hs hP (a := r - cell n) (k := cell n) (by omega) (fun x x1 x2 => h5 x x1 (by omega))
          have hcb : c = b := by
            by_contra hne
            have := (List.pairwise_append.mp hP.tile.apart).1
            have hap : BlkApart c b := (pair_of_ne this hc hbF hne).elim id BlkApart.symm
            simp only [BlkApart] at hap; omega
          subst hcb
          rcases h6 with h6 | h6
          · omega
          · by_contra hne
            exact h6 ((freeAt_iff hb hs hP _).mpr ⟨c, hc, by omega, by omega⟩))
    exact ⟨s', live.erase (r, n), by simp [poolOp, e], ⟨h1.trans hb, h2.trans hs, fun b hb => hfit b (List.mem_of_mem_erase hb), F', h3⟩,
      fun _ b _ hb w w1 w2 => h4 (b.1, cell b.2) (List.mem_map.mpr ⟨b, hb, rfl⟩) w w1 w2⟩
  | write w v =>
    obtain ⟨b, hbl, h1, h2⟩ := hok
    refine ⟨_, live, rfl, ⟨hb, hs, hfit, F, hP.pos, hP.lim, ?_, hP.tile, hP.gap, hP.avail⟩, fun h => absurd rfl (h w v)⟩
    exact hP.seg.set (off_of (b := (b.1, cell b.2)) (fun c hc => ⟨(hP.tile.cross hc (List.mem_map.mpr ⟨b, hbl, rfl⟩)).symm,
      hP.big c (List.mem_append_left _ hc)⟩) h1 (by simp only; omega))

theorem pool_run {base size fuel : Nat} (hf : size < fuel) : ∀ (ops : List PoolOp) (s : Pool) (live : List (Nat × Nat)), RunInv base size s live →
    poolOk fuel base size s live ops → ∃ s' live', poolRun fuel s live ops = some (s', live') ∧ RunInv base size s' live'
  | [], s, live, hI, _ => ⟨s, live, rfl, hI⟩
  | op :: ops, s, live, hI, h => by
    obtain ⟨s1, l1, e, i, -⟩ := pool_op hf hI op h.1
    obtain ⟨s', l', e', i'⟩ := pool_run hf ops s1 l1 i (h.2 s1 l1 e)
    exact ⟨s', l', by simp [poolRun, e, e'], i'⟩

theorem create_inv (mem : Nat → Nat) {base size : Nat} (h0 : 0 < base) (h1 : 0 < size) (h2 : size % 128 = 0) (h3 : size < 18446744073709551616) :
    RunInv base size (create mem base size) [] := by
  refine ⟨rfl, rfl, by simp, [(base, size)], h0, h3, ?_, ⟨?_, ?_, ?_, ?_, ?_⟩, by simp, by simp [create, total]⟩
  · simp only [Seg, create, Function.update_self]
    rw [Function.update_of_ne (by omega), Function.update_self]
    exact ⟨trivial, trivial, rfl⟩
  · simp [cells]
  · simp [create, cells]
  · simp only [cells, create, List.map_nil, List.append_nil, List.mem_singleton]
    rintro b rfl
    simp only; omega
  · intro x x1 x2
    exact ⟨(base, size), by simp, x1, x2⟩
  · simp [total, cells, create]

/-- the blocks the program holds do not overlap -/
def LiveApart (live : List (Nat × Nat)) : Prop := live.Pairwise fun a b => a.1 + cell a.2 ≤ b.1 ∨ b.1 + cell b.2 ≤ a.1

/-- C58 for the histories of `PoolOk`: the allocator never goes wrong, the blocks the program holds are apart, inside the pool and 128-byte aligned,
the reported amount is the number of free bytes, and a request fails only if no run of free bytes is long enough.
Missing: other histories, see `C58_join_false`, `C58_end_false`, `C58_link_false`, `C58_wrap_false`. -/
theorem C58_history_partial (mem : Nat → Nat) (base size fuel : Nat) (h0 : 0 < base) (h1 : 0 < size) (h2 : size % 128 = 0)
    (h3 : size < 18446744073709551616) (hf : size < fuel) (ops : List PoolOp) (hok : poolOk fuel base size (create mem base size) [] ops) :
    ∃ s live, poolRun fuel (create mem base size) [] ops = some (s, live) ∧
      LiveApart live ∧ (∀ b ∈ live, base ≤ b.1 ∧ b.1 + cell b.2 ≤ base + size ∧ (b.1 - base) % 128 = 0) ∧
      s.avail + (live.map fun b => cell b.2).sum = size ∧
      (∀ n, n + 128 ≤ 18446744073709551616 → (∃ a, ∀ x, a ≤ x → x < a + cell n → FreeAt base size live x) →
        ∃ s' p, allocate fuel s n = some (s', some p) ∧ ∀ x, p ≤ x → x < p + cell n → FreeAt base size live x) ∧
      ∀ n, n + 128 ≤ 18446744073709551616 → (¬ ∃ a, ∀ x, a ≤ x → x < a + cell n → FreeAt base size live x) → allocate fuel s n = some (s, none) := by
  obtain ⟨s, live, e, hI⟩ := pool_run hf ops _ _ (create_inv mem h0 h1 h2 h3) hok
  have hI' := hI
  obtain ⟨hb, hs, hfit, F, hP⟩ := hI
  refine ⟨s, live, e, ?_, ?_, ?_, ?_, ?_⟩
  · have := (List.pairwise_append.mp hP.tile.apart).2.1
    exact (List.pairwise_map.mp this)
  · intro b hbl
    have h4 := hP.tile.inside (b.1, cell b.2) (List.mem_append_right _ (List.mem_map.mpr ⟨b, hbl, rfl⟩))
    have h5 := hP.tile.step (b.1, cell b.2) (List.mem_append_right _ (List.mem_map.mpr ⟨b, hbl, rfl⟩))
    rw [hb] at h4 h5; rw [hs] at h4
    exact ⟨h4.1, h4.2, h5.2.2⟩
  · have := hP.tile.sum
    rw [total_append, ← hP.avail, hs] at this
    rw [← this]; simp [total, cells, Function.comp_def]
  · intro n hn ⟨a, ha⟩
    have hc : 128 ≤ cell n := by rw [← round_eq_cell hn]; exact (round_spec hn).2.2.2.1
    rcases alloc_spec hP (fuel := fuel) (by omega) hn with ⟨-, h⟩ | ⟨s', p, F', e, k1, k2, k3, -⟩
    · obtain ⟨b, hbF, h4, h5⟩ := run_in_block hb hs hP (by omega) ha
      have := h b hbF
      rw [round_eq_cell hn] at this; omega
    · refine ⟨s', p, e, fun x x1 x2 => ?_⟩
      rw [round_eq_cell hn] at k3
      have k4 := k3.tile.inside (p, cell n) (by simp)
      rw [k1, hb, k2, hs] at k4
      refine ⟨by simp only at k4; omega, by simp only at k4; omega, fun b hbl hx => ?_⟩
      have := (List.pairwise_cons.mp (List.pairwise_append.mp k3.tile.apart).2.1).1 (b.1, cell b.2) (List.mem_map.mpr ⟨b, hbl, rfl⟩)
      simp only [BlkApart] at this; omega
  · intro n hn hno
    rcases alloc_spec hP (fuel := fuel) (by omega) hn with ⟨e, -⟩ | ⟨s', p, F', e, k1, k2, k3, -⟩
    · exact e
    · exfalso
      refine hno ⟨p, fun x x1 x2 => ?_⟩
      rw [round_eq_cell hn] at k3
      have k4 := k3.tile.inside (p, cell n) (by simp)
      rw [k1, hb, k2, hs] at k4
      refine ⟨by simp only at k4; omega, by simp only at k4; omega, fun b hbl hx => ?_⟩
      have := (List.pairwise_cons.mp (List.pairwise_append.mp k3.tile.apart).2.1).1 (b.1, cell b.2) (List.mem_map.mpr ⟨b, hbl, rfl⟩)
      simp only [BlkApart] at this; omega

/-- C58, data: after such a history, asking for memory or giving some back changes no word of the blocks the program keeps.
Missing: as above. -/
theorem C58_data_partial (mem : Nat → Nat) (base size fuel : Nat) (h0 : 0 < base) (h1 : 0 < size) (h2 : size % 128 = 0)
    (h3 : size < 18446744073709551616) (hf : size < fuel) (ops : List PoolOp) (hok : poolOk fuel base size (create mem base size) [] ops)
    (s : Pool) (live : List (Nat × Nat)) (hr : poolRun fuel (create mem base size) [] ops = some (s, live)) (op : PoolOp) (hop : PoolOk base size live op)
    (hw : ∀ w v, op ≠ .write w v) : ∃ s' live', poolOp fuel s live op = some (s', live') ∧
      ∀ b ∈ live, b ∈ live' → ∀ w, b.1 ≤ w → w < b.1 + cell b.2 → s'.mem w = s.mem w := by
  obtain ⟨s2, l2, e, hI⟩ := pool_run hf ops _ _ (create_inv mem h0 h1 h2 h3) hok
  rw [hr] at e; cases e
  obtain ⟨s', live', e', -, h⟩ := pool_op hf hI op hop
  exact ⟨s', live', e', h hw⟩

/-- three blocks; a store; the first given back (in front of the free list), the second (joined with the first), and the memory asked for again -/
def poolHistory : List PoolOp := [.alloc 100, .alloc 128, .alloc 200, .write 392 7, .free 128 100, .free 256 128, .alloc 250]

example : poolOk 2000 128 1024 (create (fun _ => 9) 128 1024) [] poolHistory := by
  simp only [poolHistory, poolOk, PoolOk]
  refine ⟨by omega, fun s1 l1 h1 => ?_⟩
  cases h1
  refine ⟨by omega, fun s2 l2 h2 => ?_⟩
  cases h2
  refine ⟨by omega, fun s3 l3 h3 => ?_⟩
  cases h3
  refine ⟨by decide, fun s4 l4 h4 => ?_⟩
  cases h4
  refine ⟨⟨by decide, ⟨640, by decide, by decide, by decide, by decide⟩, Or.inl trivial⟩, fun s5 l5 h5 => ?_⟩
  cases h5
  refine ⟨⟨by decide, ⟨640, by decide, by decide, by decide, by decide⟩, Or.inr (Or.inr ⟨by decide, fun x x1 x2 => ?_, Or.inl rfl⟩)⟩, fun s6 l6 h6 => ⟨by omega, fun _ _ _ => trivial⟩⟩
  have e : cell 128 = 128 := rfl
  rw [e] at x1
  refine ⟨by omega, by omega, ?_⟩
  show ∀ b ∈ [(384, 200), (256, 128)], ¬ (b.1 ≤ x ∧ x < b.1 + cell b.2)
  simp only [List.mem_cons, List.not_mem_nil, or_false, forall_eq_or_imp, forall_eq]
  omega

example : (poolRun 2000 (create (fun _ => 9) 128 1024) [] poolHistory).map (fun r => (r.2, r.1.avail, r.1.mem 392)) =
    some ([(128, 250), (384, 200)], 512, 7) := by decide +kernel

/-! ### Where it fails -/

/-- the blocks held after a history -/
def heldAfter (ops : List PoolOp) : Option (List (Nat × Nat)) := (poolRun 2000 (create (fun _ => 0) 128 1024) [] ops).map Prod.snd

/-- Two blocks that do not overlap with a third are given back; joining the second with the first counts the second's size twice and forgets the
first's (l.197), so the free block reaches into the third, and the next request is given memory the program still holds. -/
theorem C58_join_false : heldAfter [.alloc 128, .alloc 256, .alloc 128, .free 128 128, .free 256 256, .alloc 512] = some [(128, 512), (512, 128)] ∧
    ¬ LiveApart [(128, 512), (512, 128)] := by
  refine ⟨by decide +kernel, ?_⟩
  simp [LiveApart, cell]

/-- A block given back above the last free one replaces the free list instead of joining it (l.150-155): the pool is all free again, and the reported
amount says so, but a request for all of it, or for two halves, fails. -/
theorem C58_end_false :
    ((poolRun 2000 (create (fun _ => 0) 128 1024) [] [.alloc 512, .alloc 512, .free 128 512, .free 640 512]).bind fun r =>
      (allocate 2000 r.1 1024).map fun q => (r.2, r.1.avail, q.2)) = some ([], 1024, none) ∧
    heldAfter [.alloc 512, .alloc 512, .free 128 512, .free 640 512, .alloc 512, .alloc 512] = some [(640, 512)] ∧
    ∀ x, 128 ≤ x → x < 128 + cell 1024 → FreeAt 128 1024 [] x := by
  refine ⟨by decide +kernel, by decide +kernel, fun x h1 h2 => ⟨h1, ?_, by simp⟩⟩
  have : cell 1024 = 1024 := rfl
  omega

/-- A block given back while nothing is free keeps what the program stored in its first word as the link to the next free block (l.150-155): here the
program's data is taken for the address of a block it still holds. -/
theorem C58_link_false :
    heldAfter [.alloc 512, .alloc 512, .write 128 640, .write 648 512, .free 128 512, .alloc 512, .alloc 512] = some [(640, 512), (128, 512), (640, 512)] ∧
    ¬ LiveApart [(640, 512), (128, 512), (640, 512)] := by
  refine ⟨by decide +kernel, ?_⟩
  simp [LiveApart, cell]

/-- A request of nearly 2^64 bytes wraps to none (l.85-87): it succeeds, with no memory, and the next request is given the same address. -/
theorem C58_wrap_false : heldAfter [.alloc 18446744073709551600, .alloc 128] = some [(128, 128), (128, 18446744073709551600)] := by
  decide +kernel

theorem hp_fit_in {s : Pool} {size : Nat} : ∀ (fuel prev ptr : Nat) {r : Nat × Nat}, (prev = 0 ∨ inPool s prev = true) →
    fit s size fuel prev ptr = some r → (r.1 = 0 ∨ inPool s r.1 = true) ∧ (r.2 = 0 ∨ inPool s r.2 = true)
  | 0, _, _, _, _, h => by simp [fit] at h
  | fuel + 1, prev, ptr, r, hp, h => by
    unfold fit at h
    by_cases h0 : ptr = 0
    · rw [if_pos h0] at h
      obtain rfl := Option.some.inj h
      exact ⟨hp, .inl rfl⟩
    · rw [if_neg h0] at h
      by_cases h1 : inPool s ptr = true
      · rw [if_pos h1] at h
        by_cases h2 : s.mem (ptr + 8) < size
        · rw [if_pos h2] at h
          exact hp_fit_in fuel ptr _ (.inr h1) h
        · rw [if_neg h2] at h
          obtain rfl := Option.some.inj h
          exact ⟨hp, .inr h1⟩
      · rw [if_neg h1] at h
        cases h

theorem hp_place_in {s : Pool} {b : Nat} : ∀ (fuel prev ptr : Nat) {r : Nat × Nat}, (prev = 0 ∨ inPool s prev = true) →
    place s b fuel prev ptr = some r → r.1 = 0 ∨ inPool s r.1 = true
  | 0, _, _, _, _, h => by simp [place] at h
  | fuel + 1, prev, ptr, r, hp, h => by
    unfold place at h
    by_cases h0 : ptr ≠ 0 ∧ ptr < b
    · rw [if_pos h0] at h
      by_cases h1 : inPool s ptr = true
      · rw [if_pos h1] at h
        exact hp_place_in fuel ptr _ (.inr h1) h
      · rw [if_neg h1] at h
        cases h
    · rw [if_neg h0] at h
      obtain rfl := Option.some.inj h
      exact hp

theorem hp_set {s : Pool} {p v q : Nat} (h : p ≠ q) : (s.set p v).mem q = s.mem q := by
  simp [Pool.set, Function.update, Ne.symm h]

theorem hp_link {s : Pool} {p v q : Nat} (h : p = 0 ∨ p ≠ q) : (link s p v).mem q = s.mem q := by
  unfold link
  by_cases h0 : p = 0
  · rw [if_pos h0]
  · rw [if_neg h0]
    exact hp_set (h.resolve_left h0)

/-- **C58 (memory outside the pool).** Whatever the state of the free list, a request that is answered, and a block that is taken back, change no word
outside the pool, and a block that is given out begins inside it. -/
theorem C58_inside (fuel : Nat) (s : Pool) (q : Nat) (hq : q < s.base ∨ s.base + s.size ≤ q) :
    (∀ n s' r, allocate fuel s n = some (s', r) → s'.mem q = s.mem q ∧ ∀ p, r = some p → s.base ≤ p ∧ p < s.base + s.size) ∧
    ∀ r n s', deallocate fuel s r n = some s' → s'.mem q = s.mem q := by
  have off : ∀ p, inPool s p = true → p ≠ q ∧ p + 8 ≠ q ∧ s.base ≤ p ∧ p < s.base + s.size := by
    intro p hp
    simp only [inPool, decide_eq_true_eq] at hp
    omega
  refine ⟨fun n s' r h => ?_, fun r n s' h => ?_⟩
  · unfold allocate at h
    obtain ⟨⟨prev, ptr⟩, hf, h⟩ := Option.bind_eq_some_iff.1 h
    obtain ⟨hpre, hptr⟩ := hp_fit_in fuel 0 s.free (.inl rfl) hf
    dsimp only at h hpre hptr
    have hl : prev = 0 ∨ prev ≠ q := hpre.imp_right fun h => (off _ h).1
    by_cases h0 : ptr = 0
    · rw [if_pos h0] at h
      cases h
      exact ⟨rfl, by simp⟩
    · have hin := off _ (hptr.resolve_left h0)
      rw [if_neg h0] at h
      split at h
      · cases h
        refine ⟨hp_link hl, ?_⟩
        rintro p ⟨⟩
        exact hin.2.2
      · split at h
        · rename_i hi
          have hi := off _ hi
          cases h
          refine ⟨?_, ?_⟩
          · rw [hp_set hi.2.1, hp_set hi.1, hp_link hl]
          · rintro p ⟨⟩
            exact hin.2.2
        · cases h
  · unfold deallocate at h
    obtain ⟨⟨prev, ptr⟩, hf, h⟩ := Option.bind_eq_some_iff.1 h
    have hpre := hp_place_in fuel 0 s.free (.inl rfl) hf
    dsimp only at h hpre
    by_cases hr : inPool s r = false
    · rw [if_pos hr] at h; cases h
    · rw [if_neg hr] at h
      have hr := off r (by simpa using hr)
      by_cases h0 : ptr = 0
      · rw [if_pos h0] at h
        cases h
        exact hp_set hr.2.1
      · rw [if_neg h0] at h
        split at h
        · cases h
        · have key : (if round n = ptr - r then (s.set r (s.mem ptr)).set (r + 8) (round n + s.mem (ptr + 8))
              else (s.set r ptr).set (r + 8) (round n)).mem q = s.mem q := by
            split <;> rw [hp_set hr.2.1, hp_set hr.1]
          generalize (if round n = ptr - r then (s.set r (s.mem ptr)).set (r + 8) (round n + s.mem (ptr + 8))
              else (s.set r ptr).set (r + 8) (round n)) = t at h key
          by_cases hp0 : prev = 0
          · rw [if_pos hp0] at h
            cases h
            exact key
          · rw [if_neg hp0] at h
            have hp := off _ (hpre.resolve_left hp0)
            split at h
            · cases h
              show ((t.set prev (t.mem r)).set (prev + 8) _).mem q = _
              rw [hp_set hp.2.1, hp_set hp.1, key]
            · cases h
              show (t.set prev r).mem q = _
              rw [hp_set hp.1, key]
example : ((allocate 5 (create (fun _ => 7) 128 1024) 100).map fun r => (r.2, r.1.mem 0, r.1.mem 1152)) = some (some 128, 7, 7) := by decide +kernel

end Verif.Props
