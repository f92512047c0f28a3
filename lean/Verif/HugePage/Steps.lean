import Verif.HugePage.Lemmas
/-!
The invariant of the pool allocator and its two operations.
-/
namespace Verif.Props
open Verif.Huge

/-- memory holds the free list `F`; it and the live blocks fill the pool; free blocks are in order and not adjacent -/
structure PoolInv (s : Pool) (F live : List Blk) : Prop where
  pos : 0 < s.base
  lim : s.size < 18446744073709551616
  seg : Seg s.mem s.free F 0
  tile : Tiling s.base s.size (F ++ live)
  gap : F.Pairwise fun a b => a.1 + a.2 < b.1
  avail : s.avail = total F

theorem round_spec {n : Nat} (h : n + 128 ≤ 18446744073709551616) : 0 < round n ∧ round n % 128 = 0 ∧ n ≤ round n ∧ 128 ≤ round n ∧ round n < n + 128 + 16 := by
  simp only [Huge.round]
  split <;> split <;> omega

theorem total_append (X Y : List Blk) : total (X ++ Y) = total X + total Y := by simp [total]
theorem total_cons (b : Blk) (Y : List Blk) : total (b :: Y) = b.2 + total Y := by simp [total]

theorem length_le_total : ∀ X : List Blk, (∀ b ∈ X, 0 < b.2) → X.length ≤ total X
  | [], _ => by simp
  | b :: X, h => by
    have := length_le_total X fun c hc => h c (List.mem_cons_of_mem _ hc)
    have := h b List.mem_cons_self
    simp only [total_cons, List.length_cons]; omega

theorem off_of {l : List Blk} {b : Blk} {w : Nat} (h : ∀ c ∈ l, BlkApart b c ∧ 128 ≤ c.2) (h1 : b.1 ≤ w) (h2 : w < b.1 + b.2) : Off l w := fun c hc => by
  obtain ⟨h3, h4⟩ := h c hc
  simp only [BlkApart] at h3
  omega

namespace PoolInv
variable {s : Pool} {F live : List Blk} (hI : PoolInv s F live)
include hI

theorem big (b : Blk) (hb : b ∈ F ++ live) : 128 ≤ b.2 := by have := hI.tile.step b hb; omega

theorem inp (b : Blk) (hb : b ∈ F ++ live) : inPool s b.1 = true := by
  have h1 := hI.tile.inside b hb
  have h2 := hI.big b hb
  simp only [inPool, decide_eq_true_eq]; omega

theorem walk (b : Blk) (hb : b ∈ F) : 0 < b.1 ∧ inPool s b.1 = true :=
  ⟨by have := (hI.tile.inside b (List.mem_append_left _ hb)).1; have := hI.pos; omega, hI.inp b (List.mem_append_left _ hb)⟩

theorem len : F.length ≤ s.size := by
  have h1 := length_le_total F fun b hb => (hI.tile.step b (List.mem_append_left _ hb)).1
  have h2 := hI.tile.sum
  rw [total_append] at h2; omega

end PoolInv

theorem Tiling.cross {base size : Nat} {X Y : List Blk} (h : Tiling base size (X ++ Y)) {a b : Blk} (ha : a ∈ X) (hb : b ∈ Y) : BlkApart a b :=
  (List.pairwise_append.mp h.apart).2.2 a ha b hb

/-- storing the link to what comes after `l1` -/
theorem link_seg {s : Pool} {l1 : List Blk} {m v : Nat} (h : Seg s.mem s.free l1 m) (hp : l1.Pairwise BlkApart) (hb : ∀ b ∈ l1, 128 ≤ b.2 ∧ 0 < b.1) :
    Seg (link s (lastOf l1) v).mem (link s (lastOf l1) v).free l1 v ∧
    (∀ w, (∀ b ∈ l1, w ≠ b.1) → (link s (lastOf l1) v).mem w = s.mem w) ∧
    (link s (lastOf l1) v).base = s.base ∧ (link s (lastOf l1) v).size = s.size ∧ (link s (lastOf l1) v).avail = s.avail := by
  rcases List.eq_nil_or_concat l1 with e | ⟨l0, b, e⟩
  · subst e
    exact ⟨rfl, fun w _ => rfl, rfl, rfl, rfl⟩
  · rw [List.concat_eq_append] at e
    subst e
    rw [lastOf_snoc]
    have hb1 := hb b (by simp)
    have hl : link s b.1 v = s.set b.1 v := if_neg (by omega)
    rw [hl]
    refine ⟨?_, fun w hw => Function.update_of_ne (hw b (by simp)) .., rfl, rfl, rfl⟩
    obtain ⟨m', h1, h2⟩ := (seg_append _ _ _ _).mp h
    have hoff : Off l0 b.1 := off_of (b := b) (fun c hc => ⟨((List.pairwise_append.mp hp).2.2 c hc b (by simp)).symm, (hb c (by simp [hc])).1⟩)
      (Nat.le_refl _) (by omega)
    refine (seg_append _ _ _ _).mpr ⟨m', h1.set hoff, h2.1, ?_, ?_⟩
    · show Function.update s.mem b.1 v (b.1 + 8) = _
      rw [Function.update_of_ne (by omega)]; exact h2.2.1
    · show Function.update s.mem b.1 v b.1 = v
      simp

/-- `allocate`: a block of the asked size, or `bad_alloc` when no free block is large enough; other live blocks are untouched -/
theorem alloc_spec {s : Pool} {F live : List Blk} (hI : PoolInv s F live) {fuel n : Nat} (hf : s.size < fuel) (hn : n + 128 ≤ 18446744073709551616) :
    (allocate fuel s n = some (s, none) ∧ ∀ b ∈ F, b.2 < round n) ∨
    ∃ s' p F', allocate fuel s n = some (s', some p) ∧ s'.base = s.base ∧ s'.size = s.size ∧ PoolInv s' F' ((p, round n) :: live) ∧
      ∀ b ∈ live, ∀ w, b.1 ≤ w → w < b.1 + b.2 → s'.mem w = s.mem w := by
  obtain ⟨l1, l2, e, h1, h2, h3⟩ := fit_spec (size := round n) F fuel 0 s.free hI.seg (fun b hb => hI.walk b hb) (by have := hI.len; omega)
  obtain ⟨r0, r1, r2, r3, _⟩ := round_spec hn
  cases l2 with
  | nil =>
    left
    rw [List.append_nil] at e
    subst e
    refine ⟨?_, h1⟩
    simp [allocate, h3, headOf]
  | cons b l2 =>
    right
    have hlast : (if l1 = [] then 0 else lastOf l1) = lastOf l1 := by split <;> [(rename_i e; rw [e]; rfl); rfl]
    rw [hlast] at h3
    obtain ⟨a, k⟩ := b
    have hF : ∀ c ∈ l1 ++ (a, k) :: l2, 128 ≤ c.2 := fun c hc => hI.big c (by rw [e]; exact List.mem_append_left _ hc)
    have hmemb : (a, k) ∈ F := by rw [e]; simp
    have hwalk := hI.walk _ hmemb
    simp only at hwalk
    have hk : round n ≤ k := by simpa using h2
    have hseg := hI.seg
    rw [e] at hseg
    obtain ⟨m, s1, s2⟩ := (seg_append _ _ _ _).mp hseg
    obtain ⟨hma, hsz, s3⟩ := s2
    simp only at hma hsz s3
    subst m
    have happ : (l1 ++ (a, k) :: l2).Pairwise BlkApart := by
      have := (List.pairwise_append.mp hI.tile.apart).1; rwa [e] at this
    obtain ⟨ap1, ap2, ap3⟩ := List.pairwise_append.mp happ
    obtain ⟨ap4, ap5⟩ := List.pairwise_cons.mp ap2
    have hav : total F = total l1 + (k + total l2) := by rw [e, total_append, total_cons]
    have hsum := hI.tile.sum
    rw [total_append] at hsum
    have hlim := hI.lim
    have havail : (s.avail + (18446744073709551616 - round n)) % 18446744073709551616 = s.avail - round n := by
      have := hI.avail; omega
    have hgap := hI.gap
    rw [e] at hgap
    obtain ⟨g1, g2, g3⟩ := List.pairwise_append.mp hgap
    obtain ⟨g4, g5⟩ := List.pairwise_cons.mp g2
    have hperm : (F ++ live).Perm ((a, k) :: (l1 ++ l2 ++ live)) := by
      rw [e]; simp only [List.append_assoc, List.cons_append]; exact List.perm_middle
    have htile := hI.tile.perm hperm
    -- the state with the link changed
    have hlink := fun v => link_seg (s := { s with avail := s.avail - round n }) (l1 := l1) (m := a) (v := v) s1 ap1 fun b hb =>
      ⟨hF b (by simp [hb]), (hI.walk b (by rw [e]; simp [hb])).1⟩
    by_cases hex : k = round n
    · obtain ⟨k1, k2, k3, k4, k5⟩ := hlink (s.mem a)
      refine ⟨link { s with avail := s.avail - round n } (lastOf l1) (s.mem a), a, l1 ++ l2, ?_, k3, k4, ⟨?_, ?_, ?_, ?_, ?_, ?_⟩, ?_⟩
      · simp [allocate, h3, headOf, show a ≠ 0 by omega, hsz, hex, havail]
      · rw [k3]; exact hI.pos
      · rw [k4]; exact hI.lim
      · refine (seg_append _ _ _ _).mpr ⟨_, k1, s3.frame fun c hc => ?_⟩
        have hc3 : ∀ b ∈ l1, BlkApart b c := fun b hb => ap3 b hb c (List.mem_cons_of_mem _ hc)
        have hc4 := hF c (by simp [hc])
        constructor
        · exact k2 _ fun b hb => by have := hc3 b hb; have := hF b (by simp [hb]); simp only [BlkApart] at *; omega
        · exact k2 _ fun b hb => by have := hc3 b hb; have := hF b (by simp [hb]); simp only [BlkApart] at *; omega
      · rw [k3, k4, ← hex]
        refine htile.perm ?_
        exact List.perm_middle.symm
      · exact List.pairwise_append.mpr ⟨g1, g5, fun b hb c hc => g3 b hb c (List.mem_cons_of_mem _ hc)⟩
      · rw [k5, total_append]; have := hI.avail; simp only; omega
      · intro b hb w w1 w2
        refine k2 w fun c hc => ?_
        have := hI.tile.cross (a := c) (by rw [e]; simp [hc]) hb
        have := hF c (by simp [hc])
        simp only [BlkApart] at *; omega
    · have hlt : round n < k := by omega
      obtain ⟨k1, k2, k3, k4, k5⟩ := hlink (a + round n)
      set t := link { s with avail := s.avail - round n } (lastOf l1) (a + round n) with ht
      have ina := hI.tile.inside (a, k) (by rw [e]; simp)
      have stp := hI.tile.step (a, k) (by rw [e]; simp)
      simp only at ina stp
      have hta : t.mem a = s.mem a := k2 _ fun b hb => by
        have := ap3 b hb _ List.mem_cons_self; have := hF b (by simp [hb]); simp only [BlkApart] at *; omega
      have hoff1 : ∀ w, a ≤ w → w < a + k → Off l1 w := fun w w1 w2 =>
        off_of (b := (a, k)) (fun c hc => ⟨(ap3 c hc _ List.mem_cons_self).symm, hF c (by simp [hc])⟩) w1 w2
      have hoff2 : ∀ w, a ≤ w → w < a + k → Off l2 w := fun w w1 w2 =>
        off_of (b := (a, k)) (fun c hc => ⟨ap4 c hc, hF c (by simp [hc])⟩) w1 w2
      refine ⟨(t.set (a + round n) (t.mem a)).set (a + round n + 8) (k - round n), a, l1 ++ (a + round n, k - round n) :: l2, ?_, k3, k4,
        ⟨?_, ?_, ?_, ?_, ?_, ?_⟩, ?_⟩
      · have hin : inPool { s with avail := s.avail - round n } (a + round n) = true := by
          simp only [inPool, decide_eq_true_eq]; omega
        simp [allocate, h3, headOf, show a ≠ 0 by omega, hsz, hex, havail, hin, ht]
      · show 0 < t.base; rw [k3]; exact hI.pos
      · show t.size < _; rw [k4]; exact hI.lim
      · refine (seg_append _ _ _ _).mpr ⟨a + round n, ?_, rfl, ?_, ?_⟩
        · exact (k1.set (hoff1 _ (by omega) (by omega))).set (hoff1 _ (by omega) (by omega))
        · simp [Pool.set]
        · have : ((t.set (a + round n) (t.mem a)).set (a + round n + 8) (k - round n)).mem (a + round n) = s.mem a := by
            simp [Pool.set, hta]
          rw [this]
          refine ((s3.frame fun c hc => ?_).set (hoff2 _ (by omega) (by omega))).set (hoff2 _ (by omega) (by omega))
          have hc3 : ∀ b ∈ l1, BlkApart b c := fun b hb => ap3 b hb c (List.mem_cons_of_mem _ hc)
          have hc4 := hF c (by simp [hc])
          constructor
          · exact k2 _ fun b hb => by have := hc3 b hb; have := hF b (by simp [hb]); simp only [BlkApart] at *; omega
          · exact k2 _ fun b hb => by have := hc3 b hb; have := hF b (by simp [hb]); simp only [BlkApart] at *; omega
      · show Tiling t.base t.size _
        rw [k3, k4]
        refine (htile.split r0 hlt r1).perm ?_
        have : ((l1 ++ (a + round n, k - round n) :: l2) ++ (a, round n) :: live).Perm ((a, round n) :: ((l1 ++ (a + round n, k - round n) :: l2) ++ live)) :=
          List.perm_middle
        refine List.Perm.trans ?_ this.symm
        refine List.Perm.cons _ ?_
        simp only [List.append_assoc, List.cons_append]
        exact List.perm_middle.symm
      · refine List.pairwise_append.mpr ⟨g1, List.pairwise_cons.mpr ⟨fun c hc => ?_, g5⟩, fun b hb c hc => ?_⟩
        · have := g4 c hc; simp only at this ⊢; omega
        · rcases List.mem_cons.mp hc with rfl | hc
          · have := g3 b hb _ List.mem_cons_self; simp only at this ⊢; omega
          · exact g3 b hb c (List.mem_cons_of_mem _ hc)
      · show t.avail = _
        rw [k5, total_append, total_cons]; have := hI.avail; simp only; omega
      · intro b hb w w1 w2
        have hab := hI.tile.cross (a := (a, k)) (by rw [e]; simp) hb
        simp only [BlkApart] at hab
        have : ((t.set (a + round n) (t.mem a)).set (a + round n + 8) (k - round n)).mem w = t.mem w := by
          simp only [Pool.set]
          rw [Function.update_of_ne (by omega), Function.update_of_ne (by omega)]
        rw [this]
        refine k2 w fun c hc => ?_
        have := hI.tile.cross (a := c) (by rw [e]; simp [hc]) hb
        have := hF c (by simp [hc])
        simp only [BlkApart] at *; omega

/-- the state between the two halves of `deallocate`: the block `(r, z)` is joined with what follows -/
structure Half (s t : Pool) (l1 R live : List Blk) (r z : Nat) : Prop where
  same : t.base = s.base ∧ t.size = s.size ∧ t.free = s.free ∧ t.avail = s.avail
  seg1 : ∃ m, Seg t.mem t.free l1 m
  seg2 : Seg t.mem (t.mem r) R 0
  size : t.mem (r + 8) = z
  tile : Tiling s.base s.size ((r, z) :: (l1 ++ (R ++ live)))
  gap1 : l1.Pairwise fun a b => a.1 + a.2 < b.1
  gap2 : R.Pairwise fun a b => a.1 + a.2 < b.1
  gap3 : ∀ c ∈ R, r + z < c.1
  before : ∀ c ∈ l1, c.1 < r
  frame : ∀ w, w ≠ r → w ≠ r + 8 → t.mem w = s.mem w

theorem dealloc_half {s : Pool} {l1 l2 live : List Blk} {r z a k : Nat} (hI : PoolInv s (l1 ++ (a, k) :: l2) ((r, z) :: live))
    (h1 : ∀ c ∈ l1, c.1 < r) (h2 : r ≤ a) :
    r + z ≤ a ∧ ∃ z' R, Half s (if z = a - r then (s.set r (s.mem a)).set (r + 8) (z + s.mem (a + 8)) else (s.set r a).set (r + 8) z) l1 R live r z' ∧
      z' + total R = z + (k + total l2) := by
  have hz : 128 ≤ z := hI.big (r, z) (by simp)
  have hk : 128 ≤ k := hI.big (a, k) (by simp)
  have hap : BlkApart (a, k) (r, z) := hI.tile.cross (by simp) (by simp)
  simp only [BlkApart] at hap
  have hra : r + z ≤ a := by omega
  refine ⟨hra, ?_⟩
  obtain ⟨m, s1, hm, s2, s3⟩ := (seg_append _ _ _ _).mp hI.seg
  simp only at hm s2 s3
  obtain ⟨g1, g2, g3⟩ := List.pairwise_append.mp hI.gap
  obtain ⟨g4, g5⟩ := List.pairwise_cons.mp g2
  have hoff : ∀ l, (∀ c ∈ l, c ∈ l1 ++ (a, k) :: l2) → ∀ w, r ≤ w → w < r + z → Off l w := fun l hl w w1 w2 =>
    off_of (b := (r, z)) (fun c hc => ⟨(hI.tile.cross (hl c hc) (by simp)).symm, hI.big c (List.mem_append_left _ (hl c hc))⟩) w1 w2
  have o1 := hoff l1 (fun c hc => by simp [hc])
  have o2 := hoff l2 (fun c hc => by simp [hc])
  have hperm : ((l1 ++ (a, k) :: l2) ++ (r, z) :: live).Perm ((r, z) :: (a, k) :: (l1 ++ (l2 ++ live))) := by
    refine List.perm_middle.trans (List.Perm.cons _ ?_)
    simp only [List.append_assoc, List.cons_append]
    exact List.perm_middle
  have htile := hI.tile.perm hperm
  by_cases hj : z = a - r
  · rw [if_pos hj, s2]
    refine ⟨z + k, l2, ⟨⟨rfl, rfl, rfl, rfl⟩, ⟨m, (s1.set (o1 _ (by omega) (by omega))).set (o1 _ (by omega) (by omega))⟩, ?_, ?_, ?_, g1, g5, ?_, h1, ?_⟩,
      by omega⟩
    · have : ((s.set r (s.mem a)).set (r + 8) (z + k)).mem r = s.mem a := by simp [Pool.set]
      rw [this]
      exact (s3.set (o2 _ (by omega) (by omega))).set (o2 _ (by omega) (by omega))
    · simp [Pool.set]
    · have := htile
      rw [show a = r + z by omega] at this
      exact this.merge
    · intro c hc; have := g4 c hc; simp only at this; omega
    · intro w w1 w2
      simp only [Pool.set]
      rw [Function.update_of_ne w2, Function.update_of_ne w1]
  · rw [if_neg hj]
    have o3 := hoff ((a, k) :: l2) (fun c hc => by simp only [List.mem_append]; exact Or.inr hc)
    refine ⟨z, (a, k) :: l2, ⟨⟨rfl, rfl, rfl, rfl⟩, ⟨m, (s1.set (o1 _ (by omega) (by omega))).set (o1 _ (by omega) (by omega))⟩, ?_, ?_, ?_, g1, g2, ?_, h1, ?_⟩,
      by rw [total_cons]⟩
    · have : ((s.set r a).set (r + 8) z).mem r = a := by simp [Pool.set]
      rw [this]
      exact ((show Seg s.mem a ((a, k) :: l2) 0 from ⟨rfl, s2, s3⟩).set (o3 _ (by omega) (by omega))).set (o3 _ (by omega) (by omega))
    · simp [Pool.set]
    · refine htile.perm (List.Perm.cons _ ?_)
      simp only [List.cons_append]
      exact List.perm_middle.symm
    · intro c hc
      rcases List.mem_cons.mp hc with rfl | hc
      · simp only; omega
      · have := g4 c hc; simp only at this; omega
    · intro w w1 w2
      simp only [Pool.set]
      rw [Function.update_of_ne w2, Function.update_of_ne w1]

/-- `deallocate`: when there is a free block further up, and a free block that ends where this one begins has the same size, the block becomes free
and joins its free neighbours; other live blocks are untouched -/
theorem dealloc_spec {s : Pool} {F live : List Blk} {fuel r n : Nat} (hI : PoolInv s F ((r, round n) :: live)) (hf : s.size < fuel)
    (hA : ∃ b ∈ F, r ≤ b.1) (hB : ∀ b ∈ F, b.1 + b.2 = r → b.2 = round n) :
    ∃ s' F', deallocate fuel s r n = some s' ∧ s'.base = s.base ∧ s'.size = s.size ∧ PoolInv s' F' live ∧
      ∀ b ∈ live, ∀ w, b.1 ≤ w → w < b.1 + b.2 → s'.mem w = s.mem w := by
  obtain ⟨l1, l2, e, h1, h2, h3⟩ := place_spec (r := r) F fuel 0 s.free hI.seg (fun b hb => hI.walk b hb) (by have := hI.len; omega)
  cases l2 with
  | nil =>
    obtain ⟨b, hb, hr⟩ := hA
    rw [e, List.append_nil] at hb
    have := h1 b hb; omega
  | cons b l2 =>
    obtain ⟨a, k⟩ := b
    subst e
    have hlast : (if l1 = [] then 0 else lastOf l1) = lastOf l1 := by split <;> [(rename_i e; rw [e]; rfl); rfl]
    rw [hlast] at h3
    have hra : r ≤ a := by simpa using h2
    obtain ⟨hza, z', R, hH, htot⟩ := dealloc_half hI h1 hra
    have hz : 128 ≤ round n := hI.big (r, round n) (by simp)
    have hinr := hI.inp (r, round n) (by simp)
    have hina := hI.inp (a, k) (by simp)
    have hin := hI.tile.inside (r, round n) (by simp)
    have hpos := hI.pos
    simp only at hinr hina hin
    generalize ht : (if round n = a - r then (s.set r (s.mem a)).set (r + 8) (round n + s.mem (a + 8)) else (s.set r a).set (r + 8) (round n)) = t at hH
    have hsum := hI.tile.sum
    rw [total_append, total_append, total_cons, total_cons] at hsum
    simp only at hsum
    have havail : (s.avail + round n) % 18446744073709551616 = s.avail + round n := by
      have := hI.avail; rw [total_append, total_cons] at this; have := hI.lim; omega
    have hav := hI.avail
    rw [total_append, total_cons] at hav
    simp only at hav
    have hlive : ∀ b ∈ live, BlkApart (r, round n) b := fun b hb =>
      (List.pairwise_cons.mp (List.pairwise_append.mp hI.tile.apart).2.1).1 b hb
    have hblive : ∀ b ∈ live, 128 ≤ b.2 := fun b hb => hI.big b (by simp [hb])
    have hfr : ∀ b ∈ live, ∀ w, b.1 ≤ w → w < b.1 + b.2 → t.mem w = s.mem w := fun b hb w w1 w2 =>
      hH.frame w (by have := hlive b hb; simp only [BlkApart] at this; omega) (by have := hlive b hb; simp only [BlkApart] at this; omega)
    have hz' : 128 ≤ z' := by have := hH.tile.step (r, z') List.mem_cons_self; simp only at this; omega
    have hapX := List.pairwise_cons.mp hH.tile.apart
    obtain ⟨m, hs1⟩ : ∃ m, Seg t.mem t.free l1 m := hH.seg1
    rcases List.eq_nil_or_concat l1 with e1 | ⟨l0, q, e1⟩
    · subst e1
      refine ⟨{ t with free := r, avail := s.avail + round n }, (r, z') :: R, ?_, hH.same.1, hH.same.2.1, ⟨?_, ?_, ?_, ?_, ?_, ?_⟩, ?_⟩
      · simp [deallocate, h3, headOf, hinr, hina, show a ≠ 0 by omega, show ¬ a < r + round n by omega, ht, lastOf_nil, hH.same.2.2.2, havail]
      · show 0 < t.base; rw [hH.same.1]; exact hI.pos
      · show t.size < _; rw [hH.same.2.1]; exact hI.lim
      · exact ⟨rfl, hH.size, hH.seg2⟩
      · show Tiling t.base t.size _
        rw [hH.same.1, hH.same.2.1]; exact hH.tile
      · exact List.pairwise_cons.mpr ⟨hH.gap3, hH.gap2⟩
      · show s.avail + round n = _
        rw [total_cons]; simp only [total, List.map_nil, List.sum_nil] at hav ⊢; simp only [total] at htot; omega
      · exact hfr
    · rw [List.concat_eq_append] at e1
      subst e1
      obtain ⟨p, m'⟩ := q
      rw [lastOf_snoc] at h3
      have hmp := hI.walk (p, m') (by simp)
      have hpr : p < r := h1 (p, m') (by simp)
      have hapr : BlkApart (p, m') (r, round n) := hI.tile.cross (by simp) (by simp)
      have hm' : 128 ≤ m' := hI.big (p, m') (by simp)
      simp only [BlkApart] at hapr hmp
      have hle : p + m' ≤ r := by omega
      obtain ⟨m2, s1, s2, s3, -⟩ := (seg_append _ _ _ _).mp hs1
      simp only at s2 s3
      have hpt : t.mem p = s.mem p := hH.frame _ (by omega) (by omega)
      have hap1 : (l0 ++ [(p, m')]).Pairwise BlkApart := (List.pairwise_append.mp hapX.2).1
      obtain ⟨g1, g2, g3⟩ := List.pairwise_append.mp hH.gap1
      have hoff0 : ∀ w, p ≤ w → w < p + m' → Off l0 w := fun w w1 w2 =>
        off_of (b := (p, m')) (fun c hc => ⟨((List.pairwise_append.mp hap1).2.2 c hc _ (by simp)).symm, hI.big c (by simp [hc])⟩) w1 w2
      have hoffR : ∀ w, p ≤ w → w < p + m' → Off R w := fun w w1 w2 =>
        off_of (b := (p, m')) (fun c hc => ⟨(List.pairwise_append.mp hapX.2).2.2 _ (by simp) c (by simp [hc]),
          by have := hH.tile.step c (by simp [hc]); omega⟩) w1 w2
      have hplive : ∀ b ∈ live, BlkApart (p, m') b := fun b hb => hI.tile.cross (by simp) (by simp [hb])
      have hstart : deallocate fuel s r n = (if t.mem (p + 8) = r - p then
          some { (t.set p (t.mem r)).set (p + 8) (round n + (t.set p (t.mem r)).mem (r + 8)) with avail := s.avail + round n }
          else some { t.set p r with avail := s.avail + round n }) := by
        simp only [deallocate, h3, headOf, Option.bind_some, hinr, hina]
        rw [if_neg (by simp), if_neg (by omega), if_neg (by simp; omega), if_neg (by omega), ht]
        simp only [Pool.set, hH.same.2.2.2, havail]
      by_cases hj : m' = r - p
      · have hmz : m' = round n := hB (p, m') (by simp) (by simp only; omega)
        rw [s3, if_pos hj] at hstart
        refine ⟨_, l0 ++ (p, m' + z') :: R, hstart, hH.same.1, hH.same.2.1, ⟨?_, ?_, ?_, ?_, ?_, ?_⟩, ?_⟩
        · show 0 < t.base; rw [hH.same.1]; exact hI.pos
        · show t.size < _; rw [hH.same.2.1]; exact hI.lim
        · refine (seg_append _ _ _ _).mpr ⟨p, ?_, rfl, ?_, ?_⟩
          · rw [← s2] at *
            exact (s1.set (hoff0 _ (by omega) (by omega))).set (hoff0 _ (by omega) (by omega))
          · show Function.update (Function.update t.mem p _) (p + 8) (round n + Function.update t.mem p _ (r + 8)) (p + 8) = _
            rw [Function.update_self, Function.update_of_ne (by omega), hH.size]
            simp only; omega
          · have : (Function.update (Function.update t.mem p (t.mem r)) (p + 8) (round n + Function.update t.mem p (t.mem r) (r + 8))) p = t.mem r := by
              rw [Function.update_of_ne (by omega), Function.update_self]
            show Seg (Function.update (Function.update t.mem p (t.mem r)) (p + 8) _) (Function.update (Function.update t.mem p (t.mem r)) (p + 8) _ p) R 0
            rw [show (t.set p (t.mem r)).mem = Function.update t.mem p (t.mem r) from rfl, this]
            exact (hH.seg2.set (hoffR _ (by omega) (by omega))).set (hoffR _ (by omega) (by omega))
        · show Tiling t.base t.size _
          rw [hH.same.1, hH.same.2.1]
          have hT : Tiling s.base s.size ((p, m') :: (r, z') :: (l0 ++ (R ++ live))) := by
            refine hH.tile.perm ?_
            refine List.Perm.trans (List.Perm.cons _ ?_) (List.Perm.swap _ _ _)
            simp only [List.append_assoc, List.cons_append, List.nil_append]
            exact List.perm_middle
          rw [show r = p + m' by omega] at hT
          refine hT.merge.perm ?_
          simp only [List.append_assoc, List.cons_append]
          exact List.perm_middle.symm
        · refine List.pairwise_append.mpr ⟨g1, List.pairwise_cons.mpr ⟨fun c hc => ?_, hH.gap2⟩, fun b hb c hc => ?_⟩
          · have := hH.gap3 c hc; simp only; omega
          · have hbp := g3 b hb (p, m') (by simp)
            rcases List.mem_cons.mp hc with rfl | hc
            · exact hbp
            · have := hH.gap3 c hc; simp only at hbp; omega
        · show s.avail + round n = _
          rw [total_append, total_cons]
          rw [total_append, total_cons] at hav
          simp only [total, List.map_nil, List.sum_nil] at hav ⊢; simp only [total] at htot; omega
        · intro b hb w w1 w2
          have hpb := hplive b hb
          simp only [BlkApart] at hpb
          show Function.update (Function.update t.mem p _) (p + 8) _ w = _
          rw [Function.update_of_ne (by omega), Function.update_of_ne (by omega)]
          exact hfr b hb w w1 w2
      · rw [s3, if_neg hj] at hstart
        refine ⟨_, l0 ++ (p, m') :: (r, z') :: R, hstart, hH.same.1, hH.same.2.1, ⟨?_, ?_, ?_, ?_, ?_, ?_⟩, ?_⟩
        · show 0 < t.base; rw [hH.same.1]; exact hI.pos
        · show t.size < _; rw [hH.same.2.1]; exact hI.lim
        · refine (seg_append _ _ _ _).mpr ⟨p, ?_, rfl, ?_, ?_⟩
          · rw [← s2] at *
            exact s1.set (hoff0 _ (by omega) (by omega))
          · show Function.update t.mem p r (p + 8) = _
            rw [Function.update_of_ne (by omega), s3]
          · show Seg (Function.update t.mem p r) (Function.update t.mem p r p) ((r, z') :: R) 0
            rw [Function.update_self]
            refine ⟨rfl, ?_, ?_⟩
            · show Function.update t.mem p r (r + 8) = _
              rw [Function.update_of_ne (by omega), hH.size]
            · show Seg (Function.update t.mem p r) (Function.update t.mem p r r) R 0
              rw [Function.update_of_ne (show r ≠ p by omega)]
              exact hH.seg2.set (hoffR _ (by omega) (by omega))
        · show Tiling t.base t.size _
          rw [hH.same.1, hH.same.2.1]
          refine hH.tile.perm ?_
          simp only [List.append_assoc, List.cons_append, List.nil_append]
          refine List.Perm.trans (List.Perm.cons _ List.perm_middle) (List.Perm.trans (List.Perm.swap _ _ _) ?_)
          refine List.Perm.trans ?_ List.perm_middle.symm
          exact List.Perm.cons _ List.perm_middle.symm
        · refine List.pairwise_append.mpr ⟨g1, List.pairwise_cons.mpr ⟨fun c hc => ?_, List.pairwise_cons.mpr ⟨hH.gap3, hH.gap2⟩⟩, fun b hb c hc => ?_⟩
          · rcases List.mem_cons.mp hc with rfl | hc
            · simp only; omega
            · have := hH.gap3 c hc; simp only; omega
          · have hbp := g3 b hb (p, m') (by simp)
            simp only at hbp
            rcases List.mem_cons.mp hc with rfl | hc
            · exact hbp
            · rcases List.mem_cons.mp hc with rfl | hc
              · simp only; omega
              · have := hH.gap3 c hc; omega
        · show s.avail + round n = _
          rw [total_append, total_cons, total_cons]
          rw [total_append, total_cons] at hav
          simp only [total, List.map_nil, List.sum_nil] at hav ⊢; simp only [total] at htot; omega
        · intro b hb w w1 w2
          have hpb := hplive b hb
          simp only [BlkApart] at hpb
          show Function.update t.mem p r w = _
          rw [Function.update_of_ne (by omega)]
          exact hfr b hb w w1 w2

end Verif.Props
