import Verif.Distributed.Assign
import Verif.Map.Props
/-! The maps of the library satisfy the requirements of the assignment code. -/
namespace Verif.Par
open Verif Spec Dist

theorem cyclic_chunk_pos {n num c sb p : Nat} (hc : 0 < c) : 0 < segmentChunkSize n num c sb p := by
  unfold segmentChunkSize
  dsimp only
  by_cases h : n % c ≠ 0
  · rcases ite_eq_or_eq (n % c ≠ 0 ∧ (sb + 1) % num = numChunks n c % num ∧
        p = numChunks n c / num + (if sb < numChunks n c % num then 1 else 0) - 1) (n % c) c with e | e <;> rw [e] <;> omega
  · rw [if_neg (fun hh => h hh.1)]; exact hc

theorem dist_patch1 {d : Dist} (hok : d.OK) {n sb p : Nat} (hn : 0 < n) (hlt : n < W₆₃) (hsb : sb < d.numSubblocks)
    (hp : p < d.subblockPatches n sb) : Patch1 (d.patchGlobalDom n sb p) (d.patchLocalDom n sb p) := by
  have hf := dimFacts d hok n
  cases d with
  | whole => exact ⟨rfl, rfl, rfl, by simpa [patchGlobalDom] using hlt, by simpa [patchLocalDom] using hlt, by simpa [patchGlobalDom] using hn⟩
  | block num =>
    have hb := seg_bound n num sb hsb
    refine ⟨rfl, rfl, rfl, ?_, ?_, ?_⟩
    · simp only [patchGlobalDom]; omega
    · simp only [patchLocalDom]; omega
    · show 0 < segmentStart n num sb + segmentSize n num sb
      by_cases h : 0 < segmentSize n num sb
      · omega
      · unfold segmentSize at h
        have hdm := Nat.div_add_mod n num
        have hq : n / num = 0 := (Nat.add_eq_zero_iff.1 (Nat.eq_zero_of_not_pos h)).1
        rw [hq] at hdm
        have hr : n % num = n := by omega
        rw [hr, hq] at h
        unfold segmentStart
        rw [hr, hq]
        split at h <;> omega
  | cyclic num c =>
    have hpos := cyclic_chunk_pos (n := n) (num := num) (sb := sb) (p := p) hok.2
    have hlast := hf.only ((((sb + p * num) * c : Nat) : Int) + (segmentChunkSize n num c sb p - 1 : Nat)) sb p hsb hp
      ⟨segmentChunkSize n num c sb p - 1, by simp only [patchGlobalDom]; omega, by simp only [patchGlobalDom, elem]; ring⟩
    obtain ⟨i, h1, h2, -⟩ := hlast
    have hb : (sb + p * num) * c + segmentChunkSize n num c sb p ≤ n := by omega
    have hpc : p * c ≤ (sb + p * num) * c := by
      apply Nat.mul_le_mul_right
      have := Nat.le_mul_of_pos_right p hok.1
      omega
    refine ⟨rfl, rfl, rfl, ?_, ?_, ?_⟩
    · simp only [patchGlobalDom]; omega
    · simp only [patchLocalDom]; omega
    · simp only [patchGlobalDom]; omega

theorem dims_patchN : ∀ {dims : List (Dist × Nat)} {sbs ps : List Nat}, AMap.DimsOK dims →
    (∀ x ∈ dims, 0 < x.2 ∧ x.2 < W₆₃) → InRange sbs (dims.map fun x => x.1.numSubblocks) → InRange ps (AMap.patchSizes dims sbs) →
    PatchN (AMap.globalDoms dims sbs ps) (AMap.localDoms dims sbs ps) ∧ (AMap.globalDoms dims sbs ps).length = dims.length
  | [], [], [], _, _, _, _ => ⟨trivial, rfl⟩
  | x :: dims, sb :: sbs, p :: ps, h1, h2, h3, h4 => by
      obtain ⟨i1, i2⟩ := dims_patchN (fun y hy => h1 y (by simp [hy])) (fun y hy => h2 y (by simp [hy])) h3.2 h4.2
      refine ⟨⟨dist_patch1 (h1 x (by simp)) (h2 x (by simp)).1 (h2 x (by simp)).2 h3.1 h4.1, i1⟩, ?_⟩
      simp [AMap.globalDoms, i2]
  | [], _ :: _, _, _, _, h, _ => h.elim
  | [], [], _ :: _, _, _, _, h => h.elim
  | _ :: _, [], _, _, _, h, _ => h.elim
  | _ :: _, _ :: _, [], _, _, _, h => h.elim

/-- a `Map` over distinct processors, one per subblock, applied to a non-empty domain -/
structure MapOK (m : AMap) : Prop where
  dims : ∀ x ∈ m.dims, x.1.OK
  ext : ∀ x ∈ m.dims, 0 < x.2 ∧ x.2 < W₆₃
  nodup : m.pvec.Nodup
  size : m.pvec.length = m.numSubblocks

theorem subblock_iff {m : AMap} (h : MapOK m) (pr sb : Nat) : m.subblock pr = some sb ↔ m.pvec[sb]? = some pr := by
  unfold AMap.subblock
  constructor
  · intro hs
    split at hs
    · cases hs
    · rename_i pi hpi
      split at hs
      · cases hs
        have := (Props.rankFrom_some hpi).2
        simpa using this
      · cases hs
  · intro hs
    rw [Props.rankFrom_nodup h.nodup hs]
    simp only
    obtain ⟨hlt, -⟩ := List.getElem?_eq_some_iff.1 hs
    rw [if_pos (by rw [← h.size]; exact hlt)]

theorem ofMap_ok {m : AMap} (h : MapOK m) : (PMap.ofMap m).OK m.ext := by
  have hsp : ∀ sb p, sb < m.numSubblocks → p < m.numPatches sb →
      PatchN (m.globalDomain sb p) (m.localDomain sb p) ∧ (m.globalDomain sb p).length = m.dims.length := by
    intro sb p h1 h2
    exact dims_patchN h.dims h.ext (combine_split m.sbSizes sb h1).1 (combine_split _ p h2).1
  refine ⟨AMap.partition m h.dims, fun sb p h1 h2 => (hsp sb p h1 h2).1, ?_, ?_, ?_, ?_, ?_⟩
  · intro sb p h1 h2
    rw [show (PMap.ofMap m).view.gdom sb p = m.globalDomain sb p from rfl, (hsp sb p h1 h2).2]
    simp [AMap.ext]
  · intro pr sb
    show m.subblock pr = some sb ↔ sb < m.numSubblocks ∧ pr ∈ m.processors sb
    rw [subblock_iff h]
    constructor
    · intro hs
      obtain ⟨hlt, hv⟩ := List.getElem?_eq_some_iff.1 hs
      rw [h.size] at hlt
      refine ⟨hlt, ?_⟩
      unfold AMap.processors
      rw [Nat.mod_eq_of_lt hlt, hs]
      simp
    · rintro ⟨h1, h2⟩
      unfold AMap.processors at h2
      rw [Nat.mod_eq_of_lt h1] at h2
      split at h2
      · rename_i p hp
        simp only [List.mem_singleton] at h2
        rw [hp, h2]
      · simp at h2
  · intro sb hsb
    have hsb : sb < m.numSubblocks := hsb
    show m.processors sb ≠ []
    rw [processors_of_lt hsb h.size]
    simp
  · exact h.nodup.sublist (List.take_sublist _ _)
  · intro pr
    show pr ∈ m.pvec.take (min m.numSubblocks m.pvec.length) ↔ m.subblock pr ≠ none
    rw [h.size, Nat.min_self, ← h.size, List.take_length]
    constructor
    · intro hm
      obtain ⟨i, hi, he⟩ := List.getElem_of_mem hm
      rw [(subblock_iff h pr i).2 (by rw [List.getElem?_eq_getElem hi, he])]
      simp
    · intro hn
      obtain ⟨sb, hs⟩ := Option.ne_none_iff_exists'.1 hn
      exact List.mem_of_getElem? ((subblock_iff h pr sb).1 hs)

/-- a `Replicated_map` over distinct processors applied to a non-empty domain -/
structure ReplOK (m : RMap) : Prop where
  ext : ∀ n ∈ m.ext, 0 < n ∧ n < W₆₃
  nodup : m.pset.Nodup
  ne : m.pset ≠ []

theorem repl_patch : ∀ {ext : List Nat}, (∀ n ∈ ext, 0 < n ∧ n < W₆₃) → PatchN (ext.map Dom.ofLen) (ext.map Dom.ofLen)
  | [], _ => trivial
  | n :: ns, h => by
      obtain ⟨h1, h2⟩ := h n (by simp)
      refine ⟨⟨rfl, rfl, rfl, ?_, ?_, ?_⟩, repl_patch (fun x hx => h x (by simp [hx]))⟩
      · simpa [Dom.ofLen] using h2
      · simpa [Dom.ofLen] using h2
      · simpa [Dom.ofLen] using h1

theorem repl_lens (ext : List Nat) : lens (ext.map Dom.ofLen) = ext := by
  unfold lens
  rw [List.map_map]
  conv_rhs => rw [← List.map_id ext]
  rfl

theorem repl_elem : ∀ {ext k : List Nat}, InRange k ext → elemN (ext.map Dom.ofLen) k = ints k
  | [], [], _ => rfl
  | n :: ns, x :: xs, h => by
      simp only [List.map_cons, elemN, repl_elem h.2, ints]
      simp [elem, Dom.ofLen]
  | [], _ :: _, h => h.elim
  | _ :: _, [], h => h.elim

theorem repl_mem {ext : List Nat} {z : List Int} : MemN z (ext.map Dom.ofLen) ↔ ∃ k, InRange k ext ∧ ints k = z := by
  rw [memN_iff_elemN, repl_lens]
  constructor
  · rintro ⟨k, h1, h2⟩; exact ⟨k, h1, by rw [← h2, repl_elem h1]⟩
  · rintro ⟨k, h1, h2⟩; exact ⟨k, h1, by rw [← h2, repl_elem h1]⟩

theorem repl_partition (m : RMap) : IsMapPartition m.ext m.view := by
  constructor
  · intro idx h
    refine ⟨by simp [RMap.view], by simp [RMap.view], idx, ?_, ?_, ?_⟩
    · simp only [RMap.view, RMap.domain, repl_lens]; exact h
    · simp only [RMap.view, RMap.domain]; exact repl_elem h
    · simp only [RMap.view, RMap.domain]; exact repl_elem h
  · intro z sb p h1 h2 hz
    obtain ⟨k, k1, k2⟩ := repl_mem.1 hz
    simp only [RMap.view] at h1 h2
    exact ⟨k, k2.symm, k1, by simp only [RMap.view]; omega, by simp only [RMap.view]; omega⟩
  · intro sb p _ _; rfl
  · intro sb l _
    simp only [RMap.view, RMap.domain]
    constructor
    · intro h; exact ⟨0, by omega, repl_mem.2 ⟨l, h, rfl⟩⟩
    · rintro ⟨p, -, hp⟩
      obtain ⟨k, k1, k2⟩ := repl_mem.1 hp
      rw [← ints_inj k2]; exact k1
  · intro sb p p' z _ h1 h2 _ _
    simp only [RMap.view] at h1 h2
    omega
  · intro idx _; rfl
  · intro sb l h1 h2
    simp only [RMap.view] at *
    exact ⟨h2, by omega, trivial⟩

theorem ofReplicated_ok {m : RMap} (h : ReplOK m) : (PMap.ofReplicated m).OK m.ext := by
  refine ⟨repl_partition m, ?_, ?_, ?_, ?_, h.nodup, ?_⟩
  · intro sb p _ _; exact repl_patch h.ext
  · intro sb p _ _
    simp [PMap.ofReplicated, RMap.view, RMap.domain]
  · intro pr sb
    have := Props.C10_replicated m pr
    show m.subblock pr = some sb ↔ sb < 1 ∧ pr ∈ m.pset
    unfold RMap.processors at this
    constructor
    · intro hs
      have h0 : sb = 0 := by
        unfold RMap.subblock at hs
        split at hs <;> cases hs
        rfl
      subst h0
      exact ⟨by omega, this.1.1 hs⟩
    · rintro ⟨h1, h2⟩
      have : sb = 0 := by omega
      subst this
      exact (Props.C10_replicated m pr).1.2 h2
  · intro sb _; exact h.ne
  · intro pr
    show pr ∈ m.pset ↔ m.subblock pr ≠ none
    rw [Ne, (Props.C10_replicated m pr).2, not_not]

end Verif.Par
