import Verif.Wav.Model
import Mathlib.Tactic.Ring
import Mathlib.Tactic.IntervalCases

/-! # Bytes, streams and chunks -/

namespace Verif.Wav

theorem le_length (k n : ℕ) : (le k n).length = k := by
  induction k generalizing n with
  | zero => rfl
  | succ k ih => simp [le, ih]

theorem num_le (k n : ℕ) : num (le k n) = n % 256 ^ k := by
  induction k generalizing n with
  | zero => simp [le, num, Nat.mod_one]
  | succ k ih =>
    rw [le, num, ih, pow_succ']
    simp only [UInt8.toNat_ofNat']
    rw [Nat.mod_mul]

theorem num_le_of_lt {k n : ℕ} (h : n < 256 ^ k) : num (le k n) = n := by rw [num_le, Nat.mod_eq_of_lt h]

theorem num_lt (b : Bytes) : num b < 256 ^ b.length := by
  induction b with
  | nil => simp [num]
  | cons a l ih =>
    have := a.toNat_lt
    simp only [num, List.length_cons, pow_succ']
    omega

theorem num_inj : ∀ {a b : Bytes}, a.length = b.length → num a = num b → a = b
  | [], [], _, _ => rfl
  | x :: a, y :: b, hl, h => by
    have h1 := x.toNat_lt
    have h2 := y.toNat_lt
    simp only [num] at h
    have e1 : x.toNat = y.toNat := by omega
    have e2 : num a = num b := by omega
    rw [UInt8.toNat_inj.mp e1, num_inj (by simpa using hl) e2]
  | [], _ :: _, hl, _ => by simp at hl
  | _ :: _, [], hl, _ => by simp at hl

/-- The member after `a`. -/
theorem field_append {a b c : Bytes} {off len : ℕ} (ha : a.length = off) (hb : b.length = len) : field off len (a ++ b ++ c) = num b := by
  rw [field, List.append_assoc, ← ha, List.drop_left, ← hb, List.take_left]

theorem field_append' {a b : Bytes} {off len : ℕ} (ha : a.length = off) (hb : b.length = len) : field off len (a ++ b) = num b := by
  have := field_append (c := []) ha hb
  simpa using this

theorem field_first {b c : Bytes} {len : ℕ} (hb : b.length = len) : field 0 len (b ++ c) = num b := by
  have := field_append (a := []) (c := c) rfl hb
  simpa using this

theorem sgetn_at (a b c : Bytes) {p n : ℕ} (hp : p = a.length) (hn : n = b.length) : sgetn ⟨a ++ b ++ c, p⟩ n = (b, ⟨a ++ b ++ c, (a ++ b).length⟩) := by
  subst hp hn
  simp only [sgetn, List.append_assoc, List.drop_left, List.take_left, List.length_append]

theorem overlay_full {m got : Bytes} (h : m.length ≤ got.length) : overlay m got = got := by
  rw [overlay, List.drop_of_length_le h, List.append_nil]

theorem sgetn_end {s : Stream} (h : s.bytes.length ≤ s.pos) (n : ℕ) : sgetn s n = ([], s) := by
  cases s; simp [sgetn, List.drop_of_length_le h]

theorem overlay_nil (m : Bytes) : overlay m [] = m := rfl

theorem riffId_eq : riffId = num sRIFF := by decide
theorem waveId_eq : waveId = num sWAVE := by decide
theorem fmtId_eq : fmtId = num sFmt := by decide
theorem dataId_eq : dataId = num sData := by decide

/-- The header of a chunk. -/
def Chunk.head (c : Chunk) : Bytes := c.id ++ le 4 c.body.length

/-- Chunks the decoder passes over. -/
structure Skips (c : Chunk) : Prop where
  id : c.id.length = 4
  other : c.id ≠ sData
  even : c.body.length % 2 = 0
  size : c.body.length < 2 ^ 32

theorem head_length {c : Chunk} (h : c.id.length = 4) : c.head.length = 8 := by simp [Chunk.head, h, le_length]

theorem head_id {c : Chunk} (h : c.id.length = 4) : field 0 4 c.head = num c.id := field_first h

theorem head_size {c : Chunk} (h : c.id.length = 4) (hs : c.body.length < 2 ^ 32) : field 4 4 c.head = c.body.length := by
  rw [Chunk.head, field_append' h (le_length 4 _), num_le_of_lt (by norm_num; omega)]

theorem enc_even {c : Chunk} (h : c.body.length % 2 = 0) : c.enc = c.head ++ c.body := by
  simp [Chunk.enc, Chunk.head, h]

theorem enc_head (c : Chunk) : c.enc = c.head ++ c.body ++ (if c.body.length % 2 = 1 then [0] else []) := by
  simp [Chunk.enc, Chunk.head]

theorem skips_ne {c : Chunk} (h : Skips c) : field 0 4 c.head ≠ dataId := by
  rw [head_id h.id, dataId_eq]
  exact fun e => h.other (num_inj (by rw [h.id]; rfl) e)

/-- One step of the loop over a chunk that is followed by another. -/
theorem findData_step {fuel : ℕ} {a rest : Bytes} {c d : Chunk} (h : Skips c) (hd : d.id.length = 4) {p : ℕ} (hp : p = (a ++ c.head).length) :
    findData (fuel + 1) ⟨a ++ c.head ++ c.body ++ d.head ++ rest, p⟩ c.head =
      findData fuel ⟨a ++ c.head ++ c.body ++ d.head ++ rest, (a ++ c.head ++ c.body ++ d.head).length⟩ d.head := by
  rw [findData, if_neg (skips_ne h)]
  dsimp only
  rw [head_size h.id h.size, sgetn_at _ _ _ (by simp [hp]; omega) (head_length hd).symm]
  dsimp only
  rw [overlay_full (by rw [head_length h.id, head_length hd])]

/-- The loop passes over chunks of even size, up to the data. -/
theorem findData_spec (mid : List Chunk) (hm : ∀ c ∈ mid, Skips c) (dat : Chunk) (hd : dat.id = sData) (a rest : Bytes) (fuel : ℕ) (hf : mid.length < fuel) :
    ∀ c0 : Chunk, c0 = (mid ++ [dat]).head (by simp) → ∀ file, file = a ++ mid.flatMap Chunk.enc ++ dat.head ++ rest →
      findData fuel ⟨file, a.length + 8⟩ c0.head = some (⟨file, (a ++ mid.flatMap Chunk.enc ++ dat.head).length⟩, dat.head) := by
  have hdl : dat.id.length = 4 := by rw [hd]; rfl
  induction mid generalizing a fuel with
  | nil =>
    intro c0 h0 file hfile
    obtain ⟨fuel, rfl⟩ : ∃ k, fuel = k + 1 := ⟨fuel - 1, by simp at hf; omega⟩
    have e0 : c0 = dat := h0
    rw [e0, findData, if_pos (by rw [head_id hdl, hd, dataId_eq])]
    simp [head_length hdl]
  | cons c mid ih =>
    intro c0 h0 file hfile
    have e0 : c0 = c := h0
    obtain ⟨fuel, rfl⟩ : ∃ k, fuel = k + 1 := ⟨fuel - 1, by simp at hf; omega⟩
    have hc := hm c (by simp)
    have hfl : mid.length < fuel := by simp at hf; omega
    obtain ⟨d, rest', hd4, e1, e2⟩ : ∃ d rest', d.id.length = 4 ∧ mid.flatMap Chunk.enc ++ dat.head ++ rest = Chunk.head d ++ rest' ∧
        d = (mid ++ [dat]).head (by simp) := by
      cases mid with
      | nil => exact ⟨dat, rest, hdl, by simp, rfl⟩
      | cons d mid =>
        have := hm d (by simp)
        exact ⟨d, d.body ++ (mid.flatMap Chunk.enc ++ dat.head ++ rest), this.id, by simp [enc_even this.even], rfl⟩
    have ef : file = a ++ c.head ++ c.body ++ d.head ++ rest' := by
      rw [hfile, List.flatMap_cons, enc_even hc.even]
      simp only [List.append_assoc] at e1 ⊢
      rw [e1]
    have ef2 : file = (a ++ c.enc) ++ mid.flatMap Chunk.enc ++ dat.head ++ rest := by rw [hfile]; simp
    have := ih (fun c hc => hm c (by simp [hc])) (a ++ c.enc) fuel hfl d e2 file ef2
    rw [e0]
    have s1 := findData_step (fuel := fuel) (a := a) (rest := rest') hc hd4 (p := a.length + 8) (by simp [head_length hc.id])
    rw [← ef] at s1
    rw [s1]
    have ep : (a ++ c.head ++ c.body ++ d.head).length = (a ++ c.enc).length + 8 := by simp [enc_even hc.even, head_length hd4]; omega
    rw [ep, this]
    simp

/-- At the end of the file the loop goes round for ever. -/
theorem findData_spin (fuel : ℕ) {s : Stream} {next : Bytes} (h : s.bytes.length ≤ s.pos + field 4 4 next) (hn : field 0 4 next ≠ dataId) :
    findData fuel s next = none := by
  induction fuel generalizing s with
  | zero => rfl
  | succ fuel ih =>
    rw [findData, if_neg hn]
    dsimp only
    rw [sgetn_end (s := { s with pos := s.pos + field 4 4 next }) h, overlay_nil]
    exact ih (by dsimp only; omega)

theorem findData_spin_list (mid : List Chunk) (hm : ∀ c ∈ mid, Skips c) (hne : mid ≠ []) (a : Bytes) (fuel : ℕ) :
    ∀ file, file = a ++ mid.flatMap Chunk.enc → findData fuel ⟨file, a.length + 8⟩ (mid.head hne).head = none := by
  induction mid generalizing a fuel with
  | nil => exact absurd rfl hne
  | cons c mid ih =>
    intro file hfile
    have hc := hm c (by simp)
    cases mid with
    | nil =>
      refine findData_spin fuel ?_ (skips_ne hc)
      rw [List.head_cons, head_size hc.id hc.size, hfile]
      simp [enc_even hc.even, head_length hc.id]; omega
    | cons d mid =>
      cases fuel with
      | zero => rfl
      | succ fuel =>
        have hd := hm d (by simp)
        have ef : file = a ++ c.head ++ c.body ++ d.head ++ (d.body ++ mid.flatMap Chunk.enc) := by
          rw [hfile]; simp [enc_even hc.even, enc_even hd.even]
        have s1 := findData_step (fuel := fuel) (a := a) (rest := d.body ++ mid.flatMap Chunk.enc) hc hd.id (p := a.length + 8) (by simp [head_length hc.id])
        rw [← ef] at s1
        rw [List.head_cons, s1]
        have ep : (a ++ c.head ++ c.body ++ d.head).length = (a ++ c.enc).length + 8 := by simp [enc_even hc.even, head_length hd.id]; omega
        rw [ep]
        exact ih (fun c hc => hm c (by simp [hc])) (by simp) (a ++ c.enc) fuel file (by rw [hfile]; simp)

/-! ## The header -/

/-- The first 20 bytes: file header and header of the first chunk. -/
theorem decoder_header {fuel : ℕ} {junk : Bytes} {size : ℕ} {body rest : Bytes} {tag ch : ℕ} (hb : body.length < 2 ^ 32) (hb40 : body.length ≤ 40)
    (h1 : field 0 2 (overlay (List.replicate 40 0) body) = tag) (h2 : field 2 2 (overlay (List.replicate 40 0) body) = ch) (ht : tag = 1 ∨ tag = 3)
    (hc : 1 ≤ ch ∧ ch ≤ 4) :
    decoder fuel junk (sRIFF ++ le 4 size ++ sWAVE ++ (sFmt ++ le 4 body.length) ++ body ++ rest) =
      decChunks fuel junk (overlay (List.replicate 40 0) body)
        ⟨sRIFF ++ le 4 size ++ sWAVE ++ (sFmt ++ le 4 body.length) ++ body ++ rest, 20 + body.length⟩ := by
  have hl : (sRIFF ++ le 4 size ++ sWAVE ++ (sFmt ++ le 4 body.length)).length = 20 := by simp [le_length, sRIFF, sWAVE, sFmt]
  have hg := sgetn_at [] (sRIFF ++ le 4 size ++ sWAVE ++ (sFmt ++ le 4 body.length)) (body ++ rest) (p := 0) (n := 20) rfl hl.symm
  rw [List.nil_append] at hg
  have hg2 := sgetn_at (sRIFF ++ le 4 size ++ sWAVE ++ (sFmt ++ le 4 body.length)) body rest (p := 20) (n := body.length) hl.symm rfl
  rw [decoder]
  dsimp only
  simp only [← List.append_assoc] at hg hg2 hl ⊢
  rw [hg]
  dsimp only
  rw [overlay_full (by rw [hl]; simp)]
  have f0 : field 0 4 (sRIFF ++ le 4 size ++ sWAVE ++ sFmt ++ le 4 body.length) = riffId := by
    rw [riffId_eq]; simp only [List.append_assoc]; exact field_first rfl
  have f8 : field 8 4 (sRIFF ++ le 4 size ++ sWAVE ++ sFmt ++ le 4 body.length) = waveId := by
    rw [waveId_eq, List.append_assoc _ sFmt]; exact field_append (by simp [le_length, sRIFF]) rfl
  have f12 : field 12 4 (sRIFF ++ le 4 size ++ sWAVE ++ sFmt ++ le 4 body.length) = fmtId := by
    rw [fmtId_eq]; exact field_append (by simp [le_length, sRIFF, sWAVE]) rfl
  have f16 : field 16 4 (sRIFF ++ le 4 size ++ sWAVE ++ sFmt ++ le 4 body.length) = body.length := by
    rw [field_append' (by simp [le_length, sRIFF, sWAVE, sFmt]) (le_length _ _), num_le_of_lt (by norm_num; omega)]
  rw [if_neg (by rw [f0, f8]; simp), f16, hl, hg2]
  dsimp only
  rw [if_neg (by omega), h1, h2, if_neg (by omega), if_neg (by rw [f12]; simp), if_neg (by omega), List.length_append, hl]

theorem overlay_body (f : Format) (ext : Bytes) (he : ext.length ≤ 24) : ∃ tl,
    overlay (List.replicate 40 0) (f.body ext) =
      le 2 f.tag ++ le 2 f.channels ++ le 4 f.rate ++ le 4 (f.rate * (f.channels * f.bytes)) ++ le 2 (f.channels * f.bytes) ++ le 2 f.bits ++ tl :=
  ⟨ext ++ (List.replicate 40 0).drop (f.body ext).length, by simp only [overlay, Format.body, List.append_assoc]⟩

theorem body_length (f : Format) (ext : Bytes) : (f.body ext).length = 16 + ext.length := by
  simp only [Format.body, List.length_append, le_length]

structure Fits (f : Format) : Prop where
  tag : f.tag = 1 ∨ f.tag = 3
  ch : 1 ≤ f.channels ∧ f.channels ≤ 4
  rate : f.rate < 2 ^ 32
  bits : 8 ≤ f.bits ∧ f.bits < 2 ^ 16

theorem body_fields {f : Format} (h : Fits f) (ext : Bytes) (he : ext.length ≤ 24) :
    field 0 2 (overlay (List.replicate 40 0) (f.body ext)) = f.tag ∧ field 2 2 (overlay (List.replicate 40 0) (f.body ext)) = f.channels ∧
      field 4 4 (overlay (List.replicate 40 0) (f.body ext)) = f.rate ∧ field 14 2 (overlay (List.replicate 40 0) (f.body ext)) = f.bits := by
  obtain ⟨tl, e⟩ := overlay_body f ext he
  rw [e]
  have ht := h.tag
  have hc := h.ch
  have hr := h.rate
  have hb := h.bits
  refine ⟨?_, ?_, ?_, ?_⟩
  · simp only [List.append_assoc]
    rw [field_first (le_length _ _), num_le_of_lt (by norm_num; omega)]
  · rw [show ∀ a b c d e g i : Bytes, a ++ b ++ c ++ d ++ e ++ g ++ i = a ++ b ++ (c ++ d ++ e ++ g ++ i) by simp]
    rw [field_append (le_length _ _) (le_length _ _), num_le_of_lt (by norm_num; omega)]
  · rw [show ∀ a b c d e g i : Bytes, a ++ b ++ c ++ d ++ e ++ g ++ i = (a ++ b) ++ c ++ (d ++ e ++ g ++ i) by simp]
    rw [field_append (by simp [le_length]) (le_length _ _), num_le_of_lt (by norm_num; omega)]
  · rw [field_append (by simp [le_length]) (le_length _ _), num_le_of_lt (by norm_num; omega)]

end Verif.Wav
