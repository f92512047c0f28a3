import Verif.Wav.Lemmas

/-!
# C72: wave files

Reading files as RIFF defines them, reading what was written, writing, and hosts of either byte order.
-/

namespace Verif.Props

open Verif.Wav

/-! ## Reading -/

/-- What is found in a file made of a format chunk, chunks to pass over, and the data. -/
theorem wav_chunks {f : Format} (h : Fits f) {ext : Bytes} (he : ext.length ≤ 24) {mid : List Chunk} (hm : ∀ c ∈ mid, Skips c) {dat : Bytes}
    (hd : dat.length < 2 ^ 32) (rest : Bytes) {junk : Bytes} (hj : junk.length = 8) {fuel : ℕ} (hf : mid.length < fuel) (size : ℕ) :
    ∀ a, a = sRIFF ++ le 4 size ++ sWAVE ++ (sFmt ++ le 4 (f.body ext).length) ++ f.body ext →
      decoder fuel junk (a ++ (mid.flatMap Chunk.enc ++ (Chunk.mk sData dat).head ++ rest)) =
      .ok ⟨⟨f.channels, dat.length / f.channels / (f.bits / 8), f.rate, f.bits / 8, f.channels * (dat.length / f.channels / (f.bits / 8)) * (f.bits / 8) % 2 ^ 32,
        f.tag⟩, (a ++ mid.flatMap Chunk.enc ++ (Chunk.mk sData dat).head).length, dat.length⟩ := by
  intro a ha
  obtain ⟨h1, h2, h3, h4⟩ := body_fields h ext he
  have hb := body_length f ext
  have hl : a.length = 20 + (f.body ext).length := by rw [ha]; simp [le_length, sRIFF, sWAVE, sFmt]; omega
  have hdl : (Chunk.mk sData dat).id.length = 4 := rfl
  have e := decoder_header (fuel := fuel) (junk := junk) (size := size) (body := f.body ext) (rest := mid.flatMap Chunk.enc ++ (Chunk.mk sData dat).head ++ rest)
    (by omega) (by omega) h1 h2 h.tag h.ch
  rw [← ha] at e
  rw [e, ← hl, decChunks]
  obtain ⟨c0, rest', hc4, hc0, hr⟩ : ∃ c0 rest', c0.id.length = 4 ∧ c0 = (mid ++ [Chunk.mk sData dat]).head (by simp) ∧
      mid.flatMap Chunk.enc ++ (Chunk.mk sData dat).head ++ rest = Chunk.head c0 ++ rest' := by
    cases mid with
    | nil => exact ⟨_, rest, hdl, rfl, by simp⟩
    | cons c mid =>
      have := hm c (by simp)
      exact ⟨c, c.body ++ (mid.flatMap Chunk.enc ++ (Chunk.mk sData dat).head ++ rest), this.id, rfl, by simp [enc_even this.even]⟩
  have s1 := sgetn_at a c0.head rest' (p := a.length) (n := 8) rfl (head_length hc4).symm
  rw [List.append_assoc, ← hr] at s1
  rw [s1]
  dsimp only
  rw [overlay_full (by rw [hj, head_length hc4]), List.length_append, head_length hc4]
  have s2 := findData_spec mid hm ⟨sData, dat⟩ rfl a rest fuel hf c0 hc0 (a ++ (mid.flatMap Chunk.enc ++ (Chunk.mk sData dat).head ++ rest)) (by simp)
  rw [s2]
  dsimp only
  rw [head_size hdl hd, h1, h2, h3, h4, if_neg (by have := h.bits; omega)]

/-- **C72, partial (reading).** The decoder finds channels, rate, sample size and data of every wave file with the format first, with or without extension, any
number of other chunks of even size before the data, and anything after.  Missing: chunks of odd size, other chunks before the format, sample sizes that are not
whole bytes, incomplete frames; see the theorems below. -/
theorem C72_read_partial {f : Format} (h : Fits f) (h8 : f.bits % 8 = 0) {ext : Bytes} (he : ext.length ≤ 24) (he2 : ext.length % 2 = 0) {mid : List Chunk}
    (hm : ∀ c ∈ mid, c.id.length = 4 ∧ c.id ≠ sData ∧ c.body.length % 2 = 0 ∧ c.body.length < 2 ^ 32) {n : ℕ} {dat : Bytes}
    (hn : dat.length = n * (f.channels * f.bytes)) (hd : dat.length < 2 ^ 32) (after : List Chunk) {junk : Bytes} (hj : junk.length = 8) {fuel : ℕ}
    (hf : mid.length < fuel) :
    ∃ d, decoder fuel junk (riff (⟨sFmt, f.body ext⟩ :: mid ++ ⟨sData, dat⟩ :: after)) = .ok d ∧ d.info = ⟨f.channels, n, f.rate, f.bytes, dat.length, f.tag⟩ ∧
      ∀ buffer : Bytes, buffer.length = d.info.size → ∃ r, readData d (riff (⟨sFmt, f.body ext⟩ :: mid ++ ⟨sData, dat⟩ :: after)) buffer = .ok r ∧ r = dat := by
  have hb := body_length f ext
  have hbe : (f.body ext).length % 2 = 0 := by omega
  have efile : riff (⟨sFmt, f.body ext⟩ :: mid ++ ⟨sData, dat⟩ :: after) =
      sRIFF ++ le 4 (4 + ((Chunk.mk sFmt (f.body ext) :: mid ++ ⟨sData, dat⟩ :: after).flatMap Chunk.enc).length) ++ sWAVE ++
        (sFmt ++ le 4 (f.body ext).length) ++ f.body ext ++
        (mid.flatMap Chunk.enc ++ (Chunk.mk sData dat).head ++ (dat ++ ((if dat.length % 2 = 1 then [0] else []) ++ after.flatMap Chunk.enc))) := by
    generalize hs : 4 + ((Chunk.mk sFmt (f.body ext) :: mid ++ ⟨sData, dat⟩ :: after).flatMap Chunk.enc).length = sz
    rw [riff, hs]
    simp only [List.cons_append, List.flatMap_cons, List.flatMap_append]
    rw [enc_even (c := ⟨sFmt, f.body ext⟩) hbe, enc_head ⟨sData, dat⟩]
    simp only [Chunk.head, List.append_assoc]
  have key := wav_chunks h he (fun c hc => let ⟨a, b, c, d⟩ := hm c hc; ⟨a, b, c, d⟩) hd
    (dat ++ ((if dat.length % 2 = 1 then [0] else []) ++ after.flatMap Chunk.enc)) hj hf
    (4 + ((Chunk.mk sFmt (f.body ext) :: mid ++ ⟨sData, dat⟩ :: after).flatMap Chunk.enc).length) _ rfl
  rw [← efile] at key
  have hbits := h.bits
  have hch := h.ch
  have ebytes : f.bytes = f.bits / 8 := by rw [Format.bytes]; omega
  have hbpos : 0 < f.bits / 8 := by omega
  have esamples : dat.length / f.channels / (f.bits / 8) = n := by
    rw [hn, Nat.div_div_eq_div_mul, ebytes, Nat.mul_div_cancel _ (Nat.mul_pos (by omega) hbpos)]
  have esize : f.channels * n * (f.bits / 8) % 2 ^ 32 = dat.length := by
    have : f.channels * n * (f.bits / 8) = dat.length := by rw [hn, ebytes]; ring
    rw [this, Nat.mod_eq_of_lt hd]
  rw [esamples, esize] at key
  refine ⟨_, key, by rw [ebytes], fun buffer hbl => ⟨dat, ?_, rfl⟩⟩
  have s := sgetn_at (sRIFF ++ le 4 (4 + ((Chunk.mk sFmt (f.body ext) :: mid ++ ⟨sData, dat⟩ :: after).flatMap Chunk.enc).length) ++ sWAVE ++
        (sFmt ++ le 4 (f.body ext).length) ++ f.body ext ++ mid.flatMap Chunk.enc ++ (Chunk.mk sData dat).head) dat
        ((if dat.length % 2 = 1 then [0] else []) ++ after.flatMap Chunk.enc) (n := dat.length) rfl rfl
  have e2 : riff (⟨sFmt, f.body ext⟩ :: mid ++ ⟨sData, dat⟩ :: after) = sRIFF ++ le 4 (4 + ((Chunk.mk sFmt (f.body ext) :: mid ++ ⟨sData, dat⟩ :: after).flatMap Chunk.enc).length) ++ sWAVE ++
        (sFmt ++ le 4 (f.body ext).length) ++ f.body ext ++ mid.flatMap Chunk.enc ++ (Chunk.mk sData dat).head ++ dat ++
        ((if dat.length % 2 = 1 then [0] else []) ++ after.flatMap Chunk.enc) := by
    rw [efile]; simp only [List.append_assoc]
  rw [← e2] at s
  rw [readData, s]
  dsimp only at hbl ⊢
  rw [if_neg (by omega), overlay_full (by omega)]

/-- Stereo, 16 bits, a chunk of text in front, two frames. -/
def wavStereo : Format := ⟨1, 2, 48000, 16⟩

example : Fits wavStereo ∧ wavStereo.bits % 8 = 0 ∧ (8 : ℕ) = 2 * (wavStereo.channels * wavStereo.bytes) :=
  ⟨⟨.inl rfl, by decide, by decide, by decide⟩, rfl, rfl⟩

/-- Outcomes, without what is returned. -/
def wavKind {α : Type} : Out α → ℕ
  | .ok _ => 0
  | .throw => 1
  | .ub => 2
  | .spin => 3

/-- Monaural, 16 bits. -/
def wavMono : Format := ⟨1, 1, 48000, 16⟩

/-- Text of one character. -/
def wavText : Chunk := ⟨[76, 73, 83, 84], [65]⟩

/-- **C72 is false (odd chunks).** Chunks of odd size are followed by a byte of padding, which the decoder does not pass over: it never finds the data of a file
with a text of odd length, and never returns. -/
theorem C72_odd_false : ∀ (junk : Bytes), junk.length = 8 → ∀ fuel, wavKind (decoder fuel junk (riff [⟨sFmt, wavMono.body []⟩, wavText, ⟨sData, [1, 2]⟩])) = 3 := by
  intro junk hj fuel
  obtain ⟨a, b, c, d, e, f, g, h, rfl⟩ : ∃ a b c d e f g h, junk = [a, b, c, d, e, f, g, h] := by
    match junk, hj with
    | [a, b, c, d, e, f, g, h], _ => exact ⟨a, b, c, d, e, f, g, h, rfl⟩
  have e1 : ∀ fuel', decoder fuel' [a, b, c, d, e, f, g, h] (riff [⟨sFmt, wavMono.body []⟩, wavText, ⟨sData, [1, 2]⟩]) =
      decChunks fuel' [a, b, c, d, e, f, g, h] (wavMono.body [] ++ List.replicate 24 0) ⟨riff [⟨sFmt, wavMono.body []⟩, wavText, ⟨sData, [1, 2]⟩], 36⟩ := by
    intro fuel'; rfl
  rw [e1, decChunks]
  have s : findData fuel (sgetn ⟨riff [⟨sFmt, wavMono.body []⟩, wavText, ⟨sData, [1, 2]⟩], 36⟩ 8).2
      (overlay [a, b, c, d, e, f, g, h] (sgetn ⟨riff [⟨sFmt, wavMono.body []⟩, wavText, ⟨sData, [1, 2]⟩], 36⟩ 8).1) = none := by
    cases fuel with
    | zero => rfl
    | succ fuel =>
      have : findData (fuel + 1) (sgetn ⟨riff [⟨sFmt, wavMono.body []⟩, wavText, ⟨sData, [1, 2]⟩], 36⟩ 8).2
        (overlay [a, b, c, d, e, f, g, h] (sgetn ⟨riff [⟨sFmt, wavMono.body []⟩, wavText, ⟨sData, [1, 2]⟩], 36⟩ 8).1) =
        findData fuel ⟨riff [⟨sFmt, wavMono.body []⟩, wavText, ⟨sData, [1, 2]⟩], 53⟩ [0, 100, 97, 116, 97, 2, 0, 0] := rfl
      rw [this]
      exact findData_spin fuel (by decide) (by decide)
  rw [s]; rfl

/-- **C72 is false (order of chunks).** If a chunk of more than 40 bytes comes before the format, the decoder reads it into the structure for the format, and past
its end, before it looks at the identifier. -/
theorem C72_order_false : ∀ (junk : Bytes) (fuel : ℕ), ∃ cs, (∀ c ∈ cs, c.id.length = 4 ∧ c.body.length % 2 = 0) ∧
    wavKind (decoder fuel junk (riff (cs ++ [⟨sFmt, wavMono.body []⟩, ⟨sData, [1, 2]⟩]))) = 2 := by
  intro junk fuel
  refine ⟨[⟨[98, 101, 120, 116], List.replicate 42 0⟩], by simp, ?_⟩
  rfl

/-- **C72 is false (incomplete frame).** The decoder reads as many bytes as the file says, though the size it returned is that of whole frames: five bytes of
stereo are written to a buffer of four. -/
theorem C72_frame_false : ∃ d, decoder 2 (List.replicate 8 0) (riff [⟨sFmt, wavStereo.body []⟩, ⟨sData, [1, 2, 3, 4, 5]⟩]) = .ok d ∧ d.info.size = 4 ∧
    wavKind (readData d (riff [⟨sFmt, wavStereo.body []⟩, ⟨sData, [1, 2, 3, 4, 5]⟩]) [0, 0, 0, 0]) = 2 := by
  refine ⟨_, rfl, ?_, ?_⟩
  · decide
  · decide

/-- **C72 is false (sample size).** Samples of 12 bits take two bytes; the decoder finds twice as many, of one byte.  For samples of less than 8 bits it divides
by zero. -/
theorem C72_bits_false : (∃ d, decoder 2 (List.replicate 8 0) (riff [⟨sFmt, (Format.mk 1 1 48000 12).body []⟩, ⟨sData, [1, 2, 3, 4]⟩]) = .ok d ∧
      (Format.mk 1 1 48000 12).bytes = 2 ∧ d.info.bytes = 1 ∧ d.info.samples = 4) ∧
    wavKind (decoder 2 (List.replicate 8 0) (riff [⟨sFmt, (Format.mk 1 1 48000 4).body []⟩, ⟨sData, [1, 2, 3, 4]⟩])) = 2 := by
  refine ⟨⟨_, rfl, ?_, ?_, ?_⟩, ?_⟩ <;> decide

/-- **C72 is false (no data).** If a file has no data chunk, or ends before it, the decoder never returns. -/
theorem C72_end_false {f : Format} (h : Fits f) {mid : List Chunk} (hne : mid ≠ [])
    (hm : ∀ c ∈ mid, c.id.length = 4 ∧ c.id ≠ sData ∧ c.body.length % 2 = 0 ∧ c.body.length < 2 ^ 32) {junk : Bytes} (hj : junk.length = 8) (fuel : ℕ) :
    wavKind (decoder fuel junk (riff (⟨sFmt, f.body []⟩ :: mid))) = 3 := by
  obtain ⟨h1, h2, h3, h4⟩ := body_fields h [] (by simp)
  have hb := body_length f []
  simp only [List.length_nil, add_zero] at hb
  have hm' : ∀ c ∈ mid, Skips c := fun c hc => let ⟨a, b, c, d⟩ := hm c hc; ⟨a, b, c, d⟩
  have efile : riff (⟨sFmt, f.body []⟩ :: mid) = sRIFF ++ le 4 (4 + ((Chunk.mk sFmt (f.body []) :: mid).flatMap Chunk.enc).length) ++ sWAVE ++
        (sFmt ++ le 4 (f.body []).length) ++ f.body [] ++ mid.flatMap Chunk.enc := by
    generalize hs : 4 + ((Chunk.mk sFmt (f.body []) :: mid).flatMap Chunk.enc).length = sz
    rw [riff, hs]
    simp only [List.flatMap_cons]
    rw [enc_even (c := ⟨sFmt, f.body []⟩) (by show (f.body []).length % 2 = 0; rw [hb])]
    simp only [Chunk.head, List.append_assoc]
  have e := decoder_header (fuel := fuel) (junk := junk) (size := 4 + ((Chunk.mk sFmt (f.body []) :: mid).flatMap Chunk.enc).length) (body := f.body [])
    (rest := mid.flatMap Chunk.enc) (by omega) (by omega) h1 h2 h.tag h.ch
  rw [efile, e, decChunks]
  generalize ha : sRIFF ++ le 4 (4 + ((Chunk.mk sFmt (f.body []) :: mid).flatMap Chunk.enc).length) ++ sWAVE ++ (sFmt ++ le 4 (f.body []).length) ++ f.body [] = a
  have hl : 20 + (f.body []).length = a.length := by rw [← ha]; simp [le_length, sRIFF, sWAVE, sFmt, hb]
  rw [hl]
  obtain ⟨c, mid, rfl⟩ := List.exists_cons_of_ne_nil hne
  have hc := hm' c (by simp)
  have s1 := sgetn_at a c.head (c.body ++ mid.flatMap Chunk.enc) (p := a.length) (n := 8) rfl (head_length hc.id).symm
  have e2 : a ++ (c :: mid).flatMap Chunk.enc = a ++ c.head ++ (c.body ++ mid.flatMap Chunk.enc) := by simp [enc_even hc.even]
  rw [← e2] at s1
  rw [s1]
  dsimp only
  rw [overlay_full (by rw [hj, head_length hc.id]), List.length_append, head_length hc.id]
  have := findData_spin_list (c :: mid) hm' hne a fuel _ rfl
  rw [List.head_cons] at this
  rw [this]; rfl

example : Fits wavMono ∧ ∀ c ∈ [Chunk.mk [76, 73, 83, 84] [65, 66]], c.id.length = 4 ∧ c.id ≠ sData ∧ c.body.length % 2 = 0 ∧ c.body.length < 2 ^ 32 :=
  ⟨⟨.inl rfl, by decide, by decide, by decide⟩, by simp [sData]⟩

/-- **C72 is false (short files).** If the file ends within the data, reading succeeds, and the rest of the buffer is as it was. -/
theorem C72_short_false : ∃ d, decoder 2 (List.replicate 8 0) ((riff [⟨sFmt, wavMono.body []⟩, ⟨sData, [1, 2, 3, 4]⟩]).take 46) = .ok d ∧ d.info.samples = 2 ∧
    ∀ x y, readData d ((riff [⟨sFmt, wavMono.body []⟩, ⟨sData, [1, 2, 3, 4]⟩]).take 46) [0, 0, x, y] = .ok [1, 2, x, y] := by
  refine ⟨_, rfl, by decide, fun x y => rfl⟩

/-- The decoder from the format on. -/
theorem wav_safe_tail {fuel : ℕ} {junk hd body : Bytes} {s : Stream} (hbl : body.length ≤ 40) (h2 : 8 ≤ field 14 2 (overlay (List.replicate 40 0) body))
    {res : Out Dec} (hres : (if 40 < body.length then Out.ub
      else
        if field 0 2 (overlay (List.replicate 40 0) body) ≠ 1 ∧ field 0 2 (overlay (List.replicate 40 0) body) ≠ 3 then .throw
        else if field 12 4 hd ≠ fmtId then .throw
        else if field 2 2 (overlay (List.replicate 40 0) body) < 1 ∨ 4 < field 2 2 (overlay (List.replicate 40 0) body) then .throw
        else decChunks fuel junk (overlay (List.replicate 40 0) body) s) = res) :
    wavKind res ≠ 2 ∧ ∀ d, res = .ok d → 1 ≤ d.info.channels ∧ d.info.channels ≤ 4 ∧ 1 ≤ d.info.bytes ∧
      d.info.size = d.info.channels * d.info.samples * d.info.bytes ∧ d.info.size ≤ d.size ∧ d.size < d.info.size + d.info.channels * d.info.bytes := by
  split_ifs at hres with a2 a3 a4 a5
  · omega
  · subst hres; exact ⟨by decide, fun d h => nomatch h⟩
  · subst hres; exact ⟨by decide, fun d h => nomatch h⟩
  · subst hres; exact ⟨by decide, fun d h => nomatch h⟩
  · rw [decChunks] at hres
    dsimp only at hres
    generalize findData fuel _ _ = r at hres
    cases r with
    | none => dsimp only at hres; subst hres; exact ⟨by decide, fun d h => nomatch h⟩
    | some r =>
      obtain ⟨s, c⟩ := r
      dsimp only at hres
      generalize field 2 2 (overlay (List.replicate 40 0) body) = ch at *
      generalize field 14 2 (overlay (List.replicate 40 0) body) = bits at *
      rw [if_neg (by omega)] at hres
      have hsz : field 4 4 c < 2 ^ 32 := by
        have h := num_lt ((c.drop 4).take 4)
        have h4 : ((c.drop 4).take 4).length ≤ 4 := by rw [List.length_take]; omega
        exact lt_of_lt_of_le h (Nat.pow_le_pow_right (n := 256) (by omega) h4)
      subst hres
      refine ⟨by simp [wavKind], fun d h => ?_⟩
      obtain rfl := (Out.ok.inj h).symm
      dsimp only
      generalize field 4 4 c = size at *
      have hch : 1 ≤ ch ∧ ch ≤ 4 := by omega
      have hb1 : 1 ≤ bits / 8 := by omega
      generalize bits / 8 = b at *
      have k1 : size / ch / b = size / (ch * b) := Nat.div_div_eq_div_mul _ _ _
      have k2 : ch * (size / ch / b) * b = (ch * b) * (size / (ch * b)) := by rw [k1]; ring
      have k3 := Nat.mul_div_le size (ch * b)
      have k4 := Nat.lt_mul_div_succ size (Nat.mul_pos (show 0 < ch by omega) (show 0 < b by omega))
      have k5 : ch * (size / ch / b) * b % 2 ^ 32 = ch * (size / ch / b) * b := Nat.mod_eq_of_lt (by rw [k2]; omega)
      refine ⟨hch.1, hch.2, hb1, k5, ?_, ?_⟩
      · rw [k5, k2]; exact k3
      · rw [k5, k2]; rw [Nat.mul_add, Nat.mul_one] at k4; exact k4

/-- **C72 (reading, bounds).** For every sequence of bytes, unless the size in the header is over 40 or the samples have less than 8 bits, the decoder stays in its
structures; and the data is less than one frame more than the size of the buffer. -/
theorem C72_safe {file junk : Bytes} {fuel : ℕ} (h1 : field 16 4 (overlay (List.replicate 20 0) (file.take 20)) ≤ 40)
    (h2 : 8 ≤ field 14 2 (overlay (List.replicate 40 0) ((file.drop (file.take 20).length).take (field 16 4 (overlay (List.replicate 20 0) (file.take 20)))))) :
    wavKind (decoder fuel junk file) ≠ 2 ∧ ∀ d, decoder fuel junk file = .ok d → 1 ≤ d.info.channels ∧ d.info.channels ≤ 4 ∧ 1 ≤ d.info.bytes ∧
      d.info.size = d.info.channels * d.info.samples * d.info.bytes ∧ d.info.size ≤ d.size ∧ d.size < d.info.size + d.info.channels * d.info.bytes := by
  have e1 : sgetn ⟨file, 0⟩ 20 = (file.take 20, ⟨file, (file.take 20).length⟩) := by simp [sgetn]
  generalize hres : decoder fuel junk file = res
  rw [decoder, e1] at hres
  dsimp only at hres
  by_cases a1 : field 0 4 (overlay (List.replicate 20 0) (file.take 20)) ≠ riffId ∨ field 8 4 (overlay (List.replicate 20 0) (file.take 20)) ≠ waveId
  · rw [if_pos a1] at hres; subst hres; exact ⟨by decide, fun d h => nomatch h⟩
  · rw [if_neg a1] at hres
    exact wav_safe_tail (by simp only [sgetn, List.length_take]; omega) h2 hres

/-- An empty file. -/
example : field 16 4 (overlay (List.replicate 20 0) (([] : Bytes).take 20)) ≤ 40 := by decide

/-- A file with a format. -/
example : field 16 4 (overlay (List.replicate 20 0) ((riff [⟨sFmt, wavMono.body []⟩]).take 20)) ≤ 40 ∧
    8 ≤ field 14 2 (overlay (List.replicate 40 0) (((riff [⟨sFmt, wavMono.body []⟩]).drop 20).take 16)) := by decide

/-! ## Writing -/

/-- The contents of the file that `Encoder` writes. -/
def wavFile (i : Info) (dat : Bytes) : Out Bytes := match encoder i with
  | .ok e => writeData e dat
  | .throw => .throw
  | .ub => .ub
  | .spin => .spin

/-- The header as the format has it. -/
theorem wav_written {i : Info} {dat : Bytes} (ht : i.tag = 1 ∨ i.tag = 3) (hch : i.channels < 2 ^ 16) (hr : i.rate < 2 ^ 32) (hb : i.bytes * 8 < 2 ^ 16)
    (hs : i.channels * i.samples * i.bytes < 2 ^ 32) (hd : dat.length = i.channels * i.samples * i.bytes) :
    ∃ sz, wavFile i dat = .ok (sRIFF ++ le 4 sz ++ sWAVE ++ (sFmt ++ le 4 ((Format.mk i.tag i.channels i.rate (i.bytes * 8)).body []).length) ++
      (Format.mk i.tag i.channels i.rate (i.bytes * 8)).body [] ++ ((Chunk.mk sData dat).head ++ dat)) ∧ sz = (44 + dat.length) % 2 ^ 32 := by
  refine ⟨_, ?_, rfl⟩
  have hle : ∀ (k n : ℕ), le k (n % 256 ^ k) = le k n := by
    intro k n
    refine num_inj (by rw [le_length, le_length]) ?_
    rw [num_le, num_le, Nat.mod_mod]
  rw [wavFile, encoder, if_neg (by omega)]
  dsimp only
  have hm : i.channels * i.samples * i.bytes % 2 ^ 32 = dat.length := by rw [← hd]; exact Nat.mod_eq_of_lt (hd ▸ hs)
  rw [writeData, hm, if_neg (by dsimp only; omega)]
  have eb : (Format.mk i.tag i.channels i.rate (i.bytes * 8)).bytes = i.bytes := by rw [Format.bytes]; dsimp only; omega
  have l4 : ∀ n, le 4 (n % 2 ^ 32) = le 4 n := fun n => hle 4 n
  have l2 : ∀ n, le 2 (n % 2 ^ 16) = le 2 n := fun n => hle 2 n
  rw [body_length]
  dsimp only
  simp only [Enc.header, Format.body, Chunk.head, eb, l4, l2, List.take_length, List.append_assoc, List.append_nil]
  have c1 : le 4 riffId = sRIFF := by decide
  have c2 : le 4 waveId = sWAVE := by decide
  have c3 : le 4 fmtId = sFmt := by decide
  have c4 : le 4 dataId = sData := by decide
  rw [c1, c2, c3, c4, show i.channels * i.bytes * i.rate = i.rate * (i.channels * i.bytes) by ring]
  simp

/-- **C72, partial (written and read).** What is written is read again, with the same information, for up to four channels and data of less than 2^32 bytes.
Missing: more channels and greater sizes, see `C72_channels_false` and `C72_size_false`. -/
theorem C72_roundtrip_partial {i : Info} {dat : Bytes} (ht : i.tag = 1 ∨ i.tag = 3) (hch : 1 ≤ i.channels ∧ i.channels ≤ 4) (hr : i.rate < 2 ^ 32)
    (hb : 1 ≤ i.bytes ∧ i.bytes * 8 < 2 ^ 16) (hs : i.channels * i.samples * i.bytes < 2 ^ 32) (hd : dat.length = i.channels * i.samples * i.bytes) {junk : Bytes}
    (hj : junk.length = 8) {fuel : ℕ} (hf : 0 < fuel) :
    ∃ file d, wavFile i dat = .ok file ∧ file.length = 44 + dat.length ∧ decoder fuel junk file = .ok d ∧ d.info = { i with size := dat.length } ∧
      ∀ buffer : Bytes, buffer.length = dat.length → ∃ r, readData d file buffer = .ok r ∧ r = dat := by
  obtain ⟨sz, e, _⟩ := wav_written ht (by omega) hr hb.2 hs hd
  have hF : Fits ⟨i.tag, i.channels, i.rate, i.bytes * 8⟩ := ⟨ht, hch, hr, by dsimp only; omega⟩
  have hbl := body_length ⟨i.tag, i.channels, i.rate, i.bytes * 8⟩ []
  have key := wav_chunks hF (ext := []) (by simp) (mid := []) (by simp) (dat := dat) (by omega) dat hj (fuel := fuel) (by simpa using hf) sz _ rfl
  simp only [List.flatMap_nil, List.nil_append, List.append_nil] at key
  have e8 : i.bytes * 8 / 8 = i.bytes := by omega
  have es : dat.length / i.channels / i.bytes = i.samples := by
    rw [hd, Nat.div_div_eq_div_mul, show i.channels * i.samples * i.bytes = i.samples * (i.channels * i.bytes) by ring,
      Nat.mul_div_cancel _ (Nat.mul_pos (by omega) (by omega))]
  refine ⟨_, _, e, ?_, key, ?_, fun buffer hbuf => ⟨dat, ?_, rfl⟩⟩
  · simp only [List.length_append, hbl, le_length, Chunk.head, sRIFF, sWAVE, sFmt, sData, List.length_cons, List.length_nil]; omega
  · dsimp only; rw [e8, es, ← hd, Nat.mod_eq_of_lt (by omega)]
  · rw [readData]
    dsimp only
    rw [← List.append_assoc _ _ dat]
    have s := sgetn_at (sRIFF ++ le 4 sz ++ sWAVE ++ (sFmt ++ le 4 ((Format.mk i.tag i.channels i.rate (i.bytes * 8)).body []).length) ++
      (Format.mk i.tag i.channels i.rate (i.bytes * 8)).body [] ++ (Chunk.mk sData dat).head) dat [] (n := dat.length) rfl rfl
    rw [List.append_nil] at s
    rw [s]
    dsimp only
    rw [if_neg (by omega), overlay_full (by omega)]

/-- The example `wav_mono.cpp`. -/
example : ∃ i : Info, i = ⟨1, 12340, 48000, 4, 49360, 3⟩ ∧ (i.tag = 1 ∨ i.tag = 3) ∧ i.channels * i.samples * i.bytes < 2 ^ 32 ∧ i.bytes * 8 < 2 ^ 16 :=
  ⟨_, rfl, .inr rfl, by decide, by decide⟩

/-- **C72 is false (file size).** The size in the file header is to count what follows it; the encoder writes the size of the whole file, 8 more.  So nothing it
writes is a file as RIFF defines it. -/
theorem C72_riff_false {i : Info} {dat : Bytes} (ht : i.tag = 1 ∨ i.tag = 3) (hch : i.channels < 2 ^ 16) (hr : i.rate < 2 ^ 32) (hb : i.bytes * 8 < 2 ^ 16)
    (hs : i.channels * i.samples * i.bytes < 2 ^ 31) (hd : dat.length = i.channels * i.samples * i.bytes) :
    ∃ file, wavFile i dat = .ok file ∧ field 4 4 file = file.length ∧ ∀ cs, (cs.flatMap Chunk.enc).length < 2 ^ 31 → file ≠ riff cs := by
  obtain ⟨sz, e, hsz⟩ := wav_written ht hch hr hb (by omega) hd
  have hbl := body_length ⟨i.tag, i.channels, i.rate, i.bytes * 8⟩ []
  have hlen : (sRIFF ++ le 4 sz ++ sWAVE ++ (sFmt ++ le 4 ((Format.mk i.tag i.channels i.rate (i.bytes * 8)).body []).length) ++
      (Format.mk i.tag i.channels i.rate (i.bytes * 8)).body [] ++ ((Chunk.mk sData dat).head ++ dat)).length = 44 + dat.length := by
    simp only [List.length_append, hbl, le_length, Chunk.head, sRIFF, sWAVE, sFmt, sData, List.length_cons, List.length_nil]; omega
  have hfield : field 4 4 (sRIFF ++ le 4 sz ++ sWAVE ++ (sFmt ++ le 4 ((Format.mk i.tag i.channels i.rate (i.bytes * 8)).body []).length) ++
      (Format.mk i.tag i.channels i.rate (i.bytes * 8)).body [] ++ ((Chunk.mk sData dat).head ++ dat)) = 44 + dat.length := by
    rw [show ∀ a b c d e f : Bytes, a ++ b ++ c ++ d ++ e ++ f = a ++ b ++ (c ++ d ++ e ++ f) by simp]
    rw [field_append (off := 4) rfl (le_length _ _), num_le, hsz, Nat.mod_mod_of_dvd _ (by norm_num)]
    exact Nat.mod_eq_of_lt (by norm_num; omega)
  refine ⟨_, e, by rw [hfield, hlen], fun cs hcs h => ?_⟩
  have e1 : field 4 4 (riff cs) = 4 + (cs.flatMap Chunk.enc).length := by
    rw [riff, List.append_assoc _ sWAVE, field_append (off := 4) rfl (le_length _ _), num_le_of_lt (lt_of_lt_of_le (show _ < 2 ^ 32 by omega) (by norm_num))]
  have e2 : (riff cs).length = 12 + (cs.flatMap Chunk.enc).length := by
    simp only [riff, List.length_append, le_length, sRIFF, sWAVE, List.length_cons, List.length_nil]
  rw [h] at hfield hlen
  omega

/-- **C72 is false (channels).** The encoder writes files of more than four channels, which the decoder refuses. -/
theorem C72_channels_false : ∃ file, wavFile ⟨6, 1, 48000, 2, 12, 1⟩ (List.replicate 12 0) = .ok file ∧ ∀ fuel junk, wavKind (decoder fuel junk file) = 1 :=
  ⟨_, rfl, fun _ _ => rfl⟩

/-- **C72 is false (size).** Sizes are computed with 32 bits: of 2^29 frames of two channels with four bytes, nothing is written but the header. -/
theorem C72_size_false : ∃ e, encoder ⟨2, 2 ^ 29, 48000, 4, 0, 3⟩ = .ok e ∧ e.size = 0 ∧ ∀ dat, ∃ file, writeData e dat = .ok file ∧ file.length = 44 := by
  refine ⟨⟨44, 3, 2, 48000, 384000, 8, 32, 0⟩, by norm_num [encoder], rfl, fun dat => ⟨_, if_neg (Nat.not_lt_zero _), ?_⟩⟩
  simp [Enc.header, le_length]

/-! ## Hosts that store the most significant byte first -/

/-- What the decoder makes of a file. -/
def wavKind' (fuel : ℕ) (junk : Bytes) (file : Bytes) : ℕ := wavKind (decoder fuel junk file)

/-- **C72 is false (byte order).** `byteswap` leaves its argument as it was.  On a host that stores the most significant byte first, the file starts with `FFIR`,
and is not recognised as a wave file. -/
theorem C72_swap_false : (∀ k n, byteswap k n = n) ∧ (∃ n, swapped 2 n ≠ n) ∧ ∀ e dat fuel junk, wavKind' fuel junk (writeBig byteswap e dat) = 1 := by
  refine ⟨fun _ _ => rfl, ⟨1, by decide⟩, fun e dat fuel junk => ?_⟩
  have e1 : ∃ tl, writeBig byteswap e dat = [70, 70, 73, 82] ++ tl := by
    rw [writeBig, Enc.header]
    simp only [List.append_assoc, byteswap]
    exact ⟨_, rfl⟩
  obtain ⟨tl, e1⟩ := e1
  rw [e1, wavKind', decoder]
  dsimp only
  have : field 0 4 (overlay (List.replicate 20 0) (sgetn ⟨[70, 70, 73, 82] ++ tl, 0⟩ 20).1) = num [70, 70, 73, 82] := by
    simp only [sgetn, overlay, field, List.drop_zero]
    rfl
  rw [if_pos (.inl (by rw [this, riffId_eq]; exact fun h => absurd (num_inj (a := [70, 70, 73, 82]) (b := sRIFF) rfl h) (by decide)))]
  rfl

theorem wav_le_num : ∀ b : Bytes, le b.length (num b) = b := by
  intro b
  exact num_inj (le_length _ _) (num_le_of_lt (num_lt b))

/-- C72, swapping samples: with a function that swaps the bytes of an integer, the loops would reverse the bytes of each sample. -/
theorem C72_swap_all (k n : ℕ) (b : Bytes) (h : b.length = k * n) (i : ℕ) (hi : i < n) :
    ((swapAll swapped k n b).drop (k * i)).take k = ((b.drop (k * i)).take k).reverse := by
  induction n generalizing b i with
  | zero => omega
  | succ n ih =>
    have hk : k ≤ b.length := by rw [h]; exact Nat.le_mul_of_pos_right k (by omega)
    have hl : (b.take k).length = k := by rw [List.length_take]; omega
    have e1 : be k (swapped k (num (b.take k).reverse)) = (b.take k).reverse := by
      have a1 := wav_le_num (b.take k).reverse
      have a2 := wav_le_num (b.take k)
      rw [List.length_reverse, hl] at a1
      rw [hl] at a2
      rw [swapped, be, be, a1, List.reverse_reverse, a2]
    rw [swapAll, e1]
    have hr : ((b.take k).reverse).length = k := by rw [List.length_reverse, hl]
    rcases i with _ | i
    · rw [Nat.mul_zero, List.drop_zero, List.drop_zero, List.take_left' hr]
    · have e2 : k * (i + 1) = k + k * i := by rw [Nat.mul_add, Nat.mul_one, Nat.add_comm]
      rw [e2, ← List.drop_drop, List.drop_left' hr, ih (b.drop k) (by rw [List.length_drop, h, Nat.mul_add]; omega) i (by omega), List.drop_drop]

example : swapAll swapped 2 2 [1, 2, 3, 4] = [2, 1, 4, 3] := by decide

/-- **C72 is false (16 bits).** On such a host, even if `byteswap` swapped, samples of 16 bits would be written twice, the second time in the order of the host:
the branch for other sizes is taken too. -/
theorem C72_twice_false (sw : ℕ → ℕ → ℕ) (e : Enc) (dat : Bytes) (h16 : e.bits = 16) (he : e.size % 2 = 0) (hd : dat.length = e.size) :
    (writeBig sw e dat).length = 44 + 2 * e.size := by
  have hl : ∀ n (b : Bytes), b.length = 2 * n → (swapAll sw 2 n b).length = 2 * n := by
    intro n
    induction n with
    | zero => intro b hb; simpa [swapAll] using hb
    | succ n ih =>
      intro b hb
      rw [swapAll, List.length_append, ih _ (by rw [List.length_drop]; omega), be, List.length_reverse, le_length]; omega
  rw [writeBig, if_pos h16, if_neg (by omega), List.length_append, List.length_append, List.length_take, List.length_take, hl _ _ (by omega), hd]
  simp only [Enc.header, List.length_append, be, List.length_reverse, le_length]
  omega

example : ∃ e, encoder ⟨2, 3, 48000, 2, 12, 1⟩ = .ok e ∧ e.bits = 16 ∧ e.size % 2 = 0 := ⟨_, rfl, rfl, rfl⟩

end Verif.Props
#print axioms Verif.Props.C72_swap_all
