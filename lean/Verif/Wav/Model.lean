import Verif.Wav.Spec

/-!
# Reading and writing wave files

Model of `share/examples/audio/wav.hpp` (`Decoder`, `Encoder`) and of `src/ovxx/byteswap.hpp`, byte by byte.

A host stores integers least significant byte first, except in the last section.  `std::streambuf` is the one of a file: reading stops at the end of the file, and
positions beyond it are allowed.  `unsigned int` has 32 bits.  The structures have no padding: `Wave_format` has 40 bytes, `Wave_file_header` 60.
-/

namespace Verif.Wav

/-- What an operation may do: return, throw, leave an array or divide by zero, or not end (in the steps given). -/
inductive Out (α : Type) where
  | ok (a : α)
  | throw
  | ub
  | spin

/-- The integer stored in bytes. -/
def num : Bytes → ℕ
  | [] => 0
  | b :: l => b.toNat + 256 * num l

/-- An integer member of a structure. -/
def field (off len : ℕ) (m : Bytes) : ℕ := num ((m.drop off).take len)

/-- `CHUNK_ID`, wav.hpp l.66-68. -/
def chunkId (a b c d : ℕ) : ℕ := a <<< 0 ||| b <<< 8 ||| c <<< 16 ||| d <<< 24

/-- l.70-73. -/
def riffId : ℕ := chunkId 82 73 70 70
def waveId : ℕ := chunkId 87 65 86 69
def fmtId : ℕ := chunkId 102 109 116 32
def dataId : ℕ := chunkId 100 97 116 97

/-- A file and a position. -/
structure Stream where
  bytes : Bytes
  pos : ℕ

/-- `sgetn`: what is read, and the stream after. -/
def sgetn (s : Stream) (n : ℕ) : Bytes × Stream :=
  ((s.bytes.drop s.pos).take n, { s with pos := s.pos + ((s.bytes.drop s.pos).take n).length })

/-- Storage after its first bytes are overwritten. -/
def overlay (m got : Bytes) : Bytes := got ++ m.drop got.length

/-- `Info`, l.117-125. -/
structure Info where
  channels : ℕ
  samples : ℕ
  rate : ℕ
  bytes : ℕ
  size : ℕ
  tag : ℕ
deriving DecidableEq

/-- What `Decoder` keeps, and the information it returns. -/
structure Dec where
  info : Info
  start : ℕ
  size : ℕ

/-- The loop that skips chunks, l.205-212; `next` is the chunk header read last. -/
def findData : ℕ → Stream → Bytes → Option (Stream × Bytes)
  | 0, _, _ => none
  | fuel + 1, s, next =>
    if field 0 4 next = dataId then some (s, next)
    else
      let s := { s with pos := s.pos + field 4 4 next }
      let r := sgetn s 8
      findData fuel r.2 (overlay next r.1)

/-- l.200-226: from the position after the format; `junk` is what `next` holds before it is read. -/
def decChunks (fuel : ℕ) (junk : Bytes) (f : Bytes) (s : Stream) : Out Dec :=
  let r := sgetn s 8
  match findData fuel r.2 (overlay junk r.1) with
  | none => .spin
  | some (s, c) =>
    let size := field 4 4 c
    let ch := field 2 2 f
    let b := field 14 2 f / 8
    if b = 0 then .ub
    else .ok ⟨⟨ch, size / ch / b, field 4 4 f, b, ch * (size / ch / b) * b % 2 ^ 32, field 0 2 f⟩, s.pos, size⟩

/-- `Decoder::Decoder`, l.160-227. -/
def decoder (fuel : ℕ) (junk : Bytes) (file : Bytes) : Out Dec :=
  let r := sgetn ⟨file, 0⟩ 20
  let h := overlay (List.replicate 20 0) r.1
  if field 0 4 h ≠ riffId ∨ field 8 4 h ≠ waveId then .throw
  else
    let r' := sgetn r.2 (field 16 4 h)
    if 40 < r'.1.length then .ub
    else
      let f := overlay (List.replicate 40 0) r'.1
      if field 0 2 f ≠ 1 ∧ field 0 2 f ≠ 3 then .throw
      else if field 12 4 h ≠ fmtId then .throw
      else if field 2 2 f < 1 ∨ 4 < field 2 2 f then .throw
      else decChunks fuel junk f r'.2

/-- `Decoder::operator()`, l.229-256, into a buffer. -/
def readData (d : Dec) (file buffer : Bytes) : Out Bytes :=
  let got := (sgetn ⟨file, d.start⟩ d.size).1
  if buffer.length < got.length then .ub else .ok (overlay buffer got)

/-- What `Encoder` keeps: `header_`, as far as it is written, and `data_`. -/
structure Enc where
  fileSize : ℕ
  tag : ℕ
  channels : ℕ
  rate : ℕ
  avg : ℕ
  align : ℕ
  bits : ℕ
  size : ℕ

/-- `Encoder::Encoder`, l.259-291, with the conversions to the types of the members. -/
def encoder (i : Info) : Out Enc :=
  if i.tag ≠ 1 ∧ i.tag ≠ 3 then .throw
  else
    let size := i.channels * i.samples * i.bytes % 2 ^ 32
    .ok {
      fileSize := (36 + 8 + size) % 2 ^ 32
      tag := i.tag
      channels := i.channels % 2 ^ 16
      rate := i.rate % 2 ^ 32
      avg := i.channels * i.bytes * i.rate % 2 ^ 32
      align := i.channels * i.bytes % 2 ^ 16
      bits := i.bytes * 8 % 2 ^ 16
      size := size }

/-- `header_` and `data_` in storage, integers stored by `st`. -/
def Enc.header (st : ℕ → ℕ → Bytes) (e : Enc) : Bytes :=
  st 4 riffId ++ st 4 e.fileSize ++ st 4 waveId ++ st 4 fmtId ++ st 4 16 ++ st 2 e.tag ++ st 2 e.channels ++ st 4 e.rate ++ st 4 e.avg ++ st 2 e.align ++
    st 2 e.bits ++ st 4 dataId ++ st 4 e.size

/-- `Encoder::operator()`, l.297-303: what is written.  The buffer must have as many bytes as are to be written. -/
def writeData (e : Enc) (buffer : Bytes) : Out Bytes :=
  if buffer.length < e.size then .ub else .ok (e.header le ++ buffer.take e.size)

/-! ## Hosts that store the most significant byte first -/

/-- Storage of an integer on such a host. -/
def be (k n : ℕ) : Bytes := (le k n).reverse

/-- `byteswap(data)`, byteswap.hpp l.31-84: the value that `data` has after.  `bswap_16` and the like are given the pointer, and what they return is dropped. -/
def byteswap (_k n : ℕ) : ℕ := n

/-- What `byteswap` is to do. -/
def swapped (k n : ℕ) : ℕ := num (be k n)

/-- Samples of `k` bytes each in place, swapped: the loops of l.335-337 and l.353-355. -/
def swapAll (sw : ℕ → ℕ → ℕ) (k : ℕ) : ℕ → Bytes → Bytes
  | 0, b => b
  | n + 1, b => be k (sw k (num (b.take k).reverse)) ++ swapAll sw k n (b.drop k)

/-- `Encoder::operator()`, l.305-364, with `sw` for `byteswap`. -/
def writeBig (sw : ℕ → ℕ → ℕ) (e : Enc) (buffer : Bytes) : Bytes :=
  e.header (fun k n => be k (sw k n)) ++
    (if e.bits = 16 then (swapAll sw 2 (e.size / 2) buffer).take e.size else []) ++
    (if e.bits = 32 then (swapAll sw 4 (e.size / 4) buffer).take e.size else buffer.take e.size)

end Verif.Wav
