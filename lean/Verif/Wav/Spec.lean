import Mathlib.Data.List.Basic
import Mathlib.Data.Nat.Notation

/-!
# Wave files

The RIFF file format, as far as wave files of samples need it: chunks with an identifier, a size and a body, padded to an even size.
-/

namespace Verif.Wav

abbrev Bytes := List UInt8

/-- `k` bytes of `n`, least significant first. -/
def le : ℕ → ℕ → Bytes
  | 0, _ => []
  | k + 1, n => UInt8.ofNat n :: le k (n / 256)

/-- A chunk: four characters and a body. -/
structure Chunk where
  id : Bytes
  body : Bytes

/-- A chunk in a file: bodies of odd length are followed by one more byte, which the size does not count. -/
def Chunk.enc (c : Chunk) : Bytes := c.id ++ le 4 c.body.length ++ c.body ++ (if c.body.length % 2 = 1 then [0] else [])

def sRIFF : Bytes := [82, 73, 70, 70]
def sWAVE : Bytes := [87, 65, 86, 69]
def sFmt : Bytes := [102, 109, 116, 32]
def sData : Bytes := [100, 97, 116, 97]

/-- A wave file: one chunk `RIFF`, the body of which is `WAVE` and chunks.  The size counts what follows it. -/
def riff (cs : List Chunk) : Bytes := sRIFF ++ le 4 (4 + (cs.flatMap Chunk.enc).length) ++ sWAVE ++ cs.flatMap Chunk.enc

/-- What a wave file says of its samples. -/
structure Format where
  tag : ℕ
  channels : ℕ
  rate : ℕ
  bits : ℕ

/-- Bytes one sample of one channel takes. -/
def Format.bytes (f : Format) : ℕ := (f.bits + 7) / 8

/-- The body of the format chunk, with or without an extension. -/
def Format.body (f : Format) (ext : Bytes) : Bytes :=
  le 2 f.tag ++ le 2 f.channels ++ le 4 f.rate ++ le 4 (f.rate * (f.channels * f.bytes)) ++ le 2 (f.channels * f.bytes) ++ le 2 f.bits ++ ext

end Verif.Wav
