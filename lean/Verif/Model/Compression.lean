import Verif.Model.Num

/-!
# `src/rldp/compression.rs`
-/
namespace Verif.Rldp

/-- zstd: `encode` is `copy_encode` at level 3 appending one frame, `decode` is `decode_all`. -/
structure Zstd where
  encode : Bytes → Bytes
  decode : Bytes → Option Bytes

/-- What is used of zstd: two frames one after the other decode to the two contents. -/
structure Zstd.Lawful (z : Zstd) : Prop where
  decode_two : ∀ a b, z.decode (z.encode a ++ z.encode b) = some (a ++ b)

/-- `compress` (compression.rs:1-22) without I/O errors; `uncompressed as u32` keeps the lower 32
bits. -/
def compress (z : Zstd) (data : Bytes) : Bytes :=
  if data.length ≤ 256 then data
  else z.encode data ++ z.encode (beBytes 4 (data.length % 2 ^ 32)) ++ [0x80]

/-- `decompress` (compression.rs:24-48). -/
def decompress (z : Zstd) (data : Bytes) : Option Bytes :=
  if data.getLast? ≠ some 0x80 then none
  else
    match z.decode data.dropLast with
    | none => none
    | some d =>
      if d.length < 4 then none
      else if ofBE (d.drop (d.length - 4)) ≠ d.length - 4 then none
      else some (d.take (d.length - 4))

/-- What the receiving side uses: `decompress(..).unwrap_or(data)` (node.rs:154-156,
transfers_cache.rs:567-573). -/
def received (z : Zstd) (data : Bytes) : Bytes := (decompress z data).getD data

end Verif.Rldp
