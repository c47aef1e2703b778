import Verif.Model.Bytes
import Verif.Model.Num

/-!
# Wire format of encrypted ADNL packets

As documented at `src/adnl/handshake.rs:68-83` and `src/adnl/channel.rs:139-150`, byte by byte.
-/
namespace Verif.Spec

/-- Exclusive or of the bytes at the positions `r`, `r + 4`, `r + 8`, … -/
def strideXor (r : Nat) (bs : Bytes) : UInt8 :=
  ((List.range bs.length).filter (· % 4 = r)).foldl (fun a i => a ^^^ bs.getD i 0) 0

/-- AES key: 16 bytes of the secret, then bytes 16 to 31 of the checksum. -/
def aesKey (secret checksum : Bytes) : Bytes :=
  (List.range 32).map fun i => if i < 16 then secret.getD i 0 else checksum.getD i 0

/-- First counter block: 4 bytes of the checksum, then bytes 20 to 31 of the secret. -/
def aesIv (secret checksum : Bytes) : Bytes :=
  (List.range 16).map fun i => if i < 4 then checksum.getD i 0 else secret.getD (i + 16) 0

/-- Counter block number `j` of `Ctr64BE`: the last eight bytes count up, big endian. -/
def counterBlock (iv : Bytes) (j : Nat) : Bytes := iv.take 8 ++ beBytes 8 (ofBE (iv.drop 8) + j)

/-- Byte `r` of the version field: the version twice, big endian, masked with header and checksum. -/
def versionByte (v : Nat) (header checksum : Bytes) (r : Nat) : UInt8 :=
  (if r % 2 = 0 then UInt8.ofNat (v / 256) else UInt8.ofNat v) ^^^ strideXor r header ^^^ strideXor r checksum

end Verif.Spec
