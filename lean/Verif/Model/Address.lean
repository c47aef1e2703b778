import Verif.Model.Num

/-!
# Addresses: `src/adnl/peer.rs` (packing), `src/util/address_list.rs`, `src/proto/adnl.rs` (`Address`)
-/
namespace Verif.Address

/-- `SocketAddrV4`: four octets and a 16-bit port. -/
structure SockAddr where
  a : UInt8
  b : UInt8
  c : UInt8
  d : UInt8
  port : UInt16
deriving DecidableEq, Repr

/-- `addr.ip().octets()`. -/
def SockAddr.octets (s : SockAddr) : Bytes := [s.a, s.b, s.c, s.d]

/-- `pack_socket_addr` (peer.rs:108-113): octets, then the port little endian, as a `u64`. -/
def pack (s : SockAddr) : Nat :=
  ofLE (s.octets ++ leBytes 2 s.port.toNat ++ [0, 0])

/-- `unpack_socket_addr` (peer.rs:116-123). -/
def unpack (n : Nat) : SockAddr :=
  let r := leBytes 8 n
  ⟨r[0]!, r[1]!, r[2]!, r[3]!, UInt16.ofNat (ofLE [r[4]!, r[5]!])⟩

/-- `proto::adnl::Address` (proto/adnl.rs:402-407), both fields `u32`. -/
structure Addr where
  ip : Nat
  port : Nat
deriving DecidableEq, Repr

/-- `From<&SocketAddrV4> for Address` (proto/adnl.rs:409-416). -/
def toAddr (s : SockAddr) : Addr := ⟨ofBE s.octets, s.port.toNat⟩

/-- `Ipv4Addr::from(u32)` and `port as u16` (proto/adnl.rs:418-422, address_list.rs:22-25). -/
def ofAddr (x : Addr) : SockAddr :=
  let r := beBytes 4 x.ip
  ⟨r[0]!, r[1]!, r[2]!, r[3]!, UInt16.ofNat x.port⟩

/-- `proto::adnl::AddressList` (proto/adnl.rs:336-343). -/
structure AddrList where
  address : Option Addr
  version : Nat
  reinitDate : Nat
  expireAt : Nat
deriving DecidableEq, Repr

/-- Result of `parse_address_list`; `panic` is an arithmetic overflow in a debug build. -/
inductive Parsed where
  | ok (s : SockAddr) | listIsEmpty | tooNew | expired | panic
deriving DecidableEq, Repr

/-- `parse_address_list` (address_list.rs:7-26), `now` is the result of `now()`. -/
def parse (m : Build) (now tolerance : Nat) (l : AddrList) : Parsed :=
  match l.address with
  | none => .listIsEmpty
  | some address =>
    match addU32 m now tolerance with
    | none => .panic
    | some limit =>
      if l.reinitDate > limit then .tooNew
      else if l.expireAt ≠ 0 ∧ l.expireAt < now then .expired
      else .ok (ofAddr address)

end Verif.Address
