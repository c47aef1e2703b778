import Verif.Model.Encryption
import Verif.Model.AdnlProto

/-!
# `src/adnl/channel.rs`
-/
namespace Verif.Adnl
open Verif.AdnlProto

/-- `SubChannelSide` (channel.rs:294-297). -/
structure SubSide where
  id : Bytes
  secret : Bytes
deriving DecidableEq, Repr

/-- `ChannelSide` (channel.rs:272-275). -/
structure Side where
  ordinary : SubSide
  priority : SubSide
deriving DecidableEq, Repr

/-- `build_priority_secret` (channel.rs:299-334): neighbouring bytes swapped. -/
def prioritySecret : Bytes → Bytes
  | a :: b :: rest => b :: a :: prioritySecret rest
  | rest => rest

/-- `compute_channel_id` (channel.rs:338-341). -/
def channelId (c : Crypto) (key : Bytes) : Bytes := c.sha (writePubKey (.aes key))

/-- `ChannelSide::from_secret` (channel.rs:278-291). -/
def Side.fromSecret (c : Crypto) (secret : Bytes) : Side :=
  ⟨⟨channelId c secret, secret⟩, ⟨channelId c (prioritySecret secret), prioritySecret secret⟩⟩

def Side.sub (s : Side) (priority : Bool) : SubSide := if priority then s.priority else s.ordinary

/-- `ChannelCreationContext` (channel.rs:259-263). -/
inductive Ctx where
  | create | confirm
deriving DecidableEq, Repr

/-- `Channel` (channel.rs:12-29). `drop` is not used here. -/
structure Channel where
  ready : Bool
  out : Side
  inn : Side
  localId : Bytes
  peerId : Bytes
  peerKey : Bytes
  peerDate : Nat
deriving DecidableEq

/-- Comparison of ids: lexicographic on bytes (derived `Ord` of `[u8; 32]`, node_id.rs:82). -/
def cmpBytes : Bytes → Bytes → Ordering
  | [], [] => .eq
  | [], _ :: _ => .lt
  | _ :: _, [] => .gt
  | a :: as, b :: bs => if a < b then .lt else if b < a then .gt else cmpBytes as bs

/-- `(in_secret, out_secret)` (channel.rs:41-49). -/
def splitSecret (o : Ordering) (shared : Bytes) : Bytes × Bytes :=
  match o with
  | .lt => (shared, shared.reverse)
  | .eq => (shared, shared)
  | .gt => (shared.reverse, shared)

/-- `Channel::new` (channel.rs:33-62). -/
def Channel.new (c : Crypto) (localId peerId : Bytes) (key : c.Sec) (peerKey : c.Pub) (date : Nat)
    (ctx : Ctx) : Channel :=
  let p := splitSecret (cmpBytes localId peerId) (c.dh key peerKey)
  ⟨ctx = .confirm, Side.fromSecret c p.2, Side.fromSecret c p.1, localId, peerId,
    c.pubBytes peerKey, date⟩

/-- `is_still_valid` (channel.rs:65-72). -/
def Channel.stillValid (ch : Channel) (key : Bytes) (date : Nat) : Bool :=
  ch.peerKey == key || decide (ch.peerDate ≥ date)

/-- Result of `decrypt`. -/
inductive Decrypted where
  | ok (version : Option Nat) (data : Bytes)
  | tooShort
  | badChecksum
  | panic
deriving DecidableEq, Repr

/-- `Channel::decrypt` (channel.rs:140-207). -/
def Channel.decrypt (c : Crypto) (ch : Channel) (priority : Bool) (buffer : Bytes) : Decrypted :=
  if buffer.length < 64 then .tooShort
  else
    match openPacket c 32 (ch.inn.sub priority).secret buffer with
    | .ok v d => .ok v d
    | .badChecksum => .badChecksum
    | .panic => .panic

/-- `Channel::encrypt` (channel.rs:210-250). -/
def Channel.encrypt (c : Crypto) (ch : Channel) (priority : Bool) (version : Option Nat)
    (data : Bytes) : Bytes :=
  sealPacket c (ch.out.sub priority).id (ch.out.sub priority).secret version data

end Verif.Adnl
