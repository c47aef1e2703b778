import Verif.Model.OverlayBroadcast

/-!
# Sending broadcasts: `src/overlay/overlay.rs`

To which neighbours a message goes (`get_random_peers`, `BroadcastTarget`) is left open: the functions give the
messages in order. Their waves are in Model/FecWaves.lean.
-/
namespace Verif.Overlay
open Verif.Tl Verif.AdnlProto Verif.Rldp

variable (c : Crypto) (f : Fec)

/-- `force_compression` applied to the data (overlay.rs:742-750, 800-808), without I/O errors. -/
def payload (z : Zstd) (compressing : Bool) (data : Bytes) : Bytes :=
  if compressing then compress z data else data

/-- The message made by `send_broadcast` (overlay.rs:728-766) at the time `now`, before the prefix. -/
def ordinaryOf (z : Zstd) (compressing : Bool) (now : Nat) (sec : c.Sec) (data : Bytes) : Ordinary :=
  ⟨.ed25519 (c.pubBytes (c.pubOf sec)), .empty, anySender, payload z compressing data, now,
    c.sign sec (ordinaryToSign c.sha data now none)⟩

/-- `send_broadcast` (overlay.rs:720-781) in an overlay with the given id: the message for the neighbours,
or nothing for a broadcast already known. -/
def sendOrdinary (e : Env) (compressing : Bool) (overlay : Bytes) (now : Nat) (sec : c.Sec) (s : State c f)
    (data : Bytes) : State c f × Option Bytes :=
  match createOwn c f e s (c.sha (ordinaryToSign c.sha data now none)) with
  | (s, false) => (s, none)
  | (s, true) =>
    (s, some (messagePrefix overlay ++ writeBroadcast (.ordinary (ordinaryOf c e.z compressing now sec data))))

/-- `OutgoingFecTransfer` (overlay.rs:1367-1371) with the number of packets of the information returned
(overlay.rs:829-832). -/
structure OutFec where
  bid : Bytes
  enc : Enc
  seqno : Nat
  packets : Nat
deriving DecidableEq, Repr

/-- The transfer made by `send_fec_broadcast` (overlay.rs:791, 810-815, 829-832). -/
def OutFec.new (z : Zstd) (compressing : Bool) (data : Bytes) : OutFec :=
  ⟨c.sha data, ⟨payload z compressing data, 0⟩, 0,
    ((payload z compressing data).length % 2 ^ 32 / mtu + 1) * 3 / 2⟩

/-- `send_fec_broadcast` up to the spawned task (overlay.rs:783-832, 870-871); nothing for a broadcast already
known. -/
def sendFec (e : Env) (compressing : Bool) (s : State c f) (data : Bytes) : State c f × Option OutFec :=
  match createOwn c f e s (c.sha data) with
  | (s, false) => (s, none)
  | (s, true) => (s, some (OutFec.new c e.z compressing data))

/-- The packet with a symbol of the data (overlay.rs:1075-1103). -/
def fecPartOf (sec : c.Sec) (bid data : Bytes) (n date : Nat) : FecPart :=
  { src := .ed25519 (c.pubBytes (c.pubOf sec)), certificate := .empty, dataHash := bid,
    dataSize := data.length, flags := anySender, data := f.symbol data n, seqno := n, fec := f.params data,
    date := date,
    signature := c.sign sec (fecToSign c.sha bid data.length date anySender (f.params data) (f.symbol data n) n
      none) }

/-- `prepare_fec_broadcast` (overlay.rs:1069-1112) before the prefix. Numbers of symbols have 24 bits, so the
addition does not overflow; the size of the data is taken to fit 32 bits, and the encoder not to fail. -/
def OutFec.prepare (now : Nat) (sec : c.Sec) (t : OutFec) : OutFec × FecPart :=
  let n := (t.enc.encode f t.seqno).1
  ({ t with enc := (t.enc.encode f t.seqno).2, seqno := n + 1 }, fecPartOf c f sec t.bid t.enc.data n now)

/-- One turn of the sending task (overlay.rs:842-866) at the time `now`. -/
def OutFec.turn (now : Nat) (sec : c.Sec) (t : OutFec) : OutFec × Option FecPart :=
  if t.seqno ≤ t.packets then ((t.prepare c f now sec).1, some (t.prepare c f now sec).2) else (t, none)

/-- The packets sent in turns at the given times. -/
def OutFec.sent (sec : c.Sec) (t : OutFec) : List Nat → List FecPart
  | [] => []
  | now :: rest => (t.turn c f now sec).2.toList ++ OutFec.sent sec (t.turn c f now sec).1 rest

/-- The message of a packet (overlay.rs:1107-1109). -/
def fecMessage (overlay : Bytes) (b : FecPart) : Bytes := messagePrefix overlay ++ writeBroadcast (.fec b)

/-- What `broadcast` has started. -/
inductive Started where
  | nothing
  | ordinary (message : Bytes)
  | fec (t : OutFec)
deriving DecidableEq, Repr

/-- `broadcast` (overlay.rs:423-443) with `max_ordinary_broadcast_len` as given. -/
def broadcast (e : Env) (maxOrdinary : Nat) (compressing : Bool) (overlay : Bytes) (now : Nat) (sec : c.Sec)
    (s : State c f) (data : Bytes) : State c f × Started :=
  if data.length ≤ maxOrdinary then
    match sendOrdinary c f e compressing overlay now sec s data with
    | (s, some m) => (s, .ordinary m)
    | (s, none) => (s, .nothing)
  else
    match sendFec c f e compressing s data with
    | (s, some t) => (s, .fec t)
    | (s, none) => (s, .nothing)

end Verif.Overlay
