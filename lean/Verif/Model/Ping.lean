import Verif.Model.Dispatch
import Verif.Model.DhtRpc

/-!
# Pings: `src/adnl/ping_subscriber.rs`, `start` in `src/adnl/node/mod.rs`, `ping` in `src/dht/node.rs`
-/
namespace Verif.Ping
open Verif.Tl Verif.Dispatch

/-- `rpc::AdnlPing::TL_ID` (proto/rpc.rs:5-9). -/
def adnlPingId : Nat := 0x1faaa1bf

/-- `rpc::AdnlPing` (proto/rpc.rs:5-9), boxed. -/
def writeAdnlPing (value : Nat) : Bytes := writeU32 adnlPingId ++ writeU64 value

/-- `adnl::Pong` (proto/adnl.rs:424-428), boxed. -/
def writeAdnlPong (value : Nat) : Bytes := writeU32 0x20747c0e ++ writeU64 value

/-- A boxed type with one `u64`; `deserialize` checks the constructor. -/
def readBoxedU64 (id : Nat) : Reader Nat := do
  let i ← readU32
  if i = id then readU64 else fail

/-- `try_consume_query` of `PingSubscriber` (ping_subscriber.rs:12-24). -/
def pingSub : QuerySub := fun constructor query =>
  if constructor = adnlPingId then
    match readBoxedU64 adnlPingId query with
    | none => .error
    | some (value, _) => .consumed (some (writeAdnlPong value))
  else .rejected query

/-- The query subscribers of a running node: those that were added, and `PingSubscriber` (node/mod.rs:250). -/
def nodeSubs (added : List QuerySub) : List QuerySub := added ++ [pingSub]

/-- `ping` (dht/node.rs:200-210) with the id it chose and the answer it got; `none` is an error. -/
def dhtPing (randomId : Nat) : Option Bytes → Option Bool
  | none => some false
  | some answer =>
    match readBoxedU64 0x5a8aef81 answer with
    | none => none
    | some (id, _) => some (decide (id = randomId))

end Verif.Ping
