import Verif.Model.OverlayProto
import Verif.Model.RldpTransfer
import Verif.Model.Compression
import Verif.Model.Storage

/-!
# Broadcasts of one overlay: `src/overlay/overlay.rs`

One `receive_broadcast` or `receive_fec_broadcast` is one step: neither awaits anything, and what they
share with other tasks are the table of broadcasts (locked per entry), the packet history and the
channel of a transfer; overlapping calls are taken to happen in some order. The tasks spawned by the
overlay (`spawn_fec_transfer_receiver`, `spawn_broadcast_gc_task`, the loop of `Overlay::new`) take
steps of their own, at any time; the counter and the queue of finished broadcasts are separate atomic
steps. `clock` is the time of tokio in milliseconds; the wall clock is an argument of the steps that
read it.
-/
namespace Verif.Overlay
open Verif.Tl Verif.AdnlProto Verif.Rldp

/-- `BROADCAST_FLAG_ANY_SENDER` (overlay.rs:1426). -/
def anySender : Nat := 1

/-- `flags & BROADCAST_FLAG_ANY_SENDER == 0` (overlay.rs:558, 1238). -/
def sourceMatters (flags : Nat) : Bool := decide (flags % 2 = 0)

/-- `OverlayBroadcastToSign`, boxed (overlay.rs:1271-1282). -/
def writeToSign (hash : Bytes) (date : Nat) : Bytes := writeU32 0xfa374e7c ++ (hash ++ writeU32 date)

/-- `source.map(NodeIdShort::as_slice).unwrap_or(&[0; 32])`. -/
def sourceBytes (source : Option Bytes) : Bytes := source.getD (List.replicate 32 0)

/-- `make_broadcast_to_sign` (overlay.rs:1284-1302), serialised. -/
def ordinaryToSign (sha : Bytes → Bytes) (data : Bytes) (date : Nat) (source : Option Bytes) : Bytes :=
  writeToSign (sha (writeU32 0x51fd789a ++ (sourceBytes source ++ (sha data ++ writeU32 anySender)))) date

/-- `make_fec_part_to_sign` (overlay.rs:1304-1343), serialised. -/
def fecToSign (sha : Bytes → Bytes) (dataHash : Bytes) (dataSize date flags : Nat) (params : FecType)
    (part : Bytes) (seqno : Nat) (source : Option Bytes) : Bytes :=
  writeToSign (sha (writeU32 0xa46962d0 ++ (sha (writeU32 0xfb3155a6 ++ (sourceBytes source ++
    (sha (writeFec params) ++ (dataHash ++ (writeU32 dataSize ++ writeU32 flags))))) ++
    (sha part ++ writeU32 seqno)))) date

variable (c : Crypto) (f : Fec)

/-- Options (overlay.rs:22-84) and the build; `z` is the compression library. -/
structure Env where
  build : Build
  z : Zstd
  /-- `broadcast_timeout_sec` -/
  timeout : Nat
  /-- `max_broadcast_log` -/
  maxLog : Nat

/-- `is_broadcast_outdated` (overlay.rs:1132-1134); `none` is a panic. -/
def isOutdated (e : Env) (date now : Nat) : Option Bool :=
  (addU32 e.build date (e.timeout % 2 ^ 32)).map fun d => decide (d < now)

/-- `IncomingBroadcastInfo` (overlay.rs:1346-1350). -/
structure Delivery where
  packets : Nat
  data : Bytes
  source : Bytes
deriving DecidableEq, Repr

/-- The task of `spawn_fec_transfer_receiver` (overlay.rs:979-1029): in the loop, after the loop,
finished. -/
inductive Phase where
  | running | leaving | ended
deriving DecidableEq, Repr

/-- `IncomingFecTransfer` (overlay.rs:1359-1365), the messages in its channel (with the decoded key) and
the state of its task. -/
structure Transfer where
  bid : Bytes
  source : Bytes
  hist : PacketsHistory.Hist
  chan : List (c.Pub × FecPart)
  completed : Bool
  startedAt : Nat
  updatedAt : Nat
  dec : f.Dec
  packets : Nat
  phase : Phase

/-- `OwnedBroadcast` (overlay.rs:1373-1376); an `Arc<OwnedBroadcast>` is a position in the list of
transfers. -/
inductive Owned where
  | other
  | incoming (t : Nat)
deriving DecidableEq, Repr

/-- Where the loop of `Overlay::new` is (overlay.rs:185-195). -/
inductive GcPc where
  | idle | pop | sub
deriving DecidableEq, Repr

structure State where
  clock : Nat
  /-- `owned_broadcasts` -/
  owned : AMap Bytes Owned
  /-- all transfers made so far -/
  transfers : List (Transfer c f)
  /-- waiting clean-up tasks of FEC transfers (overlay.rs:1031-1064): broadcast and next wake-up -/
  cleanups : List (Bytes × Nat)
  /-- sleeping tasks of `spawn_broadcast_gc_task`: broadcast and wake-up -/
  timers : List (Bytes × Nat)
  /-- tasks of `spawn_broadcast_gc_task` between `fetch_add` and `push` -/
  counted : List Bytes
  /-- `finished_broadcasts` -/
  queue : List Bytes
  /-- `finished_broadcast_count`; 2^32 broadcasts at once are not modelled -/
  count : Nat
  gc : GcPc

def State.init : State c f := ⟨0, [], [], [], [], [], [], 0, .idle⟩

/-- What a step does that can be seen from outside. -/
structure Out where
  /-- `received_broadcasts.push` -/
  delivered : Option Delivery := none
  /-- `distribute_broadcast(.., raw_data)` to random neighbours -/
  forwarded : Bool := false
  /-- `Err(_)` or a panic -/
  failed : Bool := false
deriving DecidableEq, Repr

/-- `spawn_broadcast_gc_task` (overlay.rs:1136-1145). -/
def State.spawnGc {c : Crypto} {f : Fec} (s : State c f) (e : Env) (bid : Bytes) : State c f :=
  { s with timers := s.timers ++ [(bid, s.clock + 1000 * e.timeout)] }

/-- What `receive_broadcast` finds out before touching the table (overlay.rs:551-592): the data, the
identity and the source; the outdated ones and errors first. `none` in the first place is `return
Ok(())` for an outdated broadcast. -/
inductive Checked where
  | outdated
  | failed
  | ok (bid data source : Bytes)
deriving DecidableEq, Repr

/-- The checks of `receive_broadcast` (overlay.rs:551-592). The two calls of `create_broadcast` in the
code use the identity found here. -/
def checkOrdinary (e : Env) (now : Nat) (b : Ordinary) : Checked :=
  match isOutdated e b.date now with
  | none => .failed
  | some true => .outdated
  | some false =>
    match Receiver.fullId c b.src with
    | none => .failed
    | some pub =>
      let peer := Node.shortId c pub
      let source := if sourceMatters b.flags then some peer else none
      let raw : Checked :=
        if Storage.verifySig c pub (ordinaryToSign c.sha b.data b.date source) b.signature then
          .ok (c.sha (ordinaryToSign c.sha b.data b.date source)) b.data peer
        else .failed
      match decompress e.z b.data with
      | some d =>
        if Storage.verifySig c pub (ordinaryToSign c.sha d b.date source) b.signature then
          .ok (c.sha (ordinaryToSign c.sha d b.date source)) d peer
        else raw
      | none => raw

/-- `receive_broadcast` (overlay.rs:543-608). -/
def receiveOrdinary (e : Env) (now : Nat) (s : State c f) (b : Ordinary) : State c f × Out :=
  match checkOrdinary c e now b with
  | .outdated => (s, {})
  | .failed => (s, { failed := true })
  | .ok bid data source =>
    match s.owned.get bid with
    | some _ => (s, {})
    | none =>
      ({ s with owned := s.owned.put bid .other }.spawnGc e bid,
        { delivered := some ⟨1, data, source⟩, forwarded := true })

/-- `create_broadcast` of a broadcast sent by this node and its clean-up (overlay.rs:729-738, 774,
791-798, 870). -/
def createOwn (e : Env) (s : State c f) (bid : Bytes) : State c f × Bool :=
  match s.owned.get bid with
  | some _ => (s, false)
  | none => ({ s with owned := s.owned.put bid .other }.spawnGc e bid, true)

/-- A new transfer (overlay.rs:960-986, 1031-1035). -/
def newTransfer (e : Env) (s : State c f) (b : FecPart) (source : Bytes) : State c f :=
  { s with
    owned := s.owned.put b.dataHash (.incoming s.transfers.length)
    transfers := s.transfers ++ [⟨b.dataHash, source, PacketsHistory.forRecv, [], false, s.clock, 0,
      f.new b.fec, 0, .running⟩]
    cleanups := s.cleanups ++ [(b.dataHash, s.clock + 100 * e.timeout)] }

/-- What `receive_fec_broadcast` does with a known transfer (overlay.rs:643-684). -/
def feed (s : State c f) (i : Nat) (t : Transfer c f) (pub : c.Pub) (source : Bytes) (b : FecPart) :
    State c f × Out :=
  let t := { t with updatedAt := (s.clock - t.startedAt) / 1000 }
  if t.source ≠ source then ({ s with transfers := s.transfers.set i t }, {})
  else
    match PacketsHistory.deliver t.hist b.seqno with
    | (h, false) => ({ s with transfers := s.transfers.set i { t with hist := h } }, {})
    | (h, true) =>
      let t := { t with hist := h }
      if t.completed then ({ s with transfers := s.transfers.set i t }, { forwarded := true })
      else if t.phase = .ended then ({ s with transfers := s.transfers.set i t }, { failed := true })
      else ({ s with transfers := s.transfers.set i { t with chan := t.chan ++ [(pub, b)] } },
        { forwarded := true })

/-- `receive_fec_broadcast` (overlay.rs:611-685). -/
def receiveFec (e : Env) (now : Nat) (s : State c f) (b : FecPart) : State c f × Out :=
  match isOutdated e b.date now with
  | none => (s, { failed := true })
  | some true => (s, {})
  | some false =>
    match Receiver.fullId c b.src with
    | none => (s, { failed := true })
    | some pub =>
      let source := Node.shortId c pub
      if b.signature.length ≠ 64 then (s, { failed := true })
      else
        let s := if (s.owned.get b.dataHash).isNone then newTransfer c f e s b source else s
        match s.owned.get b.dataHash with
        | some (.incoming i) =>
          match s.transfers[i]? with
          | some t => feed c f s i t pub source b
          | none => (s, {})
        | _ => (s, {})

/-- Result of `process_fec_broadcast` (overlay.rs:1224-1269). -/
inductive FecResult where
  | done (data : Bytes)
  | more
  | failed
deriving DecidableEq, Repr

/-- `process_fec_broadcast` (overlay.rs:1224-1269). -/
def processFec (z : Zstd) (dec : f.Dec) (pub : c.Pub) (b : FecPart) : f.Dec × FecResult :=
  if Storage.verifySig c pub (fecToSign c.sha b.dataHash b.dataSize b.date b.flags b.fec b.data b.seqno
      (if sourceMatters b.flags then some (Node.shortId c pub) else none)) b.signature then
    match f.decode dec b.seqno b.data with
    | (dec', none) => (dec', .more)
    | (dec', some r) =>
      if r.length ≠ b.dataSize then (dec', .failed)
      else
        let raw : FecResult := if c.sha r = b.dataHash then .done r else .failed
        match decompress z r with
        | some d => if c.sha d = b.dataHash then (dec', .done d) else (dec', raw)
        | none => (dec', raw)
  else (dec, .failed)

/-- One turn of the receiving task (overlay.rs:983-1013): a message from the channel, or the end of the
channel once it is empty and the entry holding its sender is gone. -/
def taskStep (e : Env) (s : State c f) (i : Nat) : State c f × Out :=
  match s.transfers[i]? with
  | none => (s, {})
  | some t =>
    if t.phase ≠ .running then (s, {})
    else
      match t.chan with
      | [] =>
        if s.owned.get t.bid = some (.incoming i) then (s, {})
        else ({ s with transfers := s.transfers.set i { t with phase := .leaving } }, {})
      | (pub, b) :: rest =>
        match processFec c f e.z t.dec pub b with
        | (dec, .done data) =>
          let t' := { t with dec := dec, chan := rest, packets := t.packets + 1, phase := .leaving }
          ({ s with transfers := s.transfers.set i t' },
            { delivered := some ⟨t.packets + 1, data, t.source⟩ })
        | (dec, .more) =>
          let t' := { t with dec := dec, chan := rest, packets := t.packets + 1 }
          ({ s with transfers := s.transfers.set i t' }, {})
        | (dec, .failed) =>
          let t' := { t with dec := dec, chan := rest, packets := t.packets + 1, phase := .leaving }
          ({ s with transfers := s.transfers.set i t' }, {})

/-- The end of the receiving task (overlay.rs:1015-1028): whichever transfer is stored under the
identity of the broadcast is marked. -/
def markStep (s : State c f) (i : Nat) : State c f :=
  match s.transfers[i]? with
  | none => s
  | some t =>
    if t.phase ≠ .leaving then s
    else
      let s := { s with transfers := s.transfers.set i { t with phase := .ended } }
      match s.owned.get t.bid with
      | some (.incoming j) =>
        match s.transfers[j]? with
        | some u => { s with transfers := s.transfers.set j { u with completed := true } }
        | none => s
      | _ => s

/-- Whether a clean-up task goes on waiting (overlay.rs:1040-1049): the transfer is neither complete nor
expired. -/
def keepsWaiting (e : Env) (s : State c f) (bid : Bytes) : Bool :=
  match s.owned.get bid with
  | some (.incoming j) =>
    match s.transfers[j]? with
    | some t => !t.completed && !decide ((s.clock - t.startedAt) / 1000 ≥ t.updatedAt + e.timeout)
    | none => false
  | _ => false

/-- The clean-up task at position `i` wakes up (overlay.rs:1031-1064). -/
def cleanupStep (e : Env) (s : State c f) (i : Nat) : State c f :=
  match s.cleanups[i]? with
  | none => s
  | some (bid, due) =>
    if s.clock < due then s
    else if keepsWaiting c f e s bid then
      { s with cleanups := s.cleanups.set i (bid, s.clock + 100 * e.timeout) }
    else { s with cleanups := s.cleanups.eraseIdx i }.spawnGc e bid

/-- Steps of the overlay. -/
inductive Action where
  | tick (ms : Nat)
  | ordinary (now : Nat) (b : Ordinary)
  | fec (now : Nat) (b : FecPart)
  | own (bid : Bytes)
  | task (i : Nat)
  | mark (i : Nat)
  | cleanup (i : Nat)
  /-- a clean-up timer ends: `fetch_add` (overlay.rs:1139-1142) -/
  | expire (i : Nat)
  /-- the same task: `push` (overlay.rs:1143) -/
  | push (i : Nat)
  /-- the test of the inner loop (overlay.rs:185-187) -/
  | gcCheck
  /-- `pop` and `remove` (overlay.rs:188-190) -/
  | gcPop
  /-- `fetch_sub` (overlay.rs:191-194) -/
  | gcSub

def step (e : Env) (s : State c f) : Action → State c f × Out
  | .tick ms => ({ s with clock := s.clock + ms }, {})
  | .ordinary now b => receiveOrdinary c f e now s b
  | .fec now b => receiveFec c f e now s b
  | .own bid => ((createOwn c f e s bid).1, {})
  | .task i => taskStep c f e s i
  | .mark i => (markStep c f s i, {})
  | .cleanup i => (cleanupStep c f e s i, {})
  | .expire i =>
    match s.timers[i]? with
    | none => (s, {})
    | some (bid, due) =>
      if s.clock < due then (s, {})
      else ({ s with timers := s.timers.eraseIdx i, counted := s.counted ++ [bid],
                     count := s.count + 1 }, {})
  | .push i =>
    match s.counted[i]? with
    | none => (s, {})
    | some bid => ({ s with counted := s.counted.eraseIdx i, queue := s.queue ++ [bid] }, {})
  | .gcCheck =>
    if s.gc = .idle ∧ s.count > e.maxLog then ({ s with gc := .pop }, {}) else (s, {})
  | .gcPop =>
    if s.gc = .pop then
      match s.queue with
      | [] => ({ s with gc := .sub }, {})
      | bid :: rest => ({ s with gc := .sub, queue := rest, owned := s.owned.erase bid }, {})
    else (s, {})
  | .gcSub =>
    if s.gc = .sub then ({ s with gc := .idle, count := s.count - 1 }, {}) else (s, {})

def run (e : Env) (s : State c f) : List Action → State c f
  | [] => s
  | a :: as => run e (step c f e s a).1 as

/-- The steps with what they did. -/
def trace (e : Env) (s : State c f) : List Action → List (Action × Out)
  | [] => []
  | a :: as => (a, (step c f e s a).2) :: trace e (step c f e s a).1 as

end Verif.Overlay
