import Verif.Model.Address

/-!
# Model of the network builder

`NetworkBuilder` (`src/util/network_builder.rs`) with the layers (`src/adnl/mod.rs`, `src/dht/mod.rs`, `src/rldp/mod.rs`,
`src/overlay/mod.rs`), the registration of subscribers and the start of a node (`src/adnl/node/mod.rs:217-262`).

There is one ADNL node, which the layers share (`Arc`); it is kept beside the list of layers. `i` names the node a layer
makes. Only the registration is modelled; what the nodes do is modelled elsewhere.
-/
namespace Verif.Builder
open Verif.Address

/-- Who is registered: subscribers of the application, states of the nodes of layers, and `PingSubscriber`. -/
inductive Sub where
  | app (n : Nat) | dht (i : Nat) | rldp (i : Nat) | overlay (i : Nat) | ping
deriving DecidableEq, Repr

inductive Err where
  /-- `Failed to parse socket addr`, `IPv6 is not supported`, `Invalid ip address` (adnl/mod.rs:316-326) -/
  | parse | ipv6 | noAddress
  /-- an error of `make_udp_socket` or `local_addr` (node/mod.rs:159-165) -/
  | socket
  /-- `NodeError::AlreadyRunning` -/
  | alreadyRunning
  /-- `KeystoreError::KeyTagNotFound` -/
  | keyTagNotFound
  /-- `ADNL was not initialized` -/
  | adnlNotInitialized
deriving DecidableEq, Repr

/-- Lists of subscribers. -/
structure Subs where
  messages : List Sub
  queries : List Sub
deriving DecidableEq, Repr

/-- `adnl::Node`: `socket_addr`, the tags of the key store, the lists in `init_state` (node/mod.rs:563-569), and the lists
given to `start_receiver`. -/
structure Adnl where
  addr : SockAddr
  known : Nat → Bool
  init : Option Subs
  running : Option Subs

/-- A resolved address. -/
inductive Resolved where
  | v4 (a : SockAddr) | v6
deriving DecidableEq, Repr

/-- `parse_socket_addr` (adnl/mod.rs:316-326); `none` is an error of `to_socket_addrs`. -/
def parseSocketAddr : Option (List Resolved) → Except Err SockAddr
  | none => .error .parse
  | some [] => .error .noAddress
  | some (.v4 a :: _) => .ok a
  | some (.v6 :: _) => .error .ipv6

/-- `Node::new` (node/mod.rs:152-197); `bound` is the port of the socket, `none` if there is no socket. -/
def newAdnl (addr : SockAddr) (known : Nat → Bool) (bound : Option UInt16) : Except Err Adnl :=
  match bound with
  | none => .error .socket
  | some p => .ok ⟨if addr.port = 0 then { addr with port := p } else addr, known, some ⟨[], []⟩, none⟩

/-- `add_message_subscriber` (node/mod.rs:217-229). -/
def addMessage (a : Adnl) (s : Sub) : Adnl × Except Err Unit :=
  match a.init with
  | some l => ({ a with init := some { l with messages := l.messages ++ [s] } }, .ok ())
  | none => (a, .error .alreadyRunning)

/-- `add_query_subscriber` (node/mod.rs:232-241). -/
def addQuery (a : Adnl) (s : Sub) : Adnl × Except Err Unit :=
  match a.init with
  | some l => ({ a with init := some { l with queries := l.queries ++ [s] } }, .ok ())
  | none => (a, .error .alreadyRunning)

/-- `start` (node/mod.rs:244-263). -/
def start (a : Adnl) : Adnl × Except Err Unit :=
  match a.init with
  | some l => ({ a with init := none, running := some { l with queries := l.queries ++ [.ping] } }, .ok ())
  | none => (a, .error .alreadyRunning)

/-- `dht::Node::new` (dht/node.rs:111-157). -/
def newDht (a : Adnl) (i tag : Nat) : Adnl × Except Err Unit :=
  if a.known tag then addQuery a (.dht i) else (a, .error .keyTagNotFound)

/-- `rldp::Node::new` (rldp/node.rs:83-98). -/
def newRldp (a : Adnl) (i : Nat) : Adnl × Except Err Unit := addMessage a (.rldp i)

/-- `overlay::Node::new` (overlay/node.rs:25-38). -/
def newOverlay (a : Adnl) (i tag : Nat) : Adnl × Except Err Unit :=
  if a.known tag then
    match addQuery a (.overlay i) with
    | (a, .ok _) => addMessage a (.overlay i)
    | r => r
  else (a, .error .keyTagNotFound)

/-- The `Deferred` of a layer above ADNL (dht/mod.rs:28, rldp/mod.rs:31, overlay/mod.rs:39). -/
inductive Layer where
  | dht (i : Nat) (r : Except Err Nat)
  | rldp (i : Nat) (r : Except Err (List Sub))
  | overlay (i : Nat) (r : Except Err Unit)

/-- `NetworkBuilder` with its list, the last layer first, without the one of ADNL at the end. -/
structure Builder where
  node : Except Err Adnl
  layers : List Layer

/-- `with_adnl`, `with_adnl_ext` (adnl/mod.rs:145-162, 202-220). -/
def withAdnl (addr : Option (List Resolved)) (known : Nat → Bool) (bound : Option UInt16) : Builder :=
  match parseSocketAddr addr with
  | .error e => ⟨.error e, []⟩
  | .ok a => ⟨newAdnl a known bound, []⟩

/-- `with_query_subscriber` (adnl/mod.rs:264-269). -/
def withQuery (b : Builder) (s : Sub) : Builder :=
  match b.node with
  | .ok a => { b with node := .ok (addQuery a s).1 }
  | .error _ => b

/-- `with_message_subscriber` (adnl/mod.rs:308-313). -/
def withMessage (b : Builder) (s : Sub) : Builder :=
  match b.node with
  | .ok a => { b with node := .ok (addMessage a s).1 }
  | .error _ => b

/-- `with_dht` (dht/mod.rs:71-81). -/
def withDht (b : Builder) (i tag : Nat) : Builder :=
  { b with layers := .dht i (match b.node with | .ok _ => .ok tag | .error _ => .error .adnlNotInitialized) :: b.layers }

/-- `with_rldp`, `with_rldp_ext` (rldp/mod.rs:74-79, 125-135). -/
def withRldp (b : Builder) (i : Nat) (subs : List Sub) : Builder :=
  { b with layers :=
      .rldp i (match b.node with | .ok _ => .ok subs | .error _ => .error .adnlNotInitialized) :: b.layers }

/-- `self.0.get_mut()` for the RLDP layer (the index `R` is that of the last one: overlay/mod.rs:87, dht/mod.rs:75,
rldp/mod.rs:77) and `subscribers.push` (overlay/mod.rs:93); `none` if there is no such layer, which the types exclude. -/
def lastRldp : List Layer → Option (Except Err (List Sub))
  | [] => none
  | .rldp _ r :: _ => some r
  | .dht _ _ :: l => lastRldp l
  | .overlay _ _ :: l => lastRldp l

def pushRldp (s : Sub) : List Layer → List Layer
  | [] => []
  | .rldp i r :: l => .rldp i (r.map (· ++ [s])) :: l
  | .dht i r :: l => .dht i r :: pushRldp s l
  | .overlay i r :: l => .overlay i r :: pushRldp s l

/-- `with_overlay` (overlay/mod.rs:83-100). -/
def withOverlay (b : Builder) (i tag : Nat) : Builder :=
  match lastRldp b.layers, b.node with
  | some (.ok _), .ok a =>
    match newOverlay a i tag with
    | (a, .ok _) => ⟨.ok a, .overlay i (.ok ()) :: pushRldp (.overlay i) b.layers⟩
    | (a, .error e) => ⟨.ok a, .overlay i (.error e) :: b.layers⟩
  | _, _ => { b with layers := .overlay i (.error .adnlNotInitialized) :: b.layers }

/-- What is handed out for a layer. -/
inductive Built where
  | dht (i : Nat)
  /-- with the subscribers for its queries -/
  | rldp (i : Nat) (subs : List Sub)
  | overlay (i : Nat)
deriving DecidableEq, Repr

/-- `DeferredInitialization::initialize` of the layers (dht/mod.rs:33-36, rldp/mod.rs:36-39, overlay/mod.rs:44-46). -/
def initLayer (a : Adnl) : Layer → Adnl × Except Err Built
  | .dht _ (.error e) => (a, .error e)
  | .dht i (.ok tag) => ((newDht a i tag).1, (newDht a i tag).2.map fun _ => .dht i)
  | .rldp _ (.error e) => (a, .error e)
  | .rldp i (.ok subs) => ((newRldp a i).1, (newRldp a i).2.map fun _ => .rldp i subs)
  | .overlay _ (.error e) => (a, .error e)
  | .overlay i (.ok _) => (a, .ok (.overlay i))

/-- The layers above ADNL, the last one first; the result in the order of the calls. -/
def initLayers (a : Adnl) : List Layer → Adnl × Except Err (List Built)
  | [] => (a, .ok [])
  | x :: l =>
    match initLayer a x with
    | (a, .error e) => (a, .error e)
    | (a, .ok y) =>
      match initLayers a l with
      | (a, .error e) => (a, .error e)
      | (a, .ok ys) => (a, .ok (ys ++ [y]))

/-- The error of the last layer, all of which have one if there is no node. -/
def firstErr : List Layer → Option Err
  | .dht _ (.error e) :: _ | .rldp _ (.error e) :: _ | .overlay _ (.error e) :: _ => some e
  | _ => none

/-- `build` (network_builder.rs:12-14, 33-95; adnl/mod.rs:113-117): the node, if there is one, and the result. -/
def build (b : Builder) : Option Adnl × Except Err (List Built) :=
  match b.node with
  | .error e => (none, .error ((firstErr b.layers).getD e))
  | .ok a =>
    match initLayers a b.layers with
    | (a, .error e) => (some a, .error e)
    | (a, .ok r) =>
      match start a with
      | (a, .ok _) => (some a, .ok r)
      | (a, .error e) => (some a, .error e)

/-- A call on the builder. -/
inductive Call where
  | query (n : Nat)
  | message (n : Nat)
  | dht (i tag : Nat)
  | rldp (i : Nat) (ext : List Nat)
  | overlay (i tag : Nat)
deriving DecidableEq, Repr

def call (b : Builder) : Call → Builder
  | .query n => withQuery b (.app n)
  | .message n => withMessage b (.app n)
  | .dht i tag => withDht b i tag
  | .rldp i ext => withRldp b i (ext.map .app)
  | .overlay i tag => withOverlay b i tag

def calls (b : Builder) (cs : List Call) : Builder := cs.foldl call b

/-- Direct use of a node, under the lock of `init_state`. -/
inductive Op where
  | addMessage (s : Sub) | addQuery (s : Sub) | start
deriving DecidableEq, Repr

def act (a : Adnl) : Op → Adnl × Except Err Unit
  | .addMessage s => addMessage a s
  | .addQuery s => addQuery a s
  | .start => start a

/-- The node afterwards, and what each call gave. -/
def acts (a : Adnl) : List Op → Adnl × List (Except Err Unit)
  | [] => (a, [])
  | op :: ops => ((acts (act a op).1 ops).1, (act a op).2 :: (acts (act a op).1 ops).2)

end Verif.Builder
