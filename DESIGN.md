# Formal model of everscale-network in Lean 4 — design

The source read is `/repo` (crate `everscale-network` 0.5.5). Nothing was built or run; the
model is transcribed from the text. Properties are listed in `properties.jsonl` (C01…), their
status in `MANIFEST.json`, mutation experiments in `seeded/LOG.jsonl`.

## 1. Layout

* `lean/Verif/Model/*.lean` – the model: total, computable functions transcribed function by
  function; every definition cites the file and lines it models.
* `lean/Verif/Spec/*.lean` – small independent specifications (sets of seen numbers, XOR distance,
  partitions of a message, …) that do not mention the model.
* `lean/Verif/Proofs/*.lean` – helper lemmas and invariants.
* `lean/Verif/Props/*.lean` – the property theorems, one file per area, with a concrete
  instance (`example`) beside each theorem showing that its hypotheses can be met, and the
  counterexamples for properties the code violates.

## 2. Modelling conventions

* `&mut self` / interior mutability becomes "take the state, return the new state".
* Panics (integer overflow in debug builds, slice index out of range) are explicit error values
  when they are reachable, otherwise the theorem states they are not reached.
* u32/u64/usize values are `Nat` with explicit modulus/overflow where the code can wrap; bit
  operations use `Nat` bitwise operators or `BitVec` where the width matters.
* Hash maps are association functions/lists with unique keys; iteration order over a hash map is
  an arbitrary list argument (theorems quantify over it).
* Random numbers are an arbitrary argument (stream of choices); theorems hold for all of them.
* The clock is an argument of each call; theorems quantify over it.
* Concurrency: threads are small state machines whose steps are the single atomic operations
  (load, store, CAS, queue push/pop, map operation under its shard lock). A run is any
  interleaving, sequentially consistent. Weak memory effects are outside the model.
* Cryptography (AES-256-CTR, SHA-256, ed25519, x25519), zstd and RaptorQ are external crates and
  not in the repository. They are *parameters* of the model (function arguments or structure
  fields) with only the properties named in the theorem's hypotheses, e.g. "decrypting with the
  same key stream gives back the plaintext". They are never Lean axioms, and each such structure is
  inhabited by a concrete instance so that the hypotheses are satisfiable.
* The TL wire format is produced by the `tl-proto` crate (not in the repository). Assumed: integers
  are little endian; `bytes` has a 1-byte length (<254) or 0xFE and 3-byte length, then the data,
  then zero padding to a multiple of 4; boxed types start with a 4-byte constructor; vectors start
  with a 4-byte count; `deserialize` does not reject trailing bytes.
* Debug and release builds differ in integer overflow: `Build` (Model/Num.lean) is an argument of the
  functions where this matters, `addU32`/`subU32` return `none` for the panic of a debug build and wrap
  in a release build. Theorems quantify over both.
* `tl_proto::HashWrapper` and borrowed variants of a type are identified with the plain value.
* `hang` is a result of its own where a loop of the code need not end (Model/Transfer.lean); a theorem
  shows that no amount of fuel ends it.

Assumptions made about single external functions, beyond the layout of TL:

* zstd (`Zstd.Lawful`): two frames one after the other decode to the two contents one after the other.
* RaptorQ (`Fec.Lawful`, and hypotheses of single theorems): symbols of some data decode to that data or
  to nothing yet; all source symbols suffice; `repair_packets(n, 1)` has number `count + n` (C59 only).
  Assertions inside the library (odd parameters, numbers ≥ 2^24) and its memory use are not modelled.
* `BytesMeta::read_from` leaves the offset at the start of the bytes (Model/RldpProto.lean, `fromData`; Model/Views.lean, `bytesMeta`).
* `choose_multiple` returns some sample without repetition (`IsSample`).
* `DashMap` guards hold the lock of one shard and release it when dropped; an iterator takes the lock of the
  next shard before it releases that of the current one, in ascending order.
* `tokio::sync::Barrier`, `Semaphore`, `oneshot`, `mpsc` and the concurrent maps and queues behave as
  documented, each operation being atomic.

## 3. Trusted base

* The Lean 4.33.0 kernel.
* Axioms: at most `propext`, `Classical.choice`, `Quot.sound` (section 6). No own axioms, no `sorry`,
  no `native_decide`, no `bv_decide`.
* The faithfulness of the transcription (comments in the model give file and lines).
* The assumptions about external crates given in section 2.

### What is modelled

| source | model |
|--------|-------|
| util/packets_history.rs | PacketsHistory (sequential), PacketsHistoryConc (stepwise) |
| adnl/transfer.rs, part branch of adnl/node/receiver.rs, splitting in adnl/node/sender.rs | Transfer, TransferConc |
| adnl/peers_set.rs | PeersSet |
| adnl/keystore.rs | Keystore |
| adnl/queries_cache.rs | QueriesCache |
| util/address_list.rs, packing of addresses in adnl/peer.rs | Address |
| subscriber/mod.rs, util/mod.rs `process_query` | Dispatch |
| adnl/peer.rs, `add_peer` of adnl/node/mod.rs | PeerTable, Node |
| `match_peer_addresses`, `get_peer_address` of adnl/node/mod.rs | MatchPeers |
| `maximise_recv_buffer` of adnl/socket.rs (the rest of this file is system calls) | Socket |
| adnl/ping_subscriber.rs, `ping` of dht/node.rs | Ping |
| the channel tables under concurrency: `create_channel`, `remove_peer`, `reset_peer` as steps of threads | ChannelConc |
| query of the peer exchange with its prefix | Exchange |
| unsafe code on buffers: packet_view.rs, `parse_handshake_packet`, `decrypt` of channels, `extract`, the query header of rldp/transfers_cache.rs, the receive buffer of receiver.rs | Views |
| allocations of adnl/peers_set.rs: reference counts, `Iter`, `IntoIter` | PeersSetMem |
| `TransfersCache::query`: the waits of a whole query, with what the loops read given by the environment | RldpTime |
| a whole RLDP query: `query`, `create_answer_handler` and `answer` of rldp/transfers_cache.rs between two nodes; timeouts are steps that can happen at any time | RldpExchange |
| any number of RLDP queries between any number of nodes at the same time: the table of transfers, `handle_message`, `query`, `answer`, `send`, `receive` of rldp/transfers_cache.rs; finished entries stay | RldpTable |
| any number of members of an overlay and the messages between them: overlay.rs 423-444, 543-608, 611-685, 720-781, 1114-1131; a message is a letter that can be delivered any number of times in any order; random choices are inputs | Gossip |
| util/network_builder.rs with the layers in adnl/mod.rs, dht/mod.rs, rldp/mod.rs, overlay/mod.rs; registration of subscribers, `start` and `new` of the nodes | Builder |
| references and tasks: `start`, `shutdown`, `Drop` of adnl/node/mod.rs, task loops of the ADNL, DHT and overlay nodes | Lifecycle |
| proto/adnl.rs, adnl/packet_view.rs, `extract` | Tl, AdnlProto |
| adnl/encryption.rs, adnl/handshake.rs | Crypto (parameters), Encryption |
| adnl/channel.rs | Channel |
| adnl/node/{mod,sender,receiver}.rs | Node, Sender, Receiver, Process, Ending, ReinitConc, ReceiveConc |
| dht/buckets.rs, dht/storage.rs, dht/node.rs, proto/dht.rs | Buckets, Storage, DhtNode, DhtConc (`add_dht_peer` step by step), DhtJoin (`query_dht_nodes`), DhtProto |
| bytes of queries: proto/rpc.rs, `try_consume_query` of dht/node.rs | DhtRpc |
| publishing: dht/entry.rs, `StoreValue` and the check of dht/futures.rs, `store_*`, `sign_local_node` of dht/node.rs | DhtEntry |
| the DHT node as a query subscriber, with everything else that touches its state (dht/node.rs) | DhtServe |
| `find_address` with its search (dht/node.rs:343-359, dht/streams.rs) | DhtFind |
| `find_more_dht_nodes`, `find_overlay_nodes` of dht/node.rs | Discover |
| scheme.tl | Spec/Scheme (copied, not part of the model) |
| dht/peers_iter.rs, dht/streams.rs | Lookup |
| the same in a network of peers with fixed answers (assumed: the stream is polled when made; fewer known peers than the capacity) | SearchNet |
| rldp/compression.rs, proto/rldp.rs | Compression, RldpProto |
| rldp/{encoder,decoder,incoming_transfer,outgoing_transfer}.rs | RldpTransfer, RldpSystem, RldpSender |
| rldp/transfers_cache.rs, rldp/node.rs | RldpQuery, RldpCache, RldpLimit, RldpOwn |
| proto/overlay.rs, overlay/overlay_id.rs | OverlayProto |
| overlay/overlay.rs | OverlayBroadcast, OverlayConc (the same calls, one step per access to shared data), OverlayPeers, OverlayPeersConc; sending in BroadcastSend (targets left open), FecWaves (the task that sends FEC packets) |
| `Display` of ids in adnl/node_id.rs, adnl/transfer.rs, overlay/overlay.rs, overlay/overlay_id.rs | Display (the crate `hex` by its documentation) |
| overlay/node.rs, overlay/broadcast_receiver.rs | OverlayNode, BroadcastReceiver |
| timeout tasks of multipart transfers in adnl/node/receiver.rs | TransferTimeout |
| `query_raw` of adnl/node/mod.rs with the drop stamp of channels (adnl/channel.rs) | ChannelDrop |
| queries and their answers (`query_raw` of adnl/node/mod.rs with adnl/queries_cache.rs) | QueryRaw |
| locks held by each function on shared maps and peer sets (all modules) | Locks |

### What is not modelled

* Sockets, the tokio scheduler (any order of steps is allowed instead), logging, metrics, memory limits.
* The random number generators (any outcome is allowed).
* `u64` overflow of times, `usize` overflow of byte counts, wrap-around of counters after 2^32 overlay
  broadcasts or 2^63 penalties.
* In OverlayBroadcast one call of `receive_broadcast` or `receive_fec_broadcast` is one step, in OverlayPeers one
  call of a function on peers; the background tasks and the counter/queue pair of the clean-up are separate steps.
  OverlayConc takes the broadcast calls apart, one step per access to shared data (C131), OverlayPeersConc the calls on
  peers (C137).
* In RldpCache the queries the node itself makes; RldpOwn has both, with the random ids of the node's queries taken to be
  new, and without the parts that are sent.
* `extract` changes its buffer in place; the model returns the changed buffer.
* `http`/config helpers, examples, the type-level lists of the network builder (the layers are a plain list).

## 4. Plan per property

| id | modelled | proof |
|----|----------|-------|
| C01 | `deliver_packet` sequentially, on 8 words/512 bits | the full claim is false in the code: the window base never leaves 0; prove the negation with a witness history; partial: at most once for histories with all numbers < 256, by invariant |
| C02 | same | invariant "set bits come from delivered numbers"; acceptance of every fresh number |
| C03 | step semantics of the CAS loop, any number of threads | inductive invariant: bit set under the lock, at most one accepting thread |
| C04 | `send_message` splitting loop, `add_part` | negation for long messages; partial for messages up to first part + 1024, any order |
| C05 | `add_part`, sequential and stepwise concurrent | invariant on the received counter |
| C06 | `add_part` with fuel = detected non-termination | permutation induction; negation for termination with a zero-length part; partial: terminates if all parts are non-empty |
| C07 | serialised lengths of messages, packet and envelope | arithmetic over all branches of `send_message`/`send_packet` |
| C08 | TL writer/reader of packet contents | round-trip theorem by sequential parser composition |
| C09 | `extract` on bytes | list splicing theorem |
| C10–C13 | handshake/channel layout with abstract cipher, hash, ECDH | round trip and "delivered → checksum matches", bounds as explicit errors |
| C14 | `check_packet` decision logic | negation (unsigned `from_short`) and partial for packets with full `from` |
| C15 | reinit part of `check_packet` and peer state; `try_reinit_sender` by several tasks | invariants over packet sequences and over interleavings |
| C16 | `create_channel` and channel tables | invariant over message histories |
| C17, C18 | peer set ring buffer; random selection with arbitrary choices | invariant; membership/distinctness/count |
| C19 | keystore | invariant; negation of atomicity (tag left behind), partial |
| C20 | queries cache as a step machine | invariant |
| C21 | `process_query` | induction on subscriber list |
| C22–C24 | peer table, address packing, address list | direct, `BitVec`/`Nat` arithmetic |
| C25–C27 | affinity, buckets | XOR metric lemmas; invariant over inserts |
| C28–C31 | storage | invariants over histories with arbitrary clocks |
| C32 | `parse_value_result` | negation (other key / unsigned rules) and partial for signature rule |
| C33–C35 | peers iterator, penalties, value stream | invariants; negations where code deviates |
| C36 | compress/decompress with abstract zstd | round trip; negation of transparency for raw payloads |
| C37–C44, C54, C55 | RLDP transfers, cache, query options | invariants; refinement against the sent data; negations for window underflow and answer boundary |
| C45–C50, C53 | overlay state | invariants over histories; negations for future-dated broadcasts, forged first FEC packet, stale neighbour |
| C56–C58 | DHT node as a whole: `add_dht_peer`, queries, answers | invariant over histories of queries; negations for find-value answers and for newer records |
| C59 | encoder and window | negation for more than 1000 source symbols; exact conditions |
| C60 | RLDP messages on the wire | round trip |
| C61, C62 | table of transfers as a step machine | invariants over all schedules; negation for a failed answer |
| C63–C65 | overlay broadcasts over all schedules of calls and tasks | invariants; negations for unverified FEC packets |
| C66 | step machine of push/pop/notifier | leads-to argument under weak fairness; negation with cancellation |
| C51 | step machine of push/pop/notifier | invariant: no stuck state with data; negation with cancellation |
| C52 | routing | decision logic |
| C67 | transfers with their timeout tasks and a clock in milliseconds | invariant over all schedules; negation: a stale task removes a newer transfer |
| C68, C69 | lock traces of every function that holds more than one lock, any number of threads | rank order of the locks, progress and termination; negation for opposite fillings of two peer sets |
| C70 | two nodes (Sender, Receiver, Process) and a network that loses, delays, reorders and duplicates | invariant over all executions: channel tables mirror each other, numbers are unique, confirmations never run ahead |
| C71 | `handle_received_data` with the processing of messages, subscribers as environment | induction over the messages of a packet; a message in parts has the effect of the message (C06 lifted to the node) |
| C72 | `send_message` and `handle_received_data` of two nodes over a network, users and subscribers as environment | simulation of the real system by the system of C70 |
| C73 | everything given to `sign` and `verify` in the crate | injectivity of encodings |
| C74 | transfers of coded broadcasts with their clean-up tasks and a clock | invariant over all schedules: the last accepted packet bounds the update time |
| C75 | `query_raw` with `update_drop_timeout`, any number of queries, packets and a clock | invariant over all schedules against the first miss since the last packet |
| C76 | `reset_peer`, `send_packet`, `handle_received_data` and channel messages on both sides | a handshake packet that passes all earlier checks is decided by its number and the number it confirms |
| C77 | `build_packet_cipher`, `build_handshake_packet`, `AdnlChannelSide::encrypt`, `compute_short_id` | packets are, byte by byte, what Spec/Wire says; pieces of key stream are shared only by blocks at equal positions of packets whose checksums agree where it matters |
| C78 | serialisation of everything sent; scheme.tl copied into Spec/Scheme with its own CRC-32, parser of declarations and writer by field names | every writer of the model equals the scheme's writer on the named fields |
| C79 | `try_consume_query` of the DHT on bytes (DhtRpc) | refinement to the structured queries by induction on the nesting; converse for all other byte strings |
| C80 | same, with the depth of the recursion | negation with a family of unsigned messages; the exact bound |
| C81 | signing and storing of entries (DhtEntry), storage, the byte handler | composition of C79 with the storage; negation with two values of one second |
| C82 | `sign_local_node`, `add_dht_peer`, the byte handler | computation on an arbitrary state |
| C83 | `store_overlay_node`, storage | negation; invariant "the frozen entry stays"; C31 for the partial |
| C84 | `send_broadcast` to `receive_broadcast` | composition of wire round trip, checks and step, for all states |
| C85 | `send_fec_broadcast` to delivery | invariant over runs of the receiver (Proofs/FecDelivery); induction over turns of the sender; negation of the count |
| C86 | broadcasts of several overlays | negation; exact effect of a replay |
| C87 | `DhtStoreValueWithCheck::poll` | negation; exact characterisation by induction over the values found |
| C88 | `query_raw`, answers among the processed messages, QueriesCache | negation; invariant linking the table of queries to the list of those asked, by induction over the run |
| C89 | `find_more_dht_nodes`, `add_dht_peer` | negation; exact effect of the first harmful record; induction over answers |
| C90 | `find_overlay_nodes` | invariant of the search (cache = ids received so far), induction over rounds |
| C91 | `find_overlay_nodes` | negation; exact condition for going on, from the same invariant |
| C92 | `add_dht_peer`, `add_peer` | negation; provenance of addresses by induction over runs |
| C93 | `send_message`, `handle_received_data`, key `peer_id` of `channels_by_peers` | negation by a run of two nodes; attribution of each kind of packet |
| C94 | the whole receiver, `add_peer`, `remove_peer`, `reset_peer` | negation; frame invariant `Kept` through every function of the receiver |
| C95 | `maximise_recv_buffer` | induction on the fuel of the binary search |
| C96 | references between nodes and tasks, `start`, `shutdown`, `Drop` | negation; invariants over all orders of operations |
| C97 | `match_peer_addresses`, `get_peer_address` | induction over the iterator, any order |
| C98 | `PingSubscriber`, `ping` of the DHT node | decision logic over any list of subscribers |
| C99 | answers of the DHT node through `send_message` and `add_part` | negation (lists of overlay nodes); exact sizes and limits |
| C100 | `create_channel`, `remove_peer`, `reset_peer` as threads, all schedules | negation (ids left behind; channel without ids); invariants for one local id and for calm schedules |
| C101 | `exchange_random_peers` on both sides, from the prefix to the filter of the answer | decision logic composed over two nodes, all histories |
| C102 | `known_peers`, the buckets and the peer table through `add_dht_peer` | negation (eviction); invariant, refinement to a bounded queue |
| C103 | memory of `PacketView`, handshake and channel opening, `extract`, RLDP header, receive buffer | refinement of the value model, undefined behaviour as a value |
| C104 | reference counts of `PeersSet`, `Iter`, `IntoIter` | negation (use after free); invariant, simulation, exact condition |
| C105 | `TransfersCache::query` as a sequence of waits | negation (held open); bound in the number of updates by invariant; bound for a silent peer |
| C106 | one transfer, both sides and the network | reachability: from every reachable running state (release) a finishing schedule is constructed; debug: negation with a witness and an invariant of the dead end |
| C107 | a whole RLDP query: the transfer of the query, the handler and the transfer of the answer, interleaved at will: it can only end with the application's answer to what was asked, and until somebody gives up it can always be brought there | invariant that carries a schedule of either transfer (C44, C106), then a continuation built from those of C106 |
| C108 | restart of one node: the other side notices, old packets refused, new channel | two-node packet theorems over any record of the other side, on top of C70; witness for the packets without date |
| C109 | addresses: what is announced, what is recorded, where datagrams are sent | invariant over all executions of the two-node system of C70, with the destination of every datagram; witness for old packets |
| C110 | queries and messages sent through an overlay arrive at the application | composition of C52 (dispatch by overlay) with C72 (ADNL) and C107 (RLDP) |
| C111 | Two complete nodes with messages of any length: parts, reassembly, give-ups, answers | simulation by C70 for packets and by a one-direction system (Proofs/Lane.lean) for transfers; invariants over runs; counterexample run |
| C112 | Any number of RLDP queries between any number of nodes at the same time | simulation in both directions between the part of the world with one transfer id and the single query of C107; frame lemma for all other ids; counterexample run |
| C113 | How an ordinary broadcast spreads in an overlay of any size | projection of the world to one member, so that C63 applies; invariant on the set of members that have the broadcast, with "a neighbour of a member that has it has it too or a letter is under way to it"; counting of letters by passes |
| C114 | How often a packet of an FEC broadcast is sent | counting of letters by passes and C65 for small numbers; for large ones the state "will pass it on" is preserved by passing it on, so that every delivery adds letters |
| C115 | what RLDP and overlays send fits the two datagrams of C111 | sizes of encodings, then C111; counterexample by a run |
| C116 | a message between two honest nodes is seen at most as often as it was sent (history on, fewer than 256 datagrams); exactly once per arriving copy without a history | counting invariant on the runs of C111: bytes needed by what was seen ≤ bytes of the datagrams that arrived |
| C117 | searches in a network: which peers are asked, what is found, when it ends | closed loop of answers and known peers; invariant on the positions read; negation for the first peer heard of |
| C118 | What is held or reserved for unfinished ADNL messages and RLDP transfers | Sums over the tables as invariants of any history; exact counterexample families by induction |
| C119 | what a DHT node acknowledged stays and is given to whoever asks, also over ADNL | every event of a node as a list of storage operations, then C30; C111 for the network |
| C120 | RLDP over an ADNL connection, both layers together | refinement of the two-layer system to the world of C112 by C111; computed example run |
| C121 | a search that asks a node with the value hands it out as published | C119, C81 and C117 put together |
| C122 | announcing oneself in an overlay and being found | history of a DHT node as a run of the storage with clocks (C31), read back by a search (C117) and by `find_overlay_nodes` (C90, C91); counterexample with a list that outlasts everything |
| C123 | an FEC broadcast spreads to every member reached along the choices and is delivered once | per symbol: first arrival is passed on (invariant on the history of numbers), induction over the path; then the receiving task of C85 |
| C124 | handling of whatever is received returns (no panic, no endless loop); exactly what breaks it | invariant of runs, decision logic, negation with a datagram |
| C125 | `store_address` … `find_address`: what is returned belongs to the node looked for and was published | composition of C121 and C81 with the storage invariant (C29); negation (a lying node), stale address as a witness |
| C126 | ordinary broadcasts in an overlay whose members are joined by ADNL connections, all layers together | refinement of the system of all connections to the world of C113 by C111; sizes as in C115; negation (2500 bytes); computed example with three members |
| C127 | FEC broadcasts in an overlay whose members are joined by ADNL connections, all layers together | the refinement of C126, to the world of C123; every packet fits two datagrams (C115); computed example with three members |
| C128 | how many peers, records and values an overlay and a DHT node can be made to keep | capacity invariant (C49), keys without repetition; negation by two families of counterexamples of any size |
| C129 | `NetworkBuilder` with its layers, registration of subscribers, `start` | function of the list of calls, by induction over the calls; negation (reason of a failure lost) |
| C130 | `receive_broadcast`, `receive_fec_broadcast`, who can take over or suppress an ordinary broadcast | negation; where remembered identities come from, as an invariant of runs; entries kept until their timers (C45) |
| C131 | `receive_broadcast`, `receive_fec_broadcast`, marking of own broadcasts, receiving and clean-up tasks, one step per access to shared data, in any interleaving | potential paid for by the table; invariant of transfers and tasks; refinement from OverlayBroadcast |
| C132 | entries of the node's own RLDP queries, receiving tasks, removals, transfers begun by others, calls dropped at any await | invariant with the owner of every entry; refuted for dropped calls |
| C133 | date and receive histories of a peer, any number of tasks, one atomic operation per step (peer.rs:41-57, packets_history.rs) | lock invariant over deliveries and resets; recorded numbers stay until a word is cleared; refuted for packets between the new date and the reset; refinement to the sequential model for tasks that do not overlap |
| C134 | the spinning lock of the receive histories, deliveries and resets by any number of tasks (packets_history.rs:23-54, 64-179) | every lock has a holder (invariant), decreasing rank; refuted for a bound on every task |
| C135 | printing of node, transfer, broadcast and overlay ids (node_id.rs:110-127, transfer.rs:118-130, overlay.rs:1400-1413, overlay_id.rs:130-134) | digit by digit; UTF-8 defined independently |
| C136 | `add_dht_peer` in any number of tasks, one access to shared data per step (dht/node.rs:573-612) | refinement to the calls one after another (order of `known_peers.insert`), with versions of pending records bounded by the sequential table; invariant for every moment |
| C137 | additions, removals, refills and requests for random peers of an overlay in any interleaving of their accesses | invariants over all interleavings; one-step refinement for undisturbed calls; refuted as a whole by an overtaken addition |
| C138 | records read back as written, unambiguous, stable when passed on (proto/*.rs, dht/node.rs `add_dht_peer`) | round trip, exact condition for address lists against the scheme |
| C139 | confirmations of an RLDP receiver (incoming_transfer.rs) | invariant over all message sequences, counted from the replies |
| C140 | joining through a node: `query_dht_nodes` with the own record, as bytes, on both sides (dht/node.rs:220-242, adnl/node/mod.rs:432-450, 571-585) | invariant of the node asked over all histories, C82, C79, C26 put together; negation (only closer nodes are told) |
| C141 | the task that sends an FEC broadcast in waves (overlay.rs:834-867) | induction over both loops, refinement to the list of packets of C85; negation (waves of no packets) |
| C142 | the receiving task of an FEC broadcast among the tasks that hand it packets, the clean-up and the collection | invariant of all interleavings: a receiving task that left its loop had decided the transfer, or nobody can reach it |
| C143 | a broadcast the node sent itself, among the tasks that handle packets, the clean-up and the collection | from the step that marks it on, in all interleavings, deliveries and copies passed on are bounded by the times it is forgotten; refuted when an old receiving task of the same broadcast is still in its loop |
| C144 | a request to join the DHT and its answer over an ADNL connection (C111), and the life of the DHT node asked | every event is a sequence of steps on the routing table; the record of the node that joined stays in it, and answers with room contain it |

## 5. Deviations found

Each is a theorem: the full claim is a `def …_full : Prop`, its negation `…_full_false` is proved with a
concrete witness, and the strongest true variant found carries the suffix `_partial`.

* **Replay window does not move** (C01, C65): `index` stays 0, packet numbers ≥ 256 are always accepted.
* **Split messages lose bytes** (C04): `build_part_message` adds the end position to the offset, so
  messages of more than two parts never arrive.
* **Joining can spin forever** (C06): an empty part makes the joining loop of `add_part` endless.
* **Versioned packets with an empty payload** are sent but cannot be opened (C10, C12).
* **Unsigned packets naming a peer by short id are accepted** (C14).
* **Reinit dates**: the first known date does not reset, concurrent packets can move the date back (C15).
* **Keystore**: a failed `add_key` leaves its tag behind (C19). **Peer table**: `add_peer` reports failure
  for a peer that stays in the table at its old address (C22).
* **Clock arithmetic** overflows near the end of u32 (C24).
* **DHT**: lookups accept values for other keys and without signatures for other rules (C32); the first
  peer discovered after a fill is skipped (C33); a timeout counts as success and the first error is free
  (C34); six requests instead of five (C35); find-value answers contain the most distant nodes (C57);
  `add_dht_peer` calls `Buckets::insert` only for peers not known before, so newer records of known
  peers are dropped although the table itself would keep the newest (C27, C58).
* **RLDP**: payloads that look compressed are changed (C36); the FEC length is not compared with the total
  size (C37); expired transfers are blindly confirmed, so the sender reports success for data never
  received (C38, C39); the window arithmetic underflows in the second part (C40); answers within 36
  bytes of the limit are sent and never accepted (C41); the round trip estimate is not limited (C43);
  copies arriving later run the handler again (C54); gc can double the number of parallel queries (C55);
  parts of more than 1000 symbols get no new repair symbols (C59); entries of failed answers stay (C61).
* **Overlay**: flags of ordinary broadcasts are not signed and a broadcast can be delivered again in the
  second its entry expires (C45); the log can exceed its limit (C46); the size of FEC broadcasts is that
  before decompression (C47); whoever sends the first packet owns the transfer (C48); removed peers stay
  neighbours (C50); dropped `pop` calls lose wake-ups and leave notifiers spinning (C51, C66); FEC
  packets are passed on unverified (C64).

* **Timeouts of multipart messages** (C67): the timeout task removes by hash, so the task of a finished
  transfer removes a newer one with the same hash; times are rounded to whole seconds.
* **Opposite fillings of two peer sets** block each other for ever (C69). The node itself fills one way only.
* **A query waiting with a replaced channel** resets the pair although the new channel is active (C75).
  Replayed datagrams of a channel also clear its drop stamp, because that happens before the duplicate check.
* **Resetting a peer does not change the reinit date** (C76): the next packets are dropped as duplicates and
  the answers refused until the counter has passed the numbers used before.
* **`dht.query` prefixes nest** without limit (C80), and a record with no valid signature does not stop the
  recursion (`add_dht_peer` returns `Ok(None)`). A query of 2^24 bytes nests 246 723 deep, all within one
  poll of the task.
* **An address list with an `adnl.address.udp6`** is not read at all (C78), so packets and node records of
  peers that have one are lost.
* **Acknowledged DHT values are not always kept**: a value that does not live longer than the stored one is
  dropped with the answer `dht.stored` (C81). For overlay node lists, whose expiry nobody signs, anyone can
  use this to shut everybody else out until the year 2106 (C83). Storage has no limit on the number and
  size of values either. The flag `check_all` of `DhtStoreValueWithCheck` is never read (futures.rs:92; C87).
* **One repair symbol.** `send_fec_broadcast` announces half as many packets again as the data has symbols and
  loops until its running number exceeds this limit. The encoder overwrites the number with the one of the symbol
  it produced, so the first repair symbol, number 2K, ends the loop: K + 1 packets are sent, and the broadcast
  does not survive the loss of two (C85).
* **Replay in other overlays.** Neither kind of broadcast signs the overlay, so whoever is in two overlays can
  replay what was sent in one into the other under the original sender's name (C86).
* **Suppressed by equal content.** The identity of a broadcast for any sender does not contain the sender: a
  member that has just received the same bytes with the date of the same second sends nothing (C84).
* **Anybody may answer** (C88). Answers are looked up by the query id alone; neither the peer nor the local id is
  compared. The ids are 32 bytes of a `SmallRng` (`gen_fast_bytes`), which is not a cryptographic generator: the
  ids of queries to one peer are not protected from another one that sees ids of the same thread.
* **One bad record stops the discovery of nodes** (C89). `find_more_dht_nodes` returns the error of the first
  record it cannot use and drops the answers of all other peers; any peer can do this to a node that asks it.
* **The search for overlay nodes may run for ever** (C91). Nodes whose address was not found are kept for the next
  round, where the cache of ids (filled in the first) skips them. As long as the DHT gives the same nodes, the loop
  goes on without a pause, even when the addresses can be found by now.
* **Old addresses come back** (C92). `add_dht_peer` sets the ADNL address before it looks at the version of the
  record. Records do not expire unless the signer says so, hence everybody can redirect a node's packets to any
  address the peer has ever published.
* **Several local ids share one channel per peer** (C93, C94). `channels_by_peers` has the id of the peer as its
  key, not the pair of ids. When two local ids talk to the same peer id, the second one sends through the channel
  of the first one: its first messages are dropped as duplicates, the next ones are attributed to the first id.
  On the other side a request for a channel with a second id drops the channel with the first one; a peer that
  keeps sending through it is ignored until it resets the connection.
* **Started nodes and DHT nodes are never dropped** (C96). The receiver task holds an `Arc<Node>`, and `Drop for
  Node`, which is meant to cancel the task, runs only when this reference is gone. Unless `shutdown` is called, a
  started node with its socket, subscribers and overlays stays for ever. The cleaning task of a DHT node does not
  leave its loop when `upgrade` fails; it stays for ever, also after `shutdown`.
* **Lists of overlay nodes outgrow the messages** (C99). The storage adds the nodes of every list published for an
  overlay and sets no limit. With 14 members the answer has 2080 bytes, needs three parts and therefore (C04) never
  arrives: every publication is acknowledged, and nobody can fetch the list any more. `find_node` has no limit on the
  number of nodes (`find_value` has `max_allowed_k`); answers with 15 nodes do not arrive either.
* **Ids of replaced channels can stay listed for ever** (C100). The vacant arm of `create_channel` gives up the entry
  of `channels_by_peers` before it lists the two ids. A second request handled in between replaces the channel,
  removes ids that are not there yet, and the first task then lists the ids of a channel that is gone. Nothing removes
  them afterwards.
* **A channel can end up without ids** (C100). `remove_peer`, and `reset_peer` for another local id of the same node,
  take the channel out of `channels_by_peers` and delete its ids afterwards. When the channel is made again in
  between, with the same keys, the new ids are deleted and the channel can be sent on but not received on.
* **Strangers decide whom a DHT node asks** (C102). Every signed record in front of a query enters the set of known
  peers, which holds 65536 nodes and drops the oldest. Announcing that many made-up nodes replaces all nodes the node
  asks in its lookups. The routing table, on the other hand, never drops a node and has no limit.
* **References to freed peers** (C104). `PeersSet::iter` is safe to call and yields references with the lifetime of
  the set, while only the iterator holds the lock. A caller that keeps one (`iter_known_peers` is public) reads freed
  memory once the peer is evicted. The crate itself copies the ids while the iterator lives.
* **A peer decides how long an RLDP query lasts** (C105). Every confirmed packet restarts the wait and lengthens the
  allowed silence by one percent; nothing bounds the whole query. A peer that confirms one packet per minimum timeout
  (500 ms) keeps the caller waiting for as long as it likes (`C105_held_open`).
* **Dead end of long transfers in builds with overflow checks** (C106, consequence of C40). As soon as the receiver confirmed a symbol above number 0 of the first part, a transfer of more than 2000000 bytes cannot be completed any more in a debug build, whatever the network does; in a release build it always can, from every reachable state.

* **Packets without reinit date survive a restart** (C108). The first packets to a node carry the target date 0. After the node was restarted they pass the date check and its history is empty, so a recorded packet is accepted once more while its address list is valid (1000 s by default).
* **A channel of the previous session outlives a quick restart** (C108). A request replaces a channel only if its date, in whole seconds, is later. Until then the other side keeps sending through the old channel, which the restarted node cannot read, and gets no answer that would tell it.
* **Refused packets change the address** (C109). `add_peer` runs before dates and numbers are checked. A handshake packet that is refused as too old, or as a duplicate, still sets the peer's address to the one in it. Replaying a packet recorded before a peer moved redirects the traffic to the old address until the peer sends a handshake packet again; peers with a channel send none.
* **`Overlay::send_message` can send nothing but broadcasts** (C110). The receiving node reads what follows the prefix as a broadcast (overlay/node.rs:148-150). Any other data is an error there, no application can subscribe to it, later message subscribers do not see it, and the rest of the packet is not processed.
* **Long messages vanish end to end** (C111). A message whose encoding has more than `first part + 1024` bytes (1936 to 2048, depending on the channel message sent along) is sent without error, all its datagrams arrive, and the other side never sees it (sender.rs:160 adds the end position to the offset, see C04). Queries of this size time out; custom messages are lost silently.
* **RLDP messages are matched to transfers by id alone** (C112). `handle_message` (transfers_cache.rs:167-268) never compares the sender with the peer of the transfer. Whoever knows the transfer id of a query can complete or spoil it: with the query id too, a third node's answer is returned as that of the asked node; without it the query fails. Both ids come from a non-cryptographic generator (`gen_fast_bytes`, a `SmallRng`), and every node that is asked something sees its output.
* **A broadcast need not reach everybody** (C113). Members pass a broadcast on to three neighbours chosen at random (overlay.rs:601-604); a member may be chosen by nobody although all letters arrive. Everybody reached along the choices gets it exactly once.
* **Packets of large FEC broadcasts multiply** (C114). A packet with a number of 256 or more is never recognised as a duplicate (C65), and `receive_fec_broadcast` passes it on to `secondary_fec_broadcast_target_count` (three) neighbours each time it arrives (overlay.rs:676-682). With more neighbours than targets, N deliveries make at least 1 + 3 N letters, until the date of the packet is outdated. Every broadcast of more than 256 symbols of 768 bytes has such packets, and any member can make one at will.
* **The limit for ordinary broadcasts can be set so high that they never arrive** (C115). `max_ordinary_broadcast_len` is not checked against what ADNL can carry: an ordinary broadcast of more than 1880 bytes takes three datagrams or more and is lost by C111, silently. The default of 768 is safe; with compression the limit is applied to the data before compression.
* **Default options handle every copy of a datagram** (C116). `packet_history_enabled` is `false` by default
  (src/adnl/node/mod.rs:104); then a datagram which the network (or an attacker who recorded it) delivers again is
  decrypted, accepted and handled again: a query is executed and answered once per copy.
* **A search misses the first peer it hears of** (C117). The read past the end of the known peers advances
  the index of `PeersIter`, so the first peer learnt after each reading is never asked by that search. In a
  sparse network where answers bring one peer at a time, `use_new_peers` has no effect at all; `find_address`
  does not set it and asks only peers it knew before. Repeating the search reaches one step further each time.
* **A small RLDP part reserves megabytes; a repeated ADNL part is not counted** (C118). `process_chunk` calls `reserve_exact` with the announced size on the first part of a transfer, even when that part is dropped afterwards, so `n` messages without data reserve `n` times `max_answer_size` (10 MB by default). `add_part` replaces the data of a known offset before it looks at lengths, so a message announced with `n + 1` bytes can hold any number of them.
* **One datagram of a stranger keeps a thread busy for ever** (C124). A packet of some 390 bytes with an empty part at offset 0 and a second part that makes up the announced length sends `Transfer::add_part` (transfer.rs:85-93) into a loop that never ends, before any hash is checked; as many such datagrams as there are worker threads stop the whole node.
* **`find_address` believes whoever answers first** (C125). The value in an answer is checked against its own key, not against the key asked for, so any DHT node can answer with its own signed address list and its address and key are returned for the node looked for. With honest nodes the first list wins, even if a newer one comes with the next answer.
* **Nothing limits how much others can leave in a node** (C128). `received_peers` grows with every new key whose record
  is sent in a query for random peers, until the application takes the records. `nodes` keeps the record of a peer after
  the peer is removed. A DHT node stores any number of values of one owner, with any time to live up to 2^32.
* **The builder hides why a network cannot be built** (C129). If the address is taken or cannot be resolved and there is
  any layer above ADNL, `build` initializes that layer first and returns its error, "ADNL was not initialized".
* **Ordinary broadcasts can be taken over and suppressed** (C130). What identifies and signs an ordinary broadcast
  does not name its author, as it is always sent with the flag for any sender. A member that sends the same data with
  the same date under its own name and is first somewhere gets it delivered as its own, and the author's broadcast is
  dropped there. A single part of an FEC broadcast with the identity of the broadcast as its data hash and 64 bytes of
  anything as signature also makes the broadcast be dropped, without anything being delivered.
* **Dropped RLDP calls** (C132). A call of `query` that the application drops while it waits (a timeout around it, a
  cancelled task) leaves its two entries in the table of transfers for ever, and its receiving task unless the whole
  answer still comes. Nothing else removes them.
* **New date stored before the histories are reset** (C133). `try_reinit_sender` stores the new date first and resets the histories afterwards. A packet of the new session handled by another task in between is accepted and recorded, the reset forgets it, and a replay of the same datagram is accepted again.
* **Spinning without yield** (C134). A task that finds a history locked loops without yielding to the runtime (`// TODO: yield`). It makes no progress until the thread of the holder is run, for an unbounded number of steps.
* **An overtaken addition brings a removed peer back among the neighbours** (C137). `insert_public_peer` asks whether there is room
  and inserts in two steps. If other additions fill the set and the peer is removed in between, the removal finds nothing to refill,
  and then the ignored peer displaces a neighbour that is in order; no order of the calls gives that.
* **A DHT node with two addresses is refused** (C138). `AddressList::read_from` keeps the first address and drops the
  priority, `write_to` writes one address and the priority 0. `add_dht_peer` checks the signature of the record written
  again, so a record that its owner signed with more than one address, or with a priority, is not taken over.
- C140: a node that joins with `query_dht_nodes(peer, k, true)` is told only about nodes closer to it than the node it
  asks; two nodes joining through the same third node need not learn of each other. The first places of the answer can
  hold the record of the joining node itself (with `k = 1` possibly nothing else), because its record is added before
  the query behind it is answered.
- C141: with `fec_broadcast_wave_len = 0` the sending task of an FEC broadcast never ends and never sends a packet;
  the option is not checked.

Seen while reading, not stated as properties of their own:

- The key repeated in `ConfirmChannel` is ignored.
- Broadcast signatures do not cover the certificate; certificates are read and not checked.
- A packet of an FEC broadcast is passed on before its signature is checked by the receiving task.
- `Peer::reset` raises the reinit date of the receiving side by one, but packets carry the start time of the node, so
  the raised date is never announced.
- Datagrams of more than 2048 bytes are cut to 2048 without notice (`RECV_BUFFER_SIZE`, receiver.rs:38).
- The FEC parameters in an RLDP part are handed to the decoder unchecked.
- `SO_REUSEPORT` is set after the socket was bound (socket.rs:8-17), when it has no effect on that bind.

## 6. Axiom audit

`vcheck` lists the axioms of every theorem. All depend on a subset of `propext`, `Classical.choice` and
`Quot.sound`. Computations in examples and witnesses use `decide` (also `decide +kernel`), which is checked
by the kernel and adds no axiom.

## 7. Mutation tests

`seeded/LOG.jsonl` has one line per wrong program tried: the definition of the model that was edited in a
scratch copy, the edit, the claim it should break, the theorems that no longer check (directly or because
a lemma they use fails), and the theorems tightened as a consequence. Lines marked "repair" remove a
deviation of section 5: there the negation has to fail.
