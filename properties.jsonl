{"id": "C01", "title": "Replay protection: a packet number is accepted at most once", "statement": "With the duplicate check enabled, for each connection the receiver accepts a packet carrying a given sequence number at most once: delivering the same number again is always refused, whatever was delivered in between.", "quantifier": "every sequence of delivered sequence numbers (u64), of any length and order, on one receive history", "why_tests_cant": "The state has 512 bits plus counters and the claim is about arbitrary long histories; a test only samples short ones (the repository's own tests stay inside a few hundred numbers).", "anchors": ["src/util/packets_history.rs: PacketsHistory::deliver_packet", "src/adnl/node/receiver.rs: Node::check_packet"]}
{"id": "C02", "title": "Replay protection never drops a first-time packet that is not too old", "statement": "A sequence number that was never delivered on a connection is accepted, unless it is older than the documented sliding window; in particular reordering inside the window never loses packets.", "quantifier": "every delivery history and every new sequence number", "why_tests_cant": "Needs all histories; a wrong bit index shows up only for special positions.", "anchors": ["src/util/packets_history.rs: PacketsHistory::deliver_packet, reset"]}
{"id": "C03", "title": "Replay protection under concurrency", "statement": "If several receiver tasks deliver the same packet number at the same time, at most one of them is told to accept it, for every interleaving of their atomic steps.", "quantifier": "every number of concurrent deliverers, every interleaving of the atomic operations, numbers inside the first window", "why_tests_cant": "Interleavings cannot be enumerated by tests and the race window is a few instructions.", "anchors": ["src/util/packets_history.rs: PacketsHistory::deliver_packet"]}
{"id": "C04", "title": "Large ADNL messages survive splitting and reassembly", "statement": "Every message the sender accepts to send in several parts is reconstructed by the receiver byte for byte once all emitted parts arrived, in any order.", "quantifier": "every message length and content, every arrival order of the parts, with and without an attached channel-setup message", "why_tests_cant": "The number of parts depends on the length; tests try a few lengths.", "anchors": ["src/adnl/node/sender.rs: Node::send_message, build_part_message", "src/adnl/transfer.rs: Transfer::add_part"]}
{"id": "C05", "title": "Reassembled message integrity and single delivery", "statement": "Whatever parts a remote peer sends (any offsets, overlaps, repetitions, lengths), a transfer hands a message to the application only if its SHA-256 equals the transfer id, and does so at most once per non-empty transfer, also when parts are processed concurrently.", "quantifier": "every sequence of parts, every interleaving of concurrent part handlers", "why_tests_cant": "Adversarial inputs and interleavings are unbounded.", "anchors": ["src/adnl/transfer.rs: Transfer::add_part"]}
{"id": "C06", "title": "Reassembly completes exactly on the last part and always terminates", "statement": "If the parts are a partition of the message into non-empty pieces, every proper subset yields no message and no error and the last arriving part yields the message; and for any parts whatsoever processing a part terminates.", "quantifier": "every partition of every message, every permutation; every part sequence for termination", "why_tests_cant": "Permutations and partitions are unbounded; non-termination cannot be observed by a test.", "anchors": ["src/adnl/transfer.rs: Transfer::add_part"]}
{"id": "C07", "title": "Emitted datagrams fit the MTU", "statement": "No call that sends ADNL messages ever produces a UDP datagram of 1500 bytes or more.", "quantifier": "every message, peer state, channel state and configuration (version set or not, handshake or channel)", "why_tests_cant": "The maximum is over all combinations of optional fields and lengths.", "anchors": ["src/adnl/node/sender.rs: send_message, send_packet", "src/proto/adnl.rs: OutgoingPacketContents", "src/adnl/mod.rs"]}
{"id": "C08", "title": "Packet contents encoding round trip", "statement": "Any packet contents the sender can serialise are parsed by the receiver to the same source, messages, sequence numbers, reinit dates and signature.", "quantifier": "every combination of optional fields and every field value", "why_tests_cant": "The bit flags give many combinations and the fields are unbounded.", "anchors": ["src/proto/adnl.rs: OutgoingPacketContents::write_to, IncomingPacketContents::read_from"]}
{"id": "C09", "title": "The receiver verifies exactly the bytes the sender signed", "statement": "For every packet serialised with a signature, removing the signature in place as the receiver does gives exactly the byte string the sender serialised without signature (the signed bytes), and leaves nothing else changed.", "quantifier": "every packet contents, every signature value", "why_tests_cant": "An offset or mask error would only be visible for particular field combinations.", "anchors": ["src/proto/adnl.rs: PacketContentsSignature::extract, OutgoingPacketContents", "src/adnl/node/sender.rs: send_packet", "src/adnl/node/receiver.rs: check_packet"]}
{"id": "C10", "title": "Handshake packets open to exactly what was sealed", "statement": "A packet sealed for a recipient key, with or without protocol version, is opened by the recipient to the same payload and version.", "quantifier": "every payload, recipient key, ephemeral key and version", "why_tests_cant": "Depends on buffer offsets for all lengths.", "anchors": ["src/adnl/handshake.rs: build_handshake_packet, parse_handshake_packet", "src/adnl/encryption.rs"]}
{"id": "C11", "title": "Handshake packets are delivered only if intact", "statement": "The recipient delivers a payload from a handshake packet only if the embedded checksum equals the hash of that payload (with version prefix if versioned); packets for other recipients are ignored; short packets are refused; no input makes it index out of bounds.", "quantifier": "every byte string received from the network", "why_tests_cant": "Arbitrary attacker-controlled input.", "anchors": ["src/adnl/handshake.rs: parse_handshake_packet", "src/adnl/encryption.rs: decode_version, compute_packet_data_hash"]}
{"id": "C12", "title": "Channel packets open to exactly what was sealed by the other end", "statement": "The two ends of a channel compute mirrored keys and ids, so each packet encrypted by one end (ordinary or priority, with or without version) is found under the channel id by the other and decrypted to the same payload and version; ends never confuse the two directions.", "quantifier": "every pair of node ids, shared secret, payload, version and priority flag", "why_tests_cant": "All orderings of ids and lengths.", "anchors": ["src/adnl/channel.rs: Channel::new, encrypt, decrypt, build_priority_secret, compute_channel_id"]}
{"id": "C13", "title": "Channel packets are delivered only if intact", "statement": "A channel packet is delivered only if the embedded checksum equals the hash of the delivered payload; too short packets are refused; no input makes it index out of bounds.", "quantifier": "every byte string received from the network", "why_tests_cant": "Arbitrary attacker-controlled input.", "anchors": ["src/adnl/channel.rs: Channel::decrypt"]}
{"id": "C14", "title": "Packets are attributed to a peer only with proof", "statement": "With packet_signature_required, a packet received outside a channel is processed as coming from peer P only if it carries a valid signature of P's key over the packet.", "quantifier": "every packet, every peer table state, every option value", "why_tests_cant": "Decision logic with many optional fields, adversarial input.", "anchors": ["src/adnl/node/receiver.rs: Node::check_packet"]}
{"id": "C15", "title": "Session dates never go back and clocks are respected", "statement": "The remembered reinit date of a peer never decreases; a packet whose source date is older than the remembered one, newer than now plus tolerance, or whose destination date is newer than our start, is rejected without touching the peer state; a strictly newer date resets the history exactly once.", "quantifier": "every sequence of packets, every clock reading", "why_tests_cant": "Ranges over histories and clocks.", "anchors": ["src/adnl/node/receiver.rs: check_packet", "src/adnl/peer.rs: PeerState::try_reinit_sender, Peer::try_reinit_sender"]}
{"id": "C16", "title": "Channel establishment agreement", "statement": "When two nodes exchange CreateChannel and ConfirmChannel, both end up with channels using the same pair of channel keys; a channel is only replaced by one with a different key and a newer date, and channel lookup tables stay consistent (every id listed belongs to the current channel of its peer).", "quantifier": "every order and duplication of create/confirm messages", "why_tests_cant": "Interleavings and repetitions of handshakes are unbounded.", "anchors": ["src/adnl/node/receiver.rs: process_message, create_channel", "src/adnl/channel.rs: is_still_valid", "src/adnl/node/mod.rs: remove_peer, reset_peer"]}
{"id": "C17", "title": "Bounded peer set keeps capacity, uniqueness and index consistency", "statement": "A peer set never holds more peers than its capacity nor the same peer twice; inserting reports true exactly for peers not present; a present peer is found by contains and by position; when full the oldest inserted peer is evicted.", "quantifier": "every capacity and every sequence of inserts", "why_tests_cant": "Ring-buffer wraparound invariant over unbounded insert sequences.", "anchors": ["src/adnl/peers_set.rs: PeersSet::insert, contains, PeersSetState::insert, with_peers_and_capacity"]}
{"id": "C18", "title": "Random selection returns distinct members and the promised number", "statement": "Selecting n random peers returns distinct members of the set, never the excluded peer, and exactly min(n, number of eligible peers) of them; filling from another set only adds peers allowed by the filter.", "quantifier": "every set, amount, excluded peer and random choice", "why_tests_cant": "All outcomes of the random generator must be covered.", "anchors": ["src/adnl/peers_set.rs: get_random_peers, randomly_fill_from"]}
{"id": "C19", "title": "Keystore lookups are consistent and failed additions change nothing", "statement": "After any sequence of additions, lookup by tag returns the key most recently accepted for that tag, lookup by id returns the key with that id, every tag resolves to a stored key, and an addition that reports an error leaves the keystore unchanged.", "quantifier": "every sequence of key additions", "why_tests_cant": "Histories of additions including failing ones.", "anchors": ["src/adnl/keystore.rs: KeystoreBuilder, Keystore::add_key, key_by_id, key_by_tag"]}
{"id": "C20", "title": "A query resolves at most once and only with its own answer", "statement": "Each outstanding ADNL query is completed at most once, only by an answer carrying its query id, and after it was answered or dropped nothing about it remains in the table; answers for unknown ids change nothing.", "quantifier": "every interleaving of queries, answers, timeouts and drops", "why_tests_cant": "Races between answers and timeouts.", "anchors": ["src/adnl/queries_cache.rs: QueriesCache, PendingAdnlQuery", "src/adnl/node/mod.rs: query_raw"]}
{"id": "C21", "title": "Subscriber dispatch order", "statement": "A query is offered to the subscribers in registration order until the first one consumes it or fails; later subscribers never see it; the bytes offered are the same unless a subscriber returns modified ones; it is reported unhandled only if all rejected it.", "quantifier": "every list of subscribers with arbitrary behaviours", "why_tests_cant": "Behaviour of subscribers is arbitrary.", "anchors": ["src/subscriber/mod.rs: process_query", "src/adnl/node/receiver.rs: process_message_custom"]}
{"id": "C22", "title": "Peer table admission", "statement": "A node never stores itself, a peer at its own socket address or a peer rejected by the filter; adding a peer reports true exactly when the peer is stored afterwards; re-adding keeps the peer's session state and only changes the address.", "quantifier": "every sequence of additions and removals, every filter", "why_tests_cant": "Histories and arbitrary filters.", "anchors": ["src/adnl/node/mod.rs: Node::add_peer, remove_peer"]}
{"id": "C23", "title": "Peer addresses survive packing", "statement": "Every IPv4 socket address stored for a peer is read back unchanged.", "quantifier": "all 2^48 addresses", "why_tests_cant": "Domain too large to enumerate.", "anchors": ["src/adnl/peer.rs: pack_socket_addr, unpack_socket_addr", "src/util/address_list.rs: parse_address_list", "src/proto/adnl.rs: Address"]}
{"id": "C24", "title": "Address lists are accepted only while valid", "statement": "An address list yields an address only if it is non-empty, not expired and not dated further in the future than the tolerance, for every clock value, and never aborts.", "quantifier": "every list, clock and tolerance", "why_tests_cant": "Boundary and overflow behaviour over 32-bit values.", "anchors": ["src/util/address_list.rs: parse_address_list"]}
{"id": "C25", "title": "DHT proximity is the length of the common prefix, consistent with XOR distance", "statement": "The bucket number of a node equals the number of leading bits it shares with the local id (capped at 255: only identical ids share more), it is symmetric, and of two nodes the one sharing a longer prefix with a target is strictly closer in XOR distance.", "quantifier": "all pairs/triples of 256-bit keys", "why_tests_cant": "2^512 cases.", "anchors": ["src/dht/buckets.rs: get_affinity"]}
{"id": "C26", "title": "DHT node lookup answers with nodes closer to the target", "statement": "A find-node answer contains distinct stored nodes only, at most k of them (k ≥ 1), every returned node strictly closer to the target than the answering node, ordered by non-increasing proximity class, and if fewer than k are returned then every stored node strictly closer than the answering node is included.", "quantifier": "every bucket table reachable by insertions, every target and k", "why_tests_cant": "All 256-bit targets and tables.", "anchors": ["src/dht/buckets.rs: Buckets::find, insert", "src/dht/node.rs: process_find_node"]}
{"id": "C27", "title": "DHT routing table keeps one, newest, entry per node in the right bucket", "statement": "After any insertions each node id occurs at most once, in the bucket of its affinity, and the stored version never decreases.", "quantifier": "every insertion sequence", "why_tests_cant": "Histories unbounded.", "anchors": ["src/dht/buckets.rs: Buckets::insert", "src/dht/node.rs: add_dht_peer"]}
{"id": "C28", "title": "DHT storage never serves expired values", "statement": "A lookup returns a value only if its ttl is strictly greater than the current time, whether or not garbage collection ran; collection removes exactly the expired values and never a live one; storing an expired value is an error.", "quantifier": "every storage history and clock value", "why_tests_cant": "Histories with arbitrary clocks.", "anchors": ["src/dht/storage.rs: Storage::get_ref, insert, gc"]}
{"id": "C29", "title": "DHT storage holds only authentic, well-formed entries", "statement": "Every entry in the storage is stored under the hash of its own key, has a name within the limit and an index within the limit, a key owner whose id hashes to the key id, and, for signature-updated keys, valid signatures of the key description and of the value by the owner.", "quantifier": "every sequence of store requests from arbitrary peers", "why_tests_cant": "Adversarial histories.", "anchors": ["src/dht/storage.rs: insert, insert_signed_value, insert_overlay_nodes"]}
{"id": "C30", "title": "Signed DHT values only move forward", "statement": "For a signature-updated key, the stored ttl never decreases while the entry lives and the entry is replaced only by a value with strictly larger ttl; the insert reports true exactly when the stored value changed.", "quantifier": "every sequence of store requests", "why_tests_cant": "Histories unbounded.", "anchors": ["src/dht/storage.rs: insert_signed_value"]}
{"id": "C31", "title": "Overlay node lists in the DHT merge monotonically", "statement": "Merging node lists for a public overlay keeps, for each node id, exactly one record, the one with the greatest version seen in either list, and only records with valid signatures for that overlay; no node known before disappears while the entry is alive.", "quantifier": "every stored list and incoming list", "why_tests_cant": "All pairs of lists.", "anchors": ["src/dht/storage.rs: insert_overlay_nodes, make_overlay_nodes_value"]}
{"id": "C32", "title": "Values found in the DHT are authentic and answer the question", "statement": "A value handed to the caller of a DHT lookup is for the key that was asked for and carries valid signatures of the key's owner.", "quantifier": "every response of arbitrary remote nodes", "why_tests_cant": "Adversarial responses.", "anchors": ["src/dht/node.rs: parse_value_result, verify_signed_dht_value, find_address", "src/dht/streams.rs"]}
{"id": "C33", "title": "DHT lookups visit each peer at most once and prefer close ones", "statement": "During one lookup no peer is asked twice, only peers not considered bad are asked, each batch contains the closest eligible remaining peer, and a lookup that is not stopped early asks every eligible known peer including those discovered on the way.", "quantifier": "every peer set, target, penalty state and discovery order", "why_tests_cant": "All peer sets and orders.", "anchors": ["src/dht/peers_iter.rs: PeersIter", "src/dht/streams.rs: DhtValuesStream"]}
{"id": "C34", "title": "DHT penalties", "statement": "A peer becomes unused only after repeated failures without successes: the penalty never goes below zero, rises on each failed query, decreases on success, and every peer that keeps failing is eventually considered bad while a success-only peer never is.", "quantifier": "every sequence of query outcomes", "why_tests_cant": "Histories unbounded.", "anchors": ["src/dht/node.rs: update_peer_status, set_good_peer, is_bad_peer"]}
{"id": "C35", "title": "DHT lookups bound parallel requests", "statement": "A DHT value lookup never has more than the configured number of requests in flight, and it ends only when no request is in flight and no candidates remain.", "quantifier": "every interleaving of responses", "why_tests_cant": "Interleavings unbounded.", "anchors": ["src/dht/streams.rs: DhtValuesStream::poll_next, refill_futures"]}
{"id": "C36", "title": "RLDP compression is transparent", "statement": "Decompressing what was compressed gives the original bytes for every payload, and a payload sent uncompressed is delivered unchanged.", "quantifier": "every byte string", "why_tests_cant": "Unbounded inputs; interaction of raw payloads with the compressed format.", "anchors": ["src/rldp/compression.rs: compress, decompress", "src/rldp/transfers_cache.rs", "src/overlay/overlay.rs: receive_broadcast"]}
{"id": "C37", "title": "RLDP receiver bounds and finishes exactly", "statement": "An incoming transfer never buffers more than the agreed total size (itself at most the maximum answer size), its declared size never changes, and it is reported complete exactly when the collected data has the declared size.", "quantifier": "every sequence of message parts sent by a remote peer", "why_tests_cant": "Adversarial sequences unbounded.", "anchors": ["src/rldp/incoming_transfer.rs: process_chunk, is_complete, into_data"]}
{"id": "C38", "title": "RLDP end-to-end delivery under loss, duplication and reordering", "statement": "If the receiver completes a transfer whose parts come from one honest sender, the received data equals the data sent, however datagrams were lost, duplicated, delayed or reordered; part numbers acknowledged never exceed parts decoded.", "quantifier": "every network schedule and every message size", "why_tests_cant": "Schedules unbounded.", "anchors": ["src/rldp/outgoing_transfer.rs", "src/rldp/incoming_transfer.rs: process_chunk", "src/rldp/transfers_cache.rs"]}
{"id": "C39", "title": "RLDP sender advances and finishes only on acknowledgement", "statement": "The sender moves to the next part only after the receiver completed the current part, never skips or repeats a part, and stops successfully only after all parts were completed; stale, duplicated or reordered confirmations never move it backwards or beyond what the receiver completed.", "quantifier": "every order of confirm/complete messages", "why_tests_cant": "Schedules unbounded.", "anchors": ["src/rldp/outgoing_transfer.rs: start_next_part, is_finished, is_finished_or_next_part, set_part, set_seqno_in", "src/rldp/transfers_cache.rs: OutgoingContext::send, handle_message"]}
{"id": "C40", "title": "RLDP sending window arithmetic is safe", "statement": "Producing the next chunk never aborts or wraps around, and sends a fresh symbol whenever the window allows it, for every interleaving of sends and confirmations across parts.", "quantifier": "every interleaving of sends and confirmations over any number of parts", "why_tests_cant": "Unsigned underflow only in rare interleavings.", "anchors": ["src/rldp/outgoing_transfer.rs: prepare_chunk, set_seqno_in"]}
{"id": "C41", "title": "Every RLDP answer the server agrees to send is accepted by the client", "statement": "If the server accepts an answer because its size is within the client's maximum answer size, the client's receiver does not reject it for its size.", "quantifier": "every answer length and maximum", "why_tests_cant": "Boundary values of all lengths.", "anchors": ["src/rldp/transfers_cache.rs: process_rldp_query, create_answer_handler, query", "src/rldp/incoming_transfer.rs: process_chunk"]}
{"id": "C42", "title": "RLDP query and answer transfers cannot collide", "statement": "The answer transfer id is determined by the query transfer id, differs from it, and applying the rule twice gives the original id back, so both ends agree and never mix the two directions.", "quantifier": "all 256-bit ids", "why_tests_cant": "2^256 cases.", "anchors": ["src/rldp/transfers_cache.rs: negate_id, query, create_answer_handler"]}
{"id": "C43", "title": "RLDP timeouts stay within limits", "statement": "Per-attempt timeouts and roundtrip estimates always stay between the configured minimum and maximum for every sequence of observed roundtrips, and the wait grows so that every operation ends.", "quantifier": "every roundtrip history and configuration with min ≤ max", "why_tests_cant": "Feedback over histories.", "anchors": ["src/rldp/transfers_cache.rs: QueryOptions, is_timed_out"]}
{"id": "C44", "title": "An RLDP query result is the answer to that query", "statement": "The data returned by an RLDP query is the data of an answer carrying the same query id; otherwise an error or no answer is reported.", "quantifier": "every received message", "why_tests_cant": "Arbitrary input.", "anchors": ["src/rldp/node.rs: Node::query", "src/rldp/transfers_cache.rs: OwnedRldpMessageQuery::from_data"]}
{"id": "C45", "title": "Ordinary broadcasts are delivered at most once, authentic and in date", "statement": "A broadcast is handed to the application only if it is signed by its source over its content, flags and date, is not older than the timeout, and at most once per node, whatever is received.", "quantifier": "every sequence of received broadcasts, every clock and clean-up schedule", "why_tests_cant": "Histories with clean-up and clock.", "anchors": ["src/overlay/overlay.rs: receive_broadcast, create_broadcast, spawn_broadcast_gc_task, make_broadcast_to_sign"]}
{"id": "C46", "title": "Broadcast log stays bounded", "statement": "After each clean-up round the number of remembered finished broadcasts is at most the configured maximum, entries are forgotten oldest first, and an entry is never forgotten while there are fewer finished entries than the maximum.", "quantifier": "every interleaving of broadcast completions and clean-up", "why_tests_cant": "Concurrent counter and queue.", "anchors": ["src/overlay/overlay.rs: Overlay::new (gc loop), spawn_broadcast_gc_task"]}
{"id": "C47", "title": "FEC broadcasts are delivered authentic", "statement": "Data delivered from an FEC broadcast hashes to the broadcast's data hash, has the declared size, and every symbol used was signed by the source for that broadcast.", "quantifier": "every sequence of received packets", "why_tests_cant": "Adversarial sequences.", "anchors": ["src/overlay/overlay.rs: receive_fec_broadcast, spawn_fec_transfer_receiver, process_fec_broadcast, make_fec_part_to_sign"]}
{"id": "C48", "title": "Outsiders cannot suppress an FEC broadcast", "statement": "A packet that is not signed by the broadcast's source does not change whether a correctly signed broadcast is delivered.", "quantifier": "every sequence of received packets with forged ones inserted anywhere", "why_tests_cant": "Adversarial insertion.", "anchors": ["src/overlay/overlay.rs: receive_fec_broadcast, create_fec_recv_transfer, spawn_fec_transfer_receiver"]}
{"id": "C49", "title": "Public overlay membership admits only verified nodes", "statement": "Nodes accepted into a public overlay's peer table have a record signed by themselves for this overlay, are never the local node, and for each node the record with the greatest version seen is kept.", "quantifier": "every sequence of received node lists", "why_tests_cant": "Adversarial histories.", "anchors": ["src/overlay/overlay.rs: filter_nodes, add_public_peer, add_public_peers, insert_public_peer", "src/overlay/overlay_id.rs: verify_overlay_node"]}
{"id": "C50", "title": "Removed overlay peers are no longer used", "statement": "After a public peer is removed from an overlay, it is not used any more as a target of broadcasts and not returned in random-peer answers, until it is added again.", "quantifier": "every history of additions, removals and exchanges", "why_tests_cant": "Depends on the random refill of neighbours.", "anchors": ["src/overlay/overlay.rs: remove_public_peer, update_neighbours, process_get_random_peers"]}
{"id": "C51", "title": "Received broadcasts reach waiting consumers", "statement": "Every broadcast pushed is returned by exactly one wait call, in order, and no consumer waits forever while data is available, for every interleaving of producers, consumers, notifier tasks and cancelled waits.", "quantifier": "every interleaving of any number of producers and consumers", "why_tests_cant": "Lost wake-ups depend on interleavings of single atomic operations.", "anchors": ["src/overlay/broadcast_receiver.rs: BroadcastReceiver::push, pop"]}
{"id": "C52", "title": "Overlay traffic is routed by overlay id", "statement": "A broadcast or query for an overlay is given only to that overlay or its subscriber; messages for unknown overlays are errors; messages of other kinds are left to other subscribers; re-registering an overlay or subscriber returns the existing one unchanged.", "quantifier": "every message and registration history", "why_tests_cant": "Arbitrary input and histories.", "anchors": ["src/overlay/node.rs: NodeState, Node"]}
{"id": "C53", "title": "Peer exchange answers are bounded and well-formed", "statement": "A random-peers answer contains the local node's own signed record and otherwise only records of known peers of this overlay, without duplicates, at most five in all.", "quantifier": "every peer table and random choice", "why_tests_cant": "All random choices.", "anchors": ["src/overlay/overlay.rs: prepare_random_peers, process_get_random_peers"]}
{"id": "C54", "title": "RLDP cleans up and serves duplicates idempotently", "statement": "A repeated query message (retransmission) for a transfer already being handled or finished never runs the application handler a second time.", "quantifier": "every order and repetition of message parts", "why_tests_cant": "Schedules unbounded.", "anchors": ["src/rldp/transfers_cache.rs: handle_message, create_answer_handler, receive"]}
{"id": "C55", "title": "Concurrent RLDP queries per peer are bounded", "statement": "At most the configured number of RLDP queries to one peer is in progress at any moment.", "quantifier": "every interleaving of queries to any peers", "why_tests_cant": "Interleavings unbounded.", "anchors": ["src/rldp/node.rs: Node::query"]}
{"id": "C56", "title": "Routing table and storage of a DHT node hold authentic records only", "statement": "Whatever queries and answers a DHT node receives, every record in its routing table is signed by the node it describes, is stored once under the hash of that node's key in the bucket of its affinity, and is not about the node itself; find-node answers consist of such records, strictly closer to the target.", "quantifier": "every sequence of received queries, nested prefixes, answers, clean-ups and peer status changes", "why_tests_cant": "Adversarial histories of mixed operations.", "anchors": ["src/dht/node.rs: add_dht_peer, process_find_node", "src/dht/buckets.rs: insert"]}
{"id": "C57", "title": "Find-value answers contain the closest nodes", "statement": "When a DHT node does not have a value asked for, no node it leaves out of the answer is closer to the key than one it puts into the answer.", "quantifier": "every routing table reached by any history, every key and k", "why_tests_cant": "All tables and keys.", "anchors": ["src/dht/node.rs: process_find_value"]}
{"id": "C58", "title": "Newer records of DHT nodes replace older ones", "statement": "After a DHT node record was accepted, the routing table holds a record of that node which is at least as new.", "quantifier": "every history of received records", "why_tests_cant": "Histories.", "anchors": ["src/dht/node.rs: add_dht_peer", "src/dht/buckets.rs: insert"]}
{"id": "C59", "title": "RLDP sender keeps producing new symbols while they are needed", "statement": "While a part is not complete, the sender goes on sending symbols it has not sent before, so that a receiver that lost some can still decode.", "quantifier": "every part size, loss pattern and order of confirmations", "why_tests_cant": "Depends on part size and on which confirmations survive.", "anchors": ["src/rldp/outgoing_transfer.rs: prepare_chunk, set_seqno_in, WINDOW", "src/rldp/encoder.rs: encode"]}
{"id": "C60", "title": "RLDP wire format round-trips and is unambiguous", "statement": "Every RLDP message and message part is read back exactly as written, different values have different encodings none of which is a prefix of another, and the in-place query reader accepts exactly what the general reader reads as a query, with the same contents.", "quantifier": "every message, message part and trailing bytes", "why_tests_cant": "Arbitrary contents.", "anchors": ["src/proto/rldp.rs: Message, MessagePart", "src/rldp/transfers_cache.rs: OwnedRldpMessageQuery::from_data"]}
{"id": "C61", "title": "RLDP transfer table entries are removed", "statement": "Once all tasks of incoming transfers have finished, the table contains no entry made for them.", "quantifier": "every interleaving of tasks, timers and message handling", "why_tests_cant": "Depends on the order of timers and on failures of sending.", "anchors": ["src/rldp/transfers_cache.rs: create_answer_handler, answer"]}
{"id": "C62", "title": "The RLDP query handler is only given complete queries", "statement": "If the message parts of a transfer come from the sender of one query, the handler is given exactly that query: never a truncated or mixed one, even if the transfer is cut off by its timeout or its parts are lost, repeated, reordered or delayed across removals of the entry.", "quantifier": "every query, every schedule of messages, tasks and timers", "why_tests_cant": "Truncation at a part boundary needs large queries and a timeout at the right moment.", "anchors": ["src/rldp/transfers_cache.rs: receive, answer, OwnedRldpMessageQuery::from_data", "src/rldp/incoming_transfer.rs: process_chunk"]}
{"id": "C63", "title": "A broadcast is delivered at most once while it is remembered", "statement": "Every broadcast, ordinary or FEC, is handed to the application at most once more than the number of times the node has forgotten it.", "quantifier": "every schedule of received messages, receiving tasks, clean-up tasks and timers", "why_tests_cant": "Histories in which transfers of the same broadcast end, are forgotten and begin again.", "anchors": ["src/overlay/overlay.rs: receive_broadcast, receive_fec_broadcast, create_fec_recv_transfer, Overlay::new (gc loop)"]}
{"id": "C64", "title": "Only authentic broadcasts are passed on", "statement": "A broadcast that is distributed to the neighbours carries a valid signature of the node it names as its source.", "quantifier": "every state of the overlay and every received message", "why_tests_cant": "Adversarial input.", "anchors": ["src/overlay/overlay.rs: receive_broadcast, receive_fec_broadcast, distribute_broadcast"]}
{"id": "C65", "title": "FEC packets are passed on once", "statement": "A packet of an FEC broadcast is distributed to the neighbours at most once while the broadcast is remembered, so packets cannot circulate between nodes.", "quantifier": "every schedule of received messages and clean-up", "why_tests_cant": "Depends on the packet history and long histories.", "anchors": ["src/overlay/overlay.rs: receive_fec_broadcast", "src/util/packets_history.rs: deliver_packet"]}
{"id": "C66", "title": "Notifier tasks of the broadcast queue end", "statement": "Every push spawns one notifier task; once every wait call has returned or was dropped and no new ones are made, every notifier task ends.", "quantifier": "every fair interleaving of producers, consumers, notifier tasks and dropped calls", "why_tests_cant": "A task that spins forever shows only as load, and only after a dropped call.", "anchors": ["src/overlay/broadcast_receiver.rs: BroadcastReceiver::push, pop"]}
{"id": "C67", "title": "Incomplete multipart messages are given up after the timeout, and only then", "statement": "A multipart message of which no part has arrived for the transfer timeout is removed from the table of incoming transfers, within two timeouts of its last part; and a timeout never removes a transfer of which a part has arrived within the transfer timeout.", "quantifier": "every schedule of concurrent part handlers, timeout tasks and the clock; every timeout", "why_tests_cant": "Needs transfers with the same hash at the right distance in time, or parts arriving in the last milliseconds of a second.", "anchors": ["src/adnl/node/receiver.rs: process_message", "src/util/updated_at.rs: UpdatedAt::refresh, is_expired", "src/adnl/transfer.rs: Transfer::timings"]}
{"id": "C68", "title": "The locks of the node cannot deadlock", "statement": "However many tasks send, receive, make and reset channels, add and remove peers, update overlay neighbours and store DHT values at the same time, some task can always go on: no set of tasks waits for each other's locks, even when waiting writers keep readers out.", "quantifier": "every number of tasks, every sequence of operations and keys of each, every interleaving of lock operations", "why_tests_cant": "A deadlock needs a rare interleaving of several threads on the same shards.", "anchors": ["src/adnl/node/sender.rs: send_message", "src/adnl/node/receiver.rs: create_channel, check_packet", "src/adnl/node/mod.rs: reset_peer, remove_peer, match_peer_addresses", "src/adnl/peers_set.rs: randomly_fill_from", "src/overlay/overlay.rs: update_neighbours, prepare_random_peers", "src/overlay/node.rs: add_public_overlay"]}
{"id": "C69", "title": "Peer sets can be filled from each other concurrently", "statement": "Tasks that call randomly_fill_from between any peer sets never block for ever.", "quantifier": "every number of tasks, sets and fillings, every interleaving", "why_tests_cant": "Needs two fillings in opposite directions at the same moment.", "anchors": ["src/adnl/peers_set.rs: PeersSet::randomly_fill_from"]}
{"id": "C70", "title": "Packets between two honest nodes are accepted", "statement": "Between two nodes that know each other and do not restart, every packet one of them sends (handshake or through the channel, whatever channel messages were exchanged, lost or reordered before) is accepted when it arrives for the first time within the lifetime of its address list: with exactly its messages, its priority, and under the sender's id. Later copies are accepted again or dropped, never an error and never answered.", "quantifier": "every execution of sends, losses, delays, reorderings and duplications on both sides, every randomness and clock within u32", "why_tests_cant": "A false rejection needs one particular order of channel creation, confirmation, numbers and confirmations out of unboundedly many.", "anchors": ["src/adnl/node/sender.rs: send_message, send_packet", "src/adnl/node/receiver.rs: handle_received_data, check_packet, create_channel", "src/adnl/channel.rs", "src/adnl/handshake.rs"]}
{"id": "C71", "title": "Subscribers and queries see exactly the messages of accepted packets", "statement": "Nothing reaches subscribers or waiting queries unless the datagram was accepted. The messages of an accepted packet are handled in order and once each, under the ids of the packet and with the query id they carry, up to and including the first one that fails; if none fails, all are. A message assembled from parts has the hash named in the part that completed it.", "quantifier": "every datagram, node state, option and behaviour of subscribers", "why_tests_cant": "Depends on the combination of messages, failing subscribers and table states.", "anchors": ["src/adnl/node/receiver.rs: handle_received_data, process_message"]}
{"id": "C72", "title": "Queries between two honest nodes get the answer of the other side's subscriber", "statement": "In every run of two nodes that know each other and do not restart: sending a query or a custom message that fits into one packet succeeds; the first time its datagram arrives, the subscribers of the other side see exactly that message; if they answer, exactly one datagram goes back, and the first time it arrives the query gets exactly this answer. Nothing else is ever seen: every query, custom message and answer shown on one side was asked for, or given, on the other side with the same contents.", "quantifier": "every execution of sends, answers, losses, delays, reorderings and duplications, interleaved with channel negotiation; every message of up to 908 bytes, subscriber behaviour, randomness and clock within u32", "why_tests_cant": "Combines encryption, signatures, packet numbers, channel negotiation and processing; a test covers a handful of interleavings.", "anchors": ["src/adnl/node/sender.rs: send_message, send_packet", "src/adnl/node/receiver.rs: handle_received_data, process_message", "src/adnl/node/mod.rs: query, send_custom_message"]}
{"id": "C73", "title": "A signature covers every field and serves one purpose", "statement": "The bytes signed for an ADNL packet, a DHT key, a DHT value, a DHT node record, an overlay membership or a broadcast determine the kind of record and every one of its fields. So a signature a node made for one record is never valid for another record of the same or of another kind (for broadcasts: unless two named inputs of the hash collide).", "quantifier": "all pairs of records of all six kinds with all field values", "why_tests_cant": "Two records with the same encoding would have to be found by search.", "anchors": ["src/adnl/node/sender.rs: send_packet", "src/adnl/node/receiver.rs: check_packet", "src/proto/adnl.rs: PacketContentsSignature::extract", "src/dht/storage.rs", "src/dht/entry.rs", "src/dht/node.rs: sign_local_node, add_dht_peer", "src/overlay/overlay.rs: sign_local_node, make_broadcast_to_sign, make_fec_part_to_sign", "src/overlay/overlay_id.rs: verify_overlay_node"]}
{"id": "C74", "title": "A coded broadcast is given up only after a silence", "statement": "As long as a packet of an unfinished coded broadcast was accepted less than the timeout ago (up to the rounding to a second), the clean-up task of its transfer goes on waiting and forgets nothing. If the last packet is longer ago than the timeout, the next wake-up of the task ends the waiting and schedules the broadcast to be forgotten.", "quantifier": "every execution of packets, tasks and wake-ups, every timeout", "why_tests_cant": "Timeouts of minutes with packets at arbitrary instants in between; the rounding to seconds matters only at single instants.", "anchors": ["src/overlay/overlay.rs: receive_fec_broadcast, spawn_fec_transfer_receiver, spawn_broadcast_gc_task"]}
{"id": "C75", "title": "Channels are dropped only after a silence", "statement": "A query that gets no answer resets the pair of nodes only if nothing was decrypted with the channel in use for longer than channel_reset_timeout after a first unanswered query. The first unanswered query after a packet never resets. A channel on which queries keep failing and nothing arrives is dropped by the first failure later than the timeout.", "quantifier": "Every number of concurrent queries, every order of their lookups, answers and timeouts with arriving packets, replacements and removals of channels, every clock and timeout.", "why_tests_cant": "The decision depends on a compare-exchange racing with packets and with other queries; a wrong reset shows only for single interleavings and after half a minute of silence.", "anchors": ["src/adnl/node/mod.rs: query_raw, reset_peer", "src/adnl/channel.rs: update_drop_timeout, reset_drop_timeout", "src/adnl/node/receiver.rs: handle_received_data, create_channel"]}
{"id": "C76", "title": "Communication recovers after a reset", "statement": "After reset_peer on one side the pair has no channel and datagrams of the old one are not read. The following packets reach the other side, a new channel is set up by one request and one confirmation, and both ends hold mirrored keys.", "quantifier": "Every state of the two nodes, every history of numbers either side remembers, every number of packets sent since the reset, all messages and clocks.", "why_tests_cant": "Resets happen after half a minute of silence; whether the packets after it are taken depends on the numbers the other side happens to remember.", "anchors": ["src/adnl/node/mod.rs: reset_peer", "src/adnl/peer.rs: reset, try_reinit_sender", "src/adnl/node/receiver.rs: check_packet, create_channel", "src/adnl/node/sender.rs: send_message, send_packet"]}
{"id": "C77", "title": "Encrypted packets have the documented layout and never share key stream", "statement": "A handshake packet is the recipient's node id, the sender's ephemeral public key (or, for a channel packet, only the channel id), the masked version field when a version is given, the SHA-256 checksum of the plaintext and the ciphertext, in this order; the AES key and the initial counter are the stated slices of the shared secret and the checksum; each byte of the version field is a byte of the version (big endian, written twice) masked with the xor of every fourth byte of the header and checksum; a node id is the SHA-256 of the TL object pub.ed25519. Under one shared secret two blocks are encrypted with the same piece of key stream if and only if the checksums agree in the first 4 and the last 16 bytes that enter key and counter, and the block positions are equal.", "quantifier": "all shared secrets, plaintexts, versions, keys and block positions", "why_tests_cant": "the layout has to hold for every length of packet and key-stream reuse is a statement about all pairs of packets ever sent under one secret", "anchors": ["src/adnl/encryption.rs: build_packet_cipher", "src/adnl/encryption.rs: compute_packet_data_hash", "src/adnl/handshake.rs: build_handshake_packet", "src/adnl/channel.rs: encrypt", "src/adnl/node_id.rs: compute_short_id"]}
{"id": "C78", "title": "Everything sent is serialised as the scheme declares", "statement": "Packets, ADNL messages, RLDP messages and parts, DHT queries, answers, keys, values and node records, overlay messages, broadcasts and node lists, the objects hashed or signed on the way (DHT keys, broadcast ids, overlay ids, node records) are, byte by byte, the serialisation that the declarations in scheme.tl give the same named fields: constructor id = CRC-32 of the declaration, fields in the declared order and types, conditional fields present exactly when their flag bit is set.", "quantifier": "all values of all these types whose fields fit their declared widths", "why_tests_cant": "The existing tests compare a few serialised objects with themselves; a wrong constructor id, a swapped field or a field under the wrong flag is read back by the same code without error and only other implementations notice.", "anchors": ["src/scheme.tl", "src/proto/adnl.rs", "src/proto/rldp.rs", "src/proto/dht.rs", "src/proto/overlay.rs", "src/proto/rpc.rs", "src/overlay/overlay_id.rs"]}
{"id": "C79", "title": "A DHT query from the wire has the effect of the query it encodes", "statement": "Whatever the bytes: if they encode a query (a chain of node records followed by ping, findNode, findValue, getSignedAddressList or store), the state changes and the reply are exactly those of that query; bytes after it do not matter. If they do not, nothing is answered and at most the node records read so far are added. The query is left to other subscribers exactly when its first constructor is none of the six.", "quantifier": "all byte strings, node states, clocks and options", "why_tests_cant": "Queries nest and may be encoded in ways this implementation never writes; tests send only what the code itself serialises.", "anchors": ["src/dht/node.rs: try_consume_query, add_dht_peer, process_store, process_find_node, process_find_value", "src/proto/rpc.rs"]}
{"id": "C80", "title": "One DHT message makes the handler recurse a bounded number of times", "statement": "The recursion depth of try_consume_query on one message has a bound that does not depend on the message.", "quantifier": "all byte strings, node states and options", "why_tests_cant": "The depth grows with the message; tests never nest a query inside a query inside a query.", "anchors": ["src/dht/node.rs: try_consume_query"]}
{"id": "C81", "title": "A published value is accepted, kept and found", "statement": "A value signed with the key its entry belongs to is stored by the own node and acknowledged by every node it is sent to, whatever that node holds, if the limits for keys allow it and it is not expired; a value signed with another key is refused. Once acknowledged it is what the node answers with until it expires or something newer is stored, and the one who asks reads from the answer the key, owner and data (for store_address / find_address: the address) that were published.", "quantifier": "All values, keys, node states, clocks and query parameters.", "why_tests_cant": "Needs the effect of signing, storing, serialising and verifying composed for all values and all contents of the storage.", "anchors": ["src/dht/entry.rs:98-172", "src/dht/futures.rs:28-42", "src/dht/storage.rs:57-111", "src/dht/node.rs:343-360", "src/dht/node.rs:417-449", "src/dht/node.rs:496-522"]}
{"id": "C82", "title": "A node's own record is accepted by its neighbours", "statement": "The signed node record that a DHT node puts in front of its queries is accepted by every other node whose clock and filter allow it: it updates the address the node is contacted at, enters the routing table unless the node was known already, and the query behind it is answered as if it had been sent alone to the resulting state.", "quantifier": "All keys, addresses, clock values, node states and queries.", "why_tests_cant": "Composes signing, address packing, peer admission, bucket insertion and the byte-level handler for all states.", "anchors": ["src/dht/node.rs:562-612", "src/dht/node.rs:668-727", "src/adnl/node/mod.rs:289-349"]}
{"id": "C83", "title": "Publishing the membership of an overlay cannot be blocked", "statement": "If a DHT node acknowledges the record that a member of a public overlay publishes, the node list it serves for the overlay has this record, or a newer one of the same member, from then on.", "quantifier": "All histories of the storage (without hash collisions), records, clocks.", "why_tests_cant": "The failing case needs a list with an expiry far in the future, stored by somebody else before.", "anchors": ["src/dht/storage.rs:116-171", "src/dht/node.rs:371-409"]}
{"id": "C84", "title": "An ordinary broadcast reaches the application of every member that gets the message", "statement": "The message that send_broadcast makes, compressed or not, is decoded, checked and delivered by every other member of the overlay that receives it in date and does not know it yet: with exactly the data sent and the sender's id, once, and without any other effect on the node. The sender does not deliver it to itself, and refuses to send exactly what it knows already.", "quantifier": "All keys, data, overlays, compression settings, states of the sender and of the receiver, clocks within the timeout.", "why_tests_cant": "Composes compression, signing, serialization, parsing, verification and duplicate suppression for all data and all receiver states.", "anchors": ["src/overlay/overlay.rs:720-781", "src/overlay/overlay.rs:543-609", "src/overlay/node.rs:138-173"]}
{"id": "C85", "title": "An FEC broadcast reaches the application of every member that gets its packets", "statement": "The packets that send_fec_broadcast produces contain every symbol of the data and as many in total as the caller is told; each can be read back from its message; and a member that receives them in date and within the timeout, in any order, with repetitions and among any other traffic, delivers data with the hash of the data sent under the id of the sender.", "quantifier": "All keys, data up to the slice size, compression settings, histories of the receiver, arrival orders, interleavings.", "why_tests_cant": "Quantifies over all interleavings of packet arrivals with other broadcasts, timers and decoder tasks, and over all data sizes for the count.", "anchors": ["src/overlay/overlay.rs:783-872", "src/overlay/overlay.rs:1069-1112", "src/overlay/overlay.rs:611-686", "src/overlay/overlay.rs:960-1067", "src/rldp/encoder.rs:14-52"]}
{"id": "C86", "title": "A broadcast belongs to one overlay", "statement": "A broadcast that a member signed for one overlay is not delivered in another one when somebody replays it there.", "quantifier": "All pairs of overlays of a node, all broadcasts, all states.", "why_tests_cant": "A replay across overlays needs two overlays with a common node; the tests use one overlay.", "anchors": ["src/overlay/overlay.rs:543-609", "src/overlay/node.rs:138-173", "src/proto/overlay.rs"]}
{"id": "C87", "title": "Checking all stored values checks all of them", "statement": "The future returned by then_check(..).check_all() succeeds with true only if every value found in the DHT passes the caller's check.", "quantifier": "All checks, all sequences of values found.", "why_tests_cant": "The flag is set and never read: every test whose values all pass, or whose first value fails, gives the same result with and without it.", "anchors": ["src/dht/futures.rs:84-136"]}
{"id": "C88", "title": "The answer to a query comes from the peer that was asked", "statement": "When a query ends with an answer, a packet from the peer the query was sent to (and to the local id it was sent from) was accepted after the query was asked and contained this answer with the id of the query.", "quantifier": "All sequences of queries, received datagrams, timeouts and polls, all options, all initial nodes.", "why_tests_cant": "A test asks an honest peer and gets its answer; who else could have answered with the same id is never looked at.", "anchors": ["src/adnl/node/mod.rs:456-498", "src/adnl/node/receiver.rs:262-323", "src/adnl/queries_cache.rs:1-74"]}
{"id": "C89", "title": "One bad answer does not stop the discovery of DHT nodes", "statement": "find_more_dht_nodes makes every node known of which some peer returned a record that is signed by the node, has a valid address and passes the filter, whatever else is in this and in the other answers.", "quantifier": "All answers (including malicious ones) in all orders of arrival, all states of the node, all options.", "why_tests_cant": "Tests and examples ask honest peers; a record with an unusable key or address does not occur.", "anchors": ["src/dht/node.rs:244-273", "src/dht/node.rs:513-520", "src/dht/node.rs:573-612"]}
{"id": "C90", "title": "Searching for overlay nodes returns distinct nodes with their own addresses", "statement": "Every result of find_overlay_nodes is a node record received from the DHT together with the address found for the id of this record; no two results have the same id; the result is empty only if the DHT had no value, and every new node of the last round whose address was found is in the result.", "quantifier": "All sequences of rounds, all results of the lookups, all orders in which they end.", "why_tests_cant": "The pairing of addresses with nodes after concurrent lookups that end in any order is not tested; there is no test of this function.", "anchors": ["src/dht/node.rs:275-341"]}
{"id": "C91", "title": "Searching for overlay nodes ends when an address can be found", "statement": "When a node of the overlay has been received and its address can be found in the present round, find_overlay_nodes ends in this round.", "quantifier": "All sequences of rounds, all results of the lookups, all orders in which they end.", "why_tests_cant": "A test in which the first lookup succeeds never reaches the second round; the failure needs an address that is published later than the overlay record.", "anchors": ["src/dht/node.rs:284-341"]}
{"id": "C92", "title": "Old addresses of DHT nodes do not come back", "statement": "A node record that is not newer than one already taken does not change the address that packets for the node are sent to.", "quantifier": "All states, options, records and times.", "why_tests_cant": "Needs an attacker who keeps an old signed record and replays it after the node has moved.", "anchors": ["src/dht/node.rs:573-612", "src/adnl/node/mod.rs:315-349"]}
{"id": "C93", "title": "Messages are attributed to the ids they were sent from and to", "statement": "After any exchange between two nodes without loss, whatever one node sends from its id l to the id q of the other one is, if accepted, attributed by the other node to the pair (q, l).", "quantifier": "All exchanges of any length, all numbers of ids per node, all messages, times and random choices.", "why_tests_cant": "Tests give each node one id; the failure needs a node with two ids that talk to the same peer, and a channel made by one of them.", "anchors": ["src/adnl/node/sender.rs:50-311", "src/adnl/node/receiver.rs:107-175", "src/adnl/node/receiver.rs:357-503"]}
{"id": "C94", "title": "What one pair of ids does leaves the others alone", "statement": "A datagram accepted as one from q to l is still accepted after any operation (receiving, sending, adding, removing or resetting a peer) that is about another pair of ids.", "quantifier": "All states reached by any operations, all further operations, all datagrams.", "why_tests_cant": "The number of interleavings of operations for different pairs is unbounded; the failure needs two local ids which the same remote id talks to.", "anchors": ["src/adnl/node/receiver.rs:107-175", "src/adnl/node/receiver.rs:357-582", "src/adnl/node/mod.rs:315-368", "src/adnl/node/mod.rs:522-538"]}
{"id": "C95", "title": "The receive buffer is made as large as the system allows", "statement": "maximise_recv_buffer ends after at most 25 system calls without overflow, never asks for less than the present size nor for more than 2^24, and leaves the buffer at the largest size in this range that the system accepts, or unchanged if it accepts none.", "quantifier": "All present sizes that are not negative, all systems that accept, with a size, also the smaller ones.", "why_tests_cant": "The result depends on limits of the operating system, of which a test sees one; an off-by-one of the search shows only for some of them.", "anchors": ["src/adnl/socket.rs:35-59"]}
{"id": "C96", "title": "Background tasks end once nobody uses the nodes", "statement": "When the application has dropped all handles of the ADNL, DHT and overlay nodes, their background tasks can end.", "quantifier": "All orders of creating, cloning and dropping handles, starting, stopping and polling, of any length.", "why_tests_cant": "Leaked tasks have no visible effect in a test, which ends with its runtime; the cause is a reference held by a task.", "anchors": ["src/adnl/node/mod.rs:244-268", "src/adnl/node/mod.rs:541-546", "src/adnl/node/receiver.rs:24-105", "src/adnl/node/sender.rs:22-47", "src/dht/node.rs:145-154", "src/overlay/overlay.rs:181-205"]}
{"id": "C97", "title": "Peers are matched with addresses", "statement": "Each entry of the result of match_peer_addresses is a peer that has the address of an entry with the same key; a key is missing only if no peer has an address it was given for. The address of a peer is the one it was last added with.", "quantifier": "All tables of peers, entries and orders of iteration.", "why_tests_cant": "The order of iteration of the concurrent map differs between runs; several peers can have one address.", "anchors": ["src/adnl/node/mod.rs:371-405"]}
{"id": "C98", "title": "Pings are answered", "statement": "A running node answers an ADNL ping that no other subscriber takes with a pong of the same value, and treats all other queries as if the ping subscriber did not exist. A DHT node in any state answers a DHT ping so that ping of the asking node is successful; ping is successful only if the answer is a pong with the id that was sent.", "quantifier": "All lists of subscribers, queries, values, states of the DHT node and answers.", "why_tests_cant": "The interplay with arbitrary other subscribers cannot be enumerated.", "anchors": ["src/adnl/ping_subscriber.rs:10-25", "src/adnl/node/mod.rs:250", "src/dht/node.rs:200-210", "src/dht/node.rs:683-686"]}
{"id": "C99", "title": "Every answer of a DHT node can reach the node that asked", "statement": "Whatever state a DHT node has reached and whatever it is asked, the answer it gives can be delivered to the node that asked: it fits into one ADNL packet, or the parts that the sender emits for it can be joined by the receiver. Exactly: an answer can arrive through a ready channel if and only if it has at most 2008 bytes (1928 or 1896 before the channel is ready); node records are 140 bytes each, so at most 14 nodes and lists of at most 13 overlay members can be fetched.", "quantifier": "for all states reached by any operations of the DHT node, all queries, all answers and all sets and orders of arriving parts", "why_tests_cant": "Tests use a handful of nodes; the limit is only exceeded once many members have published themselves or many nodes are asked for, and the loss happens in another layer.", "anchors": ["src/dht/node.rs:637-666", "src/dht/storage.rs:175-221", "src/adnl/node/sender.rs:124-202", "src/adnl/transfer.rs:45-115"]}
{"id": "C100", "title": "Channel tables stay consistent when packets are handled concurrently", "statement": "Packets are handled by tasks of their own, so create_channel, remove_peer and reset_peer run at the same time and touch channels_by_peers and channels_by_id in several steps. Whatever the schedule, when no job is in progress: (a) every channel in channels_by_peers is listed in channels_by_id under both of its ids, with the same peer and key, so what is used for sending can also be received on; (b) every id in channels_by_id is one of the channel that channels_by_peers holds for that peer, so ids of channels that are gone are not left behind.", "quantifier": "all numbers of threads, all jobs (creating, removing, resetting, for any local ids, peers, keys and dates), all schedules", "why_tests_cant": "The failing schedules need a task to be preempted between two adjacent map operations; tests run single packets one after another, and a stress test sees a handful of the schedules.", "anchors": ["src/adnl/node/receiver.rs:505-582", "src/adnl/node/mod.rs:357-368", "src/adnl/node/mod.rs:522-538", "src/adnl/channel.rs:65-72"]}
{"id": "C101", "title": "Members of an overlay get to know each other by exchanging random peers", "statement": "When a member of a public overlay asks another member of the same overlay for random peers (exchange_random_peers), the query is handled by that overlay on the other side and answered. Afterwards the other member has, among the peers handed out by take_new_peers, a genuine record of the asking node that is at least as new as the one sent, and records of all other nodes in the query but itself. The asking node gets the id of the other member unless its filter says that it is known, further only ids of neighbours of the other member that the filter does not know, and no id twice. Query and answer have at most 744 and 708 bytes, so that they travel in one datagram each.", "quantifier": "all pairs of members with different keys, all histories of the peers of both overlays, all times, all random choices of neighbours, all filters, all lawful signature schemes", "why_tests_cant": "The exchange goes through six pieces of code on two nodes (prefixing, dispatch, filtering of records, merging, answering, filtering of the answer), and depends on random choices and on what both nodes have heard before; tests of the repository do not run overlays at all.", "anchors": ["src/overlay/overlay.rs:374-395", "src/overlay/overlay.rs:478-541", "src/overlay/overlay.rs:688-717", "src/overlay/overlay.rs:877-914", "src/overlay/node.rs:175-209", "src/adnl/node/mod.rs:571-585"]}
{"id": "C102", "title": "A DHT node tells others about the nodes it asks itself", "statement": "After any history of queries and answers, the nodes in the routing table (the ones given to others) are exactly the nodes in the set of known peers (the ones asked in the node's own lookups and stores), and each of them is a peer of the ADNL node.", "quantifier": "all lawful crypto primitives, options, capacities, and all sequences of queries, learned records, clean-ups and status updates", "why_tests_cant": "The set of known peers only evicts after 65536 distinct signed records; the relation between three tables kept in three data structures has to hold after every history.", "anchors": ["src/dht/node.rs:573-612", "src/dht/buckets.rs:27-42", "src/adnl/peers_set.rs:272-304", "src/dht/mod.rs:91"]}
{"id": "C103", "title": "Unsafe code stays within its buffers", "statement": "Opening a handshake packet, opening a channel packet, extracting the fields of a packet, reading the header of an RLDP message and receiving datagrams into the shared buffer never read or write outside the buffer, never use bytes that were not written, and give the same result as the computation on plain values; references taken into a packet stay valid and unchanged while the packet is shortened.", "quantifier": "all lawful crypto primitives, key tables, channels, all datagrams of any length, all signature information, and all sequences of results of the socket", "why_tests_cant": "Out-of-bounds access by unchecked pointer arithmetic need not fail when it happens; only the exact length for which a check is off by one shows it, and a test cannot observe undefined behaviour.", "anchors": ["src/adnl/packet_view.rs:3-72", "src/adnl/handshake.rs:85-166", "src/adnl/channel.rs:140-207", "src/proto/adnl.rs:234-281", "src/rldp/transfers_cache.rs:606-644", "src/adnl/node/receiver.rs:46-104"]}
{"id": "C104", "title": "References from the iterator of a peers set stay valid", "statement": "A reference to a peer id obtained from the iterator of a peers set can be read as long as the set exists, whatever is inserted into the set after the iterator and its lock are gone; no sequence of inserts frees an id twice or leaks one, and taking the set apart yields every member.", "quantifier": "all capacities, initial peers and sequences of inserts before and after the iteration", "why_tests_cant": "The reference is dangling only after an eviction, which needs a full set; reading freed memory mostly returns the old bytes, so a test passes.", "anchors": ["src/adnl/peers_set.rs:150-208", "src/adnl/peers_set.rs:241-311"]}
{"id": "C105", "title": "An RLDP query is over in bounded time", "statement": "A query over RLDP, sent in any number of parts, returns after a time bounded by the configured maximum timeout for each part and for the answer, whatever the peer does. In the code this holds only for peers that send a bounded number of messages: a silent peer costs at most one maximum timeout, a peer that causes at most S updates of a wait costs at most (parts + 1) * ((S + 1) * (max + max * S / 100 + gap) + gap), and a peer that confirms one packet per minimum timeout keeps the query open as long as it likes.", "quantifier": "for all query options, numbers of parts, round trip estimates, intervals between checks, and sequences of confirmations and received packets", "why_tests_cant": "Each confirmation restarts the clock and each update also lengthens the allowed silence by one percent, so the duration depends on the whole history of what the peer sends; a test sees one peer for a few seconds.", "anchors": ["src/rldp/transfers_cache.rs:44-160", "src/rldp/transfers_cache.rs:464-520", "src/rldp/transfers_cache.rs:533-556", "src/rldp/transfers_cache.rs:647-649"]}
{"id": "C106", "title": "A running RLDP transfer can always be finished", "statement": "Whatever happened so far (datagrams and confirmations lost, repeated, delayed and reordered), as long as the sender is still in its loop and the receiver's entry has not expired, there is a continuation without giving up after which the sender has returned successfully and the receiver has left its loop with exactly the bytes that were sent: no sequence of events leads the two sides into a state from which the transfer cannot be completed.", "quantifier": "for every data of 1 to 2^32-1 bytes, size limit, lawful forward error correction, build profile and schedule", "why_tests_cant": "Tests exercise a few schedules; a dead end is reached only by particular interleavings of confirmations and part switches, and its absence concerns every reachable state.", "anchors": ["src/rldp/transfers_cache.rs:175-262", "src/rldp/transfers_cache.rs:464-520", "src/rldp/outgoing_transfer.rs:40-116", "src/rldp/incoming_transfer.rs:53-139"]}
{"id": "C107", "title": "An RLDP query gets the application's answer, whatever the network does, as long as nobody gives up", "statement": "Over a network that loses, delays, repeats and reorders everything, an RLDP query that ends with an answer ends with the application's answer to exactly that query, unpacked if it was packed, and never with a complaint about its content. In a build without overflow checks, as long as no timeout has happened, every query that fits the server's limit and whose answer with its 43 bytes of envelope fits the client's can still be brought to that end from every state it can be in.", "quantifier": "all options, handlers, queries and answers; all interleavings of both transfers; all erasure codes that satisfy the assumptions", "why_tests_cant": "It needs every combination of losses and repetitions in both directions while three tasks run; tests see a loopback network.", "anchors": ["src/rldp/transfers_cache.rs:44-160", "src/rldp/transfers_cache.rs:270-331", "src/rldp/transfers_cache.rs:404-452", "src/rldp/node.rs:126-186"]}
{"id": "C108", "title": "Communication recovers after a restart", "statement": "When a node is started again, packets sent to it or by it before the restart are not accepted any more. The first packet of the new session that reaches the other side is accepted whatever was remembered of the old session, the other side starts counting again, and one channel request and one confirmation give both ends a new, mirrored channel.", "quantifier": "Every state of the other side (any history, counters, channel, address), any number of packets lost since the restart, every old packet, all messages, clocks and randomness.", "why_tests_cant": "The outcome depends on what the other side remembers of the old session and on old packets still under way or recorded by somebody; a test restarts a node in one such state with no old packets.", "anchors": ["src/adnl/peer.rs:41-57", "src/adnl/node/receiver.rs:457-502", "src/adnl/node/sender.rs:246-274", "src/adnl/node/receiver.rs:505-582"]}
{"id": "C109", "title": "Datagrams go to the address of the peer", "statement": "Datagrams for a peer are sent to an address at which the peer receives them: with or without the loopback option for neighbours, a pair of nodes that has found each other stays in contact as long as both keep their socket addresses; a wrong address is corrected by the first handshake packet; and when a peer has moved, its old packets do not bring back the old address.", "quantifier": "Every reachable state of two nodes and every continuation (losses, duplicates, reordering, delays, any messages, other activity of the nodes), all socket addresses and both settings of the loopback option on either side.", "why_tests_cant": "Tests run both nodes on 127.0.0.1, where every address works. The loopback replacement depends on both ends' addresses and options, and the damage of an old packet appears only after an address change.", "anchors": ["src/adnl/node/sender.rs:230-239", "src/adnl/node/sender.rs:297-303", "src/adnl/node/mod.rs:315-349", "src/adnl/node/receiver.rs:416-425", "src/adnl/peer.rs:108-123"]}
{"id": "C110", "title": "Queries and messages sent through an overlay reach the application of the other side", "statement": "A query sent with Overlay::adnl_query or Overlay::rldp_query to a node where an application subscribed to that overlay is given to this application, without the overlay's prefix, whatever other subscribers the node has; the answer the application gives is what the asker gets. A message sent with Overlay::send_message is taken by the other side if the overlay is registered there.", "quantifier": "for all overlay ids, queries, messages, subscribers before and after the overlays, states of the two nodes and schedules of the network", "why_tests_cant": "The path goes through two nodes, the prefix, two levels of dispatch and the transport with loss and reordering; tests use one subscriber and one query, and no test sends a message that is not a broadcast.", "anchors": ["src/overlay/overlay.rs:355-416", "src/overlay/node.rs:138-209", "src/adnl/node/receiver.rs:270-322", "src/subscriber/mod.rs:58-78"]}
{"id": "C111", "title": "Messages of any length arrive between two honest nodes", "statement": "A query, answer or custom message one honest node sends another, cut into several datagrams if it is long, is seen by the users of the other side as soon as all its datagrams have arrived, in whatever order, with repetitions and mixed with other messages in both directions, unless the receiver gave the transfer up; nothing else is ever seen, and answers to queries are sent back.", "quantifier": "Every run of two nodes: any messages below 16 MiB in both directions, any losses, duplicates, reordering, delays, interleavings and give-ups, channel established or not, all cut positions, all reactions of the subscribers.", "why_tests_cant": "The outcome depends on the length of the message, the size of the channel message sent along, the order of the parts and what else the table of transfers holds; tests send short messages over a loss-free loopback, so no part is ever cut.", "anchors": ["src/adnl/node/sender.rs:61-202", "src/adnl/node/receiver.rs:108-256", "src/adnl/transfer.rs:45-138"]}
{"id": "C112", "title": "RLDP queries that run at the same time do not disturb each other", "statement": "With any number of RLDP queries between any nodes at the same time and any messages made up by strangers, a query that ends with an answer ends with the asked node's answer to it; only the asked node is given the query, at most once while its entry is kept, as coming from the asking node; and the other queries cannot keep it from being finished.", "quantifier": "Every run of any number of nodes: all queries, options, subscribers, losses, duplicates, reordering, delays, timeouts and interleavings, all messages made up by others.", "why_tests_cant": "All transfers of a node share one table whose keys are ids and negated ids, and messages find their transfer through it; a mix-up needs a particular interleaving of several transfers, while tests run one query at a time.", "anchors": ["src/rldp/transfers_cache.rs:44-160", "src/rldp/transfers_cache.rs:167-346", "src/rldp/node.rs:100-186"]}
{"id": "C113", "title": "An ordinary broadcast reaches every connected member, once", "statement": "Consider an overlay of any number of members, with letters that arrive in any order and any number of times. A member sends a new ordinary broadcast, and every letter that carries it arrives before the timeout of its receiver. Then every member that is connected with the author through neighbours gives the broadcast to its application exactly once, with its author and unchanged, and the broadcast costs no more letters than the targets of its author and of every other receiver together. (The members pass a broadcast on to some neighbours chosen at random, so a member may be chosen by nobody; the guarantee holds for those reached along the choices, hence for all where nobody has more neighbours than targets.)", "quantifier": "All overlays, neighbourhoods, options, random choices, contents, and all interleavings, repetitions and losses of letters, with other traffic in between.", "why_tests_cant": "The spread depends on the topology, on the random choices and on the interleaving of all members; a test runs one of them.", "anchors": ["src/overlay/overlay.rs:423-444", "src/overlay/overlay.rs:543-608", "src/overlay/overlay.rs:720-781", "src/overlay/overlay.rs:1114-1131"]}
{"id": "C114", "title": "A packet of an FEC broadcast is passed on a bounded number of times", "statement": "The number of letters in an overlay that carry one packet of an FEC broadcast is at most the number sent by its author and by strangers, plus, for each receiver, its number of targets once, and once more each time that it forgets the broadcast. (Packets with numbers of 256 or more are never recognised as duplicates: they are passed on by every receiver each time they arrive, so their number grows without bound until their date is outdated. Members produce such packets for data of more than 256 symbols.)", "quantifier": "All overlays, options, random choices, packets, and all interleavings, repetitions and losses of letters.", "why_tests_cant": "A storm needs a large broadcast, a connected overlay and many hops; a test with few small packets sees each of them suppressed as a duplicate.", "anchors": ["src/overlay/overlay.rs:611-685", "src/overlay/overlay.rs:1114-1131", "src/util/packets_history.rs:64-150"]}
{"id": "C115", "title": "What RLDP and overlays send is short enough to arrive", "statement": "Between two honest nodes every message which RLDP or an overlay hands to ADNL is seen by the other side once its datagrams have arrived: parts, confirmations and completions of RLDP in one datagram, ordinary broadcasts and the packets of FEC broadcasts in two datagrams at most, whatever the option max_ordinary_broadcast_len.", "quantifier": "all keys, runs of two nodes with any loss, duplication and reordering, RLDP messages, overlays, options, data and compressors", "why_tests_cant": "the limits are constants in four files (768, 1024, 984, 12) which only together decide whether a message arrives; tests run with default options and on a loopback which loses nothing", "anchors": ["src/rldp/encoder.rs:11-66", "src/overlay/overlay.rs:423-443", "src/overlay/overlay.rs:1069-1112", "src/adnl/node/sender.rs:61-202"]}
{"id": "C116", "title": "A message between two honest nodes is handled at most once per sending", "statement": "In every run of two honest ADNL nodes (any messages of any length, any order, loss and duplication of datagrams, channel set-up, answers, abandoned transfers), the users of the receiving side see a query, an answer or a custom message at most as often as the other side sent it. Holds if the receiver keeps a history of packet numbers and the sender has sent fewer than 256 datagrams; with the default options (no history) a message that fits into one datagram is seen exactly as often as a datagram with it arrives, so the unconditional claim is false.", "quantifier": "all pairs of nodes, options, messages, runs (sequences of sendings, arrivals in any order and number, other events), events seen", "why_tests_cant": "It is a statement about every schedule and every number of copies of every datagram, including copies of single parts of long messages; the violating case needs the default options and a duplicating network.", "anchors": ["src/adnl/node/receiver.rs:483-496", "src/util/packets_history.rs:81-178", "src/adnl/node/mod.rs:104", "src/adnl/transfer.rs:45-115"]}
{"id": "C117", "title": "A DHT search reaches every peer it hears of", "statement": "A search for a key with `use_new_peers` asks every DHT node that can be reached through the answers of asked nodes, so that a value held by such a node is found; it asks nobody twice and ends. (The code violates the first part: after each reading of the known peers the iterator has moved one position too far, so the first peer heard of afterwards is never asked by that search. What is proved instead: exactly which peers are asked; that replication and repeated searches make up for it; that a published value is found.)", "quantifier": "for every network of answers, every set of known peers, every order in which requests end, every interleaving with peers becoming known by other means", "why_tests_cant": "The peers missed depend on how many new peers each answer brings and on the order of the answers; tests with a static peer list, or with answers that bring several peers at once, find the value and never notice the missing one.", "anchors": ["src/dht/streams.rs:69-149", "src/dht/peers_iter.rs:25-74", "src/dht/node.rs:495-526"]}
{"id": "C118", "title": "What is held for unfinished transfers is no more than what was sent", "statement": "For every sequence of arriving parts and expiries, the bytes a node keeps for unfinished ADNL messages are at most the bytes of the parts that arrived (and the entries at most their number), no message keeps more bytes than its announced size, and the memory reserved for unfinished RLDP transfers is at most the data that arrived for them. The code violates this in two ways: the first part of an RLDP transfer makes the node reserve its whole announced size, so that n parts without data reserve n times max_answer_size; and an ADNL part sent again at the same offset replaces the first one without being counted. The limits that do hold are proved: max_answer_size for every different RLDP transfer, the bytes that arrived for ADNL, the announced size when no offset comes twice.", "quantifier": "all sequences of parts, timeouts and other actions of a node, all sizes and contents, any number of transfers, any FEC", "why_tests_cant": "Tests send a handful of well-formed transfers; the limit is about any number of peers, transfers and hostile parts, and the reserved capacity is not visible in any result.", "anchors": ["src/adnl/transfer.rs:45-115", "src/adnl/node/receiver.rs:188-256", "src/rldp/incoming_transfer.rs:53-139", "src/rldp/transfers_cache.rs:167-335"]}
{"id": "C119", "title": "A DHT node keeps what it acknowledged and gives it to whoever asks (read your writes)", "statement": "Once a DHT node has answered a store query for a signature-updated value with `stored`, then until that value expires it holds the value itself or one signed by the same owner under the same key that lasts at least as long, whatever other peers store or ask, whatever its own user publishes, and whenever expired values are dropped. Every find-value query for that key it answers in that time is answered with such a value (with the value itself if the owner signed nothing else there that lasts as long). Over an ADNL connection that loses, repeats, reorders and delays datagrams: if a peer saw the acknowledgement before it sent its find-value query, any answer it gets that was made before the value expires is such a value.", "quantifier": "All lawful cryptography, all histories of a node from its creation on (queries of any bytes from anyone, own publications, announcements, learned nodes, collections at any time before the expiry), all values without hash collisions, all subscribers besides the DHT node that leave DHT queries alone, and all runs of two nodes over a network.", "why_tests_cant": "The guarantee is about every interleaving of other peers' queries, collections and network faults between the acknowledgement and the question; a test fixes one history.", "anchors": ["src/dht/node.rs:641-727", "src/dht/storage.rs:44-125", "src/dht/futures.rs:29-42", "src/subscriber/mod.rs:58-78", "src/adnl/node/receiver.rs:270-322"]}
{"id": "C120", "title": "RLDP queries over an ADNL connection return the other side's answer", "statement": "Two nodes share RLDP messages only through the custom messages of their ADNL connection, over a network that loses, repeats, reorders and delays datagrams. If an RLDP query of one of them ends with an answer, it is the answer of the other side's application to this query; only that application is given the query, at most once, as coming from the asking side and with the content it was asked with. Any number of other queries, also with third nodes, may run at the same time, as long as they use other transfer ids.", "quantifier": "Every run of both layers: all sizes, options, subscribers, clocks, losses, duplicates, delays, other traffic on the connection, other RLDP nodes and queries.", "why_tests_cant": "It combines the checks of two layers: reassembly and channels of ADNL below, the transfer table and the FEC decoder of RLDP above; tests of one query over loopback lose, repeat and reorder nothing.", "anchors": ["src/rldp/node.rs:120-212", "src/rldp/transfers_cache.rs:44-268", "src/rldp/transfers_cache.rs:359-520", "src/adnl/node/mod.rs:500-520", "src/adnl/node/receiver.rs:30-330"]}
{"id": "C121", "title": "A DHT search that asks a node holding the value hands the value out", "statement": "A node acknowledged a signature-updated value; afterwards anything may happen to it. A completed search for the value's key that asked this node before the value expired hands out, for this node, a value whose signature was checked: that value or one signed by the same owner under the same key that lasts at least as long. If the owner signed nothing else there that lasts as long, and the searching side knows the node from the start and does not count it as bad, the search hands out exactly the key, the owner's public key and the data that were published.", "quantifier": "All lawful cryptography, all entries and values, all histories of the serving node before and after the acknowledgement, all sets of known peers and answers of all other peers, all orders in which answers arrive, all batch lengths (first part) or whole searches (second part).", "why_tests_cant": "It joins storing, keeping, answering, searching and reading over unbounded histories of the serving node and arbitrary (hostile) answers of every other node; a test has a handful of nodes and one history.", "anchors": ["src/dht/streams.rs:35-123", "src/dht/node.rs:495-526", "src/dht/storage.rs:44-114", "src/dht/entry.rs:127-172", "src/dht/peers_iter.rs:13-75"]}
{"id": "C122", "title": "A member of an overlay that announced itself at a DHT node is found", "statement": "A node of the DHT acknowledged a list of overlay node records, one of them the valid record of a member. Whatever happens to the DHT node afterwards (other lists, queries, garbage collection, own publications), until the list expires it holds, and gives to whoever asks for the overlay's key, a list for the same overlay that lasts at least as long, holds only records with valid signatures, and has this record or a newer one of the same member; a completed search that asked the node hands such a list out; and if the member's address can be found, find_overlay_nodes ends after that search with the member and its address in the result. This holds if no list for the overlay offered before outlasts the acknowledged one; without that condition it is false.", "quantifier": "All cryptography functions, all histories of the DHT node before and after, all orders of hash maps, all sets of known peers, answers of all other peers and orders of answers; fewer than 2^32 records in all; stored lists below 16 MB.", "why_tests_cant": "The claim joins merging lists, keeping them, answering, searching, and resolving addresses over unbounded histories with hostile participants; and it fails only through a list with a far expiry that anyone can send, which a test of the normal path does not contain.", "anchors": ["src/dht/storage.rs:116-171", "src/dht/node.rs:277-343", "src/dht/node.rs:371-409", "src/dht/streams.rs:35-123", "src/dht/node.rs:495-526"]}
{"id": "C123", "title": "An FEC broadcast reaches every connected member, once", "statement": "Consider an overlay of any number of members, with letters that arrive in any order and any number of times. A member sends the packets of an FEC broadcast to its neighbours, and every letter with a symbol of the data arrives before the timeout of its receiver; packets with repair symbols may be lost. Then every member connected with the author through neighbours, once its receiving tasks have worked off what they have, gives the broadcast to its application exactly once, as data with the hash of the data sent, with its author. A member passes on the first packet it gets with each number, also when its own copy is already complete. (The members pass packets on to some neighbours chosen at random, so a member may be chosen by nobody; the guarantee holds for those reached along the choices, hence for all where nobody has more neighbours than targets.)", "quantifier": "All overlays, neighbourhoods, options, random choices, data up to the slice size, and all interleavings, repetitions and losses of letters, with other traffic, timers and tasks in between.", "why_tests_cant": "The spread depends on the topology, the random choices, the order of the packets at every member and the interleaving of receiving tasks and clean-up timers; a test runs one of them.", "anchors": ["src/overlay/overlay.rs:611-686", "src/overlay/overlay.rs:783-872", "src/overlay/overlay.rs:960-1067", "src/overlay/overlay.rs:1069-1112", "src/overlay/overlay.rs:1114-1131", "src/util/packets_history.rs:64-150"]}
{"id": "C124", "title": "Whatever is received, its handling ends without aborting", "statement": "For every sequence of datagrams arriving at a node, with anything else happening at the node in between (transfers timing out, peers added, messages sent), the handling of each datagram returns: it neither panics nor runs for ever. It never panics in release builds, nor in debug builds while the clock plus the tolerance and plus the lifetime of address lists fits into 32 bits; panics beyond ADNL happen only in debug builds and exactly for a broadcast date that overflows with the timeout and for a Complete of part 2^32 - 1. It never runs for ever as long as no accepted packet brings an empty message part; every accepted packet with an empty part at the start of a new transfer followed by a part making up its announced length does.", "quantifier": "for all datagrams, node states, options, clocks, keys, randomness, subscribers and all interleavings of other events", "why_tests_cant": "The inputs are all byte strings in all node states; a test samples some, and a loop that does not end cannot be observed by a test at all. The two parts needed come only from a sender written for the purpose.", "anchors": ["src/adnl/node/receiver.rs:82-175", "src/adnl/node/receiver.rs:177-319", "src/adnl/node/receiver.rs:357-503", "src/adnl/transfer.rs:45-115", "src/adnl/node/sender.rs:206-310", "src/overlay/overlay.rs:1132-1134", "src/rldp/transfers_cache.rs:256-262"]}
{"id": "C125", "title": "A node's published address is what find_address returns", "statement": "After a node published its address with store_address and a DHT node acknowledged it, a find_address for that node whose search asks the acknowledging node before the value expires returns an address and the full id; both belong to the node looked for: the list was signed by the owner of the short id under the key (id, \"address\", 0). If all values offered under that key are address lists made by store_address, the address returned is one of those published.", "quantifier": "for all contents and histories of every DHT node asked (any queries, publications and collections), all interleavings of the search's requests, all sets of known peers, all clocks within the tolerance, all addresses and keys", "why_tests_cant": "Tests run one or two nodes with one publication; who else answers, in which order, with which older or foreign list, and what the nodes have stored before are unbounded choices.", "anchors": ["src/dht/node.rs:342-359", "src/dht/node.rs:403-434", "src/dht/node.rs:496-521", "src/dht/streams.rs:30-148", "src/dht/storage.rs:86-172"]}
{"id": "C126", "title": "A broadcast reaches the overlay over ADNL connections, once", "statement": "The members of an overlay are joined by any number of ADNL connections. An ordinary broadcast reaches every member connected with the sender by the members' choices of neighbours, exactly once, unchanged and with its author, as soon as all datagrams of its letters have arrived and were given to the overlay before the timeout. Whatever arrives, no member gets it twice or gets anything else for it, and the sender does not get it.", "quantifier": "for all numbers and shapes of connections, all interleavings of sending, loss, repetition, reordering and delay of datagrams on every connection with other traffic, timers and other broadcasts, all data, keys, options and choices of neighbours", "why_tests_cant": "Tests join two or three nodes on one machine, where nothing is lost or reordered; the interleavings over several connections and the sizes at which a message needs another datagram are not sampled.", "anchors": ["src/overlay/overlay.rs:423-444", "src/overlay/overlay.rs:543-608", "src/overlay/overlay.rs:720-781", "src/overlay/overlay.rs:1114-1131", "src/overlay/node.rs:138-170", "src/adnl/node/receiver.rs:177-319", "src/adnl/node/sender.rs:50-203"]}
{"id": "C127", "title": "An FEC broadcast reaches the overlay over ADNL connections, once", "statement": "The members of an overlay are joined by any number of ADNL connections. An FEC broadcast of up to 2000000 bytes reaches every member connected with its author by the members' choices of neighbours, exactly once, as data with the hash of the data sent and with its author, as soon as the letters with the symbols of the data have arrived and were given to the overlay before the timeout, and the receiving task of the member has had its turns. A letter has arrived when all its datagrams have, or one of them if nothing was attached to it. Packets beyond the symbols of the data need not arrive. Whatever arrives, no member gets the broadcast twice.", "quantifier": "for all numbers and shapes of connections, all interleavings of sending, loss, repetition, reordering and delay of datagrams on every connection with other traffic, timers, receiving tasks and other broadcasts, all data, keys, options, numbers of packets and choices of neighbours", "why_tests_cant": "Tests join two or three nodes on one machine, where nothing is lost or reordered; the interleavings of many packets over several connections with the receiving tasks are not sampled.", "anchors": ["src/overlay/overlay.rs:611-686", "src/overlay/overlay.rs:783-872", "src/overlay/overlay.rs:960-1067", "src/overlay/overlay.rs:1069-1112", "src/overlay/overlay.rs:1114-1131", "src/overlay/node.rs:138-170", "src/adnl/node/receiver.rs:177-319", "src/adnl/node/sender.rs:50-203"]}
{"id": "C128", "title": "What others can make a node keep is limited", "statement": "Whatever others send, an overlay keeps at most 65536 known peers, at most the configured number of neighbours, at most 65536 records of nodes and at most 65536 records not yet taken, and a DHT node with the default limits for keys keeps at most 65536 values. (Only the first two limits hold. There are not more records waiting to be taken than were received since they were last taken, and not more values than the node was told to store; but whoever has n keys can leave n records, a single key can leave n values until they expire, and the record of a peer once added stays after the peer is removed.)", "quantifier": "for all sequences of additions, removals, exchanges and collections in an overlay, and of stores and collections in a DHT node, all keys, times and options", "why_tests_cant": "A test would have to send more values or records than the limit, and could only show one number of them being kept; that nothing limits the number is a statement about all numbers.", "anchors": ["src/overlay/overlay.rs:123-137", "src/overlay/overlay.rs:243-321", "src/overlay/overlay.rs:453-456", "src/overlay/overlay.rs:688-717", "src/dht/storage.rs:57-111", "src/dht/node.rs:668-671", "src/adnl/peers_set.rs:227-263"]}
{"id": "C129", "title": "A network that is built has all its layers connected; a failed build starts nothing and says why", "statement": "NetworkBuilder.build gives a running ADNL node with which every layer (DHT, RLDP, overlay) and every subscriber given to the builder is registered, once, in a fixed order with the ping subscriber last; each RLDP node serves the subscribers named with it and the overlay added after it. If the address cannot be resolved, the socket cannot be made or a key is missing, nothing is started and the error is the reason. Without the builder, exactly the subscribers added before the first start are served, and later additions and starts are refused. (The reason is lost when the ADNL node cannot be made and there are other layers: the error is then only that ADNL was not initialized.)", "quantifier": "for all sequences of calls on the builder that the compiler accepts, all addresses, key stores and results of opening the socket, and all sequences of additions and starts", "why_tests_cant": "Tests build one or two fixed combinations of layers on a free port; the many orders of calls, and failures of the socket or of a key in each of them, are not tried.", "anchors": ["src/util/network_builder.rs:7-95", "src/adnl/mod.rs:110-118", "src/adnl/mod.rs:145-161", "src/adnl/mod.rs:264-269", "src/adnl/mod.rs:308-327", "src/dht/mod.rs:30-37", "src/dht/mod.rs:71-81", "src/rldp/mod.rs:33-40", "src/rldp/mod.rs:125-136", "src/overlay/mod.rs:41-47", "src/overlay/mod.rs:83-100", "src/adnl/node/mod.rs:152-263"]}
{"id": "C130", "title": "Nobody can take over or suppress the ordinary broadcast of another member", "statement": "A member that receives an ordinary broadcast in time, and has not given this data from this author to its application before, gives it to the application with the author's name, whatever it received before. (This fails: whoever sends the same data with the same date under its own name and is first gets it delivered as its own, and one part of an FEC broadcast with any signature that gives the identity of the broadcast as its data hash makes the broadcast being dropped. It holds after every history without one of these and without the node's own broadcast of the same data and date; and a broadcast that names its source in what is signed cannot be taken over.)", "quantifier": "for all histories of received broadcasts, FEC parts, own broadcasts, timers and tasks, all data, dates, keys, options and clocks within the timeout", "why_tests_cant": "It needs a member that copies another one's data within the same second and is faster on some way through the overlay; tests have honest members only.", "anchors": ["src/overlay/overlay.rs:543-608", "src/overlay/overlay.rs:611-641", "src/overlay/overlay.rs:720-738", "src/overlay/overlay.rs:960-986"]}
{"id": "C131", "title": "Broadcasts handled by several tasks at once are delivered once, passed on once, and authentic", "statement": "Every packet is handled by a task of its own, so several calls of receive_broadcast, receive_fec_broadcast and send_broadcast run at once, together with the receiving task of every FEC transfer and the clean-up tasks. Take every access to shared data (the table of broadcasts, the history, flag, time and channel of a transfer, the queue of the application, the sending, the start of a clean-up timer) as a step of its own. Then in every interleaving: a broadcast identity is given to the application at most once more than it was removed from the table by the clean-up; the same holds for passing on an ordinary broadcast, and for passing on a packet of an FEC broadcast with a given number below 256 if no larger numbers come; and whatever is given to the application either is the content of an ordinary broadcast that came, no older than the timeout, with a valid signature by the source named, under the hash of the signed text, or hashes to the identity and was decoded from symbols that came, each with a valid signature by the source named for this identity. A call that is not interrupted does exactly what it does when taken as one step.", "quantifier": "all interleavings of any number of tasks at the level of single accesses, all contents of all messages, all states; cryptography, compression and the FEC code as parameters", "why_tests_cant": "Races between tasks on a multi-threaded runtime appear only under rare timings; a test cannot enumerate the interleavings.", "anchors": ["src/overlay/overlay.rs:543-608", "src/overlay/overlay.rs:611-685", "src/overlay/overlay.rs:720-738", "src/overlay/overlay.rs:960-1057", "src/overlay/overlay.rs:1136-1145", "src/adnl/node/receiver.rs:88-103"]}
{"id": "C132", "title": "An RLDP query leaves nothing behind in the table of transfers once its call is gone", "statement": "Every RLDP query of a node puts two entries into the node's table of transfers, one under its random id and one under the negated id, and spawns a task that receives the answer. Claim: once the call has returned, or the application has dropped it, the entries are removed after the completion interval whatever other queries and peers do meanwhile, and the receiving task ends. The code keeps this for calls that return: entries of other transfers never take the place of the query's own, after the two removals nothing of the query is in the table in any continuation, and the receiving task can end. It breaks it for calls dropped while they wait, for instance by a timeout around the call: in every continuation both entries stay as they were, the receiving task waits for ever unless the whole answer still comes, and n dropped calls leave at least 2n entries.", "quantifier": "all interleavings of any number of the node's queries (each access to the table a step of its own), transfers begun by others under any ids and at any time, all completion intervals, calls dropped at any await, all continuations; the random ids of the node's queries are taken to be new", "why_tests_cant": "What happens after the caller stops waiting, and only in the table of a node that runs for long: a test that awaits its query sees nothing, and one that drops it would have to look into a private map at all later times.", "anchors": ["src/rldp/transfers_cache.rs:43-160", "src/rldp/transfers_cache.rs:222-239", "src/rldp/transfers_cache.rs:270-339", "src/rldp/transfers_cache.rs:359-401", "src/rldp/transfers_cache.rs:403-449"]}
{"id": "C133", "title": "Replayed packets are refused also when packets are handled by many tasks and the session date changes", "statement": "Every datagram is handled by a task of its own, and all tasks share the date and the two receive histories of the peer. Take every atomic operation of try_reinit_sender, of the reset of the histories and of deliver_packet as a step of its own. Then in every interleaving: at most one task at a time writes to a history; a dated packet with a number below 256 that one task accepted is not accepted by a task that starts later.", "quantifier": "for all assignments of packets (date or none, number, priority, old destination date) to any number of tasks, all known dates of the peer and all schedules of their atomic operations", "why_tests_cant": "The window between the store of the new date and the reset of the histories is a few instructions wide; a test would have to stop a task exactly there, and the number of interleavings cannot be enumerated.", "anchors": ["src/adnl/peer.rs:41-57", "src/adnl/node/receiver.rs:87-101", "src/adnl/node/receiver.rs:457-493", "src/util/packets_history.rs:23-54", "src/util/packets_history.rs:64-179"]}
{"id": "C134", "title": "Tasks handling packets of one peer do not block each other for good", "statement": "The receive histories are guarded by a spinning lock (index = IN_TRANSIT). In every interleaving of the atomic operations of any number of tasks handling packets of a peer: the task that holds the lock of a history frees it after a bounded number of its own steps whatever the others do; a task that no other writer disturbs ends within a bounded number of steps; there is always a way for all tasks to come to their end; and every task ends after a bounded number of its own steps.", "quantifier": "for all assignments of packets to any number of tasks, all known dates and all schedules of their atomic operations", "why_tests_cant": "Deadlock and starvation depend on where tasks are stopped; tests see only the few schedules the runtime happens to choose.", "anchors": ["src/util/packets_history.rs:23-54", "src/util/packets_history.rs:64-179", "src/adnl/peer.rs:41-57", "src/adnl/node/receiver.rs:87-101"]}
{"id": "C135", "title": "Printed ids are text, and different ids are printed differently", "statement": "What the Display implementations of node ids, transfer ids and broadcast ids hand to from_utf8_unchecked is UTF-8, for a stored id of any length (the result of the conversion to hexadecimal is ignored). For ids of 32 bytes it is 64 lower-case hexadecimal digits, the same as for overlay ids, from which the id can be read back; so different ids are printed differently.", "quantifier": "for all ids (byte strings of any length for the first part, of 32 bytes for the others)", "why_tests_cant": "There are 2^256 ids and undefined behaviour of an unchecked conversion need not show in a test.", "anchors": ["src/adnl/node_id.rs:110-127", "src/adnl/transfer.rs:118-130", "src/overlay/overlay.rs:1400-1413", "src/overlay/overlay_id.rs:130-134"]}
{"id": "C136", "title": "Records of DHT nodes added by several tasks at once leave the tables as if added one after another", "statement": "Calls of add_dht_peer run in many tasks (for queries, for answers and for the application) and share the set of known peers, the routing table and the peers of the ADNL node. Take every access to one of them as a step of its own. Then in every interleaving: once no call is on its way there is an order of the calls that returned, in which a call that returned before another began comes first, such that making the calls one after another in this order gives the same set of known peers, the same peers with the same versions in the routing table, the same penalties, and the same answer to every caller. At every moment, also with calls on their way, every record in the routing table is signed by the node it names, and a peer that is asked but not told to others is about to be put into the routing table by a task.", "quantifier": "for all records, any number of tasks, all schedules of their steps, all capacities, all starting states of the node, all cryptographic primitives", "why_tests_cant": "The calls must be stopped between the insertion into the set and the insertion into the routing table, and a record must be evicted and learned again meanwhile; tests do not reach such schedules.", "anchors": ["src/dht/node.rs:573-612", "src/dht/node.rs:631-635", "src/dht/buckets.rs:27-41", "src/adnl/peers_set.rs:126-128", "src/adnl/node/mod.rs:315-349"]}
{"id": "C137", "title": "The peers of an overlay stay sound when several calls change them at once", "statement": "Additions, removals, the refill of the neighbours and requests for random peers run in tasks of their own and touch ignored_peers, known_peers, neighbours, nodes, received_peers and the peers of the ADNL node one after the other. Take every such access as a step of its own, in any order. Then known peers and neighbours were given at the start or once welcomed, none twice, never more than there is room for; every stored record was offered, is signed for the overlay by its node and is not of the local node; stored versions never go down, and when all calls have returned the newest welcome record of every node is stored; an answer to a request for random peers has the own record and at most four genuine records of different other nodes even if they change while it is put together; a peer that is ignored and no neighbour, and that no unfinished call holds, stays out until it is offered again. A call that is not disturbed does exactly what it does as one step. In full, the calls together act as if made one after another, in an order that respects which had returned when another began: this the code breaks.", "quantifier": "all overlays, all numbers of calls, all orders of their steps, all results of the random draws", "why_tests_cant": "The races need a task to be stopped between two accesses to different locks; tests run the calls one after another.", "anchors": ["src/overlay/overlay.rs:243-340", "src/overlay/overlay.rs:688-717", "src/overlay/overlay.rs:899-944", "src/adnl/peers_set.rs:85-121"]}
{"id": "C138", "title": "Records on the wire are read back as written, and mean the same when they are passed on", "statement": "Every record of ADNL, RLDP, the DHT and overlays that is both read and written (public keys, messages, address lists, message parts, DHT keys, values, nodes and answers, overlay nodes, certificates, broadcasts) is read back exactly as written, with whatever follows left over; different records have different encodings, none the beginning of another; and from whatever bytes a record was read, written again it is read as the same record. Only what the writers write is read.", "quantifier": "every record whose fields have the widths of their types, every byte string that is read, everything that follows", "why_tests_cant": "Values and byte strings are unbounded; bytes no writer writes (long lengths, other padding, several addresses) are not made by tests that write what they read.", "anchors": ["src/proto/adnl.rs: Message, AddressList", "src/proto/dht.rs: Key, KeyDescription, Value, Node, ValueResult", "src/proto/overlay.rs: Node, Nodes, Broadcast, Certificate", "src/proto/rldp.rs: Message, MessagePart", "src/dht/node.rs: add_dht_peer"]}
{"id": "C139", "title": "The receiver of an RLDP transfer confirms every tenth symbol", "statement": "Whatever messages came before: a receiver that cannot decode the current part yet answers with nothing nine times and confirms the tenth symbol, counted anew after each confirmation and for each part; the confirmation names the part and the number of the message it answers. Messages of other parts and refused messages are not counted.", "quantifier": "every sequence of messages, honest or not, and every erasure code", "why_tests_cant": "Sequences over several parts with foreign messages in between are unbounded.", "anchors": ["src/rldp/incoming_transfer.rs: process_chunk", "src/rldp/decoder.rs: decode, seqno"]}
{"id": "C140", "title": "Nodes that join the DHT through the same node learn of each other", "statement": "When a node asks a known DHT node for nodes near itself with its own record in front of the query, the query is answered; and if another node did the same at the same node before, the answer tells the new one about it (when there are fewer such nodes than asked for), so that adding the records makes the earlier node known.", "quantifier": "all lawful crypto primitives, keys, addresses and options, all histories of the node asked before and between the two queries, all limits k below 2^32", "why_tests_cant": "Examples and tests join one or two nodes whose ids happen to lie well; which records are told depends on 256-bit ids, on the routing table and on its whole history, and the bytes pass through two serialisations.", "anchors": ["src/dht/node.rs: query_dht_nodes (220-242), query_prefix (130-134), query_with_prefix (479-494), add_dht_peer (573-612)", "src/adnl/node/mod.rs: query_with_prefix (432-450), make_query (571-585)", "src/dht/buckets.rs: Buckets::find (44-86)"]}
{"id": "C141", "title": "An FEC broadcast is sent in waves and comes to an end", "statement": "The task that sends an FEC broadcast ends. By then it has sent every packet of the broadcast once, in order, in waves of fec_broadcast_wave_len packets with a pause after each, only the last of which can be shorter.", "quantifier": "all data, keys, clocks and wave lengths, all FEC libraries that number repair symbols behind the source symbols", "why_tests_cant": "The task runs for as long as there are packets; tests use the default length of a wave and short data, where two nested loops that share their end condition are left in one way only.", "anchors": ["src/overlay/overlay.rs:834-867", "src/overlay/overlay.rs:1070-1111", "src/overlay/overlay.rs: OverlayOptions::fec_broadcast_wave_len (66-75)"]}
{"id": "C142", "title": "The receiving task of an FEC broadcast outlives the tasks that hand it packets", "statement": "A packet that passed the checks of receive_fec_broadcast finds the channel of its transfer closed only if the receiving task had already taken a packet with which it gave the broadcast to the application, or one that spoils the transfer: its signature is not one by the source of the transfer, or the decoded bytes have the wrong size, or neither they nor their decompression have the announced hash. A receiving task whose transfer is in the table, or is held by a task that handles a packet, does not end for any other reason, and no packet is left in a channel for any other reason.", "quantifier": "All cryptography, FEC codes and options, all packets, all interleavings of the tasks that handle packets, the receiving tasks, the clean-up and the garbage collection.", "why_tests_cant": "The channel closes when the last holder of its sender is dropped; a packet lost to a receiving task that went away too early needs the clean-up to run between two accesses of another task.", "anchors": ["src/overlay/overlay.rs:611-685", "src/overlay/overlay.rs:960-1029", "src/overlay/overlay.rs:1224-1269"]}
{"id": "C143", "title": "A node does not deliver the broadcasts it sent itself", "statement": "From the moment on at which a node marks a broadcast as its own, it gives that broadcast to its own application, and passes it on as a received one, at most as often as it forgets it; and it passes on no packet of it before it forgets it.", "quantifier": "All cryptography, FEC codes and options, all packets, all interleavings of the tasks that handle packets, the receiving tasks, the clean-up and the garbage collection.", "why_tests_cant": "A test sends a broadcast and sees it once; an echo that is delivered needs a neighbour to return it while other tasks, the clean-up and the collection are at particular places.", "anchors": ["src/overlay/overlay.rs:719-780", "src/overlay/overlay.rs:783-870", "src/overlay/overlay.rs:947-957", "src/overlay/overlay.rs:611-660"]}
{"id": "C144", "title": "A node whose request to join the DHT was answered is known from then on", "statement": "A node asks a DHT node, over an ADNL connection that loses, repeats, reorders and delays datagrams, for nodes near itself, with its own record in front. If an answer comes, it can be read and tells, when there is room, about exactly the nodes the other side knew and the asking node itself, as far as they are closer to it than the other side. From then on, whatever happens to the other side, it tells everybody who asks for nodes near a place about the node that joined, if that node is closer to the place and there is room in the answer.", "quantifier": "All lawful cryptography, all runs of the two nodes over the network, everything the DHT node asked goes through before, between and after (queries of other peers, malformed ones included, stored and announced values, learned records, collections, failed queries), all places and limits.", "why_tests_cant": "The chain goes through two serialisations, the cutting and joining of datagrams, the dispatch to subscribers, the routing table and its whole history; a test sees one order of a few events.", "anchors": ["src/dht/node.rs:220-242", "src/dht/node.rs:479-494", "src/dht/node.rs:573-612", "src/dht/node.rs:674-727", "src/dht/buckets.rs:44-86"]}
