import Verif.Spec.Scheme

/-!
# The declarations of the scheme, read
-/
namespace Verif.Spec.Scheme

theorem find_fec_raptorQ : find tl!"fec.raptorQ" = some
    ⟨0x8b93a7e0, [(tl!"data_size", .int),
      (tl!"symbol_size", .int),
      (tl!"symbols_count", .int)], tl!"fec.Type"⟩ := by decide +kernel

theorem find_pub_ed25519 : find tl!"pub.ed25519" = some
    ⟨0x4813b4c6, [(tl!"key", .int256)], tl!"PublicKey"⟩ := by decide +kernel

theorem find_pub_aes : find tl!"pub.aes" = some
    ⟨0x2dbcadd4, [(tl!"key", .int256)], tl!"PublicKey"⟩ := by decide +kernel

theorem find_pub_overlay : find tl!"pub.overlay" = some
    ⟨0x34ba45cb, [(tl!"name", .bytes)], tl!"PublicKey"⟩ := by decide +kernel

theorem find_adnl_id_short : find tl!"adnl.id.short" = some
    ⟨0x3e3f654f, [(tl!"id", .int256)], tl!"adnl.id.Short"⟩ := by decide +kernel

theorem find_adnl_address_udp : find tl!"adnl.address.udp" = some
    ⟨0x670da6e7, [(tl!"ip", .int),
      (tl!"port", .int)], tl!"adnl.Address"⟩ := by decide +kernel

theorem find_adnl_address_udp6 : find tl!"adnl.address.udp6" = some
    ⟨0xe31d63fa, [(tl!"ip", .int128),
      (tl!"port", .int)], tl!"adnl.Address"⟩ := by decide +kernel

theorem find_adnl_addressList : find tl!"adnl.addressList" = some
    ⟨0x2227e658, [(tl!"addrs", (.vector (.boxed tl!"adnl.Address"))),
      (tl!"version", .int),
      (tl!"reinit_date", .int),
      (tl!"priority", .int),
      (tl!"expire_at", .int)], tl!"adnl.AddressList"⟩ := by decide +kernel

/-- The declaration of a packet is long: its id is computed piece by piece. -/
def packetDecl : Text :=
  tl!"adnl.packetContents rand1:bytes flags:# from:flags.0?PublicKey from_short:flags.1?adnl.id.short message:flags.2?adnl.Message messages:flags.3?(vector adnl.Message) address:flags.4?adnl.addressList priority_address:flags.5?adnl.addressList seqno:flags.6?long confirm_seqno:flags.7?long recv_addr_list_version:flags.8?int recv_priority_addr_list_version:flags.9?int reinit_date:flags.10?int dst_reinit_date:flags.10?int signature:flags.11?bytes rand2:bytes = adnl.PacketContents"

theorem crc_packet_0 : (tl!"adnl.packetContents rand1:bytes flags:# from:flags.0?PublicKey from_short:flags.1?adnl.id.short message:flags.2?adnl.Mes").foldl (fun c b => crcByte (c ^^^ b) 8) 4294967295 = 2466071069 := by
  decide +kernel

theorem crc_packet_1 : (tl!"sage messages:flags.3?vector adnl.Message address:flags.4?adnl.addressList priority_address:flags.5?adnl.addressList seq").foldl (fun c b => crcByte (c ^^^ b) 8) 2466071069 = 1518313881 := by
  decide +kernel

theorem crc_packet_2 : (tl!"no:flags.6?long confirm_seqno:flags.7?long recv_addr_list_version:flags.8?int recv_priority_addr_list_version:flags.9?in").foldl (fun c b => crcByte (c ^^^ b) 8) 1518313881 = 3790001156 := by
  decide +kernel

theorem crc_packet_3 : (tl!"t reinit_date:flags.10?int dst_reinit_date:flags.10?int signature:flags.11?bytes rand2:bytes = adnl.PacketContents").foldl (fun c b => crcByte (c ^^^ b) 8) 3790001156 = 784151158 := by
  decide +kernel

theorem filter_packet : packetDecl.filter (fun x => x ≠ 40 ∧ x ≠ 41) =
    tl!"adnl.packetContents rand1:bytes flags:# from:flags.0?PublicKey from_short:flags.1?adnl.id.short message:flags.2?adnl.Mes" ++ tl!"sage messages:flags.3?vector adnl.Message address:flags.4?adnl.addressList priority_address:flags.5?adnl.addressList seq" ++ tl!"no:flags.6?long confirm_seqno:flags.7?long recv_addr_list_version:flags.8?int recv_priority_addr_list_version:flags.9?in" ++ tl!"t reinit_date:flags.10?int dst_reinit_date:flags.10?int signature:flags.11?bytes rand2:bytes = adnl.PacketContents" := by decide +kernel

theorem crc32_append (a b : Text) : crc32 (a ++ b) =
    (b.foldl (fun c b => crcByte (c ^^^ b) 8) (a.foldl (fun c b => crcByte (c ^^^ b) 8) 0xffffffff)) ^^^ 0xffffffff := by
  unfold crc32
  rw [List.foldl_append]

theorem idOf_packet : idOf packetDecl = 0xd142cd89 := by
  have e : idOf packetDecl = crc32 (packetDecl.filter (fun x => x ≠ 40 ∧ x ≠ 41)) := by unfold idOf; rfl
  rw [e, filter_packet, crc32_append]
  simp only [List.foldl_append]
  rw [crc_packet_0, crc_packet_1, crc_packet_2, crc_packet_3]
  decide +kernel

theorem find_packet : declarations.find? (fun d => (cut 32 d).1 = tl!"adnl.packetContents") = some packetDecl := by
  decide +kernel

theorem fields_packet : ((words packetDecl).drop 1 |>.takeWhile (· ≠ [61])).map parseField =
    [(tl!"rand1", .bytes),
      (tl!"flags", .int),
      (tl!"from", (.cond 0 (.boxed tl!"PublicKey"))),
      (tl!"from_short", (.cond 1 (.bare tl!"adnl.id.short"))),
      (tl!"message", (.cond 2 (.boxed tl!"adnl.Message"))),
      (tl!"messages", (.cond 3 (.vector (.boxed tl!"adnl.Message")))),
      (tl!"address", (.cond 4 (.bare tl!"adnl.addressList"))),
      (tl!"priority_address", (.cond 5 (.bare tl!"adnl.addressList"))),
      (tl!"seqno", (.cond 6 .long)),
      (tl!"confirm_seqno", (.cond 7 .long)),
      (tl!"recv_addr_list_version", (.cond 8 .int)),
      (tl!"recv_priority_addr_list_version", (.cond 9 .int)),
      (tl!"reinit_date", (.cond 10 .int)),
      (tl!"dst_reinit_date", (.cond 10 .int)),
      (tl!"signature", (.cond 11 .bytes)),
      (tl!"rand2", .bytes)] := by
  decide +kernel

theorem type_packet : (words packetDecl).getLast?.getD [] = tl!"adnl.PacketContents" := by decide +kernel

theorem find_adnl_packetContents : find tl!"adnl.packetContents" = some
    ⟨0xd142cd89, [(tl!"rand1", .bytes),
      (tl!"flags", .int),
      (tl!"from", (.cond 0 (.boxed tl!"PublicKey"))),
      (tl!"from_short", (.cond 1 (.bare tl!"adnl.id.short"))),
      (tl!"message", (.cond 2 (.boxed tl!"adnl.Message"))),
      (tl!"messages", (.cond 3 (.vector (.boxed tl!"adnl.Message")))),
      (tl!"address", (.cond 4 (.bare tl!"adnl.addressList"))),
      (tl!"priority_address", (.cond 5 (.bare tl!"adnl.addressList"))),
      (tl!"seqno", (.cond 6 .long)),
      (tl!"confirm_seqno", (.cond 7 .long)),
      (tl!"recv_addr_list_version", (.cond 8 .int)),
      (tl!"recv_priority_addr_list_version", (.cond 9 .int)),
      (tl!"reinit_date", (.cond 10 .int)),
      (tl!"dst_reinit_date", (.cond 10 .int)),
      (tl!"signature", (.cond 11 .bytes)),
      (tl!"rand2", .bytes)], tl!"adnl.PacketContents"⟩ := by
  unfold find
  rw [find_packet]
  have e : parseDecl packetDecl = ⟨idOf packetDecl, ((words packetDecl).drop 1 |>.takeWhile (· ≠ [61])).map parseField,
      (words packetDecl).getLast?.getD []⟩ := rfl
  rw [Option.map_some, e, idOf_packet, fields_packet, type_packet]

theorem find_adnl_message_createChannel : find tl!"adnl.message.createChannel" = some
    ⟨0xe673c3bb, [(tl!"key", .int256),
      (tl!"date", .int)], tl!"adnl.Message"⟩ := by decide +kernel

theorem find_adnl_message_confirmChannel : find tl!"adnl.message.confirmChannel" = some
    ⟨0x60dd1d69, [(tl!"key", .int256),
      (tl!"peer_key", .int256),
      (tl!"date", .int)], tl!"adnl.Message"⟩ := by decide +kernel

theorem find_adnl_message_custom : find tl!"adnl.message.custom" = some
    ⟨0x204818f5, [(tl!"data", .bytes)], tl!"adnl.Message"⟩ := by decide +kernel

theorem find_adnl_message_nop : find tl!"adnl.message.nop" = some
    ⟨0x17f8dfda, [], tl!"adnl.Message"⟩ := by decide +kernel

theorem find_adnl_message_reinit : find tl!"adnl.message.reinit" = some
    ⟨0x10c20520, [(tl!"date", .int)], tl!"adnl.Message"⟩ := by decide +kernel

theorem find_adnl_message_query : find tl!"adnl.message.query" = some
    ⟨0xb48bf97a, [(tl!"query_id", .int256),
      (tl!"query", .bytes)], tl!"adnl.Message"⟩ := by decide +kernel

theorem find_adnl_message_answer : find tl!"adnl.message.answer" = some
    ⟨0x0fac8416, [(tl!"query_id", .int256),
      (tl!"answer", .bytes)], tl!"adnl.Message"⟩ := by decide +kernel

theorem find_adnl_message_part : find tl!"adnl.message.part" = some
    ⟨0xfd452d39, [(tl!"hash", .int256),
      (tl!"total_size", .int),
      (tl!"offset", .int),
      (tl!"data", .bytes)], tl!"adnl.Message"⟩ := by decide +kernel

theorem find_rldp_messagePart : find tl!"rldp.messagePart" = some
    ⟨0x185c22cc, [(tl!"transfer_id", .int256),
      (tl!"fec_type", (.boxed tl!"fec.Type")),
      (tl!"part", .int),
      (tl!"total_size", .long),
      (tl!"seqno", .int),
      (tl!"data", .bytes)], tl!"rldp.MessagePart"⟩ := by decide +kernel

theorem find_rldp_confirm : find tl!"rldp.confirm" = some
    ⟨0xf582dc58, [(tl!"transfer_id", .int256),
      (tl!"part", .int),
      (tl!"seqno", .int)], tl!"rldp.MessagePart"⟩ := by decide +kernel

theorem find_rldp_complete : find tl!"rldp.complete" = some
    ⟨0xbc0cb2bf, [(tl!"transfer_id", .int256),
      (tl!"part", .int)], tl!"rldp.MessagePart"⟩ := by decide +kernel

theorem find_rldp_message : find tl!"rldp.message" = some
    ⟨0x7d1bcd1e, [(tl!"id", .int256),
      (tl!"data", .bytes)], tl!"rldp.Message"⟩ := by decide +kernel

theorem find_rldp_query : find tl!"rldp.query" = some
    ⟨0x8a794d69, [(tl!"query_id", .int256),
      (tl!"max_answer_size", .long),
      (tl!"timeout", .int),
      (tl!"data", .bytes)], tl!"rldp.Message"⟩ := by decide +kernel

theorem find_rldp_answer : find tl!"rldp.answer" = some
    ⟨0xa3fc5c03, [(tl!"query_id", .int256),
      (tl!"data", .bytes)], tl!"rldp.Message"⟩ := by decide +kernel

theorem find_dht_node : find tl!"dht.node" = some
    ⟨0x84533248, [(tl!"id", (.boxed tl!"PublicKey")),
      (tl!"addr_list", (.bare tl!"adnl.addressList")),
      (tl!"version", .int),
      (tl!"signature", .bytes)], tl!"dht.Node"⟩ := by decide +kernel

theorem find_dht_nodes : find tl!"dht.nodes" = some
    ⟨0x7974a0be, [(tl!"nodes", (.vector (.bare tl!"dht.node")))], tl!"dht.Nodes"⟩ := by decide +kernel

theorem find_dht_key : find tl!"dht.key" = some
    ⟨0xf667de8f, [(tl!"id", .int256),
      (tl!"name", .bytes),
      (tl!"idx", .int)], tl!"dht.Key"⟩ := by decide +kernel

theorem find_dht_updateRule_signature : find tl!"dht.updateRule.signature" = some
    ⟨0xcc9f31f7, [], tl!"dht.UpdateRule"⟩ := by decide +kernel

theorem find_dht_updateRule_anybody : find tl!"dht.updateRule.anybody" = some
    ⟨0x61578e14, [], tl!"dht.UpdateRule"⟩ := by decide +kernel

theorem find_dht_updateRule_overlayNodes : find tl!"dht.updateRule.overlayNodes" = some
    ⟨0x26779383, [], tl!"dht.UpdateRule"⟩ := by decide +kernel

theorem find_dht_keyDescription : find tl!"dht.keyDescription" = some
    ⟨0x281d4e05, [(tl!"key", (.bare tl!"dht.key")),
      (tl!"id", (.boxed tl!"PublicKey")),
      (tl!"update_rule", (.boxed tl!"dht.UpdateRule")),
      (tl!"signature", .bytes)], tl!"dht.KeyDescription"⟩ := by decide +kernel

theorem find_dht_value : find tl!"dht.value" = some
    ⟨0x90ad27cb, [(tl!"key", (.bare tl!"dht.keyDescription")),
      (tl!"value", .bytes),
      (tl!"ttl", .int),
      (tl!"signature", .bytes)], tl!"dht.Value"⟩ := by decide +kernel

theorem find_dht_pong : find tl!"dht.pong" = some
    ⟨0x5a8aef81, [(tl!"random_id", .long)], tl!"dht.Pong"⟩ := by decide +kernel

theorem find_dht_valueNotFound : find tl!"dht.valueNotFound" = some
    ⟨0xa2620568, [(tl!"nodes", (.bare tl!"dht.nodes"))], tl!"dht.ValueResult"⟩ := by decide +kernel

theorem find_dht_valueFound : find tl!"dht.valueFound" = some
    ⟨0xe40cf774, [(tl!"value", (.boxed tl!"dht.Value"))], tl!"dht.ValueResult"⟩ := by decide +kernel

theorem find_dht_stored : find tl!"dht.stored" = some
    ⟨0x7026fb08, [], tl!"dht.Stored"⟩ := by decide +kernel

theorem find_dht_ping : find tl!"dht.ping" = some
    ⟨0xcbeb3f18, [(tl!"random_id", .long)], tl!"dht.Pong"⟩ := by decide +kernel

theorem find_dht_store : find tl!"dht.store" = some
    ⟨0x34934212, [(tl!"value", (.bare tl!"dht.value"))], tl!"dht.Stored"⟩ := by decide +kernel

theorem find_dht_findNode : find tl!"dht.findNode" = some
    ⟨0x6ce2ce6b, [(tl!"key", .int256),
      (tl!"k", .int)], tl!"dht.Nodes"⟩ := by decide +kernel

theorem find_dht_findValue : find tl!"dht.findValue" = some
    ⟨0xae4b6011, [(tl!"key", .int256),
      (tl!"k", .int)], tl!"dht.ValueResult"⟩ := by decide +kernel

theorem find_dht_getSignedAddressList : find tl!"dht.getSignedAddressList" = some
    ⟨0xa97948ed, [], tl!"dht.Node"⟩ := by decide +kernel

theorem find_dht_query : find tl!"dht.query" = some
    ⟨0x7d530769, [(tl!"node", (.bare tl!"dht.node"))], tl!"True"⟩ := by decide +kernel

theorem find_overlay_node_toSign : find tl!"overlay.node.toSign" = some
    ⟨0x03d8a8e1, [(tl!"id", (.bare tl!"adnl.id.short")),
      (tl!"overlay", .int256),
      (tl!"version", .int)], tl!"overlay.node.ToSign"⟩ := by decide +kernel

theorem find_overlay_node : find tl!"overlay.node" = some
    ⟨0xb86b8a83, [(tl!"id", (.boxed tl!"PublicKey")),
      (tl!"overlay", .int256),
      (tl!"version", .int),
      (tl!"signature", .bytes)], tl!"overlay.Node"⟩ := by decide +kernel

theorem find_overlay_nodes : find tl!"overlay.nodes" = some
    ⟨0xe487290e, [(tl!"nodes", (.vector (.bare tl!"overlay.node")))], tl!"overlay.Nodes"⟩ := by decide +kernel

theorem find_overlay_message : find tl!"overlay.message" = some
    ⟨0x75252420, [(tl!"overlay", .int256)], tl!"overlay.Message"⟩ := by decide +kernel

theorem find_overlay_fec_received : find tl!"overlay.fec.received" = some
    ⟨0xd55c14ec, [(tl!"hash", .int256)], tl!"overlay.Broadcast"⟩ := by decide +kernel

theorem find_overlay_fec_completed : find tl!"overlay.fec.completed" = some
    ⟨0x09d76914, [(tl!"hash", .int256)], tl!"overlay.Broadcast"⟩ := by decide +kernel

theorem find_overlay_broadcast_id : find tl!"overlay.broadcast.id" = some
    ⟨0x51fd789a, [(tl!"src", .int256),
      (tl!"data_hash", .int256),
      (tl!"flags", .int)], tl!"overlay.broadcast.Id"⟩ := by decide +kernel

theorem find_overlay_broadcastFec_id : find tl!"overlay.broadcastFec.id" = some
    ⟨0xfb3155a6, [(tl!"src", .int256),
      (tl!"type", .int256),
      (tl!"data_hash", .int256),
      (tl!"size", .int),
      (tl!"flags", .int)], tl!"overlay.broadcastFec.Id"⟩ := by decide +kernel

theorem find_overlay_broadcastFec_partId : find tl!"overlay.broadcastFec.partId" = some
    ⟨0xa46962d0, [(tl!"broadcast_hash", .int256),
      (tl!"data_hash", .int256),
      (tl!"seqno", .int)], tl!"overlay.broadcastFec.PartId"⟩ := by decide +kernel

theorem find_overlay_broadcast_toSign : find tl!"overlay.broadcast.toSign" = some
    ⟨0xfa374e7c, [(tl!"hash", .int256),
      (tl!"date", .int)], tl!"overlay.broadcast.ToSign"⟩ := by decide +kernel

theorem find_overlay_certificate : find tl!"overlay.certificate" = some
    ⟨0xe09ed731, [(tl!"issued_by", (.boxed tl!"PublicKey")),
      (tl!"expire_at", .int),
      (tl!"max_size", .int),
      (tl!"signature", .bytes)], tl!"overlay.Certificate"⟩ := by decide +kernel

theorem find_overlay_emptyCertificate : find tl!"overlay.emptyCertificate" = some
    ⟨0x32dabccf, [], tl!"overlay.Certificate"⟩ := by decide +kernel

theorem find_overlay_unicast : find tl!"overlay.unicast" = some
    ⟨0x33534e24, [(tl!"data", .bytes)], tl!"overlay.Broadcast"⟩ := by decide +kernel

theorem find_overlay_broadcast : find tl!"overlay.broadcast" = some
    ⟨0xb15a2b6b, [(tl!"src", (.boxed tl!"PublicKey")),
      (tl!"certificate", (.boxed tl!"overlay.Certificate")),
      (tl!"flags", .int),
      (tl!"data", .bytes),
      (tl!"date", .int),
      (tl!"signature", .bytes)], tl!"overlay.Broadcast"⟩ := by decide +kernel

theorem find_overlay_broadcastFec : find tl!"overlay.broadcastFec" = some
    ⟨0xbad7c36a, [(tl!"src", (.boxed tl!"PublicKey")),
      (tl!"certificate", (.boxed tl!"overlay.Certificate")),
      (tl!"data_hash", .int256),
      (tl!"data_size", .int),
      (tl!"flags", .int),
      (tl!"data", .bytes),
      (tl!"seqno", .int),
      (tl!"fec", (.boxed tl!"fec.Type")),
      (tl!"date", .int),
      (tl!"signature", .bytes)], tl!"overlay.Broadcast"⟩ := by decide +kernel

theorem find_overlay_broadcastFecShort : find tl!"overlay.broadcastFecShort" = some
    ⟨0xf1881342, [(tl!"src", (.boxed tl!"PublicKey")),
      (tl!"certificate", (.boxed tl!"overlay.Certificate")),
      (tl!"broadcast_hash", .int256),
      (tl!"part_data_hash", .int256),
      (tl!"seqno", .int),
      (tl!"signature", .bytes)], tl!"overlay.Broadcast"⟩ := by decide +kernel

theorem find_overlay_broadcastNotFound : find tl!"overlay.broadcastNotFound" = some
    ⟨0x95863624, [], tl!"overlay.Broadcast"⟩ := by decide +kernel

theorem find_overlay_getRandomPeers : find tl!"overlay.getRandomPeers" = some
    ⟨0x48ee64ab, [(tl!"peers", (.bare tl!"overlay.nodes"))], tl!"overlay.Nodes"⟩ := by decide +kernel

theorem find_overlay_query : find tl!"overlay.query" = some
    ⟨0xccfd8443, [(tl!"overlay", .int256)], tl!"True"⟩ := by decide +kernel

theorem find_tonNode_shardPublicOverlayId : find tl!"tonNode.shardPublicOverlayId" = some
    ⟨0x4d9ed329, [(tl!"workchain", .int),
      (tl!"shard", .long),
      (tl!"zero_state_file_hash", .int256)], tl!"tonNode.ShardPublicOverlayId"⟩ := by decide +kernel

theorem find_catchain_firstblock : find tl!"catchain.firstblock" = some
    ⟨0x10c904fb, [(tl!"unique_hash", .int256),
      (tl!"nodes", (.vector .int256))], tl!"catchain.FirstBlock"⟩ := by decide +kernel

end Verif.Spec.Scheme
