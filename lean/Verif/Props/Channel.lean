import Verif.Model.Channel
import Verif.Props.Handshake
import Verif.Proofs.AdnlProto

/-!
# C12, C13: channel packets
-/
namespace Verif.Adnl

theorem cmpBytes_swap : ∀ a b : Bytes, cmpBytes b a = (cmpBytes a b).swap
  | [], [] => rfl
  | [], _ :: _ => rfl
  | _ :: _, [] => rfl
  | a :: as, b :: bs => by
    unfold cmpBytes
    by_cases h1 : a < b
    · have h2 : ¬ b < a := by
        rw [UInt8.lt_iff_toNat_lt] at *; omega
      simp [h1, h2]
    · by_cases h2 : b < a
      · simp [h1, h2]
      · simp [h1, h2, cmpBytes_swap as bs]

theorem cmpBytes_eq : ∀ a b : Bytes, cmpBytes a b = .eq → a = b
  | [], [], _ => rfl
  | [], _ :: _, h => by cases h
  | _ :: _, [], h => by cases h
  | a :: as, b :: bs, h => by
    unfold cmpBytes at h
    split at h
    · cases h
    · split at h
      · cases h
      · rename_i h1 h2
        have hab : a = b := by
          rw [UInt8.lt_iff_toNat_lt] at h1 h2
          exact UInt8.toNat_inj.mp (by omega)
        rw [hab, cmpBytes_eq as bs h]

/-- C12, full statement: channel packets in both directions, for any payload. -/
def C12_full : Prop :=
  ∀ (c : Crypto), c.Lawful → ∀ (idA idB : Bytes) (a b : c.Sec) (dA dB : Nat) (xA xB : Ctx)
    (priority : Bool) (version : Option Nat) (data : Bytes), (∀ v ∈ version, v < 2 ^ 16) →
    (Channel.new c idB idA b (c.pubOf a) dB xB).decrypt c priority
      ((Channel.new c idA idB a (c.pubOf b) dA xA).encrypt c priority version data) = .ok version data

/-- It fails for versioned packets with an empty payload. -/
theorem C12_full_false : ¬ C12_full := by
  intro h
  have := h Crypto.toy Crypto.toy_lawful [1] [2] (3 : UInt8) (5 : UInt8) 0 0 .create .confirm false
    (some 1) [] (by simp)
  revert this
  decide +kernel

/-- C12: the two ends, which know their own channel secret and the public channel key of the other
side, compute mirrored keys and ids. -/
theorem C12_ends_are_mirrored (c : Crypto) (hc : c.Lawful) (idA idB : Bytes) (a b : c.Sec)
    (dA dB : Nat) (xA xB : Ctx) :
    (Channel.new c idA idB a (c.pubOf b) dA xA).out = (Channel.new c idB idA b (c.pubOf a) dB xB).inn ∧
    (Channel.new c idA idB a (c.pubOf b) dA xA).inn = (Channel.new c idB idA b (c.pubOf a) dB xB).out := by
  unfold Channel.new
  simp only
  rw [cmpBytes_swap idA idB, hc.dh_comm b a]
  cases cmpBytes idA idB <;> exact ⟨rfl, rfl⟩

theorem encrypt_prefix (c : Crypto) (ch : Channel) (p : Bool) (v : Option Nat) (d : Bytes) :
    ∃ rest, ch.encrypt c p v d = (ch.out.sub p).id ++ rest := by
  unfold Channel.encrypt sealPacket
  cases v <;> simp only [List.append_assoc] <;> exact ⟨_, rfl⟩

theorem sub_id_length (c : Crypto) (hc : c.Lawful) (s : Bytes) (p : Bool) :
    ((Side.fromSecret c s).sub p).id.length = 32 := by
  unfold Side.sub; cases p <;> simp [Side.fromSecret, channelId, hc.sha_length]

/-- C12: a packet sent by one end starts with the id under which the other end looks the channel up,
for both priorities. -/
theorem C12_packet_is_found (c : Crypto) (hc : c.Lawful) (idA idB : Bytes) (a b : c.Sec)
    (dA dB : Nat) (xA xB : Ctx) (priority : Bool) (version : Option Nat) (data : Bytes) :
    ((Channel.new c idA idB a (c.pubOf b) dA xA).encrypt c priority version data).take 32 =
      ((Channel.new c idB idA b (c.pubOf a) dB xB).inn.sub priority).id := by
  obtain ⟨rest, hr⟩ := encrypt_prefix c (Channel.new c idA idB a (c.pubOf b) dA xA) priority version data
  rw [hr, (C12_ends_are_mirrored c hc idA idB a b dA dB xA xB).1]
  have := sub_id_length c hc (splitSecret (cmpBytes idB idA) (c.dh b (c.pubOf a))).1 priority
  rw [← this]
  exact List.take_left

/-- C12: every versioned packet with a non-empty payload is decrypted to its payload and version. -/
theorem C12_versioned_partial (c : Crypto) (hc : c.Lawful) (idA idB : Bytes) (a b : c.Sec)
    (dA dB : Nat) (xA xB : Ctx) (priority : Bool) (v : Nat) (data : Bytes) (hv : v < 2 ^ 16)
    (hd : data ≠ []) :
    (Channel.new c idB idA b (c.pubOf a) dB xB).decrypt c priority
      ((Channel.new c idA idB a (c.pubOf b) dA xA).encrypt c priority (some v) data) =
      .ok (some v) data := by
  have hid : ((Channel.new c idA idB a (c.pubOf b) dA xA).out.sub priority).id.length = 32 :=
    sub_id_length c hc (splitSecret (cmpBytes idA idB) (c.dh a (c.pubOf b))).2 priority
  unfold Channel.decrypt
  rw [← (C12_ends_are_mirrored c hc idA idB a b dA dB xA xB).1]
  unfold Channel.encrypt
  rw [open_seal_some c hc 32 v _ _ data hid hv hd, if_neg]
  unfold sealPacket
  simp only [List.length_append, hid, dataHash_length c hc]
  omega

/-- The accident for channel packets: bytes 36..68 are the hash of a version and of the bytes
deciphered behind them. -/
def ChannelLooksVersioned (c : Crypto) (secret packet : Bytes) : Prop :=
  68 < packet.length ∧ ∃ v, v < 2 ^ 16 ∧
    c.sha (beBytes 2 v ++ cipher c secret (slice packet 36 68) (packet.drop 68)) = slice packet 36 68

/-- C12: every unversioned packet is decrypted to its payload, unless it accidentally looks versioned. -/
theorem C12_unversioned_partial (c : Crypto) (hc : c.Lawful) (idA idB : Bytes) (a b : c.Sec)
    (dA dB : Nat) (xA xB : Ctx) (priority : Bool) (data : Bytes)
    (hno : ¬ ChannelLooksVersioned c
      ((Channel.new c idA idB a (c.pubOf b) dA xA).out.sub priority).secret
      ((Channel.new c idA idB a (c.pubOf b) dA xA).encrypt c priority none data)) :
    (Channel.new c idB idA b (c.pubOf a) dB xB).decrypt c priority
      ((Channel.new c idA idB a (c.pubOf b) dA xA).encrypt c priority none data) = .ok none data := by
  have hid : ((Channel.new c idA idB a (c.pubOf b) dA xA).out.sub priority).id.length = 32 :=
    sub_id_length c hc (splitSecret (cmpBytes idA idB) (c.dh a (c.pubOf b))).2 priority
  have hlen : 64 ≤ ((Channel.new c idA idB a (c.pubOf b) dA xA).encrypt c priority none data).length := by
    unfold Channel.encrypt sealPacket
    simp only [List.length_append, hid, dataHash_length c hc]
    omega
  unfold Channel.decrypt
  rw [← (C12_ends_are_mirrored c hc idA idB a b dA dB xA xB).1, if_neg (by omega)]
  rw [(openPacket_spec c hc 32 _ _ hlen).2]
  · unfold Channel.encrypt
    rw [openOrdinary_seal c hc 32 _ _ data hid]
  · rintro v d ⟨a1, a2, a3, a4⟩
    exact hno ⟨a1, v, decodeVersion_lt _ _ _ a2, by rw [← a3]; exact a4⟩

theorem prioritySecret_length : ∀ s : Bytes, (prioritySecret s).length = s.length
  | [] => rfl
  | [_] => rfl
  | _ :: _ :: rest => by simp [prioritySecret, prioritySecret_length rest]

theorem prioritySecret_getElem : ∀ (s : Bytes) (i : Nat), 2 * i + 1 < s.length →
    (prioritySecret s)[2 * i]? = s[2 * i + 1]? ∧ (prioritySecret s)[2 * i + 1]? = s[2 * i]?
  | [], i, hi => by simp at hi
  | [_], i, hi => by simp at hi
  | a :: b :: rest, 0, _ => ⟨rfl, rfl⟩
  | a :: b :: rest, i + 1, hi => by
    have := prioritySecret_getElem rest i (by simp at hi; omega)
    rw [show 2 * (i + 1) = 2 * i + 1 + 1 by omega]
    simpa only [prioritySecret, List.getElem?_cons_succ] using this

theorem cmpBytes_lt : ∀ a b : Bytes, cmpBytes a b = .lt ↔ a < b
  | [], [] => by simp [cmpBytes]
  | [], _ :: _ => by simp [cmpBytes]
  | _ :: _, [] => by simp [cmpBytes]
  | x :: xs, y :: ys => by
    have ih := cmpBytes_lt xs ys
    simp only [cmpBytes, List.cons_lt_cons_iff]
    by_cases h : x < y
    · simp [h]
    · rw [if_neg h]
      by_cases h' : y < x
      · rw [if_pos h']
        have hne : x ≠ y := by rintro rfl; exact h h'
        simp [h, hne]
      · rw [if_neg h']
        have hxy : x = y := by
          apply UInt8.toNat_inj.mp
          rw [UInt8.lt_iff_toNat_lt] at h h'
          omega
        simp [hxy, ih]

theorem cmpBytes_gt (a b : Bytes) : cmpBytes a b = .gt ↔ b < a := by
  rw [← cmpBytes_lt, cmpBytes_swap a b]
  cases cmpBytes a b <;> simp

/-- C12: the key schedule of the protocol. The end with the smaller id receives under the shared secret and
sends under the reversed one, the other end the other way round; the priority secret is the ordinary one with
neighbouring bytes swapped; and each id is the hash of the TL object `pub.aes` of its secret. -/
theorem C12_key_schedule (c : Crypto) (hc : c.Lawful) (idA idB : Bytes) (a : c.Sec) (kB : c.Pub)
    (d : Nat) (x : Ctx) :
    let ch := Channel.new c idA idB a kB d x
    let shared := c.dh a kB
    (idA < idB → ch.inn.ordinary.secret = shared ∧ ch.out.ordinary.secret = shared.reverse) ∧
    (idB < idA → ch.inn.ordinary.secret = shared.reverse ∧ ch.out.ordinary.secret = shared) ∧
    (idA = idB → ch.inn.ordinary.secret = shared ∧ ch.out.ordinary.secret = shared) ∧
    (∀ side, side = ch.inn ∨ side = ch.out →
      (∀ i, i < 16 → side.priority.secret[2 * i]? = side.ordinary.secret[2 * i + 1]? ∧
        side.priority.secret[2 * i + 1]? = side.ordinary.secret[2 * i]?) ∧
      side.priority.secret.length = 32 ∧ side.ordinary.secret.length = 32 ∧
      side.ordinary.id = c.sha ([0xd4, 0xad, 0xbc, 0x2d] ++ side.ordinary.secret) ∧
      side.priority.id = c.sha ([0xd4, 0xad, 0xbc, 0x2d] ++ side.priority.secret)) := by
  have hl := hc.dh_length a kB
  have hside : ∀ s : Bytes, s.length = 32 →
      (∀ i, i < 16 → (Side.fromSecret c s).priority.secret[2 * i]? =
          (Side.fromSecret c s).ordinary.secret[2 * i + 1]? ∧
        (Side.fromSecret c s).priority.secret[2 * i + 1]? =
          (Side.fromSecret c s).ordinary.secret[2 * i]?) ∧
      (Side.fromSecret c s).priority.secret.length = 32 ∧
      (Side.fromSecret c s).ordinary.secret.length = 32 ∧
      (Side.fromSecret c s).ordinary.id =
        c.sha ([0xd4, 0xad, 0xbc, 0x2d] ++ (Side.fromSecret c s).ordinary.secret) ∧
      (Side.fromSecret c s).priority.id =
        c.sha ([0xd4, 0xad, 0xbc, 0x2d] ++ (Side.fromSecret c s).priority.secret) := by
    intro s hs
    refine ⟨fun i hi => prioritySecret_getElem s i (by omega), ?_, hs, rfl, rfl⟩
    exact (prioritySecret_length s).trans hs
  refine ⟨?_, ?_, ?_, ?_⟩
  · intro h
    have := (cmpBytes_lt _ _).mpr h
    simp [Channel.new, this, splitSecret, Side.fromSecret]
  · intro h
    have := (cmpBytes_gt _ _).mpr h
    simp [Channel.new, this, splitSecret, Side.fromSecret]
  · intro h
    subst h
    have : cmpBytes idA idA = .eq := by
      cases hh : cmpBytes idA idA with
      | eq => rfl
      | lt => exact absurd ((cmpBytes_lt _ _).mp hh) (List.lt_irrefl _)
      | gt => exact absurd ((cmpBytes_gt _ _).mp hh) (List.lt_irrefl _)
    simp [Channel.new, this, splitSecret, Side.fromSecret]
  · rintro side (rfl | rfl)
    · apply hside
      cases cmpBytes idA idB <;> simp [splitSecret, hl]
    · apply hside
      cases cmpBytes idA idB <;> simp [splitSecret, hl]

/-- Two ends whose ids differ. -/
example : (Channel.new Crypto.toy [1] [2] (show Crypto.toy.Sec from (3 : UInt8))
    (Crypto.toy.pubOf (5 : UInt8)) 0 .create).inn.ordinary.secret ≠ [] := by decide +kernel

/-- Two different secrets whose descriptions `pub.aes` have the same hash. -/
def KeysCollide (sha : Bytes → Bytes) (x y : Bytes) : Prop :=
  x ≠ y ∧ sha (leBytes 4 0x2dbcadd4 ++ x) = sha (leBytes 4 0x2dbcadd4 ++ y)

theorem channelId_inj_or (c : Crypto) (x y : Bytes)
    (h : channelId c x = channelId c y) : x = y ∨ KeysCollide c.sha x y := by
  by_cases hxy : x = y
  · exact .inl hxy
  · exact .inr ⟨hxy, h⟩

theorem prioritySecret_inv : ∀ s : Bytes, prioritySecret (prioritySecret s) = s
  | [] => rfl
  | [_] => rfl
  | _ :: _ :: rest => by simp [prioritySecret, prioritySecret_inv rest]

theorem sub_id_inj_or (c : Crypto) (x y : Bytes) (p : Bool)
    (h : ((Side.fromSecret c x).sub p).id = ((Side.fromSecret c y).sub p).id) :
    x = y ∨ KeysCollide c.sha (if p then prioritySecret x else x) (if p then prioritySecret y else y) := by
  cases p with
  | false => exact channelId_inj_or c x y h
  | true =>
    rcases channelId_inj_or c _ _ h with h | h
    · left; rw [← prioritySecret_inv x, h, prioritySecret_inv]
    · exact .inr h

/-- C12: the ends never confuse directions. If the incoming id of one priority equals the outgoing id
of the same channel and priority, then the two ends are the same node, or the agreed secret reads the
same in both directions, or the hash has a collision on the two secrets. -/
theorem C12_directions_differ (c : Crypto) (idA idB : Bytes) (a : c.Sec) (kB : c.Pub)
    (d : Nat) (x : Ctx) (p : Bool)
    (h : ((Channel.new c idA idB a kB d x).inn.sub p).id = ((Channel.new c idA idB a kB d x).out.sub p).id) :
    idA = idB ∨ (c.dh a kB).reverse = c.dh a kB ∨
      KeysCollide c.sha (if p then prioritySecret (c.dh a kB) else c.dh a kB)
        (if p then prioritySecret (c.dh a kB).reverse else (c.dh a kB).reverse) := by
  unfold Channel.new at h
  simp only at h
  cases ho : cmpBytes idA idB with
  | eq => exact .inl (cmpBytes_eq _ _ ho)
  | lt =>
    rw [ho] at h
    simp only [splitSecret] at h
    rcases sub_id_inj_or c _ _ p h with h | h
    · exact .inr (.inl h.symm)
    · exact .inr (.inr h)
  | gt =>
    rw [ho] at h
    simp only [splitSecret] at h
    rcases sub_id_inj_or c _ _ p h with h | h
    · exact .inr (.inl h)
    · exact .inr (.inr ⟨h.1.symm, h.2.symm⟩)

/-- C13: whatever bytes arrive under a channel id, a payload is delivered only if the packet is long
enough and carries the hash of exactly that payload (prefixed by the version, if there is one),
deciphered with the incoming secret of the channel and priority. -/
theorem C13_delivered_only_intact (c : Crypto) (hc : c.Lawful) (ch : Channel) (priority : Bool)
    (buffer : Bytes) (version : Option Nat) (data : Bytes)
    (h : ch.decrypt c priority buffer = .ok version data) :
    64 ≤ buffer.length ∧
    match version with
    | some v => v < 2 ^ 16 ∧ 68 < buffer.length ∧
        c.sha (beBytes 2 v ++ data) = slice buffer 36 68 ∧
        data = cipher c (ch.inn.sub priority).secret (slice buffer 36 68) (buffer.drop 68)
    | none => c.sha data = slice buffer 32 64 ∧
        data = cipher c (ch.inn.sub priority).secret (slice buffer 32 64) (buffer.drop 64) := by
  unfold Channel.decrypt at h
  split at h
  · cases h
  rename_i hlen
  have hlen' : 32 + 32 ≤ buffer.length := by omega
  cases ho : openPacket c 32 (ch.inn.sub priority).secret buffer with
  | badChecksum => rw [ho] at h; cases h
  | panic => rw [ho] at h; cases h
  | ok v d =>
    rw [ho] at h
    cases h
    refine ⟨hlen', ?_⟩
    rcases openPacket_ok c hc 32 _ buffer hlen' _ _ ho with ⟨n, rfl, a1, a2, a3, a4⟩ | ⟨rfl, a3, a4⟩
    · exact ⟨decodeVersion_lt _ _ _ a2, a1, a4, a3⟩
    · exact ⟨a4, a3⟩

/-- C13: short packets are refused and no packet makes the decryption read out of bounds. -/
theorem C13_short_and_bounds (c : Crypto) (hc : c.Lawful) (ch : Channel) (priority : Bool)
    (buffer : Bytes) :
    (buffer.length < 64 → ch.decrypt c priority buffer = .tooShort) ∧
    ch.decrypt c priority buffer ≠ .panic := by
  refine ⟨fun h => by unfold Channel.decrypt; rw [if_pos h], ?_⟩
  unfold Channel.decrypt
  split
  · simp
  · rename_i hlen
    have := openPacket_ne_panic c hc 32 (ch.inn.sub priority).secret buffer (by omega)
    cases ho : openPacket c 32 (ch.inn.sub priority).secret buffer with
    | panic => exact absurd ho this
    | _ => simp

/-- C13: changing the encrypted part of a delivered packet so that it is still delivered (with the
same version) needs a collision of the hash, on the two payloads (with the version in front if there is one). -/
theorem C13_tampering_needs_collision (c : Crypto) (hc : c.Lawful) (ch : Channel) (priority : Bool)
    (head body body' : Bytes) (version : Option Nat) (data data' : Bytes)
    (hhead : head.length = match version with | some _ => 68 | none => 64)
    (hdiff : body ≠ body')
    (h : ch.decrypt c priority (head ++ body) = .ok version data)
    (h' : ch.decrypt c priority (head ++ body') = .ok version data') :
    data ≠ data' ∧ c.sha ((version.map (beBytes 2)).getD [] ++ data) =
      c.sha ((version.map (beBytes 2)).getD [] ++ data') := by
  obtain ⟨-, m1⟩ := C13_delivered_only_intact c hc ch priority _ _ _ h
  obtain ⟨-, m2⟩ := C13_delivered_only_intact c hc ch priority _ _ _ h'
  have s : ∀ (b : Bytes) (i j : Nat), i ≤ j → j ≤ head.length →
      slice (head ++ b) i j = slice head i j := by
    intro b i j hi hj
    unfold slice
    rw [List.drop_append_of_le_length (by omega), List.take_append_of_le_length (by simp; omega)]
  have inj : ∀ s k a b, cipher c s k a = cipher c s k b → a = b := by
    intro s k a b hab
    rw [← cipher_inv c hc s k a, hab, cipher_inv c hc]
  cases version with
  | none =>
    simp only at m1 m2 hhead
    rw [s _ 32 64 (by omega) (by omega), ← hhead, List.drop_left] at m1 m2
    have hne : data ≠ data' := by
      intro heq
      rw [m1.2, m2.2] at heq
      exact hdiff (inj _ _ _ _ heq)
    exact ⟨hne, by simp [m1.1, m2.1]⟩
  | some v =>
    simp only at m1 m2 hhead
    rw [s _ 36 68 (by omega) (by omega), ← hhead, List.drop_left] at m1 m2
    have hne : data ≠ data' := by
      intro heq
      rw [m1.2.2.2, m2.2.2.2] at heq
      exact hdiff (inj _ _ _ _ heq)
    exact ⟨hne, by simp [m1.2.2.1, m2.2.2.1]⟩

/-- Two toy nodes talk to each other. -/
def toyA : Channel := Channel.new Crypto.toy [1] [2] (3 : UInt8) (5 : UInt8) 0 .create
def toyB : Channel := Channel.new Crypto.toy [2] [1] (5 : UInt8) (3 : UInt8) 0 .confirm

example : toyB.decrypt Crypto.toy true (toyA.encrypt Crypto.toy true (some 7) [1, 2, 3]) =
    .ok (some 7) [1, 2, 3] :=
  C12_versioned_partial Crypto.toy Crypto.toy_lawful [1] [2] (3 : UInt8) (5 : UInt8) 0 0 .create
    .confirm true 7 [1, 2, 3] (by decide) (by decide)

example : toyB.decrypt Crypto.toy false (toyA.encrypt Crypto.toy false none [1, 2, 3, 4, 5]) =
    .ok none [1, 2, 3, 4, 5] := by decide +kernel

/-- The unversioned hypothesis is met by a short payload. -/
example : ¬ ChannelLooksVersioned Crypto.toy (toyA.out.sub false).secret
    (toyA.encrypt Crypto.toy false none [1, 2]) := by
  rintro ⟨h, -⟩
  revert h
  decide +kernel

/-- A packet travelling in the wrong direction or with the wrong priority has another id. -/
example : toyA.inn.ordinary.id ≠ toyA.out.ordinary.id ∧ toyA.inn.priority.id ≠ toyA.inn.ordinary.id := by
  decide +kernel

example :
    let p := toyA.encrypt Crypto.toy false none [0, 31]
    let q := toyA.encrypt Crypto.toy false none [1, 0]
    p.take 64 = q.take 64 ∧ p.drop 64 ≠ q.drop 64 ∧
    toyB.decrypt Crypto.toy false p = .ok none [0, 31] ∧
    toyB.decrypt Crypto.toy false q = .ok none [1, 0] := by decide +kernel

example : toyA.out = toyB.inn ∧ toyA.inn = toyB.out :=
  C12_ends_are_mirrored Crypto.toy Crypto.toy_lawful [1] [2] (3 : UInt8) (5 : UInt8) 0 0 .create .confirm

example : (toyA.encrypt Crypto.toy true (some 7) [1, 2, 3]).take 32 = (toyB.inn.sub true).id :=
  C12_packet_is_found Crypto.toy Crypto.toy_lawful [1] [2] (3 : UInt8) (5 : UInt8) 0 0 .create .confirm true (some 7) [1, 2, 3]

example : toyB.decrypt Crypto.toy false (toyA.encrypt Crypto.toy false none [1, 2]) = .ok none [1, 2] :=
  C12_unversioned_partial Crypto.toy Crypto.toy_lawful [1] [2] (3 : UInt8) (5 : UInt8) 0 0 .create .confirm false [1, 2] (by
    rintro ⟨h, -⟩
    revert h
    decide +kernel)

/-- Equal ids of the two directions: a node that has a channel with itself. -/
example := C12_directions_differ Crypto.toy [1] [1] (3 : UInt8) (5 : UInt8) 0 .create false (by decide +kernel)

example := C13_delivered_only_intact Crypto.toy Crypto.toy_lawful toyB true (toyA.encrypt Crypto.toy true (some 7) [1, 2, 3])
  (some 7) [1, 2, 3] (by decide +kernel)

example : toyB.decrypt Crypto.toy true (List.replicate 63 0) = .tooShort :=
  (C13_short_and_bounds Crypto.toy Crypto.toy_lawful toyB true (List.replicate 63 0)).1 (by decide)

end Verif.Adnl
