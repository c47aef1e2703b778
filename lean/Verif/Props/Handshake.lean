import Verif.Proofs.Encryption
import Mathlib.Tactic.ByContra

/-!
# C10, C11: handshake packets
-/
namespace Verif.Adnl

/-- C10, full statement: every payload, with or without version, comes out as it went in. -/
def C10_full : Prop :=
  ∀ (c : Crypto), c.Lawful → ∀ (keys : Bytes → Option c.Sec) (peerId : Bytes) (sk temp : c.Sec)
    (version : Option Nat) (data : Bytes),
    peerId.length = 32 → keys peerId = some sk → (∀ v ∈ version, v < 2 ^ 16) →
    parseHandshake c keys (buildHandshake c peerId (c.pubOf sk) temp version data) =
      .ok peerId version data

/-- The full statement fails: a versioned packet with an empty payload is refused, because the
parser looks for a version only in packets longer than the versioned header. -/
theorem C10_full_false : ¬ C10_full := by
  intro h
  have := h Crypto.toy Crypto.toy_lawful (fun _ => some (3 : UInt8)) (List.replicate 32 7)
    (3 : UInt8) (5 : UInt8) (some 1) [] (by decide) rfl (by simp)
  revert this
  decide +kernel

theorem parse_build (c : Crypto) (hc : c.Lawful) (keys : Bytes → Option c.Sec) (peerId : Bytes)
    (sk temp : c.Sec) (version : Option Nat) (data : Bytes) (hl : peerId.length = 32)
    (hk : keys peerId = some sk) :
    parseHandshake c keys (buildHandshake c peerId (c.pubOf sk) temp version data) =
      match openPacket c 64 (c.dh sk (c.pubOf temp))
        (buildHandshake c peerId (c.pubOf sk) temp version data) with
      | .ok v d => .ok peerId v d
      | .badChecksum => .badChecksum
      | .panic => .panic := by
  have hp := hc.pub_length (c.pubOf temp)
  have hs := dataHash_length c hc version data
  have hlen : 96 ≤ (buildHandshake c peerId (c.pubOf sk) temp version data).length := by
    unfold buildHandshake sealPacket
    cases version <;> simp only [List.length_append, hl, hp, hs] <;> omega
  have hsplit : ∃ rest, buildHandshake c peerId (c.pubOf sk) temp version data =
      peerId ++ c.pubBytes (c.pubOf temp) ++ rest := by
    unfold buildHandshake sealPacket
    cases version <;> simp only [List.append_assoc] <;> exact ⟨_, rfl⟩
  unfold parseHandshake
  rw [if_neg (by omega)]
  obtain ⟨rest, hr⟩ := hsplit
  have h1 : (buildHandshake c peerId (c.pubOf sk) temp version data).take 32 = peerId := by
    rw [hr, List.append_assoc, ← hl, List.take_left]
  have h2 : sliceP (buildHandshake c peerId (c.pubOf sk) temp version data) 32 64 =
      some (c.pubBytes (c.pubOf temp)) := by
    rw [hr]; exact sliceP_mid _ _ _ 32 64 hl (by omega)
  rw [h1, hk]
  simp only
  rw [h2]
  simp only [hc.decode_pub]
  cases openPacket c 64 (c.dh sk (c.pubOf temp))
    (buildHandshake c peerId (c.pubOf sk) temp version data) <;> rfl

/-- C10 for versioned packets: every non-empty payload is opened to itself, with its version. -/
theorem C10_versioned_partial (c : Crypto) (hc : c.Lawful) (keys : Bytes → Option c.Sec)
    (peerId : Bytes) (sk temp : c.Sec) (v : Nat) (data : Bytes) (hl : peerId.length = 32)
    (hk : keys peerId = some sk) (hv : v < 2 ^ 16) (hd : data ≠ []) :
    parseHandshake c keys (buildHandshake c peerId (c.pubOf sk) temp (some v) data) =
      .ok peerId (some v) data := by
  rw [parse_build c hc keys peerId sk temp _ data hl hk]
  unfold buildHandshake
  rw [hc.dh_comm temp sk, open_seal_some c hc 64 v _ _ data (by simp [hl, hc.pub_length]) hv hd]

/-- The accident that can make an unversioned packet look like a versioned one: bytes 68..100 of the
packet happen to be the hash of a version and of the bytes deciphered behind them. -/
def LooksVersioned (c : Crypto) (secret packet : Bytes) : Prop :=
  100 < packet.length ∧ ∃ v, v < 2 ^ 16 ∧
    c.sha (beBytes 2 v ++ cipher c secret (slice packet 68 100) (packet.drop 100)) =
      slice packet 68 100

theorem decodeVersion_lt (n : Nat) (p : Bytes) (v : Nat) (h : decodeVersion n p = some v) :
    v < 2 ^ 16 := by
  unfold decodeVersion at h
  simp only at h
  split at h
  · cases h
    refine Nat.lt_of_lt_of_le (ofBE_lt _) ?_
    rw [List.length_take]
    exact Nat.le_trans (Nat.pow_le_pow_right (by omega) (Nat.min_le_left _ _)) (by decide)
  · cases h

/-- C10 for unversioned packets: every payload is opened to itself unless the packet accidentally
looks like a versioned one. -/
theorem C10_unversioned_partial (c : Crypto) (hc : c.Lawful) (keys : Bytes → Option c.Sec)
    (peerId : Bytes) (sk temp : c.Sec) (data : Bytes) (hl : peerId.length = 32)
    (hk : keys peerId = some sk)
    (hno : ¬ LooksVersioned c (c.dh sk (c.pubOf temp))
      (buildHandshake c peerId (c.pubOf sk) temp none data)) :
    parseHandshake c keys (buildHandshake c peerId (c.pubOf sk) temp none data) =
      .ok peerId none data := by
  have hh : (peerId ++ c.pubBytes (c.pubOf temp)).length = 64 := by simp [hl, hc.pub_length]
  rw [parse_build c hc keys peerId sk temp _ data hl hk]
  have hlen : 64 + 32 ≤ (buildHandshake c peerId (c.pubOf sk) temp none data).length := by
    unfold buildHandshake sealPacket
    simp only [List.length_append, hl, hc.pub_length, dataHash_length c hc]; omega
  rw [(openPacket_spec c hc 64 _ _ hlen).2]
  · unfold buildHandshake
    rw [hc.dh_comm temp sk, openOrdinary_seal c hc 64 _ _ data hh]
  · rintro v d ⟨a1, a2, a3, a4⟩
    exact hno ⟨a1, v, decodeVersion_lt _ _ _ a2, by rw [← a3]; exact a4⟩

/-- Short unversioned payloads never suffer from the accident. -/
theorem C10_unversioned_short_partial (c : Crypto) (hc : c.Lawful) (keys : Bytes → Option c.Sec)
    (peerId : Bytes) (sk temp : c.Sec) (data : Bytes) (hl : peerId.length = 32)
    (hk : keys peerId = some sk) (hd : data.length ≤ 4) :
    parseHandshake c keys (buildHandshake c peerId (c.pubOf sk) temp none data) =
      .ok peerId none data := by
  refine C10_unversioned_partial c hc keys peerId sk temp data hl hk ?_
  rintro ⟨h, -⟩
  unfold buildHandshake sealPacket at h
  simp only [List.length_append, hl, hc.pub_length, dataHash_length c hc, cipher_length c hc] at h
  omega

example : parseHandshake Crypto.toy (fun _ => some (3 : UInt8))
    (buildHandshake Crypto.toy (List.replicate 32 7) (Crypto.toy.pubOf (3 : UInt8)) (5 : UInt8)
      (some 258) [1, 2, 3]) = .ok (List.replicate 32 7) (some 258) [1, 2, 3] :=
  C10_versioned_partial Crypto.toy Crypto.toy_lawful (fun _ => some (3 : UInt8)) _ _ _ _ _
    (by decide) rfl (by decide) (by decide)

example : ¬ LooksVersioned Crypto.toy (Crypto.toy.dh (3 : UInt8) (Crypto.toy.pubOf (5 : UInt8)))
    (buildHandshake Crypto.toy (List.replicate 32 7) (Crypto.toy.pubOf (3 : UInt8)) (5 : UInt8)
      none [1, 2, 3, 4]) := by
  rintro ⟨h, -⟩
  revert h
  decide +kernel

/-- C11: whatever bytes arrive, a payload is delivered only if the packet is long enough, is
addressed to one of our keys, and carries the hash of exactly that payload (prefixed by the version,
if there is one), deciphered with the secret agreed with the key in the packet. -/
theorem C11_delivered_only_intact (c : Crypto) (hc : c.Lawful) (keys : Bytes → Option c.Sec)
    (buffer id : Bytes) (version : Option Nat) (data : Bytes)
    (h : parseHandshake c keys buffer = .ok id version data) :
    96 ≤ buffer.length ∧ id = buffer.take 32 ∧
    ∃ sk pub, keys id = some sk ∧ c.decodePub (slice buffer 32 64) = some pub ∧
      match version with
      | some v => v < 2 ^ 16 ∧ 100 < buffer.length ∧
          c.sha (beBytes 2 v ++ data) = slice buffer 68 100 ∧
          data = cipher c (c.dh sk pub) (slice buffer 68 100) (buffer.drop 100)
      | none => c.sha data = slice buffer 64 96 ∧
          data = cipher c (c.dh sk pub) (slice buffer 64 96) (buffer.drop 96) := by
  unfold parseHandshake at h
  split at h
  · cases h
  rename_i hlen
  have hlen' : 96 ≤ buffer.length := by omega
  cases hk : keys (buffer.take 32) with
  | none => rw [hk] at h; cases h
  | some sk =>
    rw [hk] at h
    simp only at h
    have hs : sliceP buffer 32 64 = some (slice buffer 32 64) := by
      unfold sliceP; rw [if_pos ⟨by omega, by omega⟩]
    rw [hs] at h
    simp only at h
    cases hp : c.decodePub (slice buffer 32 64) with
    | none => rw [hp] at h; cases h
    | some pub =>
      rw [hp] at h
      simp only at h
      cases ho : openPacket c 64 (c.dh sk pub) buffer with
      | badChecksum => rw [ho] at h; cases h
      | panic => rw [ho] at h; cases h
      | ok v d =>
        rw [ho] at h
        cases h
        refine ⟨hlen', rfl, sk, pub, hk, rfl, ?_⟩
        rcases openPacket_ok c hc 64 _ buffer hlen' _ _ ho with ⟨n, rfl, a1, a2, a3, a4⟩ | ⟨rfl, a3, a4⟩
        · exact ⟨decodeVersion_lt _ _ _ a2, a1, a4, a3⟩
        · exact ⟨a4, a3⟩

/-- C11: short packets are refused, packets for other recipients are ignored, and no packet makes
the parser read out of bounds. -/
theorem C11_short_foreign_and_bounds (c : Crypto) (hc : c.Lawful) (keys : Bytes → Option c.Sec)
    (buffer : Bytes) :
    (buffer.length < 96 → parseHandshake c keys buffer = .badLength) ∧
    (96 ≤ buffer.length → keys (buffer.take 32) = none → parseHandshake c keys buffer = .notForUs) ∧
    parseHandshake c keys buffer ≠ .panic := by
  refine ⟨fun h => by unfold parseHandshake; rw [if_pos h], fun h hk => ?_, ?_⟩
  · unfold parseHandshake
    rw [if_neg (by omega), hk]
  · unfold parseHandshake
    split
    · simp
    rename_i hlen
    cases hk : keys (buffer.take 32) with
    | none => simp
    | some sk =>
      have hs : sliceP buffer 32 64 = some (slice buffer 32 64) := by
        unfold sliceP; rw [if_pos ⟨by omega, by omega⟩]
      simp only [hs]
      cases hp : c.decodePub (slice buffer 32 64) with
      | none => simp
      | some pub =>
        simp only
        have := openPacket_ne_panic c hc 64 (c.dh sk pub) buffer (by omega)
        cases ho : openPacket c 64 (c.dh sk pub) buffer with
        | panic => exact absurd ho this
        | _ => simp

/-- C11: somebody who changes the encrypted part of a packet and still gets it delivered (with the
same version) has found two different texts with the same hash: the two payloads, with the version in front if
there is one. -/
theorem C11_tampering_needs_collision (c : Crypto) (hc : c.Lawful) (keys : Bytes → Option c.Sec)
    (head body body' id id' : Bytes) (version : Option Nat) (data data' : Bytes)
    (hhead : head.length = match version with | some _ => 100 | none => 96)
    (hdiff : body ≠ body')
    (h : parseHandshake c keys (head ++ body) = .ok id version data)
    (h' : parseHandshake c keys (head ++ body') = .ok id' version data') :
    data ≠ data' ∧ c.sha ((version.map (beBytes 2)).getD [] ++ data) =
      c.sha ((version.map (beBytes 2)).getD [] ++ data') := by
  obtain ⟨-, e1, sk, pub, k1, p1, m1⟩ := C11_delivered_only_intact c hc keys _ _ _ _ h
  obtain ⟨-, e2, sk', pub', k2, p2, m2⟩ := C11_delivered_only_intact c hc keys _ _ _ _ h'
  have hge : 96 ≤ head.length := by rw [hhead]; cases version <;> simp
  have t : ∀ b : Bytes, (head ++ b).take 32 = head.take 32 := fun b => by
    rw [List.take_append_of_le_length (by omega)]
  have s : ∀ (b : Bytes) (i j : Nat), i ≤ j → j ≤ head.length →
      slice (head ++ b) i j = slice head i j := by
    intro b i j hi hj
    unfold slice
    rw [List.drop_append_of_le_length (by omega), List.take_append_of_le_length (by simp; omega)]
  rw [t] at e1 e2
  rw [s _ 32 64 (by omega) (by omega)] at p1 p2
  rw [e1] at k1
  rw [e2, k1] at k2
  rw [p1] at p2
  cases k2
  cases p2
  have inj : ∀ k a b, cipher c (c.dh sk pub) k a = cipher c (c.dh sk pub) k b → a = b := by
    intro k a b hab
    rw [← cipher_inv c hc (c.dh sk pub) k a, hab, cipher_inv c hc]
  cases version with
  | none =>
    simp only at m1 m2 hhead
    rw [s _ 64 96 (by omega) (by omega), ← hhead, List.drop_left] at m1 m2
    have hne : data ≠ data' := by
      intro heq
      rw [m1.2, m2.2] at heq
      exact hdiff (inj _ _ _ heq)
    exact ⟨hne, by simp [m1.1, m2.1]⟩
  | some v =>
    simp only at m1 m2 hhead
    rw [s _ 68 100 (by omega) (by omega), ← hhead, List.drop_left] at m1 m2
    have hne : data ≠ data' := by
      intro heq
      rw [m1.2.2.2, m2.2.2.2] at heq
      exact hdiff (inj _ _ _ heq)
    exact ⟨hne, by simp [m1.2.2.1, m2.2.2.1]⟩

/-- The hypothesis of `C11_delivered_only_intact` is met by a real packet. -/
example : ∃ buffer, parseHandshake Crypto.toy (fun _ => some (3 : UInt8)) buffer =
    .ok (List.replicate 32 7) none [9, 8] :=
  ⟨_, C10_unversioned_short_partial Crypto.toy Crypto.toy_lawful (fun _ => some (3 : UInt8)) _
    (3 : UInt8) (5 : UInt8) [9, 8] (by decide) rfl (by decide)⟩

/-- A packet with one changed byte is refused. -/
example : parseHandshake Crypto.toy (fun _ => some (3 : UInt8))
    ((buildHandshake Crypto.toy (List.replicate 32 7) (Crypto.toy.pubOf (3 : UInt8)) (5 : UInt8)
      none [9, 8]).set 97 0) = .badChecksum := by decide +kernel

/-- The hypotheses of `C11_tampering_needs_collision` can be met: the hash of the toy instance is weak. -/
example :
    let keys : Bytes → Option Crypto.toy.Sec := fun _ => some (3 : UInt8)
    let p := buildHandshake Crypto.toy (List.replicate 32 7) (3 : UInt8) (5 : UInt8) none [0, 31]
    let q := buildHandshake Crypto.toy (List.replicate 32 7) (3 : UInt8) (5 : UInt8) none [1, 0]
    p.take 96 = q.take 96 ∧ p.drop 96 ≠ q.drop 96 ∧
    parseHandshake Crypto.toy keys p = .ok (List.replicate 32 7) none [0, 31] ∧
    parseHandshake Crypto.toy keys q = .ok (List.replicate 32 7) none [1, 0] := by decide +kernel

-- C10_unversioned_partial, C11_delivered_only_intact, C11_short_foreign_and_bounds
example : parseHandshake Crypto.toy (fun _ => some (3 : UInt8))
    (buildHandshake Crypto.toy (List.replicate 32 7) (Crypto.toy.pubOf (3 : UInt8)) (5 : UInt8) none [1, 2, 3, 4]) =
      .ok (List.replicate 32 7) none [1, 2, 3, 4] :=
  C10_unversioned_partial Crypto.toy Crypto.toy_lawful (fun _ => some (3 : UInt8)) _ _ _ _ (by decide) rfl
    (by rintro ⟨h, -⟩; revert h; decide +kernel)
example := C11_delivered_only_intact Crypto.toy Crypto.toy_lawful (fun _ => some (3 : UInt8)) _ _ _ _
  (C10_unversioned_short_partial Crypto.toy Crypto.toy_lawful (fun _ => some (3 : UInt8)) (List.replicate 32 7)
    (3 : UInt8) (5 : UInt8) [9, 8] (by decide) rfl (by decide))
example := C11_short_foreign_and_bounds Crypto.toy Crypto.toy_lawful (fun _ => none) (List.replicate 100 7)

end Verif.Adnl
