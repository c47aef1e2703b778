import Verif.Model.Encryption
import Verif.Proofs.Num

namespace Verif

theorem Crypto.toy_lawful : Crypto.toy.Lawful where
  sha_length := by intro d; simp [Crypto.toy]
  aes_length := by intro k iv d; simp [Crypto.toy, xorByte]
  aes_inv := by
    intro k iv d
    simp only [Crypto.toy, xorByte, List.map_map]
    rw [List.map_congr_left (g := id)]
    · simp
    · intro a _
      simp [← UInt8.xor_assoc]
  pub_length := by intro p; simp [Crypto.toy]
  decode_pub := by
    intro (p : UInt8)
    have h : (p.toNat : Nat) < 256 ^ 32 := by have := p.toNat_lt; omega
    have h2 : some (UInt8.ofNat (ofLE (leBytes 32 p.toNat))) = some p := by
      rw [ofLE_leBytes_of_lt h]; simp
    exact h2
  dh_length := by intro s p; simp [Crypto.toy]
  dh_comm := by intro a b; simp [Crypto.toy, Nat.mul_comm]
  sign_length := by intro s m; simp [Crypto.toy]
  sign_verify := by intro s m; simp [Crypto.toy]

namespace Adnl

/-- XOR of two lists of four bytes. -/
def zipXor (x y : Bytes) : Bytes := List.zipWith (· ^^^ ·) x y

theorem xorLoop_length (i : Nat) (x b : Bytes) : (xorLoop i x b).length = x.length := by
  induction b generalizing i x with
  | nil => rfl
  | cons b bs ih => simp [xorLoop, ih]

theorem xorLoop_zip (b : Bytes) : ∀ (i : Nat) (x y : Bytes), x.length = 4 → y.length = 4 →
    xorLoop i (zipXor x y) b = zipXor (xorLoop i x b) y := by
  induction b with
  | nil => intro i x y _ _; rfl
  | cons b bs ih =>
    intro i x y hx hy
    simp only [xorLoop]
    rw [← ih (i + 1) _ y (by simp [hx]) hy]
    congr 1
    match x, y, hx, hy with
    | [a0, a1, a2, a3], [b0, b1, b2, b3], _, _ =>
      have h4 : i % 4 = 0 ∨ i % 4 = 1 ∨ i % 4 = 2 ∨ i % 4 = 3 := by omega
      rcases h4 with h | h | h | h <;> rw [h] <;>
        simp [zipXor, UInt8.xor_assoc, UInt8.xor_comm b]

theorem zipXor_comm (x y : Bytes) : zipXor x y = zipXor y x := by
  unfold zipXor; rw [List.zipWith_comm_of_comm]
  intro a b; exact UInt8.xor_comm a b

theorem xorLoop_eq (i : Nat) (x b : Bytes) (hx : x.length = 4) :
    xorLoop i x b = zipXor (xorLoop i [0, 0, 0, 0] b) x := by
  rw [← xorLoop_zip b i [0, 0, 0, 0] x rfl hx]
  congr 1
  match x, hx with
  | [a0, a1, a2, a3], _ => simp [zipXor]

theorem zipXor_cancel (m x : Bytes) (hm : m.length = 4) (hx : x.length = 4) :
    zipXor m (zipXor m x) = x := by
  match m, x, hm, hx with
  | [a0, a1, a2, a3], [b0, b1, b2, b3], _, _ => simp [zipXor, ← UInt8.xor_assoc]

theorem zipXor_left_comm (m n x : Bytes) (hm : m.length = 4) (hn : n.length = 4) (hx : x.length = 4) :
    zipXor m (zipXor n x) = zipXor n (zipXor m x) := by
  match m, n, x, hm, hn, hx with
  | [a0, a1, a2, a3], [c0, c1, c2, c3], [b0, b1, b2, b3], _, _, _ =>
    have lc : ∀ a b c : UInt8, a ^^^ (b ^^^ c) = b ^^^ (a ^^^ c) := by
      intro a b c; rw [← UInt8.xor_assoc, UInt8.xor_comm a b, UInt8.xor_assoc]
    simp only [zipXor, List.zipWith_cons_cons, List.zipWith_nil_right]
    rw [lc a0, lc a1, lc a2, lc a3]

theorem zipXor_length (x y : Bytes) (hx : x.length = 4) (hy : y.length = 4) :
    (zipXor x y).length = 4 := by simp [zipXor, hx, hy]

/-- Undoing both XOR passes. -/
theorem xorLoop_undo (h k x : Bytes) (hx : x.length = 4) :
    xorLoop 0 (xorLoop 0 (xorLoop 0 (xorLoop 0 x h) k) h) k = x := by
  have l0 : ([0, 0, 0, 0] : Bytes).length = 4 := rfl
  have lh : (xorLoop 0 [0, 0, 0, 0] h).length = 4 := by rw [xorLoop_length]; rfl
  have lk : (xorLoop 0 [0, 0, 0, 0] k).length = 4 := by rw [xorLoop_length]; rfl
  rw [xorLoop_eq 0 x h hx]
  rw [xorLoop_eq 0 (zipXor _ _) k (zipXor_length _ _ lh hx)]
  rw [xorLoop_eq 0 (zipXor _ (zipXor _ _)) h (zipXor_length _ _ lk (zipXor_length _ _ lh hx))]
  rw [xorLoop_eq 0 (zipXor (xorLoop 0 _ h) _) k
    (zipXor_length _ _ lh (zipXor_length _ _ lk (zipXor_length _ _ lh hx)))]
  rw [zipXor_left_comm _ _ _ lh lk (zipXor_length _ _ lh hx), zipXor_cancel _ _ lh hx,
    zipXor_cancel _ _ lk hx]

theorem encodeVersion_length (v : Nat) (h k : Bytes) : (encodeVersion v h k).length = 4 := by
  simp [encodeVersion, xorLoop_length]

theorem decode_encode (n v : Nat) (header checksum : Bytes) (hv : v < 2 ^ 16)
    (hh : header.length = n) :
    decodeVersion (n + 36) (header ++ encodeVersion v header checksum ++ checksum) = some v := by
  have e1 : n + 36 - 32 = n + 4 := by omega
  have e2 : n + 4 - 4 = n := by omega
  have lv := encodeVersion_length v header checksum
  unfold decodeVersion
  simp only [e1, e2]
  have s1 : slice (header ++ encodeVersion v header checksum ++ checksum) n (n + 4) =
      encodeVersion v header checksum := by
    unfold slice
    rw [List.append_assoc, ← hh, List.drop_left, Nat.add_sub_cancel_left, ← lv, List.take_left]
  have s2 : (header ++ encodeVersion v header checksum ++ checksum).take n = header := by
    rw [List.append_assoc, ← hh, List.take_left]
  have s3 : (header ++ encodeVersion v header checksum ++ checksum).drop (n + 4) = checksum := by
    have : n + 4 = (header ++ encodeVersion v header checksum).length := by simp [hh, lv]
    rw [this, List.drop_left]
  rw [s1, s2, s3]
  unfold encodeVersion
  rw [xorLoop_undo header checksum _ (by simp)]
  have hb : (beBytes 2 v).length = 2 := by simp
  generalize hbe : beBytes 2 v = w at hb
  match w, hb with
  | [a, b], _ =>
    simp only [List.cons_append, List.nil_append, List.getD_cons_zero, List.getD_cons_succ, and_self,
      if_true, List.take_succ_cons, List.take_zero]
    rw [← hbe, ofBE_beBytes, Nat.mod_eq_of_lt (by simpa using hv)]

theorem dataHash_length (c : Crypto) (hc : c.Lawful) (v : Option Nat) (d : Bytes) :
    (dataHash c v d).length = 32 := by
  unfold dataHash; cases v <;> simp [hc.sha_length]

theorem cipher_inv (c : Crypto) (hc : c.Lawful) (s k d : Bytes) :
    cipher c s k (cipher c s k d) = d := hc.aes_inv _ _ _

theorem cipher_length (c : Crypto) (hc : c.Lawful) (s k d : Bytes) :
    (cipher c s k d).length = d.length := hc.aes_length _ _ _

/-- Three sections of a buffer. -/
theorem sliceP_mid (a b c : Bytes) (n m : Nat) (ha : a.length = n) (hb : n + b.length = m) :
    sliceP (a ++ b ++ c) n m = some b := by
  unfold sliceP slice
  rw [if_pos (by simp; omega)]
  rw [List.append_assoc, ← ha, List.drop_left]
  have : m - a.length = b.length := by omega
  rw [this, List.take_left]

theorem fromP_right (a b : Bytes) (n : Nat) (ha : a.length = n) : fromP (a ++ b) n = some b := by
  unfold fromP
  rw [if_pos (by simp; omega), ← ha, List.drop_left]

theorem openOrdinary_seal (c : Crypto) (hc : c.Lawful) (n : Nat) (header secret data : Bytes)
    (hh : header.length = n) :
    openOrdinary c n secret (sealPacket c header secret none data) = .ok none data := by
  have hl := dataHash_length c hc none data
  unfold openOrdinary sealPacket
  simp only
  rw [sliceP_mid header _ _ n (n + 32) hh (by omega),
    fromP_right _ _ (n + 32) (by simp [hh, hl])]
  simp only [cipher_inv c hc, ne_eq, not_true_eq_false, if_false]

/-- Opening a versioned packet with a non-empty payload. -/
theorem open_seal_some (c : Crypto) (hc : c.Lawful) (n v : Nat) (header secret data : Bytes)
    (hh : header.length = n) (hv : v < 2 ^ 16) (hd : data ≠ []) :
    openPacket c n secret (sealPacket c header secret (some v) data) = .ok (some v) data := by
  have hl := dataHash_length c hc (some v) data
  have lv := encodeVersion_length v header (dataHash c (some v) data)
  have hcl := cipher_length c hc secret (dataHash c (some v) data) data
  have hpos : 0 < data.length := List.length_pos_iff.mpr hd
  unfold openPacket sealPacket
  simp only
  rw [if_pos (by simp only [List.length_append, hh, hl, lv, hcl]; omega)]
  have s0 : sliceP (header ++ encodeVersion v header (dataHash c (some v) data) ++
      dataHash c (some v) data ++ cipher c secret (dataHash c (some v) data) data) 0 (n + 36) =
      some (header ++ encodeVersion v header (dataHash c (some v) data) ++ dataHash c (some v) data) := by
    have := sliceP_mid [] (header ++ encodeVersion v header (dataHash c (some v) data) ++
      dataHash c (some v) data) (cipher c secret (dataHash c (some v) data) data) 0 (n + 36) rfl
      (by simp only [List.length_append, hh, hl, lv]; omega)
    simpa using this
  rw [s0]
  simp only
  rw [decode_encode n v header _ hv hh]
  simp only
  rw [sliceP_mid (header ++ encodeVersion v header (dataHash c (some v) data)) _ _ (n + 4) (n + 36)
      (by simp [hh, lv]) (by omega), fromP_right _ _ (n + 36) (by simp only [List.length_append, hh, hl, lv])]
  simp only [cipher_inv c hc, if_true]

/-- What acceptance of a versioned packet means. -/
def AcceptsVersioned (c : Crypto) (h : Nat) (secret buffer : Bytes) (v : Nat) (data : Bytes) : Prop :=
  h + 36 < buffer.length ∧ decodeVersion (h + 36) (buffer.take (h + 36)) = some v ∧
  data = cipher c secret (slice buffer (h + 4) (h + 36)) (buffer.drop (h + 36)) ∧
  c.sha (beBytes 2 v ++ data) = slice buffer (h + 4) (h + 36)

/-- What acceptance of an unversioned packet means. -/
def AcceptsOrdinary (c : Crypto) (h : Nat) (secret buffer : Bytes) (data : Bytes) : Prop :=
  data = cipher c secret (slice buffer h (h + 32)) (buffer.drop (h + 32)) ∧
  c.sha data = slice buffer h (h + 32)

theorem openOrdinary_spec (c : Crypto) (h : Nat) (secret buffer : Bytes) (hl : h + 32 ≤ buffer.length) :
    openOrdinary c h secret buffer =
      (let data := cipher c secret (slice buffer h (h + 32)) (buffer.drop (h + 32))
       if c.sha data ≠ slice buffer h (h + 32) then .badChecksum else .ok none data) := by
  unfold openOrdinary sliceP fromP
  rw [if_pos ⟨by omega, hl⟩, if_pos hl]
  rfl

/-- Complete description of `openPacket`. -/
theorem openPacket_spec (c : Crypto) (hc : c.Lawful) (h : Nat) (secret buffer : Bytes)
    (_hl : h + 32 ≤ buffer.length) :
    (∀ v d, AcceptsVersioned c h secret buffer v d → openPacket c h secret buffer = .ok (some v) d) ∧
    ((∀ v d, ¬ AcceptsVersioned c h secret buffer v d) →
      openPacket c h secret buffer = openOrdinary c h secret buffer) := by
  have key : ∀ (hb : h + 36 < buffer.length),
      openPacket c h secret buffer =
        match decodeVersion (h + 36) (buffer.take (h + 36)) with
        | some v =>
          if c.sha (beBytes 2 v ++ cipher c secret (slice buffer (h + 4) (h + 36))
              (buffer.drop (h + 36))) = slice buffer (h + 4) (h + 36)
          then .ok (some v) (cipher c secret (slice buffer (h + 4) (h + 36)) (buffer.drop (h + 36)))
          else openOrdinary c h secret buffer
        | none => openOrdinary c h secret buffer := by
    intro hb
    unfold openPacket
    rw [if_pos hb]
    unfold sliceP fromP
    rw [if_pos ⟨by omega, by omega⟩]
    have : slice buffer 0 (h + 36) = buffer.take (h + 36) := by simp [slice]
    rw [this]
    simp only
    cases decodeVersion (h + 36) (buffer.take (h + 36)) with
    | none => rfl
    | some v =>
      simp only
      rw [if_pos ⟨by omega, by omega⟩, if_pos (by omega)]
      simp only [cipher_inv c hc, List.take_append_drop]
      rfl
  refine ⟨?_, ?_⟩
  · rintro v d ⟨a1, a2, a3, a4⟩
    rw [key a1, a2]
    simp only
    rw [← a3, if_pos a4]
  · intro hn
    by_cases hb : h + 36 < buffer.length
    · rw [key hb]
      cases hd : decodeVersion (h + 36) (buffer.take (h + 36)) with
      | none => rfl
      | some v =>
        simp only
        rw [if_neg]
        intro hs
        exact hn v _ ⟨hb, hd, rfl, hs⟩
    · unfold openPacket
      rw [if_neg (by omega)]

theorem openPacket_ok (c : Crypto) (hc : c.Lawful) (h : Nat) (secret buffer : Bytes)
    (hl : h + 32 ≤ buffer.length) (v : Option Nat) (d : Bytes)
    (hok : openPacket c h secret buffer = .ok v d) :
    (∃ n, v = some n ∧ AcceptsVersioned c h secret buffer n d) ∨
    (v = none ∧ AcceptsOrdinary c h secret buffer d) := by
  obtain ⟨s1, s2⟩ := openPacket_spec c hc h secret buffer hl
  by_cases hex : ∃ v d, AcceptsVersioned c h secret buffer v d
  · obtain ⟨v', d', ha⟩ := hex
    rw [s1 v' d' ha] at hok
    cases hok
    exact .inl ⟨v', rfl, ha⟩
  · rw [s2 (fun v d ha => hex ⟨v, d, ha⟩), openOrdinary_spec c h secret buffer hl] at hok
    simp only at hok
    split at hok
    · cases hok
    · rename_i hs
      cases hok
      exact .inr ⟨rfl, rfl, by simpa using hs⟩

theorem openPacket_ne_panic (c : Crypto) (hc : c.Lawful) (h : Nat) (secret buffer : Bytes)
    (hl : h + 32 ≤ buffer.length) : openPacket c h secret buffer ≠ .panic := by
  obtain ⟨s1, s2⟩ := openPacket_spec c hc h secret buffer hl
  by_cases hex : ∃ v d, AcceptsVersioned c h secret buffer v d
  · obtain ⟨v', d', ha⟩ := hex
    rw [s1 v' d' ha]; simp
  · rw [s2 (fun v d ha => hex ⟨v, d, ha⟩), openOrdinary_spec c h secret buffer hl]
    simp only
    split <;> simp

end Adnl
end Verif
