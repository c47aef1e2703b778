import Verif.Props.Channel
import Verif.Model.Node
import Verif.Spec.Wire

/-!
# C77: layout of encrypted packets and use of the key stream
-/
namespace Verif.Adnl
open Verif.AdnlProto Verif.Node Verif.Tl

/-! ### The version field -/

theorem xorLoop_append (as bs : Bytes) : ∀ (i : Nat) (x : Bytes),
    xorLoop i x (as ++ bs) = xorLoop (i + as.length) (xorLoop i x as) bs := by
  induction as with
  | nil => intro i x; rfl
  | cons a as ih =>
    intro i x
    simp only [List.cons_append, xorLoop, ih, List.length_cons]
    congr 1
    omega

theorem strideXor_snoc (r : Nat) (bs : Bytes) (b : UInt8) :
    Spec.strideXor r (bs ++ [b]) = if bs.length % 4 = r then Spec.strideXor r bs ^^^ b else Spec.strideXor r bs := by
  unfold Spec.strideXor
  have hfold : ∀ (l : List Nat) (a : UInt8), (∀ i ∈ l, i < bs.length) →
      l.foldl (fun a i => a ^^^ (bs ++ [b]).getD i 0) a = l.foldl (fun a i => a ^^^ bs.getD i 0) a := by
    intro l
    induction l with
    | nil => intro a _; rfl
    | cons i l ih =>
      intro a h
      have hi := h i (by simp)
      simp only [List.foldl_cons]
      have e : (bs ++ [b]).getD i 0 = bs.getD i 0 := by
        simp [List.getD_eq_getElem?_getD, List.getElem?_append_left hi]
      rw [e]
      exact ih _ (fun j hj => h j (by simp [hj]))
  rw [List.length_append, List.length_singleton, List.range_succ, List.filter_append, List.foldl_append]
  rw [hfold (List.filter (fun x => decide (x % 4 = r)) (List.range bs.length)) 0
    (by intro i hi; simpa using (List.mem_filter.mp hi).1)]
  by_cases h : bs.length % 4 = r
  · rw [if_pos h]
    simp [h]
  · rw [if_neg h]
    simp [h]

theorem xorLoop_getD (x : Bytes) (hx : x.length = 4) (r : Nat) (hr : r < 4) (bs : Bytes) :
    (xorLoop 0 x bs).getD r 0 = x.getD r 0 ^^^ Spec.strideXor r bs := by
  generalize hn : bs.length = n
  induction n generalizing bs with
  | zero =>
    rw [List.length_eq_zero_iff] at hn
    subst hn
    simp [xorLoop, Spec.strideXor]
  | succ n ih =>
    have hne : bs ≠ [] := by rintro rfl; simp at hn
    obtain ⟨bs', b, rfl⟩ : ∃ bs' b, bs = bs' ++ [b] := ⟨_, _, (List.dropLast_concat_getLast hne).symm⟩
    have ih := ih bs' (by simpa using hn)
    clear hn hne
    generalize bs' = bs at ih ⊢
    rw [xorLoop_append, strideXor_snoc]
    simp only [xorLoop, Nat.zero_add]
    have hl : (xorLoop 0 x bs).length = 4 := by rw [xorLoop_length]; exact hx
    by_cases h : bs.length % 4 = r
    · rw [if_pos h, h, ih]
      simp [List.getD_eq_getElem?_getD, List.getElem?_set, hl, hr, UInt8.xor_assoc]
    · rw [if_neg h, ← ih]
      simp [List.getD_eq_getElem?_getD, List.getElem?_set, h]

theorem version_be (v : Nat) : beBytes 2 v = [UInt8.ofNat (v / 256), UInt8.ofNat v] := by
  have h : ∀ n, UInt8.ofNat (n % 256) = UInt8.ofNat n := by
    intro n
    apply UInt8.toNat_inj.mp
    simp
  simp [beBytes, leBytes, h]

theorem encodeVersion_bytes (v : Nat) (header checksum : Bytes) :
    encodeVersion v header checksum = (List.range 4).map (Spec.versionByte v header checksum) := by
  have hb := version_be v
  have hx : (beBytes 2 v ++ beBytes 2 v).length = 4 := by simp
  have hl := encodeVersion_length v header checksum
  apply List.ext_getElem?
  intro r
  by_cases hr : r < 4
  · have h1 : (encodeVersion v header checksum).getD r 0 = Spec.versionByte v header checksum r := by
      unfold encodeVersion
      rw [xorLoop_getD _ (by rw [xorLoop_length]; exact hx) r hr, xorLoop_getD _ hx r hr]
      unfold Spec.versionByte
      congr 2
      rw [hb]
      have : r = 0 ∨ r = 1 ∨ r = 2 ∨ r = 3 := by omega
      rcases this with rfl | rfl | rfl | rfl <;> rfl
    rw [List.getD_eq_getElem?_getD, List.getElem?_eq_getElem (by omega)] at h1
    rw [List.getElem?_eq_getElem (by omega)]
    simp only [Option.getD_some] at h1
    rw [h1]
    simp [hr]
  · rw [List.getElem?_eq_none (by omega), List.getElem?_eq_none (by simp; omega)]

/-! ### Key and counter -/

theorem range_map_getD (d : Bytes) (a n : Nat) (h : a + n ≤ d.length) :
    (List.range n).map (fun i => d.getD (a + i) 0) = (d.drop a).take n := by
  apply List.ext_getElem?
  intro i
  by_cases hi : i < n
  · rw [List.getElem?_map, List.getElem?_range hi, List.getElem?_take_of_lt hi, List.getElem?_drop]
    simp [List.getD_eq_getElem?_getD, List.getElem?_eq_getElem (show a + i < d.length by omega)]
  · rw [List.getElem?_eq_none (by simp; omega), List.getElem?_eq_none (by simp; omega)]

theorem aesKey_eq (secret checksum : Bytes) (hs : secret.length = 32) (hk : checksum.length = 32) :
    Spec.aesKey secret checksum = secret.take 16 ++ slice checksum 16 32 := by
  unfold Spec.aesKey slice
  rw [show (List.range 32) = List.range 16 ++ (List.range 16).map (16 + ·) from by decide, List.map_append,
    List.map_map]
  congr 1
  · rw [← List.drop_zero (l := secret), ← range_map_getD secret 0 16 (by omega)]
    apply List.map_congr_left
    intro i hi
    have := List.mem_range.mp hi
    simp [this]
  · rw [← range_map_getD checksum 16 16 (by omega)]
    apply List.map_congr_left
    intro i hi
    have : ¬ 16 + i < 16 := by omega
    simp [this]

theorem aesIv_eq (secret checksum : Bytes) (hs : secret.length = 32) (hk : checksum.length = 32) :
    Spec.aesIv secret checksum = checksum.take 4 ++ slice secret 20 32 := by
  unfold Spec.aesIv slice
  rw [show (List.range 16) = List.range 4 ++ (List.range 12).map (4 + ·) from by decide, List.map_append,
    List.map_map]
  congr 1
  · rw [← List.drop_zero (l := checksum), ← range_map_getD checksum 0 4 (by omega)]
    apply List.map_congr_left
    intro i hi
    have := List.mem_range.mp hi
    simp [this]
  · rw [← range_map_getD secret 20 12 (by omega)]
    apply List.map_congr_left
    intro i hi
    have e : 4 + i + 16 = 20 + i := by omega
    have : ¬ 4 + i < 4 := by omega
    simp [e, this]

theorem cipher_eq (c : Crypto) (secret checksum data : Bytes) (hs : secret.length = 32) (hk : checksum.length = 32) :
    cipher c secret checksum data = c.aes (Spec.aesKey secret checksum) (Spec.aesIv secret checksum) data := by
  rw [aesKey_eq _ _ hs hk, aesIv_eq _ _ hs hk]; rfl

/-! ### The claim -/

/-- **C77 (handshake packets)** Receiver id, temporary public key, checksum and encrypted contents; with a
version four more bytes before the checksum. The checksum is the hash of the contents, behind the version if
there is one. -/
theorem C77_handshake_layout (c : Crypto) (hc : c.Lawful) (id : Bytes) (peer : c.Pub) (temp : c.Sec)
    (data : Bytes) :
    buildHandshake c id peer temp none data =
      id ++ c.pubBytes (c.pubOf temp) ++ c.sha data ++
        c.aes (Spec.aesKey (c.dh temp peer) (c.sha data)) (Spec.aesIv (c.dh temp peer) (c.sha data)) data ∧
    ∀ v, buildHandshake c id peer temp (some v) data =
      let header := id ++ c.pubBytes (c.pubOf temp)
      let checksum := c.sha ([UInt8.ofNat (v / 256), UInt8.ofNat v] ++ data)
      header ++ (List.range 4).map (Spec.versionByte v header checksum) ++ checksum ++
        c.aes (Spec.aesKey (c.dh temp peer) checksum) (Spec.aesIv (c.dh temp peer) checksum) data := by
  have hb := version_be
  constructor
  · unfold buildHandshake sealPacket dataHash
    rw [← cipher_eq c _ _ _ (hc.dh_length _ _) (hc.sha_length _)]
  · intro v
    unfold buildHandshake sealPacket dataHash
    simp only
    rw [← hb, ← cipher_eq c _ _ _ (hc.dh_length _ _) (hc.sha_length _), encodeVersion_bytes]

theorem out_secret_length (c : Crypto) (hc : c.Lawful) (idA idB : Bytes) (a : c.Sec) (kB : c.Pub) (d : Nat) (x : Ctx)
    (prio : Bool) : (((Channel.new c idA idB a kB d x).out.sub prio).secret).length = 32 := by
  have h := (C12_key_schedule c hc idA idB a kB d x).2.2.2 _ (.inr rfl)
  cases prio
  · exact h.2.2.1
  · exact h.2.1

/-- **C77 (channel packets)** The same with the id of the channel instead of receiver and key, and with the
secret of the channel. -/
theorem C77_channel_layout (c : Crypto) (hc : c.Lawful) (idA idB : Bytes) (a : c.Sec) (kB : c.Pub) (d : Nat) (x : Ctx)
    (prio : Bool) (data : Bytes) :
    let side := (Channel.new c idA idB a kB d x).out.sub prio
    (Channel.new c idA idB a kB d x).encrypt c prio none data =
      side.id ++ c.sha data ++
        c.aes (Spec.aesKey side.secret (c.sha data)) (Spec.aesIv side.secret (c.sha data)) data ∧
    ∀ v, (Channel.new c idA idB a kB d x).encrypt c prio (some v) data =
      let checksum := c.sha ([UInt8.ofNat (v / 256), UInt8.ofNat v] ++ data)
      side.id ++ (List.range 4).map (Spec.versionByte v side.id checksum) ++ checksum ++
        c.aes (Spec.aesKey side.secret checksum) (Spec.aesIv side.secret checksum) data := by
  have hb := version_be
  have hs := out_secret_length c hc idA idB a kB d x prio
  constructor
  · unfold Channel.encrypt sealPacket dataHash
    rw [← cipher_eq c _ _ _ hs (hc.sha_length _)]
  · intro v
    unfold Channel.encrypt sealPacket dataHash
    simp only
    rw [← hb, ← cipher_eq c _ _ _ hs (hc.sha_length _), encodeVersion_bytes]

/-- **C77 (ids)** The id of a node is the hash of the TL object `pub.ed25519` of its key. -/
theorem C77_node_id (c : Crypto) (k : c.Pub) : shortId c k = c.sha ([0xc6, 0xb4, 0x13, 0x48] ++ c.pubBytes k) := rfl

/-- **C77 (key stream)** Under one secret, block `i` of the packet with checksum `k₁` and block `j` of the packet
with checksum `k₂` are encrypted with the same piece of key stream only if the checksums agree in their first
four and last sixteen bytes, and the blocks have the same position. -/
theorem C77_keystream_unique (secret k₁ k₂ : Bytes) (hs : secret.length = 32) (h1 : k₁.length = 32)
    (h2 : k₂.length = 32) (i j : Nat) :
    (Spec.aesKey secret k₁ = Spec.aesKey secret k₂ ∧
      Spec.counterBlock (Spec.aesIv secret k₁) i = Spec.counterBlock (Spec.aesIv secret k₂) j) ↔
    (k₁.take 4 = k₂.take 4 ∧ k₁.drop 16 = k₂.drop 16 ∧ i % 2 ^ 64 = j % 2 ^ 64) := by
  have hd : ∀ k : Bytes, k.length = 32 → slice k 16 32 = k.drop 16 := by
    intro k hk
    unfold slice
    rw [List.take_of_length_le (by simp; omega)]
  have e8 : ∀ k : Bytes, k.length = 32 → (Spec.aesIv secret k).take 8 = k.take 4 ++ slice secret 20 24 ∧
      (Spec.aesIv secret k).drop 8 = slice secret 24 32 := by
    intro k hk
    rw [aesIv_eq _ _ hs hk]
    have h4 : (k.take 4).length = 4 := by simp; omega
    constructor
    · rw [List.take_append, h4, List.take_of_length_le (by omega)]
      unfold slice
      rw [List.take_take]
      rfl
    · rw [List.drop_append, h4, List.drop_of_length_le (by omega), List.nil_append]
      unfold slice
      rw [List.drop_take, List.drop_drop]
  have hbe : ∀ a i j : Nat, beBytes 8 (a + i) = beBytes 8 (a + j) ↔ i % 2 ^ 64 = j % 2 ^ 64 := by
    intro a i j
    constructor
    · intro h
      have := congrArg ofBE h
      rw [ofBE_beBytes, ofBE_beBytes] at this
      omega
    · intro h
      have hmod : ∀ n, beBytes 8 n = beBytes 8 (n % 256 ^ 8) := by
        intro n
        have := beBytes_ofBE (beBytes 8 n)
        rw [beBytes_length, ofBE_beBytes] at this
        exact this.symm
      rw [hmod (a + i), hmod (a + j)]
      congr 1
      omega
  unfold Spec.counterBlock
  rw [(e8 k₁ h1).1, (e8 k₁ h1).2, (e8 k₂ h2).1, (e8 k₂ h2).2, aesKey_eq _ _ hs h1, aesKey_eq _ _ hs h2,
    hd k₁ h1, hd k₂ h2]
  have hl : ∀ k : Bytes, k.length = 32 → (k.take 4).length = 4 := by intro k hk; simp; omega
  constructor
  · rintro ⟨ha, hb⟩
    have ha' := List.append_cancel_left ha
    have hb' := List.append_inj hb (by simp [hl k₁ h1, hl k₂ h2])
    have hb'' := List.append_inj hb'.1 (by rw [hl k₁ h1, hl k₂ h2])
    exact ⟨hb''.1, ha', (hbe _ _ _).mp hb'.2⟩
  · rintro ⟨ha, hb, hij⟩
    rw [ha, hb, (hbe (ofBE (slice secret 24 32)) i j).mpr hij]
    exact ⟨rfl, rfl⟩

/-- Two packets with different contents whose hashes differ in the first bytes. -/
example : Crypto.toy.sha [1, 2, 3] ≠ Crypto.toy.sha [1, 2, 4] ∧
    (Crypto.toy.sha [1, 2, 3]).take 4 ≠ (Crypto.toy.sha [1, 2, 4]).take 4 ∧
    Spec.counterBlock (Spec.aesIv (List.replicate 32 9) (Crypto.toy.sha [1, 2, 3])) 0 ≠
      Spec.counterBlock (Spec.aesIv (List.replicate 32 9) (Crypto.toy.sha [1, 2, 4])) 5 := by
  decide +kernel

example : buildHandshake Crypto.toy (List.replicate 32 1) (5 : UInt8) (3 : UInt8) (some 258) [7, 8] =
    List.replicate 32 1 ++ leBytes 32 3 ++ [0, 247, 1, 2] ++ leBytes 32 (2 + 256 * 245) ++ [1, 14] := by
  decide +kernel

example := C77_handshake_layout Crypto.toy Crypto.toy_lawful (List.replicate 32 1) (5 : UInt8) (3 : UInt8) [7, 8]
example := C77_channel_layout Crypto.toy Crypto.toy_lawful (List.replicate 32 1) (List.replicate 32 2) (5 : UInt8)
  (3 : UInt8) 100 .create true [7, 8]

end Verif.Adnl
