import Verif.Model.Views
import Verif.Proofs.Encryption
import Verif.Props.PacketCodec

/-!
# C103: unsafe code stays within its buffers
-/
namespace Verif.Views
open Verif.Adnl Verif.AdnlProto Verif.Tl

@[simp] theorem bind_ok {α β : Type} (x : α) (f : α → Mem β) : (Mem.ok x >>= f) = f x := rfl
@[simp] theorem pure_ok {α : Type} (x : α) : (pure x : Mem α) = .ok x := rfl

theorem View.range_ok {v : View} {a b : Nat} (h : a ≤ b) (hb : b ≤ v.len) :
    v.range a b = .ok (slice v.base (v.off + a) (v.off + b)) := by rw [View.range, if_pos ⟨h, hb⟩]

theorem View.rest_ok {v : View} {a : Nat} (h : a ≤ v.len) :
    v.rest a = .ok (v.base.drop (v.off + a)) := by rw [View.rest, if_pos h]

theorem View.removePrefix_ok {v : View} {n : Nat} (h : n ≤ v.len) :
    v.removePrefix n = .ok ⟨v.base, v.off + n⟩ := by rw [View.removePrefix, if_pos h]

theorem View.apply_ok {c : Crypto} {s k : Bytes} {v : View} {a : Nat} (h : a ≤ v.len) :
    v.apply c s k a = .ok ⟨v.base.take (v.off + a) ++ cipher c s k (v.base.drop (v.off + a)), v.off⟩ := by
  rw [View.apply, if_pos h]

theorem slice_take_append {b x : Bytes} {p q n : Nat} (hq : q ≤ n) (hn : n ≤ b.length) :
    slice (b.take n ++ x) p q = slice b p q := by
  unfold slice
  have : (b.take n ++ x).take q = b.take q := by
    rw [List.take_append_of_le_length (by simp; omega), List.take_take, Nat.min_eq_left hq]
  rw [← List.drop_take, ← List.drop_take, this]

theorem drop_take_append {b x : Bytes} {n : Nat} (hn : n ≤ b.length) : (b.take n ++ x).drop n = x := by
  rw [List.drop_append_of_le_length (by simp; omega)]
  rw [List.drop_eq_nil_of_le (by simp; omega), List.nil_append]

/-- What the in-place functions do, given what the function on values says. -/
def Agrees (b : Bytes) (h : Nat) (r : Opened) (x : Mem (Option (Option Nat) × View)) : Prop :=
  match r with
  | .ok ver d => ∃ v, x = .ok (some ver, v) ∧ v.bytes = d ∧ v.base.take h = b.take h ∧ v.base.length = b.length
  | .badChecksum => ∃ v, x = .ok (none, v) ∧ v.base.take h = b.take h ∧ v.base.length = b.length
  | .panic => False

theorem openRest_agrees {c : Crypto} (hc : c.Lawful) (h : Nat) (secret b : Bytes) (hl : h + 32 ≤ b.length) :
    Agrees b h (openOrdinary c h secret b) (openRest c h secret (View.ofBuffer b)) := by
  have hv : (View.ofBuffer b).len = b.length := by simp [View.len, View.ofBuffer]
  unfold openRest openOrdinary
  rw [View.range_ok (by omega) (by omega), bind_ok, View.apply_ok (by omega), bind_ok]
  have e1 : sliceP b h (h + 32) = some (slice b h (h + 32)) := by rw [sliceP, if_pos ⟨by omega, hl⟩]
  have e2 : fromP b (h + 32) = some (b.drop (h + 32)) := by rw [fromP, if_pos hl]
  simp only [e1, e2, View.ofBuffer, Nat.zero_add]
  generalize hcs : slice b h (h + 32) = cs
  generalize hd : cipher c secret cs (b.drop (h + 32)) = d
  have hdl : d.length = b.length - (h + 32) := by rw [← hd, cipher_length c hc]; simp
  have hlen : (b.take (h + 32) ++ d).length = b.length := by simp [hdl]; omega
  rw [View.rest_ok (by simp only [View.len, hlen]; omega), bind_ok,
    View.range_ok (by omega) (by simp only [View.len, hlen]; omega), bind_ok]
  simp only [Nat.zero_add]
  rw [drop_take_append hl, slice_take_append (by omega) hl, hcs]
  have htake : (b.take (h + 32) ++ d).take h = b.take h := by
    rw [List.take_append_of_le_length (by simp; omega), List.take_take, Nat.min_eq_left (by omega)]
  by_cases hh : dataHash c none d ≠ cs
  · rw [if_pos hh, if_pos hh]
    exact ⟨_, rfl, htake, hlen⟩
  · rw [if_neg hh, if_neg hh, View.removePrefix_ok (by simp only [View.len, hlen]; omega), bind_ok]
    refine ⟨_, rfl, ?_, htake, hlen⟩
    simp only [View.bytes, Nat.zero_add]
    exact drop_take_append hl

theorem agrees_trans {b b' : Bytes} {h : Nat} {r : Opened} {x : Mem (Option (Option Nat) × View)}
    (ha : Agrees b' h r x) (h1 : b'.take h = b.take h) (h2 : b'.length = b.length) : Agrees b h r x := by
  cases r with
  | ok ver d =>
    obtain ⟨v, e1, e2, e3, e4⟩ := ha
    exact ⟨v, e1, e2, e3.trans h1, e4.trans h2⟩
  | badChecksum =>
    obtain ⟨v, e1, e3, e4⟩ := ha
    exact ⟨v, e1, e3.trans h1, e4.trans h2⟩
  | panic => exact ha

theorem openView_agrees {c : Crypto} (hc : c.Lawful) (h : Nat) (secret b : Bytes) (hl : h + 32 ≤ b.length) :
    Agrees b h (openPacket c h secret b) (openView c h secret (View.ofBuffer b)) := by
  have hv : (View.ofBuffer b).len = b.length := by simp [View.len, View.ofBuffer]
  unfold openView openPacket
  rw [hv]
  by_cases hlong : b.length > h + 36
  · rw [if_pos hlong, if_pos hlong, View.range_ok (by omega) (by omega), bind_ok]
    have e0 : sliceP b 0 (h + 36) = some (slice b 0 (h + 36)) := by rw [sliceP, if_pos ⟨by omega, by omega⟩]
    simp only [e0, View.ofBuffer, Nat.zero_add]
    cases hver : decodeVersion (h + 36) (slice b 0 (h + 36)) with
    | none => exact openRest_agrees hc h secret b hl
    | some ver =>
      simp only
      have e1 : sliceP b (h + 4) (h + 36) = some (slice b (h + 4) (h + 36)) := by
        rw [sliceP, if_pos ⟨by omega, by omega⟩]
      have e2 : fromP b (h + 36) = some (b.drop (h + 36)) := by rw [fromP, if_pos (by omega)]
      simp only [e1, e2]
      rw [View.range_ok (by omega) (by simp [View.len]; omega), bind_ok,
        View.apply_ok (by simp [View.len]; omega), bind_ok]
      simp only [Nat.zero_add]
      generalize hcs : slice b (h + 4) (h + 36) = cs
      generalize hd : cipher c secret cs (b.drop (h + 36)) = d
      have hdl : d.length = b.length - (h + 36) := by rw [← hd, cipher_length c hc]; simp
      have hlen : (b.take (h + 36) ++ d).length = b.length := by simp [hdl]; omega
      have hlb : h + 36 ≤ b.length := by omega
      rw [View.rest_ok (by simp only [View.len, hlen]; omega), bind_ok,
        View.range_ok (by omega) (by simp only [View.len, hlen]; omega), bind_ok]
      simp only [Nat.zero_add]
      rw [drop_take_append hlb, slice_take_append (by omega) hlb, hcs]
      have htake : (b.take (h + 36) ++ d).take h = b.take h := by
        rw [List.take_append_of_le_length (by simp; omega), List.take_take, Nat.min_eq_left (by omega)]
      by_cases hh : dataHash c (some ver) d = cs
      · rw [if_pos hh, if_pos hh, View.removePrefix_ok (by simp only [View.len, hlen]; omega), bind_ok]
        refine ⟨_, rfl, ?_, htake, hlen⟩
        simp only [View.bytes, Nat.zero_add]
        exact drop_take_append hlb
      · rw [if_neg hh, if_neg hh, View.apply_ok (by simp only [View.len, hlen]; omega), bind_ok]
        simp only [Nat.zero_add]
        rw [drop_take_append hlb]
        have ht2 : (b.take (h + 36) ++ d).take (h + 36) = b.take (h + 36) := by
          rw [List.take_append_of_le_length (by simp; omega), List.take_take, Nat.min_self]
        rw [ht2]
        have hl2 : (b.take (h + 36) ++ cipher c secret cs d).length = b.length := by
          rw [List.length_append, cipher_length c hc, hdl]; simp; omega
        refine agrees_trans (openRest_agrees hc h secret _ (by omega)) ?_ hl2
        rw [List.take_append_of_le_length (by simp; omega), List.take_take, Nat.min_eq_left (by omega)]
  · rw [if_neg hlong, if_neg hlong]
    exact openRest_agrees hc h secret b hl

/-- C103: whatever was received, opening it as a handshake packet touches only the buffer, does not panic,
and gives what the function on values gives: the local id copied at the end is the one that was looked up
at the beginning, and the view left is the decrypted data. -/
theorem C103_handshake {c : Crypto} (hc : c.Lawful) (keys : Bytes → Option c.Sec) (b : Bytes) :
    ∃ v, parseView c keys (View.ofBuffer b) = .ok (parseHandshake c keys b, v) ∧
      v.base.length = b.length ∧
      ∀ l ver d, parseHandshake c keys b = .ok l ver d → v.bytes = d := by
  have hv : (View.ofBuffer b).len = b.length := by simp [View.len, View.ofBuffer]
  unfold parseView parseHandshake
  rw [hv]
  by_cases hl : b.length < 96
  · rw [if_pos hl, if_pos hl]
    exact ⟨_, rfl, rfl, by intro l ver d h; cases h⟩
  rw [if_neg hl, if_neg hl]
  have hid : rawId (View.ofBuffer b).base (View.ofBuffer b).off = .ok (b.take 32) := by
    rw [rawId, if_pos (by simp [View.ofBuffer]; omega)]
    simp [View.ofBuffer, slice]
  rw [hid, bind_ok]
  cases hk : keys (b.take 32) with
  | none => exact ⟨_, rfl, rfl, by intro l ver d h; cases h⟩
  | some key =>
    simp only
    rw [View.range_ok (by omega) (by omega), bind_ok]
    have e1 : sliceP b 32 64 = some (slice b 32 64) := by rw [sliceP, if_pos ⟨by omega, by omega⟩]
    simp only [e1, View.ofBuffer, Nat.zero_add]
    cases hp : c.decodePub (slice b 32 64) with
    | none => exact ⟨_, rfl, rfl, by intro l ver d h; cases h⟩
    | some pub =>
      simp only
      have ha := openView_agrees hc 64 (c.dh key pub) b (by omega)
      simp only [View.ofBuffer] at ha
      cases ho : openPacket c 64 (c.dh key pub) b with
      | panic => rw [ho] at ha; exact absurd ha id
      | badChecksum =>
        rw [ho] at ha
        obtain ⟨v, e, -, h2⟩ := ha
        rw [e, bind_ok]
        exact ⟨v, rfl, h2, by intro l ver d h; cases h⟩
      | ok ver d =>
        rw [ho] at ha
        obtain ⟨v, e, h0, h1, h2⟩ := ha
        rw [e, bind_ok]
        simp only
        have : rawId v.base 0 = .ok (b.take 32) := by
          rw [rawId, if_pos (by omega)]
          have h3 : v.base.take 32 = b.take 32 := by
            have := congrArg (List.take 32) h1
            simpa [List.take_take] using this
          simp [slice, h3]
        rw [this, bind_ok, h0]
        exact ⟨v, rfl, h2, by intro l ver' d' h; cases h; exact h0⟩

/-- C103: the same for packets received through a channel. -/
theorem C103_channel {c : Crypto} (hc : c.Lawful) (ch : Channel) (priority : Bool) (b : Bytes) :
    ∃ v, decryptView c ch priority (View.ofBuffer b) = .ok (ch.decrypt c priority b, v) ∧
      v.base.length = b.length ∧ ∀ ver d, ch.decrypt c priority b = .ok ver d → v.bytes = d := by
  have hv : (View.ofBuffer b).len = b.length := by simp [View.len, View.ofBuffer]
  unfold decryptView Channel.decrypt
  rw [hv]
  by_cases hl : b.length < 64
  · rw [if_pos hl, if_pos hl]
    exact ⟨_, rfl, rfl, by intro ver d h; cases h⟩
  rw [if_neg hl, if_neg hl]
  have ha := openView_agrees hc 32 (ch.inn.sub priority).secret b (by omega)
  cases ho : openPacket c 32 (ch.inn.sub priority).secret b with
  | panic => rw [ho] at ha; exact absurd ha id
  | badChecksum =>
    rw [ho] at ha
    obtain ⟨v, e, -, h2⟩ := ha
    rw [e, bind_ok]
    exact ⟨v, rfl, h2, by intro ver d h; cases h⟩
  | ok ver d =>
    rw [ho] at ha
    obtain ⟨v, e, h0, h1, h2⟩ := ha
    rw [e, bind_ok]
    exact ⟨v, by simp only [h0]; rfl, h2, by intro ver' d' h; cases h; exact h0⟩

/-! ### The signature -/

/-- C103: removing the signature stays within the packet, for any packet and any offsets. -/
theorem C103_extract (s : SigInfo) (packet : Bytes) :
    extractView s packet = .ok (extract s packet) := by
  unfold extractView extract
  simp only
  split
  · rename_i h
    obtain ⟨h1, h2, h3⟩ := h
    have hle : packet.length % 2 ^ 16 ≤ packet.length := Nat.mod_le _ _
    rw [clearBit, if_pos (by omega), bind_ok]
    rw [copyWithin, if_pos (by simp; omega), bind_ok]
    rw [rawPrefix, if_pos ?_, bind_ok]
    · rfl
    · unfold memmove
      simp [slice]; omega
  · rfl

/-- C103: the fields of a packet are references into the buffer, and they are used after the signature
was removed from it in place. All of them still refer to the same bytes: the part of the buffer that holds
the fields, between the flags and the signature, is unchanged, and reading it again gives the fields the
packet was read with. -/
theorem C103_fields_stay (b : Bytes) (q : InPacket) (r : Bytes) (info : SigInfo)
    (hq : readPacket b = some (q, r)) (hi : q.signature = some info) (hlen : b.length < 2 ^ 16) :
    ∃ buf msg flags mid,
      extract info b = some (buf, msg, info.signature) ∧
      info.flagsOffset + 4 ≤ info.start ∧ info.start ≤ buf.length ∧
      slice buf (info.flagsOffset + 4) info.start = slice b (info.flagsOffset + 4) info.start ∧
      readMid flags (slice b (info.flagsOffset + 4) info.start) = some (mid, []) ∧
      q.src = mid.src ∧ q.srcShort = mid.srcShort ∧
      some q.messages = joinMessages mid.messages mid.message := by
  obtain ⟨id, r0, h0, hq⟩ := bind_some hq
  by_cases hid : id ≠ 0xd142cd89
  · rw [if_pos hid] at hq; cases hq
  rw [if_neg hid] at hq
  obtain ⟨⟨x, n1⟩, r1, h1, hq⟩ := bind_some hq
  obtain ⟨flags, r2, h2, hq⟩ := bind_some hq
  obtain ⟨⟨mid, n2⟩, r3, h3, hq⟩ := bind_some hq
  obtain ⟨sig, r4, h4, hq⟩ := bind_some hq
  obtain ⟨rand2, r5, h5, hq⟩ := bind_some hq
  cases hj : joinMessages mid.messages mid.message with
  | none => simp only [hj] at hq; cases hq
  | some ms =>
    simp only [hj] at hq
    have hqe : q = ⟨mid.src, mid.srcShort, ms, mid.address, mid.seqno, mid.confirmSeqno,
      mid.reinitDates, sig⟩ := by cases hq; rfl
    have hre : r5 = r := by cases hq; rfl
    subst hre
    have hsig : sig = some info := by rw [hqe] at hi; exact hi
    subst hsig
    obtain ⟨w1, hw1, rfl, hid'⟩ := readU32_some h0
    obtain ⟨w2, rfl, hn1, he2⟩ := measured_some Local.bytes h1
    obtain ⟨F, hF, rfl, hflags⟩ := readU32_some h2
    obtain ⟨B, rfl, hn2, he3⟩ := measured_some (readMid_local flags) h3
    obtain ⟨hbit, S, rfl, hS, hs64, hinfo⟩ := Props.readSig_some h4
    obtain ⟨R, rfl, heR⟩ := Local.bytes _ _ _ h5
    have hRpos : 0 < (R ++ r5).length := by
      cases hR : R ++ r5 with
      | nil => rw [hR] at h5; rw [readBytes_nil] at h5; cases h5
      | cons a l => simp
    have hb : w1 ++ (w2 ++ (F ++ (B ++ (S ++ (R ++ r5))))) = (w1 ++ w2) ++ F ++ B ++ S ++ (R ++ r5) := by
      simp
    rw [hb] at hlen ⊢
    have hL : ((w1 ++ w2) ++ F ++ B ++ S ++ (R ++ r5)).length =
        4 + w2.length + 4 + B.length + S.length + (R ++ r5).length := by
      simp [hw1, hF]; omega
    have hinfo' : info = ⟨info.signature, (w1 ++ w2).length, (w1 ++ w2).length + 4 + B.length,
        (w1 ++ w2).length + 4 + B.length + S.length⟩ := by
      rw [hinfo]
      have hwl : (w1 ++ w2).length = 4 + w2.length := by simp [hw1]
      rw [hwl]
      subst hn1 hn2
      rw [Nat.mod_eq_of_lt (a := 4 + w2.length) (by omega), Nat.mod_eq_of_lt (by omega),
        Nat.mod_eq_of_lt (by omega)]
    have hext := extract_sections (w1 ++ w2) F B S (R ++ r5) info.signature hF (by omega) hRpos hlen
    simp only at hext
    rw [← hinfo'] at hext
    have ef : info.flagsOffset = (w1 ++ w2).length := by rw [hinfo']
    have es : info.start = (w1 ++ w2).length + 4 + B.length := by rw [hinfo']
    have key : ∀ (X Y : Bytes), X.length = (w1 ++ w2).length + 4 →
        slice (X ++ B ++ Y) (info.flagsOffset + 4) info.start = B := by
      intro X Y hX
      rw [ef, es, ← hX]
      unfold slice
      rw [List.append_assoc]
      simp
    refine ⟨_, _, flags, mid, hext, by omega, ?_, ?_, ?_, ?_, ?_, ?_⟩
    · rw [es]; simp [hF]; omega
    · have k1 := key ((w1 ++ w2) ++ F.set 1 ((F.getD 1 0) &&& 0xf7))
        ((R ++ r5) ++ ((w1 ++ w2) ++ F ++ B ++ S ++ (R ++ r5)).drop
          ((w1 ++ w2) ++ F.set 1 ((F.getD 1 0) &&& 0xf7) ++ B ++ (R ++ r5)).length) (by simp [hF]; omega)
      have k2 := key ((w1 ++ w2) ++ F) (S ++ (R ++ r5)) (by simp [hF]; omega)
      have a1 : ∀ X Y Z : Bytes, X ++ B ++ (Y ++ Z) = X ++ B ++ Y ++ Z := by intros; simp
      rw [a1] at k1 k2
      exact k1.trans k2.symm
    · have k2 := key ((w1 ++ w2) ++ F) (S ++ (R ++ r5)) (by simp [hF]; omega)
      have a1 : ∀ X Y Z : Bytes, X ++ B ++ (Y ++ Z) = X ++ B ++ Y ++ Z := by intros; simp
      rw [a1] at k2
      rw [k2]
      have := he3 []
      rwa [List.append_nil] at this
    · rw [hqe]
    · rw [hqe]
    · rw [hqe]; exact hj.symm

/-! ### RLDP queries -/

theorem bytesMeta_readBytes (a r : Bytes) :
    match readBytes r with
    | none => bytesMeta (a ++ r) a.length = none
    | some (d, _) => ∃ pre pad, bytesMeta (a ++ r) a.length = some (pre, d.length, pad) ∧
        a.length + pre + d.length ≤ (a ++ r).length ∧
        slice (a ++ r) (a.length + pre) (a.length + pre + d.length) = d := by
  unfold bytesMeta
  rw [List.drop_left]
  cases r with
  | nil => simp [readBytes_nil]
  | cons b r =>
    have hsl : ∀ (x : Bytes) (k n : Nat), slice (a ++ x) (a.length + k) (a.length + k + n) = (x.drop k).take n := by
      intro x k n
      unfold slice
      rw [List.drop_append, List.drop_eq_nil_of_le (by omega), List.nil_append]
      congr 1
      · omega
      · congr 1; omega
    have hr1 : readRaw 1 (b :: r) = some ([b], r) := by simp [readRaw]
    have hb1 : ofLE [b] = b.toNat := by simp [ofLE]
    unfold readBytes
    simp only [bind_def, hr1, hb1]
    by_cases h254 : b.toNat = 254
    · simp only [h254, if_true]
      by_cases h3 : r.length < 3
      · have : readRaw 3 r = none := by simp [readRaw]; omega
        simp [bind_def, this, h3]
      · have h3' : readRaw 3 r = some (r.take 3, r.drop 3) := by simp [readRaw]; omega
        simp only [bind_def, h3', h3, if_false]
        generalize ofLE (r.take 3) = l
        by_cases hl : l ≤ (r.drop 3).length
        · have : readRaw l (r.drop 3) = some ((r.drop 3).take l, (r.drop 3).drop l) := by
            simp only [readRaw]; rw [if_neg (by omega)]
          simp only [this]
          by_cases hp : padding l ≤ ((r.drop 3).drop l).length
          · have h5 : readRaw (padding l) ((r.drop 3).drop l) =
                some (((r.drop 3).drop l).take (padding l), ((r.drop 3).drop l).drop (padding l)) := by
              simp only [readRaw]; rw [if_neg (by omega)]
            simp only [h5, pure_def]
            simp only [List.length_drop] at hl hp
            have hlen : ((r.drop 3).take l).length = l := by simp; omega
            refine ⟨4, padding l, ?_, ?_, ?_⟩
            · rw [if_pos (by simp; omega), hlen]
            · rw [hlen]; simp; omega
            · rw [hsl, hlen]; simp
          · have h5 : readRaw (padding l) ((r.drop 3).drop l) = none := by
              simp only [readRaw]; rw [if_pos (by omega)]
            simp only [h5]
            simp only [List.length_drop] at hl hp
            rw [if_neg (by simp; omega)]
        · have : readRaw l (r.drop 3) = none := by simp only [readRaw]; rw [if_pos (by omega)]
          simp only [this]
          simp only [List.length_drop] at hl
          rw [if_neg (by simp; omega)]
    · simp only [h254, if_false, bind_def]
      generalize b.toNat = l
      by_cases hl : l ≤ r.length
      · have : readRaw l r = some (r.take l, r.drop l) := by
          simp only [readRaw]; rw [if_neg (by omega)]
        simp only [this]
        by_cases hp : padding (1 + l) ≤ (r.drop l).length
        · have h5 : readRaw (padding (1 + l)) (r.drop l) =
              some ((r.drop l).take (padding (1 + l)), (r.drop l).drop (padding (1 + l))) := by
            simp only [readRaw]; rw [if_neg (by omega)]
          simp only [h5, pure_def]
          simp only [List.length_drop] at hp
          have hlen : (r.take l).length = l := by simp; omega
          refine ⟨1, padding (1 + l), ?_, ?_, ?_⟩
          · rw [if_pos (by simp; omega), hlen]
          · rw [hlen]; simp; omega
          · rw [hsl, hlen]; simp
        · have h5 : readRaw (padding (1 + l)) (r.drop l) = none := by
            simp only [readRaw]; rw [if_pos (by omega)]
          simp only [h5]
          simp only [List.length_drop] at hp
          rw [if_neg (by simp; omega)]
      · have : readRaw l r = none := by simp only [readRaw]; rw [if_pos (by omega)]
        simp only [this]
        rw [if_neg (by simp; omega)]

/-- C103: moving the data of an RLDP query to the front of its buffer stays within the buffer, and what is
left is the data of the query. -/
theorem C103_from_data (d : Bytes) : fromDataView d = .ok (Rldp.fromData d) := by
  unfold fromDataView queryHeader Rldp.fromData
  simp only [bind_def]
  cases h1 : readU32 d with
  | none => rfl
  | some x1 =>
    obtain ⟨id, r1⟩ := x1
    simp only
    by_cases hid : id = 0x8a794d69
    · simp only [hid, if_true, bind_def]
      cases h2 : readHash r1 with
      | none => rfl
      | some x2 =>
        obtain ⟨q, r2⟩ := x2
        simp only
        cases h3 : readU64 r2 with
        | none => rfl
        | some x3 =>
          obtain ⟨m, r3⟩ := x3
          simp only
          cases h4 : readU32 r3 with
          | none => rfl
          | some x4 =>
            obtain ⟨t, r4⟩ := x4
            simp only [pure_def]
            obtain ⟨w1, hw1, e1, -⟩ := readU32_some h1
            obtain ⟨hq32, e2⟩ : q.length = 32 ∧ r1 = q ++ r2 := by
              obtain ⟨f0, f1, f2⟩ := readRaw_some h2
              rw [f1, f2]; exact ⟨by simp; omega, (List.take_append_drop 32 r1).symm⟩
            obtain ⟨w3, e3, hw3⟩ : ∃ w3, r2 = w3 ++ r3 ∧ w3.length = 8 := by
              unfold readU64 at h3
              obtain ⟨y, r', hy, hz⟩ := bind_some h3
              obtain ⟨f0, f1, f2⟩ := readRaw_some hy
              cases hz
              rw [f2]
              exact ⟨_, (List.take_append_drop 8 r2).symm, by simp; omega⟩
            obtain ⟨w4, hw4, e4, -⟩ := readU32_some h4
            have hd : d = (w1 ++ q ++ w3 ++ w4) ++ r4 := by rw [e1, e2, e3, e4]; simp
            have hl : (w1 ++ q ++ w3 ++ w4).length = 48 := by simp [hw1, hq32, hw3, hw4]
            have hm := bytesMeta_readBytes (w1 ++ q ++ w3 ++ w4) r4
            rw [← hd, hl] at hm
            cases h5 : readBytes r4 with
            | none => rw [h5] at hm; simp only at hm ⊢; rw [hm]; rfl
            | some x5 =>
              obtain ⟨x, r5⟩ := x5
              rw [h5] at hm
              obtain ⟨pre, pad, f1, f2, f3⟩ := hm
              simp only [f1]
              rw [copyWithin, if_pos ⟨by omega, by omega⟩, bind_ok, setLen]
              have hx : memmove d (48 + pre) 0 x.length = x ++ d.drop x.length := by
                unfold memmove; rw [f3]; simp
              rw [hx, if_pos (by simp), bind_ok]
              simp
    · simp only [hid, if_false]
      rfl

/-! ### The receive loop -/

/-- What should be handed on: each datagram that is not empty, cut to the size of the buffer. -/
def handedOn : Recv → Option Bytes
  | .error => none
  | .datagram d => if d = [] then none else some (d.take 2048)

theorem takeWritten_front (b : Cells) (d : Bytes) :
    takeWritten (writeFront b d) (min d.length b.length) = .ok (d.take b.length) := by
  unfold takeWritten writeFront
  have hl : ((d.take b.length).map some).length = min d.length b.length := by simp [Nat.min_comm]
  have ht : ((d.take b.length).map some ++ b.drop (min d.length b.length)).take (min d.length b.length) =
      (d.take b.length).map some := by
    rw [← hl]; simp
  rw [ht, if_pos ?_]
  · rw [List.filterMap_map]
    congr 1
    exact List.filterMap_some
  · refine ⟨by simp; omega, ?_⟩
    rw [List.all_map]
    exact List.all_eq_true.mpr (fun _ _ => rfl)

/-- C103: whatever the socket gives, in any order, with errors and empty datagrams in between, the loop
hands on exactly the datagrams, cut to 2048 bytes. It never uses bytes that were not written, so nothing of
an earlier datagram or of uninitialised memory gets into a packet. -/
theorem C103_receive (rs : List Recv) :
    recvLoop none rs = rs.map (fun r => .ok (handedOn r)) := by
  suffices h : ∀ (rs : List Recv) (b : Option Cells), (∀ x, b = some x → x.length = 2048) →
      recvLoop b rs = rs.map (fun r => .ok (handedOn r)) from h rs none (by intro x h; cases h)
  intro rs
  induction rs with
  | nil => intro b _; rfl
  | cons r rs ih =>
    intro b hb
    have hbl : (b.getD (List.replicate recvBufferSize none)).length = 2048 := by
      cases b with
      | none => exact List.length_replicate
      | some x => exact hb x rfl
    generalize hb' : b.getD (List.replicate recvBufferSize none) = b' at hbl
    rw [recvLoop, List.map_cons]
    cases r with
    | error =>
      simp only [recvTurn, hb', pure_ok]
      rw [ih (some b') (by intro x h; cases h; exact hbl)]
      rfl
    | datagram d =>
      simp only [recvTurn, hb']
      by_cases hd : d = []
      · subst hd
        simp only [List.length_nil, Nat.zero_min, if_true, pure_ok]
        rw [ih _ (by intro x h; cases h; simp [writeFront, hbl])]
        rfl
      · have hpos : 0 < d.length := List.length_pos_iff.mpr hd
        rw [if_neg (by omega)]
        simp only
        rw [takeWritten_front, bind_ok, hbl, ih none (by intro x h; cases h)]
        have : handedOn (.datagram d) = some (d.take 2048) := by simp only [handedOn, if_neg hd]
        rw [this]
        rfl

/-! ### Concrete cases -/

/-- An empty datagram, an error, a short datagram after a long one. -/
example : recvLoop none [.datagram (List.replicate 3000 7), .datagram [], .error, .datagram [1, 2]] =
    [.ok (some (List.replicate 2048 7)), .ok none, .ok none, .ok (some [1, 2])] := by
  rw [C103_receive]
  simp only [List.map_cons, List.map_nil, handedOn, List.take_replicate]
  rw [if_neg (by intro h; cases h), if_pos trivial, if_neg (by intro h; cases h)]
  rfl

/-- A prefix longer than the view would be undefined behaviour, so the theorems say something. -/
example : (View.ofBuffer [1, 2, 3]).removePrefix 4 = .undefined := rfl

/-- The signed packet of `C09` meets the hypotheses of `C103_fields_stay`. -/
example : ∃ q info, readPacket (writePacket Props.samplePacket) = some (q, []) ∧ q.signature = some info ∧
    (writePacket Props.samplePacket).length < 2 ^ 16 := by
  obtain ⟨q, info, h1, h2, -⟩ := Props.C09_extract_gives_signed_bytes Props.samplePacket _ _
    Props.samplePacket_wf.2 Props.samplePacket_wf.1 rfl (by decide +kernel)
  exact ⟨q, info, h1, h2, by decide +kernel⟩

-- C103_handshake, C103_channel, C103_fields_stay: the packet above
example := C103_handshake Crypto.toy_lawful (fun _ => some (3 : UInt8))
  (buildHandshake Crypto.toy (List.replicate 32 7) (Crypto.toy.pubOf (3 : UInt8)) (5 : UInt8) none [1, 2, 3, 4])
example := C103_channel Crypto.toy_lawful (Channel.new Crypto.toy (List.replicate 32 1) (List.replicate 32 2) (7 : UInt8)
  (9 : UInt8) 5 .create) true (List.replicate 100 1)
example : ∃ q info, readPacket (writePacket Props.samplePacket) = some (q, []) ∧ q.signature = some info ∧
    info.flagsOffset + 4 ≤ info.start := by
  obtain ⟨q, info, h1, h2, -⟩ := Props.C09_extract_gives_signed_bytes Props.samplePacket _ _
    Props.samplePacket_wf.2 Props.samplePacket_wf.1 rfl (by decide +kernel)
  obtain ⟨_, _, _, _, _, h, -⟩ := C103_fields_stay _ q [] info h1 h2 (by decide +kernel)
  exact ⟨q, info, h1, h2, h⟩

end Verif.Views
