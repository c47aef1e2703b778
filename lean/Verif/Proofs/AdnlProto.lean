import Verif.Model.AdnlProto
import Verif.Proofs.Tl

namespace Verif.AdnlProto
open Verif.Tl Verif.Address

/-! ## Locality of the readers -/

theorem readPubKey_local : Local readPubKey := by
  refine Local.bind Local.u32 fun id => ?_
  refine Local.ite (Local.bind Local.hash fun _ => Local.pure _) ?_
  refine Local.ite (Local.bind Local.hash fun _ => Local.pure _) ?_
  refine Local.ite (Local.bind Local.bytes fun _ => Local.pure _) ?_
  exact Local.ite (Local.bind Local.bytes fun _ => Local.pure _) Local.fail

theorem readMessage_local : Local readMessage := by
  refine Local.bind Local.u32 fun id => ?_
  refine Local.ite (Local.bind Local.hash fun _ => Local.bind Local.bytes fun _ => Local.pure _) ?_
  refine Local.ite (Local.bind Local.bytes fun _ => Local.pure _) ?_
  refine Local.ite (Local.bind Local.hash fun _ => Local.bind Local.hash fun _ =>
    Local.bind Local.u32 fun _ => Local.pure _) ?_
  refine Local.ite (Local.bind Local.hash fun _ => Local.bind Local.u32 fun _ =>
    Local.bind Local.u32 fun _ => Local.bind Local.bytes fun _ => Local.pure _) ?_
  refine Local.ite (Local.bind Local.hash fun _ => Local.bind Local.u32 fun _ => Local.pure _) ?_
  refine Local.ite (Local.bind Local.hash fun _ => Local.bind Local.bytes fun _ => Local.pure _) ?_
  refine Local.ite (Local.pure _) ?_
  exact Local.ite (Local.bind Local.u32 fun _ => Local.pure _) Local.fail

theorem readAddr_local : Local readAddr := by
  refine Local.bind Local.u32 fun id => ?_
  exact Local.ite (Local.bind Local.u32 fun _ => Local.bind Local.u32 fun _ => Local.pure _)
    Local.fail

theorem readAddrList_local : Local readAddrList :=
  Local.bind Local.u32 fun _ => Local.bind (Local.readN readAddr_local _) fun _ =>
    Local.bind Local.u32 fun _ => Local.bind Local.u32 fun _ => Local.bind Local.u32 fun _ =>
    Local.bind Local.u32 fun _ => Local.pure _

theorem readDates_local : Local readDates :=
  Local.bind Local.u32 fun _ => Local.bind Local.u32 fun _ => Local.pure _

theorem readMid_local (flags : Nat) : Local (readMid flags) :=
  Local.bind (Local.opt readPubKey_local _ _) fun _ =>
  Local.bind (Local.opt Local.hash _ _) fun _ =>
  Local.bind (Local.opt readMessage_local _ _) fun _ =>
  Local.bind (Local.opt (Local.vec readMessage_local) _ _) fun _ =>
  Local.bind (Local.opt readAddrList_local _ _) fun _ =>
  Local.bind (Local.opt readAddrList_local _ _) fun _ =>
  Local.bind (Local.opt Local.u64 _ _) fun _ =>
  Local.bind (Local.opt Local.u64 _ _) fun _ =>
  Local.bind (Local.opt Local.u32 _ _) fun _ =>
  Local.bind (Local.opt Local.u32 _ _) fun _ =>
  Local.bind (Local.opt readDates_local _ _) fun _ => Local.pure _

/-- The middle fields depend only on the low eleven flags. -/
theorem readMid_congr {f g : Nat} (h : ∀ i, i < 11 → f.testBit i = g.testBit i) :
    readMid f = readMid g := by
  have e : ∀ (α : Type) (rd : Reader α) (i : Nat), i < 11 → readOpt f i rd = readOpt g i rd := by
    intro α rd i hi
    unfold readOpt
    rw [h i hi]
  unfold readMid
  simp only [e _ _ 0 (by omega), e _ _ 1 (by omega), e _ _ 2 (by omega), e _ _ 3 (by omega),
    e _ _ 4 (by omega), e _ _ 5 (by omega), e _ _ 6 (by omega), e _ _ 7 (by omega),
    e _ _ 8 (by omega), e _ _ 9 (by omega), e _ _ 10 (by omega)]

/-! ## Well-formed values and round trips -/

def PubKey.wf : PubKey → Prop
  | .ed25519 k => k.length = 32
  | .aes k => k.length = 32
  | .overlay n => n.length < 2 ^ 24
  | .unenc d => d.length < 2 ^ 24

def Message.wf : Message → Prop
  | .answer q a => q.length = 32 ∧ a.length < 2 ^ 24
  | .custom d => d.length < 2 ^ 24
  | .confirmChannel k p d => k.length = 32 ∧ p.length = 32 ∧ d < 2 ^ 32
  | .part h t o d => h.length = 32 ∧ t < 2 ^ 32 ∧ o < 2 ^ 32 ∧ d.length < 2 ^ 24
  | .createChannel k d => k.length = 32 ∧ d < 2 ^ 32
  | .query q d => q.length = 32 ∧ d.length < 2 ^ 24
  | .nop => True
  | .reinit d => d < 2 ^ 32

def addrListWf (l : AddrList) : Prop :=
  (∀ a, l.address = some a → a.ip < 2 ^ 32 ∧ a.port < 2 ^ 32) ∧ l.version < 2 ^ 32 ∧
  l.reinitDate < 2 ^ 32 ∧ l.expireAt < 2 ^ 32

theorem pubKey_encodes (k : PubKey) (h : k.wf) : Encodes readPubKey (writePubKey k) k := by
  cases k with
  | ed25519 k =>
    refine Encodes.bind (Encodes.u32 (by decide)) ?_
    rw [if_pos rfl]
    exact Encodes.bindPure (Encodes.hash h) rfl
  | aes k =>
    refine Encodes.bind (Encodes.u32 (by decide)) ?_
    rw [if_neg (by decide), if_pos rfl]
    exact Encodes.bindPure (Encodes.hash h) rfl
  | overlay n =>
    refine Encodes.bind (Encodes.u32 (by decide)) ?_
    rw [if_neg (by decide), if_neg (by decide), if_pos rfl]
    exact Encodes.bindPure (Encodes.bytes h) rfl
  | unenc d =>
    refine Encodes.bind (Encodes.u32 (by decide)) ?_
    rw [if_neg (by decide), if_neg (by decide), if_neg (by decide), if_pos rfl]
    exact Encodes.bindPure (Encodes.bytes h) rfl

theorem message_encodes (m : Message) (h : m.wf) : Encodes readMessage (writeMessage m) m := by
  cases m with
  | answer q a =>
    refine Encodes.bind (Encodes.u32 (by decide)) ?_
    rw [if_pos rfl]
    exact Encodes.bind (Encodes.hash h.1) (Encodes.bindPure (Encodes.bytes h.2) rfl)
  | custom d =>
    refine Encodes.bind (Encodes.u32 (by decide)) ?_
    rw [if_neg (by decide), if_pos rfl]
    exact Encodes.bindPure (Encodes.bytes h) rfl
  | confirmChannel k p d =>
    refine Encodes.bind (Encodes.u32 (by decide)) ?_
    rw [if_neg (by decide), if_neg (by decide), if_pos rfl]
    exact Encodes.bind (Encodes.hash h.1) (Encodes.bind (Encodes.hash h.2.1)
      (Encodes.bindPure (Encodes.u32 h.2.2) rfl))
  | part x t o d =>
    refine Encodes.bind (Encodes.u32 (by decide)) ?_
    rw [if_neg (by decide), if_neg (by decide), if_neg (by decide), if_pos rfl]
    exact Encodes.bind (Encodes.hash h.1) (Encodes.bind (Encodes.u32 h.2.1)
      (Encodes.bind (Encodes.u32 h.2.2.1) (Encodes.bindPure (Encodes.bytes h.2.2.2) rfl)))
  | createChannel k d =>
    refine Encodes.bind (Encodes.u32 (by decide)) ?_
    rw [if_neg (by decide), if_neg (by decide), if_neg (by decide), if_neg (by decide), if_pos rfl]
    exact Encodes.bind (Encodes.hash h.1) (Encodes.bindPure (Encodes.u32 h.2) rfl)
  | query q d =>
    refine Encodes.bind (Encodes.u32 (by decide)) ?_
    rw [if_neg (by decide), if_neg (by decide), if_neg (by decide), if_neg (by decide),
      if_neg (by decide), if_pos rfl]
    exact Encodes.bind (Encodes.hash h.1) (Encodes.bindPure (Encodes.bytes h.2) rfl)
  | nop =>
    refine Encodes.bindPure (Encodes.u32 (by decide)) ?_
    rw [if_neg (by decide), if_neg (by decide), if_neg (by decide), if_neg (by decide),
      if_neg (by decide), if_neg (by decide), if_pos rfl]
  | reinit d =>
    refine Encodes.bind (Encodes.u32 (by decide)) ?_
    rw [if_neg (by decide), if_neg (by decide), if_neg (by decide), if_neg (by decide),
      if_neg (by decide), if_neg (by decide), if_neg (by decide), if_pos rfl]
    exact Encodes.bindPure (Encodes.u32 h) rfl

theorem addr_encodes (a : Addr) (h : a.ip < 2 ^ 32 ∧ a.port < 2 ^ 32) :
    Encodes readAddr (writeAddr a) a := by
  refine Encodes.bind (Encodes.u32 (by decide)) ?_
  rw [if_pos rfl]
  exact Encodes.bind (Encodes.u32 h.1) (Encodes.bindPure (Encodes.u32 h.2) rfl)

theorem addrList_encodes (l : AddrList) (h : addrListWf l) :
    Encodes readAddrList (writeAddrList l) l := by
  obtain ⟨addr, ver, re, ex⟩ := l
  obtain ⟨h1, h2, h3, h4⟩ := h
  cases addr with
  | none =>
    refine Encodes.bind (x := 0) (Encodes.u32 (by simp)) ?_
    refine Encodes.bind (x := []) (Encodes.pure _) ?_
    exact Encodes.bind (Encodes.u32 h2) (Encodes.bind (Encodes.u32 h3)
      (Encodes.bind (Encodes.u32 (by decide)) (Encodes.bindPure (Encodes.u32 h4) rfl)))
  | some a =>
    refine Encodes.bind (x := 1) (Encodes.u32 (by simp)) ?_
    refine Encodes.bind (x := [a]) ?_ ?_
    · exact Encodes.bindPure (addr_encodes a (h1 a rfl)) rfl
    exact Encodes.bind (Encodes.u32 h2) (Encodes.bind (Encodes.u32 h3)
      (Encodes.bind (Encodes.u32 (by decide)) (Encodes.bindPure (Encodes.u32 h4) rfl)))

theorem dates_encodes (d : ReinitDates) (h : d.loc < 2 ^ 32 ∧ d.target < 2 ^ 32) :
    Encodes readDates (writeDates d) d :=
  Encodes.bind (Encodes.u32 h.1) (Encodes.bindPure (Encodes.u32 h.2) rfl)

/-! ## Flags -/

theorem flagsOf_lt : ∀ a b c d, flagsOf a b c d < 2 ^ 32 := by decide

theorem flagsOf_bits : ∀ a b c d,
    (flagsOf a b c d).testBit 0 = a ∧ (flagsOf a b c d).testBit 1 = false ∧
    (flagsOf a b c d).testBit 2 = b ∧ (flagsOf a b c d).testBit 3 = !b ∧
    (flagsOf a b c d).testBit 4 = true ∧ (flagsOf a b c d).testBit 5 = false ∧
    (flagsOf a b c d).testBit 6 = true ∧ (flagsOf a b c d).testBit 7 = true ∧
    (flagsOf a b c d).testBit 8 = false ∧ (flagsOf a b c d).testBit 9 = false ∧
    (flagsOf a b c d).testBit 10 = c ∧ (flagsOf a b c d).testBit 11 = d := by decide

theorem flagsOf_clear : ∀ a b c d,
    (writeU32 (flagsOf a b c d)).set 1 (((writeU32 (flagsOf a b c d)).getD 1 0) &&& 0xf7) =
      writeU32 (flagsOf a b c false) := by decide

theorem outFlags_lt (p : OutPacket) : outFlags p < 2 ^ 32 := flagsOf_lt _ _ _ _

theorem outFlags_bits (p : OutPacket) :
    (outFlags p).testBit 0 = p.src.isSome ∧ (outFlags p).testBit 1 = false ∧
    (outFlags p).testBit 2 = p.messages.isSingle ∧
    (outFlags p).testBit 3 = !p.messages.isSingle ∧
    (outFlags p).testBit 4 = true ∧ (outFlags p).testBit 5 = false ∧
    (outFlags p).testBit 6 = true ∧ (outFlags p).testBit 7 = true ∧
    (outFlags p).testBit 8 = false ∧ (outFlags p).testBit 9 = false ∧
    (outFlags p).testBit 10 = p.reinitDates.isSome ∧
    (outFlags p).testBit 11 = p.signature.isSome := flagsOf_bits _ _ _ _

/-- Clearing bit 3 of the second byte of the flags clears the signature flag. -/
theorem flags_clear (p : OutPacket) :
    (writeU32 (outFlags p)).set 1 (((writeU32 (outFlags p)).getD 1 0) &&& 0xf7) =
      writeU32 (outFlags { p with signature := none }) := flagsOf_clear _ _ _ _

theorem bit_byte (b : UInt8) (i : Nat) :
    (b &&& 0xf7).toNat.testBit i = (b.toNat.testBit i && decide (i ≠ 3)) := by
  rw [UInt8.toNat_and, Nat.testBit_and]
  by_cases h : i < 8
  · have : (0xf7 : UInt8).toNat.testBit i = decide (i ≠ 3) := by
      have hi : i = 0 ∨ i = 1 ∨ i = 2 ∨ i = 3 ∨ i = 4 ∨ i = 5 ∨ i = 6 ∨ i = 7 := by omega
      rcases hi with h | h | h | h | h | h | h | h <;> subst h <;> decide
    rw [this]
  · have : b.toNat.testBit i = false := by
      apply Nat.testBit_lt_two_pow
      have := b.toNat_lt
      calc b.toNat < 2 ^ 8 := this
        _ ≤ 2 ^ i := Nat.pow_le_pow_right (by omega) (by omega)
    simp [this]

theorem ofLE_cons_testBit (b : UInt8) (bs : Bytes) (i : Nat) :
    (ofLE (b :: bs)).testBit i = if i < 8 then b.toNat.testBit i else (ofLE bs).testBit (i - 8) := by
  have h : ofLE (b :: bs) = 2 ^ 8 * ofLE bs + b.toNat := by simp [ofLE]; omega
  rw [h, Nat.testBit_two_pow_mul_add _ b.toNat_lt]

theorem ofLE_clear_testBit (F : Bytes) (hF : F.length = 4) (i : Nat) :
    (ofLE (F.set 1 ((F.getD 1 0) &&& 0xf7))).testBit i = ((ofLE F).testBit i && decide (i ≠ 11)) := by
  match F, hF with
  | [a, b, c, d], _ =>
    simp only [List.set_cons_succ, List.set_cons_zero, List.getD_cons_succ, List.getD_cons_zero,
      ofLE_cons_testBit _ _ i, ofLE_cons_testBit _ _ (i - 8), bit_byte]
    by_cases h1 : i < 8
    · have : decide (i ≠ 11) = true := by simp; omega
      simp only [h1, if_true, this, Bool.and_true]
    · simp only [h1, if_false]
      by_cases h2 : i - 8 < 8
      · simp only [h2, if_true]
        have : decide (i - 8 ≠ 3) = decide (i ≠ 11) := by
          apply decide_eq_decide.mpr; omega
        rw [this]
      · have : decide (i ≠ 11) = true := by simp; omega
        simp only [h2, if_false, this, Bool.and_true]

/-! ## Removing the signature in place -/

theorem extract_sections (A F B S C sig : Bytes) (hF : F.length = 4) (hS : 0 < S.length)
    (hC : 0 < C.length) (hlen : (A ++ F ++ B ++ S ++ C).length < 2 ^ 16) :
    let packet := A ++ F ++ B ++ S ++ C
    let q := A ++ F.set 1 ((F.getD 1 0) &&& 0xf7) ++ B ++ C
    extract ⟨sig, A.length, A.length + 4 + B.length, A.length + 4 + B.length + S.length⟩ packet =
      some (q ++ packet.drop q.length, q, sig) := by
  intro packet q
  have hpl : packet.length = A.length + 4 + B.length + S.length + C.length := by
    simp [packet, hF]; omega
  have hql : q.length = A.length + 4 + B.length + C.length := by
    simp [q, hF]; omega
  have hlen' : packet.length < 65536 := hlen
  have e1 : packet.length % 2 ^ 16 = packet.length := Nat.mod_eq_of_lt hlen
  have e2 : (A.length + 1) % 2 ^ 16 = A.length + 1 := Nat.mod_eq_of_lt (by omega)
  unfold extract
  simp only [e1, e2]
  rw [if_pos ⟨by omega, by omega, by omega⟩]
  have hget : packet.getD (A.length + 1) 0 = F.getD 1 0 := by
    simp only [packet, List.append_assoc, List.getD_eq_getElem?_getD]
    rw [List.getElem?_append_right (by omega), List.getElem?_append_left (by omega)]
    simp
  have hset : packet.set (A.length + 1) ((packet.getD (A.length + 1) 0) &&& 0xf7) =
      A ++ F.set 1 ((F.getD 1 0) &&& 0xf7) ++ B ++ S ++ C := by
    rw [hget]
    simp only [packet, List.append_assoc]
    rw [List.set_append_right _ _ (by omega), List.set_append_left _ _ (by omega)]
    simp
  rw [hset]
  generalize hF' : F.set 1 ((F.getD 1 0) &&& 0xf7) = F'
  have hF'l : F'.length = 4 := by rw [← hF']; simp [hF]
  have hq : q = A ++ F' ++ B ++ C := by rw [← hF']
  have hmm : memmove (A ++ F' ++ B ++ S ++ C) (A.length + 4 + B.length + S.length)
      (A.length + 4 + B.length) (packet.length - (A.length + 4 + B.length + S.length)) =
      q ++ packet.drop q.length := by
    have hrem : packet.length - (A.length + 4 + B.length + S.length) = C.length := by omega
    rw [hrem]
    unfold memmove slice
    have t1 : (A ++ F' ++ B ++ S ++ C).take (A.length + 4 + B.length) = A ++ F' ++ B := by
      have : A.length + 4 + B.length = (A ++ F' ++ B).length := by simp [hF'l]; omega
      rw [this, List.append_assoc (A ++ F' ++ B) S C, List.take_left]
    have t2 : (A ++ F' ++ B ++ S ++ C).drop (A.length + 4 + B.length + S.length) = C := by
      have : A.length + 4 + B.length + S.length = (A ++ F' ++ B ++ S).length := by
        simp [hF'l]; omega
      rw [this, List.drop_left]
    have t3 : (A ++ F' ++ B ++ S ++ C).drop (A.length + 4 + B.length + C.length) =
        packet.drop q.length := by
      have p1 : (A ++ F' ++ B ++ S ++ C).drop (A.length + 4 + B.length + C.length) =
          (S ++ C).drop C.length := by
        have : A.length + 4 + B.length + C.length = (A ++ F' ++ B).length + C.length := by
          simp [hF'l]; omega
        rw [this, List.append_assoc (A ++ F' ++ B) S C, List.drop_append]
        rw [List.drop_of_length_le (by omega), List.nil_append, Nat.add_sub_cancel_left]
      have p2 : packet.drop q.length = (S ++ C).drop C.length := by
        have : q.length = (A ++ F ++ B).length + C.length := by rw [hql]; simp [hF]; omega
        simp only [packet]
        rw [this, List.append_assoc (A ++ F ++ B) S C, List.drop_append]
        rw [List.drop_of_length_le (by omega), List.nil_append, Nat.add_sub_cancel_left]
      rw [p1, p2]
    rw [t1, t2, t3, Nat.add_sub_cancel_left, List.take_of_length_le (Nat.le_refl _), hq]
  rw [hmm]
  have htake : (q ++ packet.drop q.length).take (packet.length -
      (A.length + 4 + B.length + S.length - (A.length + 4 + B.length))) = q := by
    have : packet.length - (A.length + 4 + B.length + S.length - (A.length + 4 + B.length)) =
        q.length := by omega
    rw [this, List.take_left]
  rw [htake]

end Verif.AdnlProto
