import Verif.Model.RldpProto
import Verif.Proofs.Tl

/-!
# Codec lemmas for RLDP
-/
namespace Verif.Rldp
open Verif.Tl

/-- Field widths. -/
def Message.wf : Message → Prop
  | .message id d => id.length = 32 ∧ d.length < 2 ^ 24
  | .answer q d => q.length = 32 ∧ d.length < 2 ^ 24
  | .query q m t d => q.length = 32 ∧ m < 2 ^ 64 ∧ t < 2 ^ 32 ∧ d.length < 2 ^ 24

def FecType.wf (f : FecType) : Prop := f.totalLen < 2 ^ 32 ∧ f.packetLen < 2 ^ 32 ∧ f.packetCount < 2 ^ 32

def PartMsg.wf : PartMsg → Prop
  | .part id p => id.length = 32 ∧ p.fec.wf ∧ p.part < 2 ^ 32 ∧ p.totalSize < 2 ^ 64 ∧ p.seqno < 2 ^ 32 ∧
      p.data.length < 2 ^ 24
  | .confirm id p s => id.length = 32 ∧ p < 2 ^ 32 ∧ s < 2 ^ 32
  | .complete id p => id.length = 32 ∧ p < 2 ^ 32

theorem message_encodes (m : Message) (h : m.wf) : Encodes readMessage (writeMessage m) m := by
  unfold readMessage
  cases m with
  | message id d =>
    obtain ⟨h1, h2⟩ := h
    refine Encodes.bind (Encodes.u32 (n := 0x7d1bcd1e) (by decide)) ?_
    rw [if_pos rfl]
    exact Encodes.bind (Encodes.hash h1) (Encodes.bindPure (Encodes.bytes h2) rfl)
  | answer q d =>
    obtain ⟨h1, h2⟩ := h
    refine Encodes.bind (Encodes.u32 (n := 0xa3fc5c03) (by decide)) ?_
    rw [if_neg (by decide), if_pos rfl]
    exact Encodes.bind (Encodes.hash h1) (Encodes.bindPure (Encodes.bytes h2) rfl)
  | query q m t d =>
    obtain ⟨h1, h2, h3, h4⟩ := h
    refine Encodes.bind (Encodes.u32 (n := 0x8a794d69) (by decide)) ?_
    rw [if_neg (by decide), if_neg (by decide), if_pos rfl]
    exact Encodes.bind (Encodes.hash h1) (Encodes.bind (Encodes.u64 h2) (Encodes.bind (Encodes.u32 h3)
      (Encodes.bindPure (Encodes.bytes h4) rfl)))

theorem fec_encodes (f : FecType) (h : f.wf) : Encodes readFec (writeFec f) f := by
  obtain ⟨h1, h2, h3⟩ := h
  unfold readFec
  refine Encodes.bind (Encodes.u32 (n := 0x8b93a7e0) (by decide)) ?_
  rw [if_pos rfl]
  exact Encodes.bind (Encodes.u32 h1) (Encodes.bind (Encodes.u32 h2) (Encodes.bindPure (Encodes.u32 h3) rfl))

theorem partMsg_encodes (m : PartMsg) (h : m.wf) : Encodes readPartMsg (writePartMsg m) m := by
  unfold readPartMsg
  cases m with
  | part id p =>
    obtain ⟨h1, h2, h3, h4, h5, h6⟩ := h
    refine Encodes.bind (Encodes.u32 (n := 0x185c22cc) (by decide)) ?_
    rw [if_pos rfl]
    exact Encodes.bind (Encodes.hash h1) (Encodes.bind (fec_encodes _ h2) (Encodes.bind (Encodes.u32 h3)
      (Encodes.bind (Encodes.u64 h4) (Encodes.bind (Encodes.u32 h5)
        (Encodes.bindPure (Encodes.bytes h6) rfl)))))
  | confirm id p s =>
    obtain ⟨h1, h2, h3⟩ := h
    refine Encodes.bind (Encodes.u32 (n := 0xf582dc58) (by decide)) ?_
    rw [if_neg (by decide), if_pos rfl]
    exact Encodes.bind (Encodes.hash h1) (Encodes.bind (Encodes.u32 h2)
      (Encodes.bindPure (Encodes.u32 h3) rfl))
  | complete id p =>
    obtain ⟨h1, h2⟩ := h
    refine Encodes.bind (Encodes.u32 (n := 0xbc0cb2bf) (by decide)) ?_
    rw [if_neg (by decide), if_neg (by decide), if_pos rfl]
    exact Encodes.bind (Encodes.hash h1) (Encodes.bindPure (Encodes.u32 h2) rfl)

/-- `from_data` reads exactly the queries. -/
theorem fromData_iff (d : Bytes) (o : OwnedQuery) : fromData d = some o ↔
    ∃ t r, readMessage d = some (.query o.queryId o.maxAnswerSize t o.data, r) := by
  unfold fromData readMessage
  rw [bind_def]
  cases h0 : readU32 d with
  | none => simp
  | some p =>
    obtain ⟨id, r⟩ := p
    simp only
    by_cases h3 : id = 0x8a794d69
    · subst h3
      rw [if_pos rfl, if_neg (by decide), if_neg (by decide), if_pos rfl, bind_def]
      cases h1 : readHash r with
      | none => simp
      | some p =>
        obtain ⟨q, r1⟩ := p
        simp only [bind_def]
        cases h2 : readU64 r1 with
        | none => simp
        | some p =>
          obtain ⟨m, r2⟩ := p
          simp only
          cases h3 : readU32 r2 with
          | none => simp
          | some p =>
            obtain ⟨t, r3⟩ := p
            simp only
            cases h4 : readBytes r3 with
            | none => simp
            | some p =>
              obtain ⟨b, r4⟩ := p
              simp only [pure_def, Option.some.injEq, Prod.mk.injEq, Message.query.injEq]
              constructor
              · rintro rfl; exact ⟨t, r4, ⟨rfl, rfl, rfl, rfl⟩, rfl⟩
              · rintro ⟨t', r', ⟨rfl, rfl, _, rfl⟩, _⟩; rfl
    · rw [if_neg h3]
      simp only [reduceCtorEq, false_iff]
      rintro ⟨t, r', h⟩
      split at h
      · rw [bind_def] at h
        split at h
        · cases h
        · rw [bind_def] at h
          split at h
          · cases h
          · cases h
      · split at h
        · rw [bind_def] at h
          split at h
          · cases h
          · rw [bind_def] at h
            split at h
            · cases h
            · cases h
        · cases h

theorem writeBytes_length (d : Bytes) : (writeBytes d).length =
    if d.length < 254 then 1 + d.length + padding (1 + d.length) else 4 + d.length + padding d.length := by
  unfold writeBytes
  split
  · simp; omega
  · simp; omega

theorem padding_le (n : Nat) : padding n ≤ 3 := by unfold padding; omega

theorem padding_mod (n : Nat) : (n + padding n) % 4 = 0 := by unfold padding; omega

theorem writeAnswer_length (q d : Bytes) (hq : q.length = 32) :
    (writeMessage (.answer q d)).length = 36 + (writeBytes d).length := by
  simp only [writeMessage, List.length_append, writeU32, leBytes_length, hq]
  omega

end Verif.Rldp
