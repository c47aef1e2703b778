import Verif.Model.OverlayProto
import Verif.Proofs.DhtProto
import Verif.Proofs.RldpProto

/-!
# Codec lemmas for overlay messages
-/
namespace Verif.Overlay
open Verif.Tl Verif.AdnlProto Verif.DhtProto Verif.Rldp

/-- Field widths. -/
def Certificate.wf : Certificate → Prop
  | .certificate k e m s => k.wf ∧ e < 2 ^ 32 ∧ m < 2 ^ 32 ∧ s.length < 2 ^ 24
  | .empty => True

def Ordinary.wf (b : Ordinary) : Prop :=
  b.src.wf ∧ b.certificate.wf ∧ b.flags < 2 ^ 32 ∧ b.data.length < 2 ^ 24 ∧ b.date < 2 ^ 32 ∧
  b.signature.length < 2 ^ 24

def FecPart.wf (b : FecPart) : Prop :=
  b.src.wf ∧ b.certificate.wf ∧ b.dataHash.length = 32 ∧ b.dataSize < 2 ^ 32 ∧ b.flags < 2 ^ 32 ∧
  b.data.length < 2 ^ 24 ∧ b.seqno < 2 ^ 32 ∧ b.fec.wf ∧ b.date < 2 ^ 32 ∧ b.signature.length < 2 ^ 24

def Broadcast.wf : Broadcast → Prop
  | .ordinary b => b.wf
  | .fec b => b.wf
  | .fecShort k c h p n s => k.wf ∧ c.wf ∧ h.length = 32 ∧ p.length = 32 ∧ n < 2 ^ 32 ∧ s.length < 2 ^ 24
  | .notFound => True
  | .fecCompleted h => h.length = 32
  | .fecReceived h => h.length = 32
  | .unicast d => d.length < 2 ^ 24

theorem certificate_encodes (x : Certificate) (h : x.wf) :
    Encodes readCertificate (writeCertificate x) x := by
  unfold readCertificate
  cases x with
  | certificate k e m s =>
    obtain ⟨h1, h2, h3, h4⟩ := h
    refine Encodes.bind (Encodes.u32 (n := 0xe09ed731) (by decide)) ?_
    rw [if_pos rfl]
    exact Encodes.bind (pubKey_encodes _ h1) (Encodes.bind (Encodes.u32 h2) (Encodes.bind (Encodes.u32 h3)
      (Encodes.bindPure (Encodes.bytes h4) rfl)))
  | empty =>
    refine Encodes.bindPure (Encodes.u32 (n := 0x32dabccf) (by decide)) ?_
    rw [if_neg (by decide), if_pos rfl]

theorem ordinary_encodes (b : Ordinary) (h : b.wf) : Encodes readOrdinary (writeOrdinary b) b := by
  obtain ⟨h1, h2, h3, h4, h5, h6⟩ := h
  exact Encodes.bind (pubKey_encodes _ h1) (Encodes.bind (certificate_encodes _ h2)
    (Encodes.bind (Encodes.u32 h3) (Encodes.bind (Encodes.bytes h4) (Encodes.bind (Encodes.u32 h5)
      (Encodes.bindPure (Encodes.bytes h6) rfl)))))

theorem fecPart_encodes (b : FecPart) (h : b.wf) : Encodes readFecPart (writeFecPart b) b := by
  obtain ⟨h1, h2, h3, h4, h5, h6, h7, h8, h9, h10⟩ := h
  exact Encodes.bind (pubKey_encodes _ h1) (Encodes.bind (certificate_encodes _ h2)
    (Encodes.bind (Encodes.hash h3) (Encodes.bind (Encodes.u32 h4) (Encodes.bind (Encodes.u32 h5)
      (Encodes.bind (Encodes.bytes h6) (Encodes.bind (Encodes.u32 h7) (Encodes.bind (fec_encodes _ h8)
        (Encodes.bind (Encodes.u32 h9) (Encodes.bindPure (Encodes.bytes h10) rfl)))))))))

theorem broadcast_encodes (b : Broadcast) (h : b.wf) : Encodes readBroadcast (writeBroadcast b) b := by
  unfold readBroadcast
  cases b with
  | ordinary b =>
    refine Encodes.bind (Encodes.u32 (n := 0xb15a2b6b) (by decide)) ?_
    rw [if_pos rfl]
    exact Encodes.bindPure (ordinary_encodes b h) rfl
  | fec b =>
    refine Encodes.bind (Encodes.u32 (n := 0xbad7c36a) (by decide)) ?_
    rw [if_neg (by decide), if_pos rfl]
    exact Encodes.bindPure (fecPart_encodes b h) rfl
  | fecShort k c hh p n s =>
    obtain ⟨h1, h2, h3, h4, h5, h6⟩ := h
    refine Encodes.bind (Encodes.u32 (n := 0xf1881342) (by decide)) ?_
    rw [if_neg (by decide), if_neg (by decide), if_pos rfl]
    exact Encodes.bind (pubKey_encodes _ h1) (Encodes.bind (certificate_encodes _ h2)
      (Encodes.bind (Encodes.hash h3) (Encodes.bind (Encodes.hash h4) (Encodes.bind (Encodes.u32 h5)
        (Encodes.bindPure (Encodes.bytes h6) rfl)))))
  | notFound =>
    refine Encodes.bindPure (Encodes.u32 (n := 0x95863624) (by decide)) ?_
    rw [if_neg (by decide), if_neg (by decide), if_neg (by decide), if_pos rfl]
  | fecCompleted hh =>
    refine Encodes.bind (Encodes.u32 (n := 0x09d76914) (by decide)) ?_
    rw [if_neg (by decide), if_neg (by decide), if_neg (by decide), if_neg (by decide), if_pos rfl]
    exact Encodes.bindPure (Encodes.hash h) rfl
  | fecReceived hh =>
    refine Encodes.bind (Encodes.u32 (n := 0xd55c14ec) (by decide)) ?_
    rw [if_neg (by decide), if_neg (by decide), if_neg (by decide), if_neg (by decide),
      if_neg (by decide), if_pos rfl]
    exact Encodes.bindPure (Encodes.hash h) rfl
  | unicast d =>
    refine Encodes.bind (Encodes.u32 (n := 0x33534e24) (by decide)) ?_
    rw [if_neg (by decide), if_neg (by decide), if_neg (by decide), if_neg (by decide),
      if_neg (by decide), if_neg (by decide), if_pos rfl]
    exact Encodes.bindPure (Encodes.bytes h) rfl

theorem getRandomPeers_encodes (l : List ONode) (hl : l.length < 2 ^ 32) (h : ∀ n ∈ l, ONode.wf n) :
    Encodes readGetRandomPeers (writeGetRandomPeers l) l := by
  unfold readGetRandomPeers
  refine Encodes.bind (Encodes.u32 (n := getRandomPeersId) (by decide)) ?_
  rw [if_pos rfl]
  exact Encodes.vec l hl fun n hn => onode_encodes n (h n hn)

theorem certificate_yields : Yields readCertificate Certificate.wf :=
  Yields.bind Yields.u32 fun _ _ => Yields.ite
    (Yields.bind pubKey_yields fun _ h1 => Yields.bind Yields.u32 fun _ h2 =>
      Yields.bind Yields.u32 fun _ h3 => Yields.bind Yields.bytes fun _ h4 =>
        Yields.pure ⟨h1, h2, h3, h4⟩)
    (Yields.ite (Yields.pure trivial) Yields.fail)

end Verif.Overlay
