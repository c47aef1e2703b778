import Verif.Props.LongTrip
import Verif.Props.FecSend
import Verif.Proofs.RldpProto

/-!
# C115: what RLDP and overlays send is short enough for ADNL

By C111 a message of more than two datagrams never arrives. RLDP parts and the packets of broadcasts travel as custom
messages of ADNL: here their sizes are computed and compared.
-/
namespace Verif.LongTrip
open Verif.Tl Verif.Adnl Verif.AdnlProto Verif.Address Verif.Node Verif.Receiver Verif.Sender Verif.Props
open Verif.Process Verif.Delivery Verif.RoundTrip
open Verif.Rldp (PartMsg writePartMsg readPartMsg Zstd)
open Verif.Overlay (OutFec fecMessage payload Env Started)

variable {c : Crypto}

/-- A byte string of at most `n` bytes, `n` a multiple of four, takes at most four bytes more. -/
theorem bytes_room {d : Bytes} {n : Nat} (h : d.length ≤ n) (h4 : n % 4 = 0) : (writeBytes d).length ≤ n + 4 := by
  rw [Tl.writeBytes_length]
  unfold padding
  split <;> omega

theorem bytes_take (d : Bytes) : d.length < (writeBytes d).length := by
  rw [Tl.writeBytes_length]
  split <;> omega

theorem part_room {p : PartMsg} (hp : p.wf) (h : ∀ id q, p = .part id q → q.data.length ≤ 768) :
    (writePartMsg p).length ≤ 840 := by
  cases p with
  | part id q =>
    have h1 := bytes_room (h id q rfl) (by decide)
    have h2 : id.length = 32 := hp.1
    simp only [writePartMsg, Rldp.writeFec, List.length_append, writeU32_length, writeU64_length, h2]
    omega
  | confirm id a b =>
    have h2 : id.length = 32 := hp.1
    simp only [writePartMsg, List.length_append, writeU32_length, h2]
    omega
  | complete id a =>
    have h2 : id.length = 32 := hp.1
    simp only [writePartMsg, List.length_append, writeU32_length, h2]
    omega

theorem ordinary_length (hc : c.Lawful) (z : Zstd) (compressing : Bool) (now : Nat) (sec : c.Sec) (data overlay : Bytes)
    (ho : overlay.length = 32) :
    (Overlay.messagePrefix overlay ++ Overlay.writeBroadcast (.ordinary (Overlay.ordinaryOf c z compressing now sec data))).length =
      156 + (writeBytes (payload z compressing data)).length := by
  have h1 : (writeBytes (c.sign sec (Overlay.ordinaryToSign c.sha data now none))).length = 68 := by
    rw [Tl.writeBytes_length, hc.sign_length]; rfl
  simp only [Overlay.messagePrefix, Overlay.writeBroadcast, Overlay.writeOrdinary, Overlay.ordinaryOf, writePubKey,
    Overlay.writeCertificate, List.length_append, writeU32_length, ho, hc.pub_length, h1]
  omega

theorem fec_length (hc : c.Lawful) (f : Rldp.Fec) (sec : c.Sec) (bid data overlay : Bytes) (n date : Nat)
    (ho : overlay.length = 32) (hb : bid.length = 32) :
    (fecMessage overlay (Overlay.fecPartOf c f sec bid data n date)).length =
      212 + (writeBytes (f.symbol data n)).length := by
  simp only [fecMessage, Overlay.messagePrefix, Overlay.writeBroadcast, Overlay.writeFecPart, Overlay.fecPartOf, writePubKey,
    Overlay.writeCertificate, Rldp.writeFec, List.length_append, writeU32_length, ho, hc.pub_length, hb]
  rw [Tl.writeBytes_length (c.sign _ _), hc.sign_length]
  simp only [padding, show (64 < 254) = True by decide, if_true]
  omega

theorem started_ordinary {f : Rldp.Fec} {e : Env} {maxOrdinary : Nat} {compressing : Bool} {overlay : Bytes} {now : Nat}
    {sec : c.Sec} {s : Overlay.State c f} {data d : Bytes}
    (h : (Overlay.broadcast c f e maxOrdinary compressing overlay now sec s data).2 = .ordinary d) :
    data.length ≤ maxOrdinary ∧ d = Overlay.messagePrefix overlay ++
      Overlay.writeBroadcast (.ordinary (Overlay.ordinaryOf c e.z compressing now sec data)) := by
  unfold Overlay.broadcast at h
  split at h
  · rename_i hle
    refine ⟨hle, ?_⟩
    split at h
    · rename_i s' m hm
      cases h
      have := (Overlay.sendOrdinary_some (congrArg Prod.snd hm)).2.2
      simpa [Overlay.messagePrefix] using this
    · cases h
  · split at h <;> cases h

theorem started_fec {f : Rldp.Fec} {e : Env} {maxOrdinary : Nat} {compressing : Bool} {overlay : Bytes} {now : Nat}
    {sec : c.Sec} {s : Overlay.State c f} {data : Bytes} {t : OutFec}
    (h : (Overlay.broadcast c f e maxOrdinary compressing overlay now sec s data).2 = .fec t) :
    maxOrdinary < data.length ∧ t = OutFec.new c e.z compressing data := by
  unfold Overlay.broadcast at h
  split at h
  · split at h <;> cases h
  · rename_i hle
    refine ⟨by omega, ?_⟩
    unfold Overlay.sendFec at h
    split at h
    · rename_i hx
      split at hx <;> cases hx
      cases h; rfl
    · cases h

/-- Size of the encoding of a custom message. -/
theorem custom_length (d : Bytes) : (writeMessage (.custom d)).length = 4 + (writeBytes d).length := by
  simp [writeMessage]

theorem sends_sizes (hc : c.Lawful) {P : Pair c} (hP : P.Fits) {M G : Message → Prop} (hA : Apart c.sha M)
    {ρ₀ ρ : Talk c} (h0 : TStart P M ρ₀) (h : Goes P M G ρ₀ ρ) {b : Bool} {m : Message} {k : Nat} {a : Option Nat}
    (hk : (ρ.sends b)[k]? = some (m, a)) : a.getD 0 ≤ 72 ∧ 912 ≤ firstPart a ∧ firstPart a ≤ 1024 := by
  obtain ⟨σ, evs, hR⟩ := sim_goes hc hP hA h0 h
  obtain ⟨last, -, hl⟩ := hR.lane b
  have := ((lane_run hA (h0.transfers _) hl).1.sends _ (List.mem_of_getElem? hk)).2.2
  simp only [List.mem_cons, List.not_mem_nil, or_false] at this
  rcases this with rfl | rfl | rfl <;> simp [firstPart]

/-- The users of the side opposite to `b` have seen the custom message `d` of side `b`. -/
def Heard (P : Pair c) (ρ : Talk c) (b : Bool) (d : Bytes) : Prop :=
  ∃ y, (.custom (P.id !b) (P.id b) d, y) ∈ ρ.log (!b)

theorem heard_iff {P : Pair c} {ρ : Talk c} {b : Bool} {d : Bytes} : Shown P ρ b (.custom d) ↔ Heard P ρ b d := by
  constructor
  · rintro ⟨e, y, h, hm⟩
    cases h
    exact ⟨y, hm⟩
  · rintro ⟨y, hm⟩
    exact ⟨_, y, rfl, hm⟩

/-- **C115 (RLDP)** In every run of two honest nodes: a part of an RLDP transfer with a symbol of at most
`MAX_TRANSMISSION_UNIT` = 768 bytes, a confirmation or a completion is sent in one datagram; as soon as this datagram
has arrived the users of the other side have seen the message, and read it back unchanged. -/
theorem C115_rldp (hc : c.Lawful) (P : Pair c) (hP : P.Fits) (M G : Message → Prop) (hA : Apart c.sha M)
    (ρ₀ ρ : Talk c) (h0 : TStart P M ρ₀) (h : Goes P M G ρ₀ ρ) (b : Bool) (p : PartMsg) (hp : p.wf)
    (hsym : ∀ id q, p = .part id q → q.data.length ≤ 768) (k : Nat) (a : Option Nat)
    (hk : (ρ.sends b)[k]? = some (.custom (writePartMsg p), a)) (i : Nat) (hi : (ρ.src b)[i]? = some k)
    (hs : i ∈ ρ.seen b) : Heard P ρ b (writePartMsg p) ∧ readPartMsg (writePartMsg p) = some (p, []) := by
  refine ⟨heard_iff.mp (C111_one_datagram hc P hP M G hA ρ₀ ρ h0 h b _ k a hk ?_ i hi hs), ?_⟩
  · have := sends_sizes hc hP hA h0 h hk
    have := part_room hp hsym
    simp only [counted]
    omega
  · simpa using Rldp.partMsg_encodes p hp []

/-- **C115 (ordinary broadcasts)** In every run of two honest nodes: an ordinary broadcast whose data, compressed if
compression is on, has at most 768 bytes is sent in one datagram, however often it is sent; as soon as one of these
datagrams has arrived the users of the other side have seen the message. -/
theorem C115_ordinary (hc : c.Lawful) (P : Pair c) (hP : P.Fits) (M G : Message → Prop) (hA : Apart c.sha M)
    (ρ₀ ρ : Talk c) (h0 : TStart P M ρ₀) (h : Goes P M G ρ₀ ρ) (b : Bool) (f : Rldp.Fec) (e : Env) (maxOrdinary : Nat)
    (compressing : Bool) (overlay : Bytes) (ho : overlay.length = 32) (now : Nat) (sec : c.Sec) (s : Overlay.State c f)
    (data d : Bytes) (hd : (Overlay.broadcast c f e maxOrdinary compressing overlay now sec s data).2 = .ordinary d)
    (hp : (payload e.z compressing data).length ≤ 768) (k : Nat) (a : Option Nat)
    (hk : (ρ.sends b)[k]? = some (.custom d, a)) (i : Nat) (hi : (ρ.src b)[i]? = some k) (hs : i ∈ ρ.seen b) :
    Heard P ρ b d := by
  have hd := (started_ordinary hd).2
  refine heard_iff.mp (C111_one_datagram hc P hP M G hA ρ₀ ρ h0 h b _ k a hk ?_ i hi hs)
  have h1 := sends_sizes hc hP hA h0 h hk
  have h2 := bytes_room hp (by decide)
  have h3 := ordinary_length hc e.z compressing now sec data overlay ho
  rw [← hd] at h3
  simp only [counted]
  omega

/-- `d` is a message of the broadcast of `data`: the only one of an ordinary broadcast, or one with a symbol of at most
768 bytes. -/
def Carries (f : Rldp.Fec) (e : Env) (maxOrdinary : Nat) (compressing : Bool) (overlay : Bytes) (now : Nat) (sec : c.Sec)
    (s : Overlay.State c f) (data d : Bytes) : Prop :=
  (Overlay.broadcast c f e maxOrdinary compressing overlay now sec s data).2 = .ordinary d ∨
  ∃ t dates, (Overlay.broadcast c f e maxOrdinary compressing overlay now sec s data).2 = .fec t ∧
    ∃ p ∈ t.sent c f sec dates, p.data.length ≤ 768 ∧ d = fecMessage overlay p

/-- C115 as one would want it: whatever the options, every message of a broadcast is seen by the users of the other side
when all its datagrams have arrived. -/
def C115_full : Prop := ∀ (c : Crypto), c.Lawful → ∀ (P : Pair c), P.Fits → ∀ (M G : Message → Prop), Apart c.sha M →
  ∀ (ρ₀ ρ : Talk c), TStart P M ρ₀ → Goes P M G ρ₀ ρ → ∀ (b : Bool) (f : Rldp.Fec) (e : Env) (maxOrdinary : Nat)
    (compressing : Bool) (overlay : Bytes) (now : Nat) (sec : c.Sec) (s : Overlay.State c f) (data d : Bytes),
    overlay.length = 32 → Carries f e maxOrdinary compressing overlay now sec s data d →
    ∀ (k : Nat) (a : Option Nat), SentOnce ρ b (.custom d) k a → ¬ G (.custom d) → AllHere ρ b k → Heard P ρ b d

/-- **C115 (all broadcasts)** Partial: as long as the data of ordinary broadcasts has at most 1768 bytes, compressed
if compression is on, every message of a broadcast sent once and not given up has been seen by the users of the other
side when all its datagrams have arrived; there are two datagrams at most. -/
theorem C115_arrives_partial (hc : c.Lawful) (P : Pair c) (hP : P.Fits) (M G : Message → Prop) (hA : Apart c.sha M)
    (ρ₀ ρ : Talk c) (h0 : TStart P M ρ₀) (h : Goes P M G ρ₀ ρ) (b : Bool) (f : Rldp.Fec) (e : Env) (maxOrdinary : Nat)
    (compressing : Bool) (overlay : Bytes) (now : Nat) (sec : c.Sec) (s : Overlay.State c f) (data d : Bytes)
    (ho : overlay.length = 32) (hd : Carries f e maxOrdinary compressing overlay now sec s data d)
    (hp : data.length ≤ maxOrdinary → (payload e.z compressing data).length ≤ 1768) (k : Nat) (a : Option Nat)
    (hO : SentOnce ρ b (.custom d) k a) (hG : ¬ G (.custom d)) (hall : AllHere ρ b k) : Heard P ρ b d := by
  refine heard_iff.mp (C111_arrives_partial hc P hP M G hA ρ₀ ρ h0 h b _ k a hO hG hall ?_)
  have h1 := sends_sizes hc hP hA h0 h hO.1
  have hdl : d.length ≤ 156 + 1772 := by
    rcases hd with hd | ⟨t, dates, ht, p, hpm, hlen, rfl⟩
    · obtain ⟨hle, rfl⟩ := started_ordinary hd
      have h2 := bytes_room (hp hle) (by decide)
      have h3 := ordinary_length hc e.z compressing now sec data overlay ho
      omega
    · obtain ⟨-, rfl⟩ := started_fec ht
      obtain ⟨n, date, -, rfl⟩ := Overlay.sent_own sec dates _ p hpm
      have h2 := bytes_room hlen (by decide)
      have h3 := fec_length hc f sec (OutFec.new c e.z compressing data).bid (OutFec.new c e.z compressing data).enc.data
        overlay n date ho (hc.sha_length _)
      have h4 : (Overlay.fecPartOf c f sec (OutFec.new c e.z compressing data).bid
        (OutFec.new c e.z compressing data).enc.data n date).data = f.symbol (OutFec.new c e.z compressing data).enc.data n := rfl
      rw [h4] at h2
      omega
  have h5 := bytes_room hdl (by decide)
  rw [custom_length]
  omega

/-- **C115 (too long)** An ordinary broadcast whose data has more than 1880 bytes, compressed if compression is on,
is never seen by the other side if it is sent once, whichever of its datagrams arrive. -/
theorem C115_too_long (hc : c.Lawful) (P : Pair c) (hP : P.Fits) (M G : Message → Prop) (hA : Apart c.sha M)
    (ρ₀ ρ : Talk c) (h0 : TStart P M ρ₀) (h : Goes P M G ρ₀ ρ) (b : Bool) (f : Rldp.Fec) (e : Env) (maxOrdinary : Nat)
    (compressing : Bool) (overlay : Bytes) (ho : overlay.length = 32) (now : Nat) (sec : c.Sec) (s : Overlay.State c f)
    (data d : Bytes) (hd : (Overlay.broadcast c f e maxOrdinary compressing overlay now sec s data).2 = .ordinary d)
    (hp : 1880 < (payload e.z compressing data).length) (k : Nat) (a : Option Nat)
    (hO : SentOnce ρ b (.custom d) k a) : ¬ Heard P ρ b d := by
  rw [← heard_iff]
  refine C111_long_never_arrives hc P hP M G hA ρ₀ ρ h0 h b _ k a hO ?_
  have h1 := sends_sizes hc hP hA h0 h hO.1
  have h3 := ordinary_length hc e.z compressing now sec data overlay ho
  rw [← (started_ordinary hd).2] at h3
  rw [Tl.writeBytes_length, if_neg (by omega)] at h3
  rw [custom_length, Tl.writeBytes_length, if_neg (by omega)]
  omega

/-! ### Examples -/

theorem sent_datagram (hc : c.Lawful) {P : Pair c} (hP : P.Fits) {M G : Message → Prop} (hA : Apart c.sha M)
    {ρ₀ ρ : Talk c} (h0 : TStart P M ρ₀) (h : Goes P M G ρ₀ ρ) {b : Bool} {m : Message} {k : Nat} {a : Option Nat}
    (hk : (ρ.sends b)[k]? = some (m, a)) (hfit : a.getD 0 + counted m ≤ 1024) : ∃ i : Nat, (ρ.src b)[i]? = some k := by
  obtain ⟨σ, evs, hR⟩ := sim_goes hc hP hA h0 h
  obtain ⟨last, -, hl⟩ := hR.lane b
  obtain ⟨i, hi, -⟩ := (lane_run hA (h0.transfers _) hl).1.all k m a hk m (by simp [cargo, hfit])
  exact ⟨i, hi⟩

theorem fresh_ordinary (f : Rldp.Fec) (e : Env) (maxOrdinary : Nat) (compressing : Bool) (overlay : Bytes) (now : Nat)
    (sec : c.Sec) (data : Bytes) (h : data.length ≤ maxOrdinary) :
    (Overlay.broadcast c f e maxOrdinary compressing overlay now sec (Overlay.State.init c f) data).2 =
      .ordinary (Overlay.messagePrefix overlay ++
        Overlay.writeBroadcast (.ordinary (Overlay.ordinaryOf c e.z compressing now sec data))) := by
  unfold Overlay.broadcast
  rw [if_pos h]
  rfl

namespace Fit

def part : PartMsg := .part (List.replicate 32 1) ⟨⟨3, 768, 1⟩, 0, 3, 0, [1, 2, 3]⟩

theorem part_wf : part.wf :=
  ⟨rfl, ⟨by decide, by decide, by decide⟩, by decide, by decide, by decide, by decide⟩

def overlay : Bytes := List.replicate 32 6

/-- Data of 2500 bytes. -/
def long : Bytes := List.replicate 2500 7

theorem long_length : long.length = 2500 := List.length_replicate

/-- The ordinary broadcast of some data. -/
def message (data : Bytes) : Bytes := Overlay.messagePrefix overlay ++
  Overlay.writeBroadcast (.ordinary (Overlay.ordinaryOf Crypto.toy Overlay.sampleEnv.z false 100 (5 : UInt8) data))

theorem message_length (data : Bytes) : (message data).length = 156 + (writeBytes data).length :=
  ordinary_length Crypto.toy_lawful Overlay.sampleEnv.z false 100 (5 : UInt8) data overlay List.length_replicate

theorem apart (m : Message) : Apart Crypto.toy.sha (· = m) := fun _ _ hx hy _ => hx.trans hy.symm

end Fit
open Fit

/-- C115_rldp. -/
example : ∃ ρ, Goes toyPair (· = .custom (writePartMsg part)) (fun _ => False) toyTalk ρ ∧
    Heard toyPair ρ false (writePartMsg part) := by
  have hm : User (.custom (writePartMsg part)) := show (writePartMsg part).length < 2 ^ 24 by decide +kernel
  obtain ⟨ρ, h1, h2, h3⟩ := toy_whole_run _ hm
  obtain ⟨i, hi⟩ := sent_datagram Crypto.toy_lawful toyPair_fits (apart _) (toyTalk_start _) h1 h2.1 (by decide +kernel)
  exact ⟨ρ, h1, (C115_rldp Crypto.toy_lawful toyPair toyPair_fits _ _ (apart _) toyTalk ρ (toyTalk_start _) h1 false part
    part_wf (by intro id q h; cases h; decide) 0 _ h2.1 i hi (h3 i hi)).1⟩

/-- C115_ordinary. -/
example : ∃ ρ, Goes toyPair (· = .custom (message [1, 2, 3])) (fun _ => False) toyTalk ρ ∧
    Heard toyPair ρ false (message [1, 2, 3]) := by
  have hm : User (.custom (message [1, 2, 3])) := show (message [1, 2, 3]).length < 2 ^ 24 by decide +kernel
  obtain ⟨ρ, h1, h2, h3⟩ := toy_whole_run _ hm
  obtain ⟨i, hi⟩ := sent_datagram Crypto.toy_lawful toyPair_fits (apart _) (toyTalk_start _) h1 h2.1 (by decide +kernel)
  exact ⟨ρ, h1, C115_ordinary Crypto.toy_lawful toyPair toyPair_fits _ _ (apart _) toyTalk ρ (toyTalk_start _) h1 false
    Rldp.Fec.toy Overlay.sampleEnv 768 false overlay List.length_replicate 100 (5 : UInt8) _ [1, 2, 3] _
    (fresh_ordinary _ _ _ _ _ _ _ _ (by decide)) (by decide) 0 _ h2.1 i hi (h3 i hi)⟩

/-- C115_arrives_partial: a broadcast of 1700 bytes where the option allows 1768. -/
example (data : Bytes) (hlen : data.length = 1700) : ∃ ρ, Goes toyPair (· = .custom (message data)) (fun _ => False) toyTalk ρ ∧
    Heard toyPair ρ false (message data) := by
  have hm : User (.custom (message data)) := by
    show (message data).length < 2 ^ 24
    have := bytes_room (d := data) (n := 1700) (by omega) (by decide)
    rw [message_length]; omega
  obtain ⟨ρ, h1, h2, h3⟩ := toy_whole_run _ hm
  exact ⟨ρ, h1, C115_arrives_partial Crypto.toy_lawful toyPair toyPair_fits _ _ (apart _) toyTalk ρ (toyTalk_start _) h1 false
    Rldp.Fec.toy Overlay.sampleEnv 1768 false overlay 100 (5 : UInt8) _ data _ List.length_replicate
    (.inl (fresh_ordinary _ _ _ _ _ _ _ _ (by omega))) (fun h => h) 0 _ h2 (fun h => h) h3⟩

namespace Fit

theorem fecs : ((OutFec.new Crypto.toy Overlay.sampleEnv.z false [1]).sent Crypto.toy Rldp.Fec.toy (5 : UInt8) [100]).length = 1 := by
  decide +kernel

def packet : Overlay.FecPart :=
  ((OutFec.new Crypto.toy Overlay.sampleEnv.z false [1]).sent Crypto.toy Rldp.Fec.toy (5 : UInt8) [100])[0]'(by rw [fecs]; decide)

end Fit

/-- C115_arrives_partial: a packet of a broadcast by FEC. -/
example : ∃ ρ, Goes toyPair (· = .custom (fecMessage overlay packet)) (fun _ => False) toyTalk ρ ∧
    Heard toyPair ρ false (fecMessage overlay packet) := by
  have hm : User (.custom (fecMessage overlay packet)) := show (fecMessage overlay packet).length < 2 ^ 24 by decide +kernel
  obtain ⟨ρ, h1, h2, h3⟩ := toy_whole_run _ hm
  exact ⟨ρ, h1, C115_arrives_partial Crypto.toy_lawful toyPair toyPair_fits _ _ (apart _) toyTalk ρ (toyTalk_start _) h1 false
    Rldp.Fec.toy Overlay.sampleEnv 0 false overlay 100 (5 : UInt8) (Overlay.State.init _ _) [1] _ List.length_replicate
    (.inr ⟨OutFec.new Crypto.toy Overlay.sampleEnv.z false [1], [100], rfl, packet, List.getElem_mem _, by decide +kernel, rfl⟩)
    (fun h => absurd h (by decide)) 0 _ h2 (fun h => h) h3⟩

/-- C115 as stated is false: with `max_ordinary_broadcast_len` = 3000 a broadcast of 2500 bytes is lost though all its
datagrams arrive. -/
theorem C115_full_false : ¬ C115_full := by
  intro hfull
  have hlen := message_length long
  have hb := bytes_room (d := long) (n := 2500) (by rw [long_length]) (by decide)
  have hm : User (.custom (message long)) := by
    show (message long).length < 2 ^ 24
    omega
  obtain ⟨ρ, h1, h2, h3⟩ := toy_whole_run _ hm
  have hs := fresh_ordinary (c := Crypto.toy) Rldp.Fec.toy Overlay.sampleEnv 3000 false overlay 100 (5 : UInt8) long
    (by rw [long_length]; decide)
  exact C115_too_long Crypto.toy_lawful toyPair toyPair_fits _ _ (apart _) toyTalk ρ (toyTalk_start _) h1 false
    Rldp.Fec.toy Overlay.sampleEnv 3000 false overlay List.length_replicate 100 (5 : UInt8) _ long _ hs
    (by show 1880 < long.length; rw [long_length]; decide) 0 _ h2
    (hfull _ Crypto.toy_lawful toyPair toyPair_fits _ _ (apart _) toyTalk ρ (toyTalk_start _) h1 false
      Rldp.Fec.toy Overlay.sampleEnv 3000 false overlay 100 (5 : UInt8) _ long _ List.length_replicate (.inl hs) 0 _ h2
      (fun h => h) h3)

end Verif.LongTrip
