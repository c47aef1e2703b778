import Verif.Proofs.OverlayFec
import Verif.Proofs.PacketsHistory
import Verif.Proofs.Encryption
import Verif.Props.OverlayLog
import Verif.Props.OverlayOrdinary

/-!
# C47, C48, C63, C64, C65: FEC broadcasts
-/
namespace Verif.Overlay
open Verif.AdnlProto Verif.Rldp

variable {c : Crypto} {f : Fec}

/-! ### Specification -/

/-- Everything given to the application in the course of a run. -/
def deliveries (e : Env) (s : State c f) : List Action → List Delivery
  | [] => []
  | a :: as => (step c f e s a).2.delivered.toList ++ deliveries e (step c f e s a).1 as

/-! ### C47: authentic -/

/-- C47, as far as it holds: for every schedule, what a receiving task gives to the application hashes
to the identity under which every symbol it used was signed by the source, and is what the decoder made of
exactly these symbols, as it is or decompressed; the size declared is the one of the former. -/
theorem C47_authentic_partial (e : Env) (as : List Action) (i : Nat) (d : Delivery)
    (h : (step c f e (run c f e (State.init c f) as) (.task i)).2.delivered = some d) :
    ∃ (fec : FecType) (used : List (c.Pub × FecPart)) (pub : c.Pub) (b : FecPart) (r : Bytes),
      (∀ u ∈ used ++ [(pub, b)], FecSigned c (c.sha d.data) d.source u) ∧
      (f.decode (decodeAll f (f.new fec) (used.map (·.2))) b.seqno b.data).2 = some r ∧
      r.length = b.dataSize ∧ (d.data = r ∨ decompress e.z r = some d.data) := by
  have hI := FInv.run e as (FInv.init (c := c) (f := f))
  obtain ⟨t, pub, b, rest, h1, _, _, h4, _, h6, h7, ⟨r, h8, h9, h10⟩, _⟩ := delivered_task hI h
  obtain ⟨fec, used, h11, h12⟩ := (hI.trs t (List.mem_of_getElem? h1)).dec
  refine ⟨fec, used, pub, b, r, ?_, ?_, h9, h10⟩
  · rw [h7, h4]
    intro u hu
    rcases List.mem_append.mp hu with hu | hu
    · exact h12 u hu
    · simp only [List.mem_singleton] at hu
      subst hu; exact h6
  · rw [← h11]; exact h8

/-- `overlay.broadcastFec.id`. -/
def fecIdText (sha : Bytes → Bytes) (src : Bytes) (b : FecPart) : Bytes :=
  leBytes 4 0xfb3155a6 ++ (src ++ (sha (writeFec b.fec) ++
    (b.dataHash ++ (leBytes 4 b.dataSize ++ leBytes 4 b.flags))))

/-- `overlay.broadcastFec.partId`. -/
def fecPartText (sha : Bytes → Bytes) (src : Bytes) (b : FecPart) : Bytes :=
  leBytes 4 0xa46962d0 ++ (sha (fecIdText sha src b) ++ (sha b.data ++ leBytes 4 b.seqno))

/-- The signed text determines the broadcast, its declared size and flags, the code, the symbol and its
number, the date and the source named, unless two different values with the same hash are at hand: the two
symbols, the descriptions of the two codes, or the descriptions of the two broadcasts or parts made of their hashes. -/
theorem C47_text_binds (sha : Bytes → Bytes) (hsha : ∀ x, (sha x).length = 32) (src src' : Bytes)
    (b b' : FecPart) (hs : src.length = 32) (hs' : src'.length = 32) (hh : b.dataHash.length = 32)
    (hh' : b'.dataHash.length = 32) (hd : b.date < 2 ^ 32) (hd' : b'.date < 2 ^ 32)
    (hn : b.seqno < 2 ^ 32) (hn' : b'.seqno < 2 ^ 32) (hf : b.flags < 2 ^ 32) (hf' : b'.flags < 2 ^ 32)
    (hz : b.dataSize < 2 ^ 32) (hz' : b'.dataSize < 2 ^ 32)
    (h : fecText sha src b = fecText sha src' b') :
    b.date = b'.date ∧ ((src = src' ∧ b.dataHash = b'.dataHash ∧ b.dataSize = b'.dataSize ∧
        b.flags = b'.flags ∧ writeFec b.fec = writeFec b'.fec ∧ b.data = b'.data ∧ b.seqno = b'.seqno) ∨
      (b.data ≠ b'.data ∧ sha b.data = sha b'.data) ∨
      (writeFec b.fec ≠ writeFec b'.fec ∧ sha (writeFec b.fec) = sha (writeFec b'.fec)) ∨
      (fecIdText sha src b ≠ fecIdText sha src' b' ∧ sha (fecIdText sha src b) = sha (fecIdText sha src' b')) ∨
      (fecPartText sha src b ≠ fecPartText sha src' b' ∧
        sha (fecPartText sha src b) = sha (fecPartText sha src' b'))) := by
  unfold fecText at h
  have h1 := List.append_cancel_left h
  obtain ⟨h2, h3⟩ := List.append_inj h1 (by rw [hsha, hsha])
  have le4 : ∀ {m n : Nat}, m < 2 ^ 32 → n < 2 ^ 32 → leBytes 4 m = leBytes 4 n → m = n := by
    intro m n hm hn he
    have e1 := congrArg ofLE he
    rw [ofLE_leBytes_of_lt (by simpa using hm), ofLE_leBytes_of_lt (by simpa using hn)] at e1
    exact e1
  refine ⟨le4 hd hd' h3, ?_⟩
  refine Classical.or_iff_not_imp_right.mpr fun hcol => ?_
  simp only [not_or] at hcol
  obtain ⟨c1, c2, c3, c4⟩ := hcol
  have inj : ∀ {x y : Bytes}, ¬ (x ≠ y ∧ sha x = sha y) → sha x = sha y → x = y := by
    intro x y hno hxy
    by_contra hne
    exact hno ⟨hne, hxy⟩
  have h4 := List.append_cancel_left (inj c4 h2)
  obtain ⟨h5, h6⟩ := List.append_inj h4 (by rw [hsha, hsha])
  obtain ⟨h7, h8⟩ := List.append_inj h6 (by rw [hsha, hsha])
  have h9 := List.append_cancel_left (inj c3 h5)
  obtain ⟨h10, h11⟩ := List.append_inj h9 (by rw [hs, hs'])
  obtain ⟨h12, h13⟩ := List.append_inj h11 (by rw [hsha, hsha])
  obtain ⟨h14, h15⟩ := List.append_inj h13 (by rw [hh, hh'])
  obtain ⟨h16, h17⟩ := List.append_inj h15 (by simp)
  exact ⟨h10, h14, le4 hz hz' h16, le4 hf hf' h17, inj c2 h12, inj c1 h7, le4 hn hn' h8⟩

-- with a hash that maps everything to zeros two different packets have the same text
example := C47_text_binds (fun _ => List.replicate 32 0) (fun _ => rfl) (List.replicate 32 1) (List.replicate 32 2)
  { src := .ed25519 (leBytes 32 5), certificate := .empty, dataHash := List.replicate 32 0, dataSize := 6,
    flags := 1, data := [7, 0, 0, 0, 1, 0x80], seqno := 0, fec := ⟨6, 768, 1⟩, date := 100, signature := [] }
  { src := .ed25519 (leBytes 32 5), certificate := .empty, dataHash := List.replicate 32 0, dataSize := 7,
    flags := 1, data := [8, 0, 0, 0, 1, 0x80], seqno := 0, fec := ⟨6, 768, 1⟩, date := 100, signature := [] }
  rfl rfl rfl rfl (by decide) (by decide) (by decide) (by decide) (by decide) (by decide) (by decide) (by decide) rfl

/-- C47 as stated: moreover the data has the declared size, if all packets of the broadcast declare the
same. -/
def C47_full : Prop := ∀ (c : Crypto) (f : Fec) (e : Env) (as : List Action) (i : Nat) (d : Delivery)
  (n : Nat), c.Lawful → f.Lawful → e.z.Lawful →
  (step c f e (run c f e (State.init c f) as) (.task i)).2.delivered = some d →
  (∀ now b, .fec now b ∈ as → b.dataHash = c.sha d.data → b.dataSize = n) → d.data.length = n

/-- A packet of a broadcast of the one byte 7, in a compressed form of six bytes; signed by key 5. -/
def samplePart : FecPart :=
  { src := .ed25519 (leBytes 32 5), certificate := .empty, dataHash := Crypto.toy.sha [7], dataSize := 6,
    flags := 1, data := [7, 0, 0, 0, 1, 0x80], seqno := 0, fec := ⟨6, 768, 1⟩, date := 100,
    signature := leBytes 64 (5 + 256 * 40) }

theorem sampleEnv_lawful : sampleEnv.z.Lawful := ⟨fun _ _ => rfl⟩

theorem sampleFec_delivered : (step Crypto.toy Fec.toy sampleEnv
    (run Crypto.toy Fec.toy sampleEnv (State.init Crypto.toy Fec.toy) [.fec 100 samplePart]) (.task 0)).2.delivered
    = some ⟨1, [7], Node.shortId Crypto.toy (5 : UInt8)⟩ := by decide +kernel

/-- The size is the one of the decoded data before it is decompressed. -/
theorem C47_full_false : ¬ C47_full := by
  intro h
  have := h Crypto.toy Fec.toy sampleEnv [.fec 100 samplePart] 0 _ 6 Crypto.toy_lawful Fec.toy_lawful
    sampleEnv_lawful sampleFec_delivered (by
      intro now b hb _
      simp only [List.mem_singleton, Action.fec.injEq] at hb
      obtain ⟨_, rfl⟩ := hb
      rfl)
  revert this
  decide

/-- `C47_authentic_partial` applies to that run. -/
example := C47_authentic_partial (c := Crypto.toy) (f := Fec.toy) sampleEnv [.fec 100 samplePart] 0 _
  sampleFec_delivered

/-! ### C48: suppression -/

/-- C48 as stated, for a packet inserted among the packets of a broadcast from one source: if the
broadcast is delivered without the packet, it is also delivered with it, provided that the packet is not
signed by that source (and that the tasks get enough turns). -/
def C48_full : Prop := ∀ (c : Crypto) (f : Fec) (e : Env) (ps ps' : List (Nat × FecPart)) (now : Nat)
  (p : FecPart) (ts : List Nat) (d : Delivery), c.Lawful → f.Lawful → e.z.Lawful →
  (∀ pub, Receiver.fullId c p.src = some pub → ¬ FecSigned c p.dataHash d.source (pub, p)) →
  d ∈ deliveries e (State.init c f) (ps.map (fun x => .fec x.1 x.2) ++ (ps'.map (fun x => .fec x.1 x.2) ++
    ts.map .task)) →
  ∃ (ts' : List Nat) (d' : Delivery), d'.data = d.data ∧ d'.source = d.source ∧
    d' ∈ deliveries e (State.init c f) (ps.map (fun x => .fec x.1 x.2) ++ (.fec now p ::
      (ps'.map (fun x => .fec x.1 x.2) ++ ts'.map .task)))

/-- Tasks that are over deliver nothing. -/
theorem ended_tasks (e : Env) (ts : List Nat) : ∀ {s : State c f}, (∀ t ∈ s.transfers, t.phase ≠ .running) →
    deliveries e s (ts.map .task) = [] := by
  induction ts with
  | nil => intro s _; rfl
  | cons i ts ih =>
    intro s h
    have hs : step c f e s (.task i) = (s, {}) := by
      simp only [step, taskStep]
      cases ht : s.transfers[i]? with
      | none => rfl
      | some t => simp only; rw [if_pos (h t (List.mem_of_getElem? ht))]
    simp only [List.map_cons, deliveries, hs]
    exact ih h

/-- A single transfer whose only symbol is refused delivers nothing. -/
theorem doomed_tasks (e : Env) {t : Transfer c f} {pub : c.Pub} {b : FecPart} {dec : f.Dec}
    (hc : t.chan = [(pub, b)]) (hp : processFec c f e.z t.dec pub b = (dec, .failed)) (ts : List Nat) :
    ∀ {s : State c f}, s.transfers = [t] → deliveries e s (ts.map .task) = [] := by
  induction ts with
  | nil => intro s _; rfl
  | cons i ts ih =>
    intro s h
    by_cases hr : t.phase = .running
    · cases i with
      | zero =>
        have h1 : (step c f e s (.task 0)).2.delivered = none ∧
            ∀ u ∈ (step c f e s (.task 0)).1.transfers, u.phase ≠ .running := by
          simp only [step, taskStep, h, List.getElem?_cons_zero]
          rw [if_neg (by simp [hr])]
          simp only [hc, hp]
          refine ⟨trivial, ?_⟩
          intro u hu
          simp only [List.set_cons_zero, List.mem_singleton] at hu
          subst hu
          intro hx; cases hx
        simp only [List.map_cons, deliveries]
        rw [h1.1, ended_tasks e ts h1.2]
        rfl
      | succ n =>
        have hs : step c f e s (.task (n + 1)) = (s, {}) := by
          simp only [step, taskStep, h]; rfl
        simp only [List.map_cons, deliveries, hs]
        exact ih h
    · refine ended_tasks e (i :: ts) ?_
      rw [h]
      intro u hu
      simp only [List.mem_singleton] at hu
      subst hu; exact hr

/-- A packet of somebody else (key 9) for the same broadcast, with a worthless signature. -/
def forgedPart : FecPart :=
  { samplePart with src := .ed25519 (leBytes 32 9), signature := leBytes 64 0 }

/-- A packet with the key of the source, with a worthless signature. -/
def spoofedPart : FecPart := { samplePart with signature := leBytes 64 0 }

theorem suppressed (p : FecPart) (hp : p = forgedPart ∨ p = spoofedPart) (ts : List Nat) :
    deliveries sampleEnv (State.init Crypto.toy Fec.toy)
      (.fec 100 p :: ([(100, samplePart)].map (fun x => .fec x.1 x.2) ++ ts.map .task)) = [] := by
  have split : ∀ (as bs : List Action) (s : State Crypto.toy Fec.toy), deliveries sampleEnv s (as ++ bs) =
      deliveries sampleEnv s as ++ deliveries sampleEnv (run Crypto.toy Fec.toy sampleEnv s as) bs := by
    intro as
    induction as with
    | nil => intro bs s; rfl
    | cons a as ih => intro bs s; simp only [List.cons_append, deliveries, ih, run, List.append_assoc]
  have h0 : (.fec 100 p :: ([(100, samplePart)].map (fun x => Action.fec x.1 x.2) ++ ts.map .task)) =
      [.fec 100 p, .fec 100 samplePart] ++ ts.map .task := rfl
  rw [h0, split]
  rcases hp with rfl | rfl
  · have h1 : deliveries sampleEnv (State.init Crypto.toy Fec.toy)
        [.fec 100 forgedPart, .fec 100 samplePart] = [] := by decide +kernel
    rw [h1]
    cases h2 : (run Crypto.toy Fec.toy sampleEnv (State.init Crypto.toy Fec.toy)
        [.fec 100 forgedPart, .fec 100 samplePart]).transfers with
    | nil => exact ended_tasks _ ts (by rw [h2]; intro t ht; exact absurd ht List.not_mem_nil)
    | cons t rest =>
      have h3 : (run Crypto.toy Fec.toy sampleEnv (State.init Crypto.toy Fec.toy)
        [.fec 100 forgedPart, .fec 100 samplePart]).transfers.map (fun t => (show List (UInt8 × FecPart) from t.chan)) =
          [[((9 : UInt8), forgedPart)]] := by decide +kernel
      rw [h2] at h3
      obtain ⟨h4, h5⟩ := List.cons.inj h3
      rw [List.map_eq_nil_iff.mp h5] at h2
      refine doomed_tasks sampleEnv (dec := t.dec) h4 ?_ ts h2
      unfold processFec
      rw [if_neg (by decide +kernel)]
  · have h1 : deliveries sampleEnv (State.init Crypto.toy Fec.toy)
        [.fec 100 spoofedPart, .fec 100 samplePart] = [] := by decide +kernel
    rw [h1]
    cases h2 : (run Crypto.toy Fec.toy sampleEnv (State.init Crypto.toy Fec.toy)
        [.fec 100 spoofedPart, .fec 100 samplePart]).transfers with
    | nil => exact ended_tasks _ ts (by rw [h2]; intro t ht; exact absurd ht List.not_mem_nil)
    | cons t rest =>
      have h3 : (run Crypto.toy Fec.toy sampleEnv (State.init Crypto.toy Fec.toy)
        [.fec 100 spoofedPart, .fec 100 samplePart]).transfers.map (fun t => (show List (UInt8 × FecPart) from t.chan)) =
          [[((5 : UInt8), spoofedPart)]] := by decide +kernel
      rw [h2] at h3
      obtain ⟨h4, h5⟩ := List.cons.inj h3
      rw [List.map_eq_nil_iff.mp h5] at h2
      refine doomed_tasks sampleEnv (dec := t.dec) h4 ?_ ts h2
      unfold processFec
      rw [if_neg (by decide +kernel)]

/-- Whoever sends the first packet owns the transfer: a packet of another node makes the node ignore the
packets of the true source (`forgedPart`); and a packet with the key of the source but without its
signature ends the transfer (`spoofedPart`). -/
theorem C48_full_false : ¬ C48_full := by
  intro h
  obtain ⟨ts', d', _, _, h3⟩ := h Crypto.toy Fec.toy sampleEnv [] [(100, samplePart)] 100 forgedPart [0]
    ⟨1, [7], Node.shortId Crypto.toy (5 : UInt8)⟩ Crypto.toy_lawful Fec.toy_lawful sampleEnv_lawful (by
      intro pub hpub hs
      have e1 : Receiver.fullId Crypto.toy forgedPart.src = some (9 : UInt8) := by rfl
      rw [e1] at hpub
      cases hpub
      exact absurd hs.2.1 (by decide +kernel)) (by decide +kernel)
  have := suppressed forgedPart (.inl rfl) ts'
  rw [List.map_nil, List.nil_append, this] at h3
  exact absurd h3 List.not_mem_nil

/-- The other way. -/
example (ts : List Nat) : deliveries sampleEnv (State.init Crypto.toy Fec.toy)
    (.fec 100 spoofedPart :: ([(100, samplePart)].map (fun x => .fec x.1 x.2) ++ ts.map .task)) = [] :=
  suppressed _ (.inr rfl) ts

/-- What can be changed by a packet that is ignored. -/
def Transfer.still (t : Transfer c f) : Transfer c f := { t with updatedAt := 0 }

def State.still (s : State c f) : State c f := { s with transfers := s.transfers.map Transfer.still }

theorem still_set (s : State c f) (i : Nat) (t t' : Transfer c f) (h : t.still = t'.still) :
    ({ s.still with transfers := s.still.transfers.set i t } : State c f).still =
    ({ s with transfers := s.transfers.set i t' } : State c f).still := by
  simp only [State.still, List.map_set, List.map_map, h]
  rfl

theorem still_still (s : State c f) : s.still.still = s.still := by
  simp only [State.still, List.map_map]; rfl

theorem feed_still (s : State c f) (i : Nat) (t : Transfer c f) (pub : c.Pub) (source : Bytes) (b : FecPart) :
    (feed c f s.still i t.still pub source b).2 = (feed c f s i t pub source b).2 ∧
    (feed c f s.still i t.still pub source b).1.still = (feed c f s i t pub source b).1.still := by
  unfold feed
  simp only
  have e0 : t.still.source = t.source := rfl
  have e1 : t.still.hist = t.hist := rfl
  have e2 : t.still.completed = t.completed := rfl
  have e3 : t.still.phase = t.phase := rfl
  rw [e0, e1, e2, e3]
  split
  · exact ⟨rfl, still_set s i _ _ rfl⟩
  · split
    · exact ⟨rfl, still_set s i _ _ rfl⟩
    · split
      · exact ⟨rfl, still_set s i _ _ rfl⟩
      · split
        · exact ⟨rfl, still_set s i _ _ rfl⟩
        · exact ⟨rfl, still_set s i _ _ rfl⟩

theorem still_get (s : State c f) (i : Nat) :
    s.still.transfers[i]? = (s.transfers[i]?).map Transfer.still := by
  simp [State.still]

theorem newTransfer_still (e : Env) (s : State c f) (b : FecPart) (source : Bytes) :
    newTransfer c f e s.still b source = (newTransfer c f e s b source).still := by
  simp [newTransfer, State.still, Transfer.still]

theorem step_still (e : Env) (s : State c f) (a : Action) (h : ∀ i, a ≠ .cleanup i) :
    (step c f e s.still a).2 = (step c f e s a).2 ∧
    (step c f e s.still a).1.still = (step c f e s a).1.still := by
  cases a with
  | tick ms => exact ⟨rfl, by simp only [step, State.still, List.map_map]; rfl⟩
  | ordinary now b =>
    simp only [step, receiveOrdinary]
    have e0 : s.still.owned = s.owned := rfl
    split
    · exact ⟨rfl, still_still s⟩
    · exact ⟨rfl, still_still s⟩
    · rw [e0]
      split
      · exact ⟨rfl, still_still s⟩
      · refine ⟨rfl, ?_⟩
        simp only [State.spawnGc, State.still, List.map_map]
        rfl
  | fec now b =>
    simp only [step, receiveFec]
    split
    · exact ⟨rfl, still_still s⟩
    · exact ⟨rfl, still_still s⟩
    · split
      · exact ⟨rfl, still_still s⟩
      · split
        · exact ⟨rfl, still_still s⟩
        · next pub _ _ =>
          have e0 : (if (s.still.owned.get b.dataHash).isNone = true then
                newTransfer c f e s.still b (Node.shortId c pub) else s.still) =
              (if (s.owned.get b.dataHash).isNone = true then
                newTransfer c f e s b (Node.shortId c pub) else s).still := by
            have e0 : s.still.owned = s.owned := rfl
            rw [e0, newTransfer_still]
            split <;> rfl
          rw [e0]
          generalize (if (s.owned.get b.dataHash).isNone = true then
                newTransfer c f e s b (Node.shortId c pub) else s) = s'
          have e1 : s'.still.owned = s'.owned := rfl
          rw [e1]
          split
          · next i hi =>
            rw [still_get]
            cases ht : s'.transfers[i]? with
            | none => exact ⟨rfl, still_still s'⟩
            | some t => exact feed_still s' i t pub _ b
          · exact ⟨rfl, still_still s'⟩
  | own bid =>
    refine ⟨rfl, ?_⟩
    simp only [step, createOwn]
    have e0 : s.still.owned = s.owned := rfl
    rw [e0]
    split
    · exact still_still s
    · simp only [State.spawnGc, State.still, List.map_map]
      rfl
  | task i =>
    simp only [step, taskStep]
    rw [still_get]
    cases ht : s.transfers[i]? with
    | none => exact ⟨rfl, still_still s⟩
    | some t =>
      simp only [Option.map_some]
      have e0 : s.still.owned = s.owned := rfl
      have e1 : t.still.chan = t.chan := rfl
      have e2 : t.still.dec = t.dec := rfl
      have e3 : t.still.phase = t.phase := rfl
      have e4 : t.still.bid = t.bid := rfl
      rw [e0, e1, e2, e3, e4]
      split
      · exact ⟨rfl, still_still s⟩
      · split
        · split
          · exact ⟨rfl, still_still s⟩
          · exact ⟨rfl, still_set s i _ _ rfl⟩
        · split
          · exact ⟨rfl, still_set s i _ _ rfl⟩
          · exact ⟨rfl, still_set s i _ _ rfl⟩
          · exact ⟨rfl, still_set s i _ _ rfl⟩
  | mark i =>
    refine ⟨rfl, ?_⟩
    simp only [step, markStep]
    rw [still_get]
    cases ht : s.transfers[i]? with
    | none => exact still_still s
    | some t =>
      simp only [Option.map_some]
      have e0 : s.still.owned = s.owned := rfl
      have e3 : t.still.phase = t.phase := rfl
      have e4 : s.owned.get t.still.bid = s.owned.get t.bid := rfl
      rw [e0, e3, e4]
      split
      · exact still_still s
      · have e5 := still_set s i { t.still with phase := .ended } { t with phase := .ended } rfl
        split
        · next j _ =>
          have e6 : (s.still.transfers.set i { t.still with phase := .ended }) =
              ((s.transfers.set i { t with phase := .ended }).map Transfer.still) := by
            simp only [State.still, List.map_set]; rfl
          rw [e6]
          rw [List.getElem?_map]
          cases hu : (s.transfers.set i { t with phase := .ended })[j]? with
          | none => simp only [Option.map_none]; rw [← e6]; exact e5
          | some u =>
            simp only [Option.map_some]
            exact still_set { s with transfers := s.transfers.set i { t with phase := .ended } } j
              { u.still with completed := true } { u with completed := true } rfl
        · exact e5
  | cleanup i => exact absurd rfl (h i)
  | expire i =>
    simp only [step]
    have e0 : s.still.timers = s.timers := rfl
    have e1 : s.still.clock = s.clock := rfl
    rw [e0, e1]
    split
    · exact ⟨rfl, still_still s⟩
    · split
      · exact ⟨rfl, still_still s⟩
      · exact ⟨rfl, by simp only [State.still, List.map_map]; rfl⟩
  | push i =>
    simp only [step]
    have e0 : s.still.counted = s.counted := rfl
    rw [e0]
    split
    · exact ⟨rfl, still_still s⟩
    · exact ⟨rfl, by simp only [State.still, List.map_map]; rfl⟩
  | gcCheck =>
    simp only [step]
    have e0 : s.still.gc = s.gc := rfl
    have e1 : s.still.count = s.count := rfl
    rw [e0, e1]
    split
    · exact ⟨rfl, by simp only [State.still, List.map_map]; rfl⟩
    · exact ⟨rfl, still_still s⟩
  | gcPop =>
    simp only [step]
    have e0 : s.still.gc = s.gc := rfl
    have e1 : s.still.queue = s.queue := rfl
    have e2 : s.still.owned = s.owned := rfl
    rw [e0, e1, e2]
    split
    · split
      · exact ⟨rfl, by simp only [State.still, List.map_map]; rfl⟩
      · exact ⟨rfl, by simp only [State.still, List.map_map]; rfl⟩
    · exact ⟨rfl, still_still s⟩
  | gcSub =>
    simp only [step]
    have e0 : s.still.gc = s.gc := rfl
    rw [e0]
    split
    · exact ⟨rfl, by simp only [State.still, List.map_map]; rfl⟩
    · exact ⟨rfl, still_still s⟩

theorem deliveries_still (e : Env) (as : List Action) (h : ∀ i, .cleanup i ∉ as) : ∀ {s s' : State c f},
    s.still = s'.still → deliveries e s as = deliveries e s' as := by
  induction as with
  | nil => intro s s' _; rfl
  | cons a as ih =>
    intro s s' hs
    have ha : ∀ i, a ≠ .cleanup i := fun i hc => h i (hc ▸ List.mem_cons_self)
    obtain ⟨h1, h2⟩ := step_still e s a ha
    obtain ⟨h3, h4⟩ := step_still e s' a ha
    simp only [deliveries]
    rw [← h1, ← h3, hs]
    rw [ih (fun i hm => h i (List.mem_cons_of_mem _ hm)) (h2.symm.trans ((by rw [hs]) : _ = _) |>.trans h4)]

/-- C48, as far as it holds: once the table has an entry for the broadcast, packets that do not name the
source stored there (and all packets, if the entry is not an FEC transfer) are neither delivered nor
forwarded, and whatever happens afterwards the deliveries are the same as without them, until a clean-up
task of the transfer runs (a packet puts off the time when the transfer expires). -/
theorem C48_other_source_partial (e : Env) (s : State c f) (now : Nat) (p : FecPart) (pub : c.Pub)
    (hpub : Receiver.fullId c p.src = some pub)
    (hs : s.owned.get p.dataHash = some .other ∨ ∃ (i : Nat) (t : Transfer c f),
      s.owned.get p.dataHash = some (.incoming i) ∧ s.transfers[i]? = some t ∧
      t.source ≠ Node.shortId c pub)
    (as : List Action) (h : ∀ i, .cleanup i ∉ as) :
    (step c f e s (.fec now p)).2.delivered = none ∧ (step c f e s (.fec now p)).2.forwarded = false ∧
    deliveries e (step c f e s (.fec now p)).1 as = deliveries e s as := by
  suffices hx : (step c f e s (.fec now p)).2.delivered = none ∧
      (step c f e s (.fec now p)).2.forwarded = false ∧ (step c f e s (.fec now p)).1.still = s.still from
    ⟨hx.1, hx.2.1, deliveries_still e as h hx.2.2⟩
  simp only [step, receiveFec]
  split
  · exact ⟨rfl, rfl, rfl⟩
  · exact ⟨rfl, rfl, rfl⟩
  · rw [hpub]
    simp only
    split
    · exact ⟨rfl, rfl, rfl⟩
    · rcases hs with hs | ⟨i, t, h1, h2, h3⟩
      · simp only [hs, Option.isNone_some, Bool.false_eq_true, if_false]
        exact ⟨trivial, trivial, trivial⟩
      · simp only [h1, Option.isNone_some, Bool.false_eq_true, if_false, h2]
        unfold feed
        simp only
        rw [if_pos h3]
        refine ⟨rfl, rfl, ?_⟩
        have ht : t.still = (s.transfers.map Transfer.still)[i]?.getD t.still := by
          rw [List.getElem?_map, h2]; rfl
        simp only [State.still, List.map_set]
        congr 1
        apply List.ext_getElem?
        intro j
        rw [List.getElem?_set]
        split
        · next hij =>
          subst hij
          rw [List.length_map, if_pos (List.getElem?_eq_some_iff.mp h2).1, List.getElem?_map, h2]
          rfl
        · rfl

/-- Packets that fail the first checks (outdated, unusable key, malformed signature) change nothing. -/
theorem C48_rejected_partial (e : Env) (s : State c f) (now : Nat) (p : FecPart)
    (h : isOutdated e p.date now ≠ some false ∨ Receiver.fullId c p.src = none ∨ p.signature.length ≠ 64) :
    (step c f e s (.fec now p)).1 = s ∧ (step c f e s (.fec now p)).2.delivered = none ∧
    (step c f e s (.fec now p)).2.forwarded = false := by
  simp only [step, receiveFec]
  split
  · exact ⟨rfl, rfl, rfl⟩
  · exact ⟨rfl, rfl, rfl⟩
  · next h1 =>
    split
    · exact ⟨rfl, rfl, rfl⟩
    · next h2 =>
      rcases h with h | h | h
      · exact absurd h1 h
      · rw [h] at h2; cases h2
      · rw [if_pos h]; exact ⟨rfl, rfl, rfl⟩

/-- The packet of another node after the first genuine one is such a packet. -/
theorem sample_other : ∃ (i : Nat) (t : Transfer Crypto.toy Fec.toy),
    (run Crypto.toy Fec.toy sampleEnv (State.init Crypto.toy Fec.toy) [.fec 100 samplePart]).owned.get
      forgedPart.dataHash = some (.incoming i) ∧
    (run Crypto.toy Fec.toy sampleEnv (State.init Crypto.toy Fec.toy) [.fec 100 samplePart]).transfers[i]?
      = some t ∧ t.source ≠ Node.shortId Crypto.toy (9 : UInt8) := by
  have h : ((run Crypto.toy Fec.toy sampleEnv (State.init Crypto.toy Fec.toy)
      [.fec 100 samplePart]).transfers[0]?).map (·.source) = some (Node.shortId Crypto.toy (5 : UInt8)) := by
    decide +kernel
  obtain ⟨t, h1, h2⟩ := Option.map_eq_some_iff.mp h
  refine ⟨0, t, by decide +kernel, h1, ?_⟩
  rw [h2]
  decide +kernel

-- C48_other_source_partial: the packet of another source while the transfer is going on
example (as : List Action) (h : ∀ i, Action.cleanup i ∉ as) :=
  C48_other_source_partial sampleEnv
    (run Crypto.toy Fec.toy sampleEnv (State.init Crypto.toy Fec.toy) [.fec 100 samplePart]) 101 forgedPart (9 : UInt8)
    rfl (.inr sample_other) as h

end Verif.Overlay
