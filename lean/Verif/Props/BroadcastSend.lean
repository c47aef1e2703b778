import Verif.Model.BroadcastSend
import Verif.Model.OverlayNode
import Verif.Props.OverlayNode
import Verif.Props.OverlayOrdinary
import Verif.Props.Compression
import Verif.Proofs.Encryption

/-!
# C84, C86: ordinary broadcasts from the sender to the application, and other overlays
-/
namespace Verif.Overlay
open Verif.Tl Verif.AdnlProto Verif.Rldp

variable {c : Crypto} {f : Fec}

/-! ### Specification -/

/-- A node whose overlays process broadcasts at the time `now`, collecting what they give to the
application. -/
def handlers (c : Crypto) (f : Fec) (e : Env) (now : Nat) : Handlers (State c f × List Delivery) where
  ordinary o b _ := (((step c f e o.1 (.ordinary now b)).1,
    o.2 ++ (step c f e o.1 (.ordinary now b)).2.delivered.toList), !(step c f e o.1 (.ordinary now b)).2.failed)
  fec o b _ := (((step c f e o.1 (.fec now b)).1,
    o.2 ++ (step c f e o.1 (.fec now b)).2.delivered.toList), !(step c f e o.1 (.fec now b)).2.failed)
  randomPeers o _ := (o, [])

/-- The identity of a broadcast of some data at some time, whoever sends it. -/
def ordinaryId (c : Crypto) (data : Bytes) (date : Nat) : Bytes :=
  c.sha (ordinaryText c.sha (List.replicate 32 0) data date)

/-- The signature of a member over a broadcast does not also fit something else to which its data happens to
decompress. -/
def Unmistakable (c : Crypto) (z : Zstd) (sec : c.Sec) (data : Bytes) (date : Nat) : Prop :=
  ∀ d, decompress z data = some d → d ≠ data →
    c.verify (c.pubOf sec) (ordinaryText c.sha (List.replicate 32 0) d date)
      (c.sign sec (ordinaryText c.sha (List.replicate 32 0) data date)) = false

/-! ### The checks of the receiver -/

theorem toSign_eq (sha : Bytes → Bytes) (data : Bytes) (date : Nat) :
    ordinaryToSign sha data date none = ordinaryText sha (List.replicate 32 0) data date := rfl

theorem payload_eq {z : Zstd} (hz : z.Lawful) {compressing : Bool} {data : Bytes} (hd : data.length < 2 ^ 32) :
    payload z compressing data = data ∨ decompress z (payload z compressing data) = some data := by
  unfold payload
  cases compressing with
  | false => exact .inl rfl
  | true =>
    simp only [if_true]
    by_cases h : data.length ≤ 256
    · exact .inl (C36_small_unchanged_partial z data h)
    · exact .inr (C36_round_trip_partial hz data (by omega) hd).1

theorem isOutdated_of {e : Env} {date now : Nat} (h1 : date + e.timeout < 2 ^ 32) (h2 : now ≤ date + e.timeout) :
    isOutdated e date now = some false := by
  unfold isOutdated addU32
  have : e.timeout % 2 ^ 32 = e.timeout := Nat.mod_eq_of_lt (by omega)
  rw [this, if_pos h1]
  simp
  omega

theorem check_sent (hc : c.Lawful) {e e' : Env} (hz : e.z.Lawful) (hzz : e'.z = e.z) {compressing : Bool}
    {now now' : Nat} {sec : c.Sec} {data : Bytes} (hd : data.length < 2 ^ 32)
    (ht : now + e'.timeout < 2 ^ 32) (hn : now' ≤ now + e'.timeout) (hu : Unmistakable c e.z sec data now) :
    checkOrdinary c e' now' (ordinaryOf c e.z compressing now sec data) =
      .ok (ordinaryId c data now) data (Node.shortId c (c.pubOf sec)) := by
  have hv : Storage.verifySig c (c.pubOf sec) (ordinaryText c.sha (List.replicate 32 0) data now)
      (c.sign sec (ordinaryText c.sha (List.replicate 32 0) data now)) = true := by
    simp [Storage.verifySig, hc.sign_length, hc.sign_verify]
  unfold checkOrdinary
  have e1 : (ordinaryOf c e.z compressing now sec data).date = now := rfl
  have e2 : (ordinaryOf c e.z compressing now sec data).src = .ed25519 (c.pubBytes (c.pubOf sec)) := rfl
  have e3 : (ordinaryOf c e.z compressing now sec data).data = payload e.z compressing data := rfl
  have e4 : (ordinaryOf c e.z compressing now sec data).signature =
      c.sign sec (ordinaryText c.sha (List.replicate 32 0) data now) := rfl
  have e5 : sourceMatters (ordinaryOf c e.z compressing now sec data).flags = false := rfl
  rw [e1, isOutdated_of ht hn, e2, e3, e4, e5]
  simp only [Receiver.fullId, hc.decode_pub, Bool.false_eq_true, if_false, toSign_eq, hzz]
  rcases payload_eq hz (compressing := compressing) hd with hp | hp
  · rw [hp, hv]
    cases hx : decompress e.z data with
    | none => simp [ordinaryId]
    | some d =>
      simp only [if_true]
      by_cases hdd : d = data
      · rw [hdd, hv]; simp [ordinaryId]
      · have := hu d hx hdd
        have h2 : Storage.verifySig c (c.pubOf sec) (ordinaryText c.sha (List.replicate 32 0) d now)
            (c.sign sec (ordinaryText c.sha (List.replicate 32 0) data now)) = false := by
          unfold Storage.verifySig; rw [this, Bool.and_false]
        rw [h2]; simp [ordinaryId]
  · rw [hp]
    simp only [hv, if_true, ordinaryId]

theorem ordinaryOf_wf (hc : c.Lawful) {z : Zstd} {compressing : Bool} {now : Nat} {sec : c.Sec} {data : Bytes}
    (hs : (payload z compressing data).length < 2 ^ 24) (hn : now < 2 ^ 32) :
    (ordinaryOf c z compressing now sec data).wf := by
  refine ⟨hc.pub_length _, trivial, show 1 < 2 ^ 32 by decide, hs, hn, ?_⟩
  show (c.sign sec _).length < 2 ^ 24
  rw [hc.sign_length]; decide

theorem sendOrdinary_some {e : Env} {compressing : Bool} {overlay : Bytes} {now : Nat} {sec : c.Sec}
    {s : State c f} {data msg : Bytes} (h : (sendOrdinary c f e compressing overlay now sec s data).2 = some msg) :
    s.owned.get (ordinaryId c data now) = none ∧
    (sendOrdinary c f e compressing overlay now sec s data).1 =
      { s with owned := s.owned.put (ordinaryId c data now) .other }.spawnGc e (ordinaryId c data now) ∧
    msg = writeU32 messageId ++ (overlay ++
      (writeBroadcast (.ordinary (ordinaryOf c e.z compressing now sec data)) ++ [])) := by
  unfold sendOrdinary createOwn at h ⊢
  rw [toSign_eq] at h ⊢
  have e0 : c.sha (ordinaryText c.sha (List.replicate 32 0) data now) = ordinaryId c data now := rfl
  rw [e0] at h ⊢
  cases ho : s.owned.get (ordinaryId c data now) with
  | some x => rw [ho] at h; cases h
  | none =>
    rw [ho] at h
    simp only [Option.some.injEq] at h ⊢
    refine ⟨trivial, trivial, ?_⟩
    rw [← h]
    simp [messagePrefix]

/-! ### C84 -/

/-- C84: what a member sends in one piece, compressed or not, reaches the application of every node that
receives the message no later than its timeout after the date and does not know the broadcast yet, with exactly
the data and with the member as source; nothing else happens at this node. -/
theorem C84_delivered (hc : c.Lawful) (e e' : Env) (hz : e.z.Lawful) (hzz : e'.z = e.z) (compressing : Bool)
    (overlay : Bytes) (hov : overlay.length = 32) (now now' : Nat) (sec : c.Sec) (s : State c f)
    (data msg : Bytes) (hs : (payload e.z compressing data).length < 2 ^ 24) (hd : data.length < 2 ^ 32)
    (h : (sendOrdinary c f e compressing overlay now sec s data).2 = some msg)
    (ht : now + e'.timeout < 2 ^ 32) (hn : now' ≤ now + e'.timeout) (hu : Unmistakable c e.z sec data now)
    (N : NState (State c f × List Delivery)) (o : State c f) (ds : List Delivery)
    (ho : N.overlays.get overlay = some (o, ds)) (hnew : o.owned.get (ordinaryId c data now) = none) :
    ∃ o', consumeCustom (handlers c f e' now') N 0x75252420 msg =
      ({ N with overlays := N.overlays.put overlay (o', ds ++ [⟨1, data, Node.shortId c (c.pubOf sec)⟩]) },
        some true) := by
  obtain ⟨_, _, rfl⟩ := sendOrdinary_some h
  have hw : (Broadcast.ordinary (ordinaryOf c e.z compressing now sec data)).wf :=
    ordinaryOf_wf hc hs (by omega)
  have hr := Props.readMessage_wire overlay _ [] hov hw
  have hst : step c f e' o (.ordinary now' (ordinaryOf c e.z compressing now sec data)) =
      ({ o with owned := o.owned.put (ordinaryId c data now) .other }.spawnGc e' (ordinaryId c data now),
        { delivered := some ⟨1, data, Node.shortId c (c.pubOf sec)⟩, forwarded := true }) := by
    simp only [step, receiveOrdinary]
    rw [check_sent hc hz hzz hd ht hn hu]
    simp only [hnew]
  refine ⟨{ o with owned := o.owned.put (ordinaryId c data now) .other }.spawnGc e' (ordinaryId c data now), ?_⟩
  unfold consumeCustom
  rw [if_neg (fun h => h rfl), hr]
  simp only [ho, deliver, handlers, hst]
  rfl

/-- C84: the sender itself does not give the broadcast to its own application when it comes back from the
others, whatever happens until its timeout. -/
theorem C84_not_to_itself (hc : c.Lawful) (e : Env) (hz : e.z.Lawful) (compressing : Bool)
    (overlay : Bytes) (now now' : Nat) (sec : c.Sec) (before : List Action) (data msg : Bytes)
    (hd : data.length < 2 ^ 32) (hu : Unmistakable c e.z sec data now)
    (h : (sendOrdinary c f e compressing overlay now sec (run c f e (State.init c f) before) data).2 = some msg)
    (ht : now + e.timeout < 2 ^ 32) (after : List Action)
    (hclock : (run c f e (sendOrdinary c f e compressing overlay now sec (run c f e (State.init c f) before)
      data).1 after).clock < (run c f e (State.init c f) before).clock + 1000 * e.timeout) :
    (step c f e (run c f e (sendOrdinary c f e compressing overlay now sec (run c f e (State.init c f) before)
      data).1 after) (.ordinary now' (ordinaryOf c e.z compressing now sec data))).2.delivered = none := by
  obtain ⟨h1, h2, _⟩ := sendOrdinary_some h
  rw [h2] at hclock ⊢
  have hk := kept_new (e := e) (TInv.run e before (TInv.init (c := c) (f := f))) h1
  have keep : ∀ (as : List Action) (s : State c f) (t : Nat), (s.clock < t → Kept (ordinaryId c data now) t (view s)) →
      ((run c f e s as).clock < t → Kept (ordinaryId c data now) t (view (run c f e s as))) := by
    intro as
    induction as with
    | nil => intro s t h; exact h
    | cons a as ih => intro s t h; exact ih _ t (Kept.eff h (step_eff e s a))
  have hkept := keep after _ _ (fun _ => hk) hclock
  cases hx : (step c f e (run c f e ({ run c f e (State.init c f) before with
      owned := (run c f e (State.init c f) before).owned.put (ordinaryId c data now) .other }.spawnGc e
        (ordinaryId c data now)) after) (.ordinary now' (ordinaryOf c e.z compressing now sec data))).2.delivered with
  | none => rfl
  | some d =>
    obtain ⟨bid, h3, h4, _⟩ := delivered_ordinary hx
    have hn : now' ≤ now + e.timeout := (check_ok h3).1
    rw [check_sent hc hz rfl hd ht hn hu] at h3
    simp only [Checked.ok.injEq] at h3
    rw [← h3.1] at h4
    exact absurd hkept.key (AMap.get_eq_none_iff.mp h4)

/-- C84: a broadcast is not sent exactly if one with the same data and the same second is known already, be it
an own one or one of another member. -/
theorem C84_suppressed_iff (e : Env) (compressing : Bool) (overlay : Bytes) (now : Nat) (sec : c.Sec)
    (s : State c f) (data : Bytes) :
    (sendOrdinary c f e compressing overlay now sec s data).2 = none ↔
      (s.owned.get (ordinaryId c data now)).isSome := by
  unfold sendOrdinary createOwn
  rw [toSign_eq]
  have e0 : c.sha (ordinaryText c.sha (List.replicate 32 0) data now) = ordinaryId c data now := rfl
  rw [e0]
  cases ho : s.owned.get (ordinaryId c data now) <;> simp

/-- C84: in particular, after receiving the same data of the same second from another member. -/
theorem C84_suppressed_by_other (hc : c.Lawful) (e e' : Env) (hz : e.z.Lawful) (hzz : e'.z = e.z)
    (compressing compressing' : Bool) (overlay : Bytes) (now now' : Nat) (sec sec' : c.Sec) (s : State c f)
    (data : Bytes) (hd : data.length < 2 ^ 32) (ht : now + e'.timeout < 2 ^ 32) (hn : now' ≤ now + e'.timeout)
    (hu : Unmistakable c e.z sec data now) :
    (sendOrdinary c f e' compressing' overlay now sec'
      (step c f e' s (.ordinary now' (ordinaryOf c e.z compressing now sec data))).1 data).2 = none := by
  rw [C84_suppressed_iff]
  simp only [step, receiveOrdinary]
  rw [check_sent hc hz hzz hd ht hn hu]
  simp only
  cases ho : s.owned.get (ordinaryId c data now) with
  | some x => simp [ho]
  | none => simp [State.spawnGc]

/-! ### C86 -/

/-- The state of a node after a message with a broadcast for an overlay, and what the overlay then has given to
the application. -/
def given (c : Crypto) (f : Fec) (e : Env) (now : Nat) (N : NState (State c f × List Delivery)) (overlay : Bytes)
    (b : Broadcast) : List Delivery :=
  (((consumeCustom (handlers c f e now) N 0x75252420 (writeU32 0x75252420 ++ (overlay ++ writeBroadcast b))).1.overlays.get
    overlay).map (·.2)).getD []

/-- C86: a broadcast that one overlay gives to the application is not accepted in another overlay. -/
def C86_full : Prop := ∀ (c : Crypto) (f : Fec) (e : Env) (now : Nat) (N : NState (State c f × List Delivery))
  (A B : Bytes) (b : Broadcast) (s s' : State c f), c.Lawful → b.wf → A.length = 32 → B.length = 32 → A ≠ B →
  N.overlays.get A = some (s, []) → N.overlays.get B = some (s', []) →
  given c f e now N A b ≠ [] → given c f e now N B b = []

/-- What is given is determined by the overlay's own state alone. -/
theorem given_eq (e : Env) (now : Nat) (N : NState (State c f × List Delivery)) (A : Bytes) (hA : A.length = 32)
    (b : Ordinary) (hb : b.wf) (s : State c f) (hs : N.overlays.get A = some (s, [])) :
    given c f e now N A (.ordinary b) = (step c f e s (.ordinary now b)).2.delivered.toList := by
  have hr := Props.readMessage_wire A (.ordinary b) [] hA hb
  rw [List.append_nil] at hr
  have hr' : readMessage (writeU32 0x75252420 ++ (A ++ writeBroadcast (.ordinary b))) =
      some (A, .ordinary b) := hr
  unfold given consumeCustom
  rw [if_neg (fun h => h rfl), hr']
  simp only [hs, deliver, handlers]
  simp

/-- C86 does not hold, and how: the signed text does not name the overlay. Whatever ordinary broadcast one
overlay gives to the application, any other overlay of any node that does not know its identity yet gives to
the application as well, at the same time, with the same data and source. -/
theorem C86_replayed_partial (e : Env) (now : Nat) (N N' : NState (State c f × List Delivery)) (A B : Bytes)
    (hA : A.length = 32) (hB : B.length = 32) (b : Ordinary) (hb : b.wf) (s s' : State c f) (d : Delivery)
    (hs : N.overlays.get A = some (s, [])) (hs' : N'.overlays.get B = some (s', []))
    (h : given c f e now N A (.ordinary b) = [d])
    (hnew : s'.owned.get (c.sha (ordinaryText c.sha (slot b d.source) d.data b.date)) = none) :
    given c f e now N' B (.ordinary b) = [d] := by
  rw [given_eq e now N A hA b hb s hs] at h
  rw [given_eq e now N' B hB b hb s' hs']
  have hd : (step c f e s (.ordinary now b)).2.delivered = some d := by
    cases hx : (step c f e s (.ordinary now b)).2.delivered with
    | none => rw [hx] at h; cases h
    | some d' => rw [hx] at h; simpa using h
  obtain ⟨bid, h1, h2, h3, _⟩ := delivered_ordinary hd
  have h4 := (check_ok h1).2.2.2
  rw [← h4] at hnew
  simp only [step, receiveOrdinary, h1, hnew]
  obtain ⟨p, dd, src⟩ := d
  simp only at h3
  subst h3
  rfl

namespace SendExample

def A : Bytes := leBytes 32 1
def B : Bytes := leBytes 32 2

/-- A node in two overlays. -/
def N : NState (State Crypto.toy Fec.toy × List Delivery) :=
  ⟨[(A, (State.init _ _, [])), (B, (State.init _ _, []))], []⟩

theorem unmistakable : Unmistakable Crypto.toy sampleEnv.z (5 : UInt8) [1] 100 := by
  intro d h
  have : decompress sampleEnv.z [1] = none := by decide
  rw [this] at h; cases h

def msg : Bytes := messagePrefix A ++
  writeBroadcast (.ordinary (ordinaryOf Crypto.toy sampleEnv.z false 100 (5 : UInt8) [1]))

theorem sent : (sendOrdinary Crypto.toy Fec.toy sampleEnv false A 100 (5 : UInt8) (State.init _ _) [1]).2 =
    some msg := rfl

/-- `C84_delivered` applies: a node in two overlays gets `[1]` in the first. -/
example := C84_delivered (f := Fec.toy) Crypto.toy_lawful sampleEnv sampleEnv ⟨fun _ _ => rfl⟩ rfl false A (by decide)
  100 130 (5 : UInt8) (State.init _ _) [1] msg (by decide) (by decide) sent (by decide) (by decide) unmistakable N
  (State.init _ _) [] rfl rfl

/-- `C84_not_to_itself` applies, 59 seconds later. -/
example := C84_not_to_itself (f := Fec.toy) Crypto.toy_lawful sampleEnv ⟨fun _ _ => rfl⟩ false A 100 159 (5 : UInt8)
  [] [1] msg (by decide) unmistakable sent (by decide) [.tick 59000] (by decide)

/-- `C84_suppressed_by_other` applies: key 9 sends what it has just got from key 5. -/
example := C84_suppressed_by_other (f := Fec.toy) Crypto.toy_lawful sampleEnv sampleEnv ⟨fun _ _ => rfl⟩ rfl false true
  A 100 100 (5 : UInt8) (9 : UInt8) (State.init _ _) [1] (by decide) (by decide) (by decide) unmistakable

end SendExample

theorem C86_full_false : ¬ C86_full := by
  intro h
  have h1 : given Crypto.toy Fec.toy sampleEnv 100 SendExample.N SendExample.A (.ordinary sampleOrdinary) =
      [⟨1, [1], Node.shortId Crypto.toy (5 : UInt8)⟩] := by decide +kernel
  have h2 : given Crypto.toy Fec.toy sampleEnv 100 SendExample.N SendExample.B (.ordinary sampleOrdinary) =
      [⟨1, [1], Node.shortId Crypto.toy (5 : UInt8)⟩] := by decide +kernel
  have := h Crypto.toy Fec.toy sampleEnv 100 SendExample.N SendExample.A SendExample.B (.ordinary sampleOrdinary)
    (State.init _ _) (State.init _ _) Crypto.toy_lawful
    ⟨by show (leBytes 32 5).length = 32; decide, trivial, by decide, by decide, by decide, by decide⟩ (by decide)
    (by decide) (by decide) rfl rfl (by rw [h1]; exact List.cons_ne_nil _ _)
  rw [h2] at this
  cases this

/-- `C86_replayed_partial` applies to that node. -/
example := C86_replayed_partial sampleEnv 100 SendExample.N SendExample.N SendExample.A SendExample.B (by decide)
  (by decide) sampleOrdinary
  ⟨by show (leBytes 32 5).length = 32; decide, trivial, by decide, by decide, by decide, by decide⟩
  (State.init Crypto.toy Fec.toy) (State.init Crypto.toy Fec.toy) ⟨1, [1], Node.shortId Crypto.toy (5 : UInt8)⟩ rfl rfl
  (by decide +kernel) rfl

end Verif.Overlay
