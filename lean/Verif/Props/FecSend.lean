import Verif.Proofs.FecDelivery
import Verif.Props.RldpWindow

/-!
# C85: FEC broadcasts from the sender to the application
-/
namespace Verif.Overlay
open Verif.Tl Verif.AdnlProto Verif.Rldp

variable {c : Crypto} {f : Fec}

/-! ### Specification -/

/-- The library cuts data into pieces of 768 bytes. -/
def Fec.Sized (f : Fec) : Prop := ∀ d, f.count d = (d.length + 767) / 768

/-- A step in which nothing goes by the name of the broadcast. -/
def Unrelated (c : Crypto) (e : Env) (bid : Bytes) : Action → Prop
  | .ordinary now b => ∀ d src, checkOrdinary c e now b ≠ .ok bid d src
  | .fec _ b => b.dataHash ≠ bid
  | .own x => x ≠ bid
  | _ => True

/-- A step in which only the given packets go by the name of the broadcast. -/
def Only (c : Crypto) (e : Env) (bid : Bytes) (parts : List FecPart) : Action → Prop
  | .fec _ b => b.dataHash = bid → b ∈ parts
  | a => Unrelated c e bid a

/-! ### Sending -/

theorem sent_own (sec : c.Sec) (dates : List Nat) : ∀ (t : OutFec) (b : FecPart), b ∈ t.sent c f sec dates →
    ∃ n date, date ∈ dates ∧ b = fecPartOf c f sec t.bid t.enc.data n date := by
  induction dates with
  | nil => intro t b h; exact absurd h List.not_mem_nil
  | cons date dates ih =>
    intro t b h
    simp only [OutFec.sent, List.mem_append] at h
    have hdata : (t.turn c f date sec).1.bid = t.bid ∧ (t.turn c f date sec).1.enc.data = t.enc.data := by
      unfold OutFec.turn
      split
      · refine ⟨rfl, ?_⟩
        simp only [OutFec.prepare, Enc.encode]
        split <;> rfl
      · exact ⟨rfl, rfl⟩
    rcases h with h | h
    · unfold OutFec.turn at h
      split at h
      · simp only [Option.toList_some, List.mem_singleton] at h
        exact ⟨_, date, List.mem_cons_self, h⟩
      · exact absurd h List.not_mem_nil
    · obtain ⟨n, d, h1, h2⟩ := ih _ b h
      rw [hdata.1, hdata.2] at h2
      exact ⟨n, d, List.mem_cons_of_mem _ h1, h2⟩

theorem sent_source (sec : c.Sec) (p : Bytes) (dates : List Nat) : ∀ (t : OutFec) (k j d : Nat), t.enc = ⟨p, k⟩ →
    t.seqno = k → f.count p ≤ t.packets + 1 → k + j < f.count p → dates[j]? = some d →
    (t.sent c f sec dates)[j]? = some (fecPartOf c f sec t.bid p (k + j) d) := by
  induction dates with
  | nil => intro t k j d _ _ _ _ h; cases h
  | cons date dates ih =>
    intro t k j d he hs hc hj hd
    have hturn : t.turn c f date sec =
        ({ t with enc := ⟨p, k + 1⟩, seqno := k + 1 }, some (fecPartOf c f sec t.bid p k date)) := by
      unfold OutFec.turn OutFec.prepare Enc.encode
      rw [he, hs, if_pos (by omega)]
      simp only [if_pos (show k < f.count p by omega)]
    simp only [OutFec.sent, hturn, Option.toList_some, List.singleton_append]
    cases j with
    | zero => cases hd; rfl
    | succ j =>
      have := ih { t with enc := ⟨p, k + 1⟩, seqno := k + 1 } (k + 1) j d rfl rfl hc (by omega) hd
      rw [List.getElem?_cons_succ, this]
      have e1 : k + 1 + j = k + (j + 1) := by omega
      rw [e1]

theorem mtu_eq : mtu = 768 := rfl

theorem packets_ge (hz : Fec.Sized f) (z : Zstd) (compressing : Bool) (data : Bytes)
    (hp : (payload z compressing data).length < 2 ^ 32) :
    f.count (payload z compressing data) ≤ (OutFec.new c z compressing data).packets + 1 := by
  rw [hz]
  simp only [OutFec.new, Nat.mod_eq_of_lt hp, mtu_eq]
  omega

/-- C85: the symbols of the data itself are sent, one in each turn. -/
theorem C85_source_symbols (hz : Fec.Sized f) (z : Zstd) (compressing : Bool) (sec : c.Sec) (data : Bytes)
    (dates : List Nat) (n d : Nat) (hp : (payload z compressing data).length < 2 ^ 32)
    (hn : n < f.count (payload z compressing data)) (hd : dates[n]? = some d) :
    ((OutFec.new c z compressing data).sent c f sec dates)[n]? =
      some (fecPartOf c f sec (c.sha data) (payload z compressing data) n d) := by
  have := sent_source (f := f) sec (payload z compressing data) dates (OutFec.new c z compressing data) 0 n d rfl rfl
    (packets_ge hz z compressing data hp) (by omega) hd
  rwa [Nat.zero_add] at this

/-- C85: every packet sent can be read back from its message. -/
theorem C85_read_back (hc : c.Lawful) (sec : c.Sec) (overlay : Bytes) (hov : overlay.length = 32) (z : Zstd)
    (compressing : Bool) (data : Bytes) (dates : List Nat) (b : FecPart)
    (hb : b ∈ (OutFec.new c z compressing data).sent c f sec dates) (hp : (payload z compressing data).length < 2 ^ 32)
    (hcount : f.count (payload z compressing data) < 2 ^ 32) (hdates : ∀ d ∈ dates, d < 2 ^ 32)
    (hn : b.seqno < 2 ^ 32) (hs : b.data.length < 2 ^ 24) :
    readMessage (fecMessage overlay b) = some (overlay, .fec b) := by
  obtain ⟨n, date, hd, rfl⟩ := sent_own sec dates _ b hb
  have hw : (Broadcast.fec (fecPartOf c f sec (c.sha data) (payload z compressing data) n date)).wf := by
    refine ⟨hc.pub_length _, trivial, hc.sha_length _, hp, show 1 < 2 ^ 32 by decide, hs, hn,
      ⟨hp, show 768 < 2 ^ 32 by decide, hcount⟩, hdates date hd, ?_⟩
    show (c.sign sec _).length < 2 ^ 24
    rw [hc.sign_length]; decide
  have := Props.readMessage_wire overlay _ [] hov hw
  rw [List.append_nil] at this
  simpa [fecMessage, messagePrefix, OutFec.new] using this

/-! ### How many are sent -/

/-- C85 as stated: as many packets are sent as `send_fec_broadcast` tells its caller, half as many again as the
data has symbols. -/
def C85_full : Prop := ∀ (c : Crypto) (f : Fec) (z : Zstd) (compressing : Bool) (sec : c.Sec) (data : Bytes)
  (dates : List Nat), c.Lawful → f.Lawful → f.Offset → Fec.Sized f → z.Lawful → data ≠ [] →
  (OutFec.new c z compressing data).packets ≤ dates.length →
  (OutFec.new c z compressing data).packets ≤ ((OutFec.new c z compressing data).sent c f sec dates).length

theorem sent_stop (sec : c.Sec) (dates : List Nat) : ∀ (t : OutFec), t.packets < t.seqno →
    t.sent c f sec dates = [] := by
  induction dates with
  | nil => intro t _; rfl
  | cons date dates ih =>
    intro t h
    have hturn : t.turn c f date sec = (t, none) := if_neg (by omega)
    simp only [OutFec.sent, hturn, Option.toList_none, List.nil_append]
    exact ih t h

theorem sent_numbers (ho : f.Offset) (sec : c.Sec) (p : Bytes) (dates : List Nat) : ∀ (t : OutFec) (k : Nat),
    t.enc = ⟨p, k⟩ → t.seqno = k → k ≤ f.count p → f.count p ≤ t.packets → t.packets < 2 * f.count p + 1 →
    f.count p - k + 1 ≤ dates.length →
    (t.sent c f sec dates).map (·.seqno) = (List.range' k (f.count p - k)) ++ [2 * f.count p] := by
  induction dates with
  | nil => intro t k _ _ _ _ _ h; simp at h
  | cons date dates ih =>
    intro t k he hs hk h1 h2 hl
    by_cases hlt : k < f.count p
    · have hturn : t.turn c f date sec =
          ({ t with enc := ⟨p, k + 1⟩, seqno := k + 1 }, some (fecPartOf c f sec t.bid p k date)) := by
        unfold OutFec.turn OutFec.prepare Enc.encode
        rw [he, hs, if_pos (by omega)]
        simp only [if_pos hlt]
      simp only [OutFec.sent, hturn, Option.toList_some, List.singleton_append, List.map_cons]
      rw [ih { t with enc := ⟨p, k + 1⟩, seqno := k + 1 } (k + 1) rfl rfl (by omega) h1 h2 (by simp at hl; omega)]
      have e1 : f.count p - k = (f.count p - (k + 1)) + 1 := by omega
      rw [e1, List.range'_succ]
      rfl
    · have e1 : k = f.count p := by omega
      have hturn : t.turn c f date sec =
          ({ t with enc := ⟨p, k⟩, seqno := f.count p + k + 1 },
            some (fecPartOf c f sec t.bid p (f.count p + k) date)) := by
        unfold OutFec.turn OutFec.prepare Enc.encode
        rw [he, hs, if_pos (by omega)]
        simp only [if_neg hlt, ho p k]
      simp only [OutFec.sent, hturn, Option.toList_some, List.singleton_append, List.map_cons]
      rw [sent_stop sec dates _ (by simp only; omega)]
      subst e1
      have e2 : (fecPartOf c f sec t.bid p (f.count p + f.count p) date).seqno = 2 * f.count p := by
        show f.count p + f.count p = _
        omega
      simp [e2]

/-- C85, what is sent instead: with more than one symbol, all symbols of the data and exactly one more. After it
the running number, taken over from the repair symbol, is beyond the limit. -/
theorem C85_one_repair_symbol_partial (ho : f.Offset) (hz : Fec.Sized f) (z : Zstd) (compressing : Bool)
    (sec : c.Sec) (data : Bytes) (dates : List Nat) (hp : (payload z compressing data).length < 2 ^ 32)
    (h1 : 1 < f.count (payload z compressing data))
    (hd : f.count (payload z compressing data) + 1 ≤ dates.length) :
    ((OutFec.new c z compressing data).sent c f sec dates).map (·.seqno) =
      List.range (f.count (payload z compressing data)) ++ [2 * f.count (payload z compressing data)] := by
  have hs := hz (payload z compressing data)
  have e1 : (OutFec.new c z compressing data).packets =
      ((payload z compressing data).length / 768 + 1) * 3 / 2 := by
    simp only [OutFec.new, Nat.mod_eq_of_lt hp, mtu_eq]
  rw [sent_numbers ho sec (payload z compressing data) dates _ 0 rfl rfl (by omega) (by omega) (by omega) (by omega),
    Nat.sub_zero, List.range_eq_range']

namespace FecSendExample

theorem offset : Fec.toy.Offset := fun _ _ => rfl

theorem sized : Fec.Sized Fec.toy := fun _ => rfl

/-- Data of two symbols. -/
def data : Bytes := List.replicate 1536 7

end FecSendExample

open FecSendExample in
/-- Four packets are announced for data of two symbols, and three are sent. -/
theorem C85_full_false : ¬ C85_full := by
  intro h
  have h1 := h Crypto.toy Fec.toy ⟨fun b => b, some⟩ false (5 : UInt8) data [100, 100, 100, 100] Crypto.toy_lawful
    Fec.toy_lawful offset sized ⟨fun _ _ => rfl⟩ (by decide) (by decide +kernel)
  have h2 := congrArg List.length (C85_one_repair_symbol_partial (c := Crypto.toy) offset sized ⟨fun b => b, some⟩
    false (5 : UInt8) data [100, 100, 100, 100] (by decide +kernel) (by decide +kernel) (by decide +kernel))
  rw [List.length_map] at h2
  rw [h2] at h1
  revert h1
  decide +kernel

/-! ### Receiving -/

theorem unheard_run {e : Env} {bid : Bytes} (as : List Action) : ∀ {s : State c f}, FInv s → Unheard bid s →
    (∀ a ∈ as, Unrelated c e bid a) → Unheard bid (run c f e s as) := by
  induction as with
  | nil => intro s _ h _; exact h
  | cons a as ih =>
    intro s hF h ha
    have hel : Elsewhere e bid s a := by
      have := ha a List.mem_cons_self
      cases a with
      | task i => exact fun t ht => h.no i t ht
      | mark i => exact fun t ht => h.no i t ht
      | cleanup i => exact fun d hd => h.clean d (List.mem_of_getElem? hd)
      | _ => exact this
    exact ih (hF.step a) (h.apart (apart_step hF h.off a hel)) fun b hb => ha b (List.mem_cons_of_mem _ hb)

theorem unheard_init {bid : Bytes} : Unheard bid (State.init c f) :=
  ⟨rfl, fun j u h => by simp [State.init] at h, fun _ => List.not_mem_nil,
    fun _ => List.not_mem_nil, List.not_mem_nil, List.not_mem_nil⟩

theorem deliveries_append (e : Env) (as bs : List Action) : ∀ (s : State c f), deliveries e s (as ++ bs) =
    deliveries e s as ++ deliveries e (run c f e s as) bs := by
  induction as with
  | nil => intro s; rfl
  | cons a as ih => intro s; simp only [List.cons_append, deliveries, ih, run, List.append_assoc]

/-- C85: what a member sends with `send_fec_broadcast`, compressed or not, reaches the application of a node that
receives every packet, each in date and all within the timeout: in whatever order and however often, and
whatever else happens at this node in between, as long as nobody else sends packets under the same hash. The
data delivered has the hash of the data sent, and the source is the member. Missing for the full statement: the
loss of packets. -/
theorem C85_delivered_partial (hc : c.Lawful) (hf : f.Lawful) (hsz : Fec.Sized f) (e e' : Env) (hz : e.z.Lawful)
    (hzz : e'.z = e.z) (compressing : Bool) (sec : c.Sec) (s : State c f) (data : Bytes) (hd : data.length < 2 ^ 32)
    (t : OutFec) (h : (sendFec c f e compressing s data).2 = some t) (hp0 : payload e.z compressing data ≠ [])
    (hpl : (payload e.z compressing data).length ≤ 2000000) (dates : List Nat)
    (hdates : f.count (payload e.z compressing data) ≤ dates.length) (before after : List Action)
    (hbefore : ∀ a ∈ before, Unrelated c e' (c.sha data) a)
    (hafter : ∀ a ∈ after, Only c e' (c.sha data) (t.sent c f sec dates) a)
    (hall : ∀ b ∈ t.sent c f sec dates, ∃ now, Action.fec now b ∈ after ∧ b.date + e'.timeout < 2 ^ 32 ∧
      now ≤ b.date + e'.timeout)
    (hclock : (run c f e' (run c f e' (State.init c f) before) after).clock <
      (run c f e' (State.init c f) before).clock + 1000 * e'.timeout) :
    ∃ i, ∀ m, after.length ≤ m →
      ∃ d ∈ deliveries e' (run c f e' (State.init c f) before) (after ++ List.replicate m (.task i)),
        c.sha d.data = c.sha data ∧ d.source = Node.shortId c (c.pubOf sec) := by
  have ht : t = OutFec.new c e.z compressing data := by
    unfold sendFec createOwn at h
    cases ho : s.owned.get (c.sha data) with
    | some x => rw [ho] at h; cases h
    | none => rw [ho] at h; cases h; rfl
  subst ht
  have hplen : (payload e.z compressing data).length ≤ sliceLen := hpl
  have hp32 : (payload e.z compressing data).length < 2 ^ 32 := by omega
  have hp : payload e.z compressing data = data ∨ decompress e'.z (payload e.z compressing data) = some data := by
    rw [hzz]; exact payload_eq hz hd
  have hF := FInv.run e' before (FInv.init (c := c) (f := f))
  have hfresh := unheard_run (e := e') before (FInv.init (c := c) (f := f)) unheard_init hbefore
  have honest : ∀ a ∈ after, Honest c f e' sec (c.sha data) (payload e.z compressing data) a := by
    intro a ha
    have := hafter a ha
    cases a with
    | fec now b =>
      intro hb
      obtain ⟨n, date, _, h1⟩ := sent_own sec dates _ b (this hb)
      exact ⟨n, date, h1⟩
    | _ => exact this
  rcases coming_run hc hf (t0 := (run c f e' (State.init c f) before).clock) hp0 hplen hp after hF
    (.inl ⟨hfresh, rfl⟩) (Nat.le_refl _) hclock honest with ⟨d, h1, h2⟩ | hcoming
  · refine ⟨0, fun m _ => ⟨d, ?_, h2⟩⟩
    rw [deliveries_append]
    exact List.mem_append_left _ h1
  · rw [List.nil_append] at hcoming
    have hgot : ∀ n, n < f.count (payload e.z compressing data) →
        n ∈ after.filterMap (arrival e' (c.sha data)) := by
      intro n hn
      obtain ⟨d, hdn⟩ : ∃ d, dates[n]? = some d := ⟨_, List.getElem?_eq_getElem (by omega)⟩
      have h1 := C85_source_symbols hsz e.z compressing sec data dates n d hp32 hn hdn
      obtain ⟨now, h2, h3, h4⟩ := hall _ (List.mem_of_getElem? h1)
      refine List.mem_filterMap.mpr ⟨_, h2, ?_⟩
      have h5 := isOutdated_of (e := e') h3 h4
      exact if_pos ⟨rfl, h5⟩
    rcases hcoming with ⟨_, h1⟩ | ⟨i, t, used, wait, hg⟩
    · have := hgot 0 (hf.count_pos _ hp0)
      rw [h1] at this
      exact absurd this List.not_mem_nil
    · refine ⟨i, fun m hm => ?_⟩
      have hlen : (after.filterMap (arrival e' (c.sha data))).length ≤ after.length := List.length_filterMap_le _ _
      obtain ⟨d, h1, h2⟩ := going_finish hc hf hp0 hplen hp m hg hgot (by have := hg.len; omega)
      refine ⟨d, ?_, h2⟩
      rw [deliveries_append]
      exact List.mem_append_right _ h1

namespace FecSendExample

/-- What is sent for `[1]` in two turns: the symbol and one more. -/
def parts : List FecPart := (OutFec.new Crypto.toy sampleEnv.z false [1]).sent Crypto.toy Fec.toy (5 : UInt8) [100, 101]

def after : List Action := [.fec 102 (parts[1]'(by decide +kernel)), .own [9], .fec 103 (parts[0]'(by decide +kernel)),
  .fec 104 (parts[0]'(by decide +kernel))]

theorem parts_two : parts = [parts[0]'(by decide +kernel), parts[1]'(by decide +kernel)] := by decide +kernel

/-- `C85_delivered_partial` applies: the packets arrive in another order, and one of them twice. -/
example := C85_delivered_partial (c := Crypto.toy) Crypto.toy_lawful Fec.toy_lawful sized sampleEnv sampleEnv
  sampleEnv_lawful rfl false (5 : UInt8) (State.init _ _) [1] (by decide) (OutFec.new Crypto.toy sampleEnv.z false [1])
  rfl (by decide) (by decide) [100, 101] (by decide) [.own [8]] after
  (by intro a ha; simp only [List.mem_singleton] at ha; subst ha; exact show ([8] : Bytes) ≠ Crypto.toy.sha [1] by decide)
  (by
    intro a ha
    have hm : ∀ i (hi : i < parts.length), parts[i] ∈
        (OutFec.new Crypto.toy sampleEnv.z false [1]).sent Crypto.toy Fec.toy (5 : UInt8) [100, 101] :=
      fun i hi => List.getElem_mem hi
    simp only [after, List.mem_cons, List.not_mem_nil, or_false] at ha
    rcases ha with rfl | rfl | rfl | rfl
    · exact fun _ => hm _ _
    · exact show ([9] : Bytes) ≠ Crypto.toy.sha [1] by decide
    · exact fun _ => hm _ _
    · exact fun _ => hm _ _)
  (by
    intro b hb
    change b ∈ parts at hb
    rw [parts_two] at hb
    simp only [List.mem_cons, List.not_mem_nil, or_false] at hb
    rcases hb with rfl | rfl
    · exact ⟨103, by simp [after], by decide +kernel, by decide +kernel⟩
    · exact ⟨102, by simp [after], by decide +kernel, by decide +kernel⟩)
  (by decide +kernel)

end FecSendExample

open FecSendExample in
-- C85_source_symbols, C85_one_repair_symbol_partial: data of two symbols
example := C85_source_symbols (c := Crypto.toy) sized ⟨fun b => b, some⟩ false (5 : UInt8) FecSendExample.data
  [100, 101, 102] 1 101 (by decide +kernel) (by decide +kernel) rfl
open FecSendExample in
example := C85_one_repair_symbol_partial (c := Crypto.toy) offset sized ⟨fun b => b, some⟩ false (5 : UInt8)
  FecSendExample.data [100, 101, 102] (by decide +kernel) (by decide +kernel) (by decide +kernel)

-- C85_read_back
example := C85_read_back (f := Fec.toy) Crypto.toy_lawful (5 : UInt8) (List.replicate 32 1) (by decide) sampleEnv.z false [1]
  [100, 101] (FecSendExample.parts[1]'(by decide +kernel)) (List.getElem_mem (l := FecSendExample.parts) _) (by decide +kernel)
  (by decide +kernel) (by decide) (by decide +kernel) (by decide +kernel)

end Verif.Overlay
