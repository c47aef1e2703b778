import Verif.Props.OverlayNode
import Verif.Props.RoundTrip
import Verif.Props.RldpExchange

/-!
# C110: queries and messages sent through an overlay

`Overlay::adnl_query`, `Overlay::rldp_query` and `Overlay::send_message` (overlay.rs:355-416) put the overlay's
prefix before the data; the other node's subscribers (subscriber/mod.rs, overlay/node.rs) get it from ADNL (C72)
or RLDP (C107).
-/
namespace Verif.OverlayTalk
open Verif.Tl Verif.Adnl Verif.AdnlProto Verif.Address Verif.Node Verif.Receiver Verif.Sender Verif.Props
open Verif.Process Verif.Delivery Verif.Dispatch Verif.Overlay Verif.RoundTrip

variable {O : Type} {c : Crypto}

/-- Spec: what `adnl_query` and `rldp_query` of the overlay `id` send for `q`. -/
def queryFor (id q : Bytes) : Bytes := writeU32 0xccfd8443 ++ (id ++ q)

/-- Spec: what `send_message` of the overlay `id` sends for `data`. -/
def messageFor (id data : Bytes) : Bytes := writeU32 0x75252420 ++ (id ++ data)

theorem queryFor_prefix (id q : Bytes) : queryPrefix id ++ q = queryFor id q := by
  simp [queryPrefix, queryFor, queryId]

theorem messageFor_prefix (id q : Bytes) : messagePrefix id ++ q = messageFor id q := by
  simp [messagePrefix, messageFor, messageId]

/-- The overlay node as query subscriber. -/
def querySub (h : Handlers O) (s : NState O) : QuerySub := fun k q => (consumeQuery h s k q).2

/-- The overlay node as message subscriber. -/
def messageSub (h : Handlers O) (s : NState O) : MsgSub := fun k d => (consumeCustom h s k d).2

/-- How a node with these subscribers reacts to what ADNL gives it (receiver.rs:270-322). -/
def reaction (qs : List QuerySub) (ms : List MsgSub) : Event → Reply
  | .answer _ _ => .done
  | .custom _ _ d =>
    match (processCustom ms d).1 with
    | some true => .done
    | _ => .failed
  | .query _ _ _ q =>
    match queryEffect qs q with
    | .sendAnswer a => .answer a
    | .nothing => .done
    | .error => .failed

/-- Spec: subscribers that hand overlay queries back untouched. -/
def Aside (qs : List QuerySub) : Prop := ∀ s ∈ qs, ∀ q, s 0xccfd8443 q = .rejected q

/-- Spec: subscribers that leave overlay messages to others. -/
def AsideM (ms : List MsgSub) : Prop := ∀ s ∈ ms, ∀ d, s 0x75252420 d = some false

theorem constructor_of (k : Nat) (hk : k < 2 ^ 32) (rest : Bytes) : readConstructor (writeU32 k ++ rest) = some k := by
  have hl : (writeU32 k).length = 4 := rfl
  unfold readConstructor
  rw [if_neg (by rw [List.length_append, hl]; omega), show (writeU32 k ++ rest).take 4 = writeU32 k by
    rw [← hl]; exact List.take_left]
  exact congrArg some (ofLE_leBytes_of_lt (by simpa using hk))

theorem queryLoop_aside {pre : List QuerySub} (hpre : Aside pre) (rest : List QuerySub) (q : Bytes) :
    ∀ i, (queryLoop 0xccfd8443 i (pre ++ rest) q).1 = (queryLoop 0xccfd8443 (i + pre.length) rest q).1 := by
  induction pre with
  | nil => intro i; rfl
  | cons s ss ih =>
    intro i
    rw [List.cons_append, queryLoop, hpre s List.mem_cons_self q]
    show (queryLoop _ (i + 1) (ss ++ rest) q).1 = _
    rw [ih (fun t ht => hpre t (List.mem_cons_of_mem _ ht)), List.length_cons]
    congr 2; omega

theorem customLoop_aside {pre : List MsgSub} (hpre : AsideM pre) (rest : List MsgSub) (d : Bytes) :
    ∀ i, (customLoop 0x75252420 d i (pre ++ rest)).1 = (customLoop 0x75252420 d (i + pre.length) rest).1 := by
  induction pre with
  | nil => intro i; rfl
  | cons s ss ih =>
    intro i
    rw [List.cons_append, customLoop, hpre s List.mem_cons_self d]
    show (customLoop _ d (i + 1) (ss ++ rest)).1 = _
    rw [ih (fun t ht => hpre t (List.mem_cons_of_mem _ ht)), List.length_cons]
    congr 2; omega

/-- C110: the subscriber of the overlay is asked exactly the query that was given to the overlay of the other side,
without the prefix, and its answer is the answer of the node; later subscribers have no say. -/
theorem C110_dispatch (h : Handlers O) (s : NState O) (id : Bytes) (hid : id.length = 32) (k : Nat) (hk : k < 2 ^ 32)
    (hne : k ≠ 0x48ee64ab) (rest : Bytes) (sub : QuerySub) (hsub : s.subscribers.get id = some sub) (a : Option Bytes)
    (ha : sub k (writeU32 k ++ rest) = .consumed a) (pre post : List QuerySub) (hpre : Aside pre) :
    (processQuery (pre ++ querySub h s :: post) (queryFor id (writeU32 k ++ rest))).1 = .processed a := by
  unfold processQuery
  rw [show readConstructor (queryFor id (writeU32 k ++ rest)) = some 0xccfd8443 from constructor_of _ (by decide) _]
  show (queryLoop 0xccfd8443 0 (pre ++ querySub h s :: post) (queryFor id (writeU32 k ++ rest))).1 = _
  rw [queryLoop_aside hpre, queryLoop]
  have := ((C52_subscriber h s id hid k hk hne rest).2.2 sub hsub).1 a ha
  rw [show querySub h s 0xccfd8443 (queryFor id (writeU32 k ++ rest)) = .consumed a from this]

theorem leads_trans {P : Pair c} {ρ₁ ρ₂ ρ₃ : Real c} (h1 : Leads P ρ₁ ρ₂) (h2 : Leads P ρ₂ ρ₃) : Leads P ρ₁ ρ₃ := by
  induction h2 with
  | refl => exact h1
  | step _ _ _ hs ih => exact .step _ _ _ ih hs

/-- C110 (ADNL): a query sent with `Overlay::adnl_query` over an ADNL connection. The first time its datagram arrives
at a node with a subscriber for the overlay, that subscriber is asked, and the datagram the node sends back then,
the first time it arrives, gives the asker the subscriber's answer under the id of the query. -/
theorem C110_adnl_query (hc : c.Lawful) (P : Pair c) (hP : P.Fits) (ρ₀ ρ ρ₂ : Real c) (h0 : RStart P ρ₀)
    (hl : Leads P ρ₀ ρ) (b : Bool) (now : Nat) (prio : Bool) (rand : Nat → Rand c) (p' : Peer c) (ds : List Bytes)
    (id : Bytes) (hid : id.length = 32) (qid : Bytes) (k : Nat) (hk : k < 2 ^ 32) (hne : k ≠ 0x48ee64ab) (rest : Bytes)
    (hm : Asked (.query qid (queryFor id (writeU32 k ++ rest))))
    (hcan : CanSend P b (ρ.node b).node now rand)
    (hs : sendMessage (P.opts b) (P.loop b) now (ρ.node b).node (P.id b) (P.id !b)
      (.query qid (queryFor id (writeU32 k ++ rest))) prio rand = .ok (p', ds))
    (hno : ∀ d ∈ ds, NoAccident P b (ρ.node b).node prio (rand 0) d)
    (h2 : Leads P (afterTell P ρ b now (.query qid (queryFor id (writeU32 k ++ rest))) p' ds) ρ₂)
    (hnew : (ρ.net b).length ∉ ρ₂.seen b)
    (h : Handlers O) (s : NState O) (sub : QuerySub) (hsub : s.subscribers.get id = some sub) (a : Bytes)
    (ha : sub k (writeU32 k ++ rest) = .consumed (some a)) (pre post : List QuerySub) (hpre : Aside pre)
    (ms : List MsgSub)
    (now' : Nat) (key : c.Sec) (rand' : Nat → Rand c) (t : Nat) (d : Bytes) (f : Full c) (r : Result)
    (harr : Arrives P ρ₂ b (ρ.net b).length now' (reaction (pre ++ querySub h s :: post) ms) key rand' t d f r) :
    ∃ d', r.sent = [d'] ∧
      ∀ (ρ₃ : Real c), Leads P (afterArrival ρ₂ b (ρ.net b).length now' (reaction (pre ++ querySub h s :: post) ms) f r) ρ₃ →
      (ρ₂.net !b).length ∉ ρ₃.seen (!b) →
      ∀ (now'' : Nat) (subs' : Event → Reply) (key' : c.Sec) (rand'' : Nat → Rand c) (t' : Nat) (d'' : Bytes)
        (f' : Full c) (r' : Result),
        Arrives P ρ₃ (!b) (ρ₂.net !b).length now'' subs' key' rand'' t' d'' f' r' →
        d'' = d' ∧ t' = now' ∧ r'.events = [.answer qid a] := by
  have h1 := (C72_message_arrives hc P hP ρ₀ ρ ρ₂ h0 hl b now _ prio rand p' ds hm hcan hs hno h2 hnew now' _ key rand'
    t d f r harr).2.2.1 _ _ rfl
  have hr : reaction (pre ++ querySub h s :: post) ms (.query (P.id !b) (P.id b) qid (queryFor id (writeU32 k ++ rest))) =
      .answer a := by
    simp only [reaction, queryEffect, C110_dispatch h s id hid k hk hne rest sub hsub (some a) ha pre post hpre]
  have hl2 : Leads P ρ₀ ρ₂ := leads_trans (.step _ _ _ hl (.tell ρ b now _ prio rand p' ds hm hcan hs hno)) h2
  exact C72_answer_arrives hc P hP ρ₀ ρ₂ h0 hl2 b _ now' _ key rand' t d f r harr hnew qid _ a
    (by rw [h1]; exact List.mem_singleton.mpr rfl) hr

/-- C110 (RLDP): a query sent with `Overlay::rldp_query`, as far as compression leaves it alone (C36): whatever the
network does, if it ends with an answer, it is the answer of the overlay's subscriber to the query without prefix
(first part); and as long as nobody gave up it can still end so (second part). -/
theorem C110_rldp_query (f : Rldp.Fec) (hf : f.Lawful) (x : Rldp.Setup) (hx : x.Ok) (id : Bytes) (hid : id.length = 32) (k : Nat)
    (hk : k < 2 ^ 32) (hne : k ≠ 0x48ee64ab) (rest : Bytes) (hdata : x.data = queryFor id (writeU32 k ++ rest))
    (hrec : Rldp.received x.zstd x.payload = x.data) (h : Handlers O) (s : NState O) (sub : QuerySub)
    (hsub : s.subscribers.get id = some sub) (a : Bytes) (ha : sub k (writeU32 k ++ rest) = .consumed (some a))
    (pre post : List QuerySub) (hpre : Aside pre) (hsubs : x.subs = pre ++ querySub h s :: post) :
    (∀ build xs r, ((Rldp.Exchange.init f x).run x build xs).ended = some (.with r) →
      r = .data (Rldp.received x.zstd (x.sent a))) ∧
    (x.query.length ≤ x.maxServer → (x.sent a).length + 43 ≤ x.maxClient → ∀ xs : List Rldp.XAct,
      (∀ y, Rldp.XAct.query y ∈ xs → y ≠ .expire ∧ y ≠ .giveUp) →
      (∀ y, Rldp.XAct.answer y ∈ xs → y ≠ .expire ∧ y ≠ .giveUp) → Rldp.XAct.giveUp ∉ xs →
      ∃ ys, ((Rldp.Exchange.init f x).run x .release (xs ++ ys)).ended =
        some (.with (.data (Rldp.received x.zstd (x.sent a))))) := by
  have happ : x.application = .processed (some a) := by
    unfold Rldp.Setup.application
    rw [hrec, hdata, hsubs]
    exact C110_dispatch h s id hid k hk hne rest sub hsub (some a) ha pre post hpre
  refine ⟨fun build xs r hr => ?_, fun h1 h2 xs h3 h4 h5 => Rldp.C107_can_finish f hf x hx h1 a happ h2 xs h3 h4 h5⟩
  obtain ⟨a', e, rfl⟩ := Rldp.C107_result f hf x hx build xs r hr
  rw [happ] at e
  cases e
  rfl

/-! ### Messages -/

theorem messageSub_for (h : Handlers O) (s : NState O) (id data : Bytes) (hid : id.length = 32) :
    messageSub h s 0x75252420 (messageFor id data) =
      match readBroadcast data with
      | none => none
      | some (b, _) =>
        match s.overlays.get id with
        | none => none
        | some o => if (deliver h o b (messageFor id data)).2 then some true else none := by
  have hd : (messageFor id data).drop 4 = id ++ data := by
    have : (writeU32 0x75252420).length = 4 := rfl
    rw [messageFor, ← this, List.drop_left]
  have hk : ¬ (0x75252420 ≠ messageId) := fun h => h rfl
  simp only [messageSub, consumeCustom, if_neg hk, Overlay.readMessage, hd]
  rw [Encodes.hash hid _]
  simp only []
  cases readBroadcast data with
  | none => rfl
  | some y =>
    simp only []
    cases s.overlays.get id <;> rfl

/-- C110, exact for messages: what is sent with `Overlay::send_message` is taken by the node of the other side only
if it is a broadcast, and one of the two supported kinds, of an overlay of that node that accepts it. In all other
cases the message ends as an error, whatever subscribers come after the overlays. -/
theorem C110_message_partial (h : Handlers O) (s : NState O) (id : Bytes) (hid : id.length = 32) (data : Bytes)
    (qs : List QuerySub) (pre post : List MsgSub) (hpre : AsideM pre) (l q : Bytes) :
    let y := reaction qs (pre ++ messageSub h s :: post) (.custom l q (messageFor id data))
    let takes := ∃ o, s.overlays.get id = some o ∧
      ((∃ x r, readBroadcast data = some (.ordinary x, r) ∧ (h.ordinary o x (messageFor id data)).2 = true) ∨
        (∃ x r, readBroadcast data = some (.fec x, r) ∧ (h.fec o x (messageFor id data)).2 = true))
    (takes → y = .done) ∧ (¬ takes → y = .failed) := by
  intro y takes
  have hp : (processCustom (pre ++ messageSub h s :: post) (messageFor id data)).1 =
      (customLoop 0x75252420 (messageFor id data) pre.length (messageSub h s :: post)).1 := by
    unfold processCustom
    rw [show readConstructor (messageFor id data) = some 0x75252420 from constructor_of _ (by decide) _]
    show (customLoop 0x75252420 (messageFor id data) 0 (pre ++ messageSub h s :: post)).1 = _
    rw [customLoop_aside hpre, Nat.zero_add]
  have hm := messageSub_for h s id data hid
  have hsome : ∀ b, messageSub h s 0x75252420 (messageFor id data) = b →
      (b = some true ∨ b = none) → (processCustom (pre ++ messageSub h s :: post) (messageFor id data)).1 = b := by
    intro b hb hor
    rw [hp, customLoop, hb]
    rcases hor with rfl | rfl <;> rfl
  have hy : y = match (processCustom (pre ++ messageSub h s :: post) (messageFor id data)).1 with
      | some true => .done
      | _ => .failed := rfl
  constructor
  · rintro ⟨o, ho, ⟨x, r, hb, hx⟩ | ⟨x, r, hb, hx⟩⟩
    · rw [hb, ho] at hm
      simp only [deliver, hx, if_true] at hm
      rw [hy, hsome _ hm (.inl rfl)]
    · rw [hb, ho] at hm
      simp only [deliver, hx, if_true] at hm
      rw [hy, hsome _ hm (.inl rfl)]
  · intro hno
    have hm' : messageSub h s 0x75252420 (messageFor id data) = none := by
      rw [hm]
      cases hb : readBroadcast data with
      | none => rfl
      | some br =>
        cases ho : s.overlays.get id with
        | none => rfl
        | some o =>
          simp only []
          cases hd : (deliver h o br.1 (messageFor id data)).2 with
          | false => rfl
          | true =>
            exfalso
            apply hno
            refine ⟨o, ho, ?_⟩
            obtain ⟨b, r⟩ := br
            cases b with
            | ordinary x => exact .inl ⟨x, r, hb, hd⟩
            | fec x => exact .inr ⟨x, r, hb, hd⟩
            | _ => cases hd
    rw [hy, hsome _ hm' (.inr rfl)]

/-- C110 (ADNL): the message sent with `Overlay::send_message` does arrive at the other node: the first time its
datagram arrives, the subscribers get the message with its prefix, and what they make of it is said by
`C110_message_partial`. -/
theorem C110_message_arrives (hc : c.Lawful) (P : Pair c) (hP : P.Fits) (ρ₀ ρ ρ₂ : Real c) (h0 : RStart P ρ₀)
    (hl : Leads P ρ₀ ρ) (b : Bool) (now : Nat) (prio : Bool) (rand : Nat → Rand c) (p' : Peer c) (ds : List Bytes)
    (id data : Bytes) (hm : Asked (.custom (messageFor id data))) (hcan : CanSend P b (ρ.node b).node now rand)
    (hs : sendMessage (P.opts b) (P.loop b) now (ρ.node b).node (P.id b) (P.id !b) (.custom (messageFor id data)) prio
      rand = .ok (p', ds))
    (hno : ∀ d ∈ ds, NoAccident P b (ρ.node b).node prio (rand 0) d)
    (h2 : Leads P (afterTell P ρ b now (.custom (messageFor id data)) p' ds) ρ₂) (hnew : (ρ.net b).length ∉ ρ₂.seen b)
    (qs : List QuerySub) (ms : List MsgSub)
    (now' : Nat) (key : c.Sec) (rand' : Nat → Rand c) (t : Nat) (d : Bytes) (f : Full c) (r : Result)
    (harr : Arrives P ρ₂ b (ρ.net b).length now' (reaction qs ms) key rand' t d f r) :
    r.events = [.custom (P.id !b) (P.id b) (messageFor id data)] :=
  (C72_message_arrives hc P hP ρ₀ ρ ρ₂ h0 hl b now _ prio rand p' ds hm hcan hs hno h2 hnew now' _ key rand' t d f r
    harr).2.2.2 _ rfl

/-- C110, the full claim: what is sent through an overlay reaches the application of the other side, if it is
registered there. For queries: the subscriber of the overlay is asked. For messages: some subscriber takes it, if
the overlay is registered and refuses nothing it is given. -/
def C110_full : Prop :=
  ∀ (O : Type) (h : Handlers O) (s : NState O) (id : Bytes), id.length = 32 →
    (∀ k < 2 ^ 32, ∀ rest sub a, s.subscribers.get id = some sub → sub k (writeU32 k ++ rest) = .consumed a →
      (processQuery [querySub h s] (queryFor id (writeU32 k ++ rest))).1 = .processed a) ∧
    (∀ data o l q, s.overlays.get id = some o → (∀ o b d, (h.ordinary o b d).2 = true) →
      (∀ o b d, (h.fec o b d).2 = true) →
      ∀ post, reaction [] (messageSub h s :: post) (.custom l q (messageFor id data)) = .done)

/-- A node with one overlay and a subscriber that answers with the constructor it was asked. -/
def echo : NState Unit := ⟨[(List.replicate 32 1, ())], [(List.replicate 32 1, fun k _ => .consumed (some (writeU32 k)))]⟩

/-- Handlers that accept everything. -/
def open' : Handlers Unit := ⟨fun _ _ _ => ((), true), fun _ _ _ => ((), true), fun _ _ => ((), [])⟩

/-- C110: the full claim is false for messages: four bytes of an application end as an error. -/
theorem C110_full_false : ¬ C110_full := by
  intro h
  have := (h Unit open' echo (List.replicate 32 1) (by decide)).2 [1, 2, 3, 4] () [] [] rfl (fun _ _ _ => rfl)
    (fun _ _ _ => rfl) []
  have h2 : reaction [] [messageSub open' echo] (.custom [] [] (messageFor (List.replicate 32 1) [1, 2, 3, 4])) = .failed := by
    have hn : (processCustom [messageSub open' echo] (messageFor (List.replicate 32 1) [1, 2, 3, 4])).1 = none := by
      decide +kernel
    simp only [reaction, hn]
  rw [h2] at this
  cases this

/-- C110: nor is it true for queries: one that starts like `overlay.getRandomPeers` is not for the application. -/
theorem C110_reserved_partial (h : Handlers O) (s : NState O) (id : Bytes) (hid : id.length = 32) (rest : Bytes)
    (sub : QuerySub) :
    querySub h { s with subscribers := s.subscribers.put id sub } 0xccfd8443 (queryFor id (writeU32 0x48ee64ab ++ rest)) =
      querySub h s 0xccfd8443 (queryFor id (writeU32 0x48ee64ab ++ rest)) := by
  have hq0 : ¬ (0xccfd8443 ≠ queryId) := fun h => h rfl
  have hq : readQuery (queryFor id (writeU32 0x48ee64ab ++ rest)) = some (id, 0x48ee64ab, writeU32 0x48ee64ab ++ rest) :=
    readQuery_wire id _ (by decide) rest hid
  simp only [querySub, consumeQuery, if_neg hq0, hq]
  rw [if_pos (show 0x48ee64ab = getRandomPeersId from rfl), if_pos (show 0x48ee64ab = getRandomPeersId from rfl)]
  cases readGetRandomPeers (writeU32 0x48ee64ab ++ rest) with
  | none => rfl
  | some y =>
    simp only []
    cases s.overlays.get id <;> rfl

/-! ### The hypotheses can be met -/

/-- Subscribers of a node: one for DHT queries, then the overlays. -/
def toyDht : QuerySub := fun k q => if k = 1 then .consumed none else .rejected q

theorem toyDht_aside : Aside [toyDht] := by
  intro s hs q
  rw [List.mem_singleton.mp hs]
  rfl

def toyAsked : Bytes := queryFor (List.replicate 32 1) (writeU32 5 ++ [9, 9])

example : (processQuery ([toyDht] ++ querySub open' echo :: []) toyAsked).1 = .processed (some (writeU32 5)) :=
  C110_dispatch open' echo (List.replicate 32 1) (by decide) 5 (by decide) (by decide) [9, 9] _ rfl _ rfl _ _ toyDht_aside

/-- A broadcast is taken, anything else is not. -/
example : reaction [] [messageSub open' echo] (.custom [] [] (messageFor (List.replicate 32 1)
      (writeBroadcast (.fecCompleted (List.replicate 32 1))))) = .failed := by
  have hn : (processCustom [messageSub open' echo] (messageFor (List.replicate 32 1)
      (writeBroadcast (.fecCompleted (List.replicate 32 1))))).1 = none := by decide +kernel
  simp only [reaction, hn]

/-- An RLDP query through the overlay. -/
def toySetup : Rldp.Setup where
  zstd := Rldp.Zstd.toy
  subs := [toyDht] ++ querySub open' echo :: []
  forceClient := false
  forceServer := false
  maxClient := 100
  maxServer := 200
  timeout := 7
  queryId := List.replicate 32 1
  data := toyAsked

example : toySetup.Ok ∧ toySetup.data = queryFor (List.replicate 32 1) (writeU32 5 ++ [9, 9]) ∧
    Rldp.received toySetup.zstd toySetup.payload = toySetup.data ∧ toySetup.query.length ≤ toySetup.maxServer ∧
    (toySetup.sent (writeU32 5)).length + 43 ≤ toySetup.maxClient :=
  ⟨⟨by decide, by decide, by decide, by decide, by decide +kernel⟩, rfl, by decide +kernel, by decide +kernel,
    by decide +kernel⟩

theorem toy_short (ms : List MsgSub) (e : Event) (a : Bytes)
    (h : reaction ([toyDht] ++ querySub open' echo :: []) ms e = .answer a) : a.length ≤ 908 := by
  have hq : ∀ k q x, querySub open' echo k q = .consumed (some x) → x.length ≤ 908 := by
    intro k q x hx
    unfold querySub consumeQuery at hx
    split at hx
    · cases hx
    · split at hx
      · cases hx
      · rename_i id k' rest _
        split at hx
        · split at hx
          · cases hx
          · split at hx
            · cases hx
            · simp only [SubResult.consumed.injEq, Option.some.injEq] at hx
              subst hx
              show (DhtProto.writeONodes []).length ≤ 908
              decide
        · simp only [passOn, echo, AMap.get] at hx
          split at hx
          · cases hx
          · rename_i sub hsub
            split at hsub
            · cases hsub
              simp only [SubResult.consumed.injEq, Option.some.injEq] at hx
              subst hx
              simp [writeU32_length]
            · cases hsub
  cases e with
  | answer _ _ => cases h
  | custom _ _ d =>
    simp only [reaction] at h
    split at h <;> cases h
  | query _ _ _ q =>
    simp only [reaction, queryEffect, processQuery] at h
    cases hk : readConstructor q with
    | none => rw [hk] at h; cases h
    | some k =>
      rw [hk] at h
      simp only [List.cons_append, List.nil_append, queryLoop] at h
      by_cases h1 : k = 1
      · rw [show toyDht k q = .consumed none from if_pos h1] at h
        cases h
      · rw [show toyDht k q = .rejected q from if_neg h1] at h
        simp only [] at h
        cases hs : querySub open' echo k q with
        | error => rw [hs] at h; cases h
        | rejected q' => rw [hs] at h; cases h
        | consumed x =>
          rw [hs] at h
          cases x with
          | none => cases h
          | some x => cases h; exact hq k q _ hs

/-- The datagram of the query. -/
def toySent : Bytes :=
  match sendMessage (toyPair.opts false) false 130 (toyNode false) (toyPair.id false) (toyPair.id true)
    (.query (List.replicate 32 4) toyAsked) false toyRands with
  | .ok (_, [d]) => d
  | _ => []

theorem toySent_counts : ∀ prio, ((arrive (toyPair.opts true) false 140 (toyNode true) toySent (show UInt8 from 1)
    toyRands).peer (toyPair.id true) (toyPair.id false)).map (·.sendSeqno prio) = some 0 := by
  decide +kernel

/-- The query through the overlay is sent and arrives at a node with the subscribers above. -/
example : ∃ p' f r, sendMessage (toyPair.opts false) false 130 (toyNode false) (toyPair.id false)
      (toyPair.id true) (.query (List.replicate 32 4) toyAsked) false toyRands = .ok (p', [toySent]) ∧
    Arrives toyPair (afterTell toyPair toyReal false 130 (.query (List.replicate 32 4) toyAsked) p' [toySent]) false 0 140
      (reaction ([toyDht] ++ querySub open' echo :: []) []) (show UInt8 from 1) toyRands 130 toySent f r ∧
    ∃ d', r.sent = [d'] := by
  have hask : Asked (.query (List.replicate 32 4) toyAsked) := ⟨by decide, by decide⟩
  obtain ⟨p', d, hs⟩ := C72_send_succeeds Crypto.toy_lawful toyPair toyPair_fits toyReal toyReal toyReal_start
    (.refl _) false 130 _ false toyRands hask (toy_can false)
  have hd : toySent = d := by
    unfold toySent
    have : sendMessage (toyPair.opts false) false 130 (toyNode false) (toyPair.id false) (toyPair.id true)
      (.query (List.replicate 32 4) toyAsked) false toyRands = .ok (p', [d]) := hs
    rw [this]
  rw [← hd] at hs
  have hcan : CanSend toyPair true (arrive (toyPair.opts true) false 140 (toyNode true) toySent
      (show UInt8 from 1) toyRands) 140 toyRands :=
    { bytes := fun _ => rfl
      time := by decide
      count := by
        intro p prio h
        have := toySent_counts prio
        rw [show toyPair.id (!true) = toyPair.id false from rfl] at h
        rw [h] at this
        simp only [Option.map_some, Option.some.injEq] at this
        rw [this]; decide }
  cases hf : receive (toyPair.opts true) false 140 (reaction ([toyDht] ++ querySub open' echo :: []) [])
      ⟨toyNode true, []⟩ toySent (show UInt8 from 1) toyRands with
  | mk f r =>
    have ha : Arrives toyPair (afterTell toyPair toyReal false 130 (.query (List.replicate 32 4) toyAsked) p' [toySent]) false
        0 140 (reaction ([toyDht] ++ querySub open' echo :: []) []) (show UInt8 from 1) toyRands 130 toySent f r :=
      { sent := rfl
        clock := by decide
        started := by decide
        recent := show 140 ≤ 130 + 1000 by decide
        short := fun e a h => toy_short [] e a h
        can := hcan
        result := hf
        accident := fun _ _ _ _ _ => .inl rfl }
    obtain ⟨d', h, -⟩ := C110_adnl_query Crypto.toy_lawful toyPair toyPair_fits toyReal toyReal _ toyReal_start (.refl _)
      false 130 false toyRands p' [toySent] (List.replicate 32 1) (by decide) (List.replicate 32 4) 5 (by decide) (by decide)
      [9, 9] hask (toy_can false) hs (fun _ _ _ _ => .inl rfl) (.refl _) (by simp [afterTell, toyReal]) open' echo _ rfl _ rfl
      [toyDht] [] toyDht_aside [] 140 _ toyRands 130 toySent f r ha
    exact ⟨p', f, r, hs, ha, d', h⟩

-- C110_rldp_query
example := C110_rldp_query Rldp.Fec.toy Rldp.Fec.toy_lawful toySetup
  ⟨by decide, by decide, by decide, by decide, by decide +kernel⟩ (List.replicate 32 1) (by decide) 5 (by decide) (by decide)
  [9, 9] rfl (by decide +kernel) open' echo _ rfl _ rfl [toyDht] [] toyDht_aside rfl

-- C110_message_partial
example := C110_message_partial open' echo (List.replicate 32 1) (by decide)
  (writeBroadcast (.fecCompleted (List.replicate 32 1))) [] [fun _ _ => some false] []
  (fun s hs d => by rw [List.mem_singleton.mp hs]) [] []

-- C110_message_arrives
def toyMessage : Message := .custom (messageFor (List.replicate 32 1) [1, 2, 3, 4])

def toyMessageSent : Bytes :=
  match sendMessage (toyPair.opts false) false 130 (toyNode false) (toyPair.id false) (toyPair.id true)
    toyMessage false toyRands with
  | .ok (_, [d]) => d
  | _ => []

theorem toyMessageSent_counts : ∀ prio, ((arrive (toyPair.opts true) false 140 (toyNode true) toyMessageSent
    (show UInt8 from 1) toyRands).peer (toyPair.id true) (toyPair.id false)).map (·.sendSeqno prio) = some 0 := by
  decide +kernel

example : ∃ p' f r, sendMessage (toyPair.opts false) false 130 (toyNode false) (toyPair.id false)
      (toyPair.id true) toyMessage false toyRands = .ok (p', [toyMessageSent]) ∧
    Arrives toyPair (afterTell toyPair toyReal false 130 toyMessage p' [toyMessageSent]) false 0 140
      (reaction [] [messageSub open' echo]) (show UInt8 from 1) toyRands 130 toyMessageSent f r ∧
    r.events = [.custom (toyPair.id true) (toyPair.id false) (messageFor (List.replicate 32 1) [1, 2, 3, 4])] := by
  have hask : Asked toyMessage := show _ ≤ _ by decide
  obtain ⟨p', d, hs⟩ := C72_send_succeeds Crypto.toy_lawful toyPair toyPair_fits toyReal toyReal toyReal_start
    (.refl _) false 130 _ false toyRands hask (toy_can false)
  have hd : toyMessageSent = d := by
    unfold toyMessageSent
    have : sendMessage (toyPair.opts false) false 130 (toyNode false) (toyPair.id false) (toyPair.id true)
      toyMessage false toyRands = .ok (p', [d]) := hs
    rw [this]
  rw [← hd] at hs
  have hcan : CanSend toyPair true (arrive (toyPair.opts true) false 140 (toyNode true) toyMessageSent
      (show UInt8 from 1) toyRands) 140 toyRands :=
    { bytes := fun _ => rfl
      time := by decide
      count := by
        intro p prio h
        have := toyMessageSent_counts prio
        rw [show toyPair.id (!true) = toyPair.id false from rfl] at h
        rw [h] at this
        simp only [Option.map_some, Option.some.injEq] at this
        rw [this]; decide }
  cases hf : receive (toyPair.opts true) false 140 (reaction [] [messageSub open' echo])
      ⟨toyNode true, []⟩ toyMessageSent (show UInt8 from 1) toyRands with
  | mk f r =>
    have ha : Arrives toyPair (afterTell toyPair toyReal false 130 toyMessage p' [toyMessageSent]) false
        0 140 (reaction [] [messageSub open' echo]) (show UInt8 from 1) toyRands 130 toyMessageSent f r :=
      { sent := rfl
        clock := by decide
        started := by decide
        recent := show 140 ≤ 130 + 1000 by decide
        short := by
          intro e a h
          cases e with
          | answer _ _ => cases h
          | custom l q d =>
            simp only [reaction] at h
            split at h <;> cases h
          | query l q i d =>
            have : queryEffect [] d = .nothing ∨ queryEffect [] d = .error := by
              have : (processQuery [] d).1 = .error ∨ (processQuery [] d).1 = .rejected := by
                unfold processQuery
                split <;> simp [queryLoop]
              rcases this with e | e <;> simp [queryEffect, e]
            simp only [reaction] at h
            rcases this with e | e <;> rw [e] at h <;> cases h
        can := hcan
        result := hf
        accident := fun _ _ _ _ _ => .inl rfl }
    exact ⟨p', f, r, hs, ha, C110_message_arrives Crypto.toy_lawful toyPair toyPair_fits toyReal toyReal _ toyReal_start
      (.refl _) false 130 false toyRands p' [toyMessageSent] (List.replicate 32 1) [1, 2, 3, 4] hask (toy_can false) hs
      (fun _ _ _ _ => .inl rfl) (.refl _) (by simp [afterTell, toyReal]) _ _ 140 _ toyRands 130 toyMessageSent f r ha⟩

end Verif.OverlayTalk
