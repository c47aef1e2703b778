import Verif.Props.ReadYourWrites
import Verif.Props.SearchFind

/-!
# C121: a search that asks a node with the value finds the value

`C119` (what a node acknowledged it keeps and returns) with `C117` (whom a search asks): the nodes of the network go
through anything before and while they are asked.
-/
namespace Verif.Dht
open Verif.Tl Verif.Address Verif.AdnlProto Verif.DhtProto Verif.Storage
open SearchNet (NoBad Over Near search knownAfter Complete)

variable {c : Crypto}

/-! ### What is read from an answer with a value -/

theorem says_stored_wf {data : Bytes} {q : Query} (h : Says data q) : ∀ v, q.stored = some v → v.wf := by
  induction h with
  | plain h1 h2 =>
    rename_i data rest r id q
    intro v hv
    unfold readPlain at h2
    split at h2
    · obtain ⟨x, r1, -, h3⟩ := bind_some h2; cases h3; cases hv
    split at h2
    · obtain ⟨x, r1, -, h3⟩ := bind_some h2
      obtain ⟨x', r2, -, h4⟩ := bind_some h3
      cases h4; cases hv
    split at h2
    · obtain ⟨x, r1, -, h3⟩ := bind_some h2
      obtain ⟨x', r2, -, h4⟩ := bind_some h3
      cases h4; cases hv
    split at h2
    · obtain ⟨x, r1, h3, h4⟩ := bind_some h2
      cases h4
      cases hv
      exact value_yields _ _ _ h3
    · cases h2
  | own h => intro v hv; cases hv
  | nested h1 h2 h3 ih => exact ih

theorem signedOk_of_owner {v : Value} (h : SignedByOwner c v) : signedOk c v = .ok () := by
  obtain ⟨key, pub, h1, h2, h3, h4, h5, h6⟩ := h
  refine (signedOk_iff v).mpr ⟨pub, ?_, ?_, ?_⟩
  · simp [Receiver.fullId, h1, h2]
  · simp [verifySig, h3, h4]
  · simp [verifySig, h5, h6]

/-- A signed value is read from the answer that carries it. -/
theorem read_found {T : Type} (parseT : Bytes → Option T) {w : Value} (hw : w.wf)
    (hid : w.key.key.id = c.sha (writePubKey w.key.id)) (hs : SignedByOwner c w) {t : T} (ht : parseT w.value = some t) :
    parseValueResult c parseT (writeValueResult (.found w)) = .value w.key t := by
  have hr := valueResult_encodes (.found w) hw []
  rw [List.append_nil] at hr
  unfold parseValueResult
  rw [hr]
  simp only
  rw [if_neg, ht]
  rintro ⟨-, h⟩
  unfold verifySigned at h
  rw [signedOk_of_owner hs] at h
  simp [hid] at h

/-! ### C121 -/

/-- C121: node `p` acknowledged a signed value some time; the search asks it some time later, before the value expires.
The search hands out what `p` answers: that value, or a newer one of the same owner under the same key. -/
theorem C121_asked_gives {cfg : Lookup.Cfg} (hs : Lookup.SortOk cfg.sort) {T : Type} (parseT : Bytes → Option T)
    (accept : List DNode → List Bytes) (ask : Bytes → Option Bytes) {known : List Bytes} (hn : known.Nodup)
    (bad : Bytes → Bool) (evs : List SearchNet.Ev)
    (ho : Over cfg (search cfg (asNet c parseT accept ask) known bad evs)) {p : Bytes}
    (hp : p ∈ (search cfg (asNet c parseT accept ask) known bad evs).stream.asked)
    (o : Opts c) (adnl : Node.State c) (localId : Bytes) (maxPeers : Nat) (ds ds' : List (Did c))
    (e e' : Env c) (l peer qid data question : Bytes) (v : Value) (hv : Offers data v) (hr : v.key.rule = .signature)
    (hack : (consumeQuery o e (replay o (init adnl localId maxPeers) ds) data).2.1 = .answer writeStored)
    (hno : NoCollision o (ds ++ .asked e l peer qid data :: ds'))
    (hown : ∀ a ∈ ds ++ .asked e l peer qid data :: ds', ∀ e w, a = .aside (.publish e w) → w.wf)
    (hgc : ∀ d ∈ ds', ∀ t, d.collects t → t < v.ttl) (hnow : e'.now < v.ttl)
    (k : Nat) (hk0 : 0 < k) (hk : k ≤ o.maxK) (hq : Says question (.findValue (c.sha (writeKeyBoxed v.key.key)) k))
    (hask : ask p = (consumeQuery o e' (replay o (init adnl localId maxPeers) (ds ++ .asked e l peer qid data :: ds'))
      question).2.1.toAsker)
    (hT : ∀ d ∈ ds ++ .asked e l peer qid data :: ds', ∀ w, d.offers o w → NoOlder c v w → ∃ t, parseT w.value = some t) :
    p ∈ (search cfg (asNet c parseT accept ask) known bad evs).found ∧
      ∃ a w t, ask p = some a ∧ parseValueResult c parseT a = .value w.key t ∧ parseT w.value = some t ∧ NoOlder c v w ∧
        ∃ d ∈ ds ++ .asked e l peer qid data :: ds', d.offers o w := by
  obtain ⟨w, h1, ⟨d, hd, h2⟩, -, h3⟩ := C119_found o adnl localId maxPeers ds ds' e e' l peer qid data question v hv hr hack hno
    hgc hnow _ k hq rfl hk0 hk
  rw [h3 rfl] at hask
  have hid : v.key.key.id = c.sha (writePubKey v.key.id) := by
    obtain ⟨q, hq, hqv⟩ := hv
    rw [(C79_does_what_it_says o e _ data q hq).2] at hack
    obtain ⟨b, hins⟩ := acknowledged o e q v hqv _ hack
    exact (insert_checks o.storage e.order e.now e.now' _ _ v b hr hins).1
  have hwf : w.wf := by
    cases d with
    | asked e l peer qid data => obtain ⟨q, g1, g2⟩ := h2; exact says_stored_wf g1 _ g2
    | other ev y => exact h2.elim
    | aside a =>
      cases a with
      | query e data => obtain ⟨q, g1, g2⟩ := h2; exact says_stored_wf g1 _ g2
      | publish e w' => cases h2; exact hown _ hd _ _ rfl
      | announce e ttl fullId node =>
        have := h1.rule
        change overlayValue c o.adnl.build e.now ttl fullId node = some w at h2
        obtain ⟨t, -, rfl⟩ := Option.map_eq_some_iff.mp h2
        cases this
      | _ => exact h2.elim
  obtain ⟨t, ht⟩ := hT d hd w h2 h1
  have hread : parseValueResult c parseT (writeValueResult (.found w)) = .value w.key t :=
    read_found parseT hwf (by rw [h1.key, h1.owner]; exact hid) h1.signed ht
  refine ⟨?_, _, w, t, hask, hread, ht, h1, d, hd, h2⟩
  have hnet : asNet c parseT accept ask p = .value := by
    unfold asNet
    rw [hask]
    simp only [Reply.toAsker, hread]
  have hi := SearchNet.run_inv (net := asNet c parseT accept ask) hs evs (SearchNet.start_inv hs hn bad)
  have ht := SearchNet.run_told hs evs (SearchNet.start_inv hs hn bad) (SearchNet.start_told cfg (asNet c parseT accept ask) known bad)
  show p ∈ (search cfg (asNet c parseT accept ask) known bad evs).found
  rw [show (search cfg (asNet c parseT accept ask) known bad evs).found = _ from ht.found]
  exact List.mem_filter.mpr ⟨(SearchNet.over_seen hi ho).2.mem_iff.mp hp, by simpa using hnet⟩

/-- C121, from publishing to finding: the owner signed an entry and published nothing else under that key that lasts as
long; a node acknowledged it. Whoever knows that node and searches before the value expires is handed out the key, the
owner and the data that were published. -/
theorem C121_published (hc : c.Lawful) {m : Build} {t0 valueTtl : Nat} {en : Entry} {sec : c.Sec} {v : Value}
    (hv : en.sign c m t0 valueTtl sec = some v) (hid : en.id = Node.shortId c (c.pubOf sec)) (hw : en.wf)
    {cfg : Lookup.Cfg} (hs : Lookup.SortOk cfg.sort) (hb : cfg.batch = none) {T : Type} (parseT : Bytes → Option T) (x : T)
    (hx : parseT en.data = some x)
    (accept : List DNode → List Bytes) (ask : Bytes → Option Bytes) {known : List Bytes} (hn : known.Nodup)
    (bad : Bytes → Bool) (evs : List SearchNet.Ev)
    (ho : Over cfg (search cfg (asNet c parseT accept ask) known bad evs)) {p : Bytes} (hp : bad p = false)
    (hf : ∀ e ∈ evs, e.fine p) (hk : p ∈ known)
    (o : Opts c) (adnl : Node.State c) (localId : Bytes) (maxPeers : Nat) (ds ds' : List (Did c))
    (e e' : Env c) (l peer qid data question : Bytes) (hd : Offers data v)
    (hack : (consumeQuery o e (replay o (init adnl localId maxPeers) ds) data).2.1 = .answer writeStored)
    (hno : NoCollision o (ds ++ .asked e l peer qid data :: ds'))
    (hgc : ∀ d ∈ ds', ∀ t, d.collects t → t < v.ttl) (hnow : e'.now < v.ttl)
    (honly : ∀ d ∈ ds ++ .asked e l peer qid data :: ds', ∀ w, d.offers o w → NoOlder c v w → w = v)
    (k : Nat) (hk0 : 0 < k) (hkm : k ≤ o.maxK) (hq : Says question (.findValue (c.sha (writeKeyBoxed en.key)) k))
    (hask : ask p = (consumeQuery o e' (replay o (init adnl localId maxPeers) (ds ++ .asked e l peer qid data :: ds'))
      question).2.1.toAsker) :
    p ∈ (search cfg (asNet c parseT accept ask) known bad evs).found ∧
      ∃ a key, ask p = some a ∧ parseValueResult c parseT a = .value key x ∧ key.key = en.key ∧ key.id = fullTl c sec := by
  obtain ⟨t, rfl, -⟩ := sign_some hv
  rw [C119_exact o adnl localId maxPeers ds ds' e e' l peer qid data question _ hd rfl hack hno hgc hnow honly k hk0 hkm hq] at hask
  obtain ⟨key, h1, h2, h3⟩ := C81_read_partial hc hv hid hw parseT x hx
  refine ⟨?_, _, key, hask, h1, h2, h3⟩
  refine (SearchNet.C117_known_at_start_partial hs hb (asNet c parseT accept ask) hn bad evs ho hp hf hk).2 ?_
  unfold asNet
  rw [hask]
  simp only [Reply.toAsker, h1]

/-! An example: of two known peers one does not answer, the other one acknowledged the value 600 seconds ago and was
asked for it by others meanwhile. -/
namespace FoundExample
open SearchNet.Example (ids wholeCfg two noBad)
open LongTrip.Ryw (v storeQ findQ qid ds' dht)

def late : Env Crypto.toy := { Example.env with now := 1600 }

def answer : Option Bytes := (consumeQuery Example.o late (replay Example.o dht
    ([] ++ .asked Example.env (Delivery.toyPair.id true) (Delivery.toyPair.id false) qid storeQ :: ds')) findQ).2.1.toAsker

def ask (p : Bytes) : Option Bytes := if p = ids 2 then answer else none

theorem ask_self : ask (ids 2) = answer := if_pos rfl

abbrev S := search wholeCfg (asNet Crypto.toy some (fun _ => []) ask) [ids 1, ids 2] (fun _ => false) two

theorem over : Over wholeCfg S := by
  unfold Over; decide +kernel

theorem asked : ids 2 ∈ S.stream.asked := by decide +kernel

attribute [local irreducible] SearchNet.run

theorem gcs : ∀ d ∈ ds', ∀ t, d.collects t → t < v.ttl := fun d hd => LongTrip.Ryw.collects d (List.mem_append_right _ hd)

example := C121_asked_gives (c := Crypto.toy) (T := Bytes) (cfg := wholeCfg) Lookup.sortDesc_ok some (fun _ => []) ask (known := [ids 1, ids 2]) (by decide)
  (fun _ => false) two over (p := ids 2) asked Example.o _ _ _ [] ds' Example.env late (Delivery.toyPair.id true) (Delivery.toyPair.id false)
  qid storeQ findQ v ⟨_, LongTrip.Ryw.store_says, rfl⟩ rfl (by decide +kernel) LongTrip.Ryw.no_collision
  (by
    intro a ha e w he
    subst he
    simp only [ds', List.nil_append, List.mem_cons, List.not_mem_nil, or_false, reduceCtorEq, Did.aside.injEq] at ha)
  gcs (show 1600 < 2000 by decide) 5 (by decide) (by decide) LongTrip.Ryw.find_says ask_self (fun _ _ w _ _ => ⟨_, rfl⟩)

example := C121_published Crypto.toy_lawful (m := .release) (t0 := 1000) (valueTtl := 1000) (en := Example.entry 1)
  (sec := (3 : UInt8)) (v := v) rfl rfl (Example.entry_wf 1) (cfg := wholeCfg) Lookup.sortDesc_ok rfl some _ rfl (fun _ => []) ask
  (known := [ids 1, ids 2]) (by decide) (fun _ => false) two over (p := ids 2) rfl (fun e he => noBad (.inr rfl) e he _)
  (by decide) Example.o _ _ _ [] ds' Example.env late (Delivery.toyPair.id true) (Delivery.toyPair.id false)
  qid storeQ findQ ⟨_, LongTrip.Ryw.store_says, rfl⟩ (by decide +kernel) LongTrip.Ryw.no_collision gcs (show 1600 < 2000 by decide)
  (fun d hd w hw _ => LongTrip.Ryw.only_v w ⟨d, hd, hw⟩) 5 (by decide) (by decide) LongTrip.Ryw.find_says ask_self

end FoundExample

end Verif.Dht
