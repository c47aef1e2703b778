import Verif.Model.DhtFind
import Verif.Props.Found

/-!
# C125: a published address is found

`C121` (a search that asks a node with the value finds it) and `C81` (what `store_address` makes) with `find_address`.
-/
namespace Verif.Dht
open Verif.Tl Verif.Address Verif.AdnlProto Verif.DhtProto Verif.Storage

variable {c : Crypto}

/-! ### Spec -/

/-- The answer of a DHT node running this code, or none. `G` holds of every value that anybody wanted the node to store. -/
def Keeps (c : Crypto) (G : Value → Prop) (question : Bytes) (a : Option Bytes) : Prop :=
  a = none ∨ ∃ (o : Opts c) (adnl : Node.State c) (localId : Bytes) (maxPeers : Nat) (ds : List (Did c)) (e : Env c),
    a = (consumeQuery o e (replay o (init adnl localId maxPeers) ds) question).2.1.toAsker ∧
    ∀ w, (∃ d ∈ ds, d.offers o w) → G w ∧ w.wf

/-- The key under which a node's addresses are stored. -/
def addressKey (peerId : Bytes) : Key := ⟨peerId, "address".toUTF8.data.toList, 0⟩

/-- `w` is an address list that the node `peerId` signed; `pub` is its key and `addr` its address. -/
structure Locates (c : Crypto) (build : Build) (now tolerance : Nat) (peerId : Bytes) (w : Value) (addr : SockAddr)
    (pub : c.Pub) : Prop where
  key : w.key.key = addressKey peerId
  owner : peerId = c.sha (writePubKey w.key.id)
  pub : Receiver.fullId c w.key.id = some pub
  signed : SignedByOwner c w
  list : ∃ l, readAddrListBoxed w.value = some l ∧ parse build now tolerance l = .ok addr

theorem search_says (hc : c.Lawful) (key : Key) :
    Says (searchQuery c key) (.findValue (c.sha (writeKeyBoxed key)) 6) := by
  have := says_write (.findValue (c.sha (writeKeyBoxed key)) 6) ⟨hc.sha_length _, by decide⟩ []
  rwa [List.append_nil] at this

theorem notFound_no_value {T : Type} (parseT : Bytes → Option T) (l : List DNode) (key : KeyDesc) (t : T) :
    parseValueResult c parseT (writeValueResult (.notFound l)) ≠ .value key t := by
  unfold parseValueResult
  intro h
  split at h
  · cases h
  · rename_i v rest hr
    unfold writeValueResult readValueResult at hr
    simp only at hr
    obtain ⟨id, r1, g1, g2⟩ := bind_some hr
    rw [readU32_write _ (by decide)] at g1
    cases g1
    rw [if_neg (by decide), if_pos rfl] at g2
    obtain ⟨l', r2, -, g3⟩ := bind_some g2
    cases g3
  · cases h

/-- What a node keeping the rules answers about addresses. -/
theorem keeps_value (hc : c.Lawful) {G : Value → Prop} {peerId : Bytes}
    (hkeys : ∀ w, G w → c.sha (writeKeyBoxed w.key.key) = c.sha (writeKeyBoxed (addressKey peerId)) → w.key.key = addressKey peerId)
    {T : Type} {parseT : Bytes → Option T} {a : Bytes} (hk : Keeps c G (searchQuery c (addressKey peerId)) (some a))
    {key : KeyDesc} {t : T} (hp : parseValueResult c parseT a = .value key t) :
    ∃ w, G w ∧ w.key = key ∧ w.key.key = addressKey peerId ∧ peerId = c.sha (writePubKey w.key.id) ∧
      w.key.rule = .signature ∧ SignedByOwner c w ∧ parseT w.value = some t := by
  rcases hk with hk | ⟨o, adnl, localId, maxPeers, ds, e, hk, hG⟩
  · cases hk
  obtain ⟨ops, h1, h2, -⟩ := replay_ops o ds (init adnl localId maxPeers)
  change (replay o (init adnl localId maxPeers) ds).storage = Storage.run c o.storage [] ops at h1
  generalize replay o (init adnl localId maxPeers) ds = s at h1 hk
  rw [(C79_does_what_it_says o e s _ _ (search_says hc _)).2, handle] at hk
  cases hf : findValue o e.now s (c.sha (writeKeyBoxed (addressKey peerId))) 6 with
  | none => rw [hf] at hk; simp [replyOf, Reply.toAsker] at hk
  | some r =>
    rw [hf] at hk
    simp only [replyOf, Reply.toAsker, Option.some.injEq] at hk
    subst hk
    unfold findValue at hf
    split at hf
    · cases hf
    · cases hg : getRef s.storage (c.sha (writeKeyBoxed (addressKey peerId))) e.now with
      | none =>
        rw [hg] at hf
        cases hf
        exact absurd hp (notFound_no_value parseT _ key t)
      | some w =>
        rw [hg] at hf
        cases hf
        obtain ⟨hget, -⟩ := (C28_lookup_is_live _ _ _ _).mp hg
        rw [h1] at hget
        have hok := C29_entries_are_authentic (c := c) o.storage ops _ w hget
        rcases run_source o.storage ops [] _ w (AMap.mem_of_get hget) with h | ⟨v, hv, hvk, hvw⟩
        · cases h
        have hGv := hG v (h2 v hv)
        have hkey : w.key.key = addressKey peerId := by
          have := hkeys v hGv.1 (by rw [hvk, ← hok.key])
          rwa [hvk] at this
        have hrule : w.key.rule = .signature ∧ SignedByOwner c w := by
          rcases hok.rule with h | ⟨-, h, -⟩
          · exact h
          · rw [hkey] at h
            exact absurd h (show "address".toUTF8.data.toList ≠ "nodes".toUTF8.data.toList by decide)
        have hw : v = w := hvw hrule.1
        subst hw
        have hread := valueResult_encodes (.found v) hGv.2 []
        rw [List.append_nil] at hread
        unfold parseValueResult at hp
        rw [hread] at hp
        simp only at hp
        split at hp
        · cases hp
        · split at hp
          · cases hp
          · rename_i t' ht
            cases hp
            exact ⟨v, hGv.1, rfl, hkey, by rw [← hok.owner, hkey]; rfl, hrule.1, hrule.2, ht⟩

/-- C125: if all who answer run this code, what `find_address` returns is an address and the key of the node looked for:
the list was signed by it under its address key. -/
theorem C125_owner_partial (hc : c.Lawful) (build : Build) (now tolerance : Nat) (ask : Bytes → Bytes → Option Bytes)
    (order : List Bytes) (peerId : Bytes) (G : Value → Prop)
    (hkeys : ∀ w, G w → c.sha (writeKeyBoxed w.key.key) = c.sha (writeKeyBoxed (addressKey peerId)) → w.key.key = addressKey peerId)
    (hall : ∀ p ∈ order, Keeps c G (searchQuery c (addressKey peerId)) (ask p (searchQuery c (addressKey peerId)))) (addr : SockAddr) (pub : c.Pub)
    (h : searchAddress c build now tolerance ask order peerId = some (addr, pub)) :
    ∃ w, G w ∧ Locates c build now tolerance peerId w addr pub := by
  obtain ⟨key, list, hm, hp, hf⟩ := C32_find_address_partial c build now tolerance _ addr pub h
  obtain ⟨p, hpo, hb⟩ := List.mem_filterMap.mp hm
  obtain ⟨a, ha, hv⟩ := Option.bind_eq_some_iff.mp hb
  have hk := hall p hpo
  rw [show ask p (searchQuery c (addressKey peerId)) = some a from ha] at hk
  split at hv
  · rename_i k' t' hv'
    cases hv
    obtain ⟨w, h1, h2, h3, h4, -, h6, h7⟩ := keeps_value hc hkeys hk hv'
    exact ⟨w, h1, h3, h4, by rw [h2]; exact hf, h6, _, h7, hp⟩
  · cases hv


theorem findAddress_some {build : Build} {now tolerance : Nat} {l : List (KeyDesc × AddrList)} {key : KeyDesc} {list : AddrList}
    (hm : (key, list) ∈ l) {addr : SockAddr} {pub : c.Pub} (hp : parse build now tolerance list = .ok addr)
    (hf : Receiver.fullId c key.id = some pub) : ∃ r, findAddress c build now tolerance l = some r := by
  induction l with
  | nil => cases hm
  | cons x l ih =>
    obtain ⟨k, li⟩ := x
    unfold findAddress
    split
    · exact ⟨_, rfl⟩
    · rename_i hno
      rcases List.mem_cons.mp hm with h | h
      · cases h
        exact absurd hf (hno _ _ hp)
      · exact ih h

theorem parse_published {build : Build} {now tolerance t s : Nat} {addr : SockAddr} (ht : t < 2 ^ 32) (hs : s < 2 ^ 32)
    (htol : now + tolerance < 2 ^ 32) (hclock : s ≤ now + tolerance) :
    ∃ l, readAddrListBoxed (writeAddrListBoxed ⟨some (toAddr addr), t, s, 0⟩) = some l ∧
      parse build now tolerance l = .ok addr := by
  have hwl : addrListWf ⟨some (toAddr addr), t, s, 0⟩ :=
    ⟨(by intro a ha; cases ha; exact toAddr_wf addr), ht, hs, show 0 < 2 ^ 32 by decide⟩
  refine ⟨_, readAddrListBoxed_write _ hwl, ?_⟩
  unfold parse
  simp only [addU32, if_pos htol]
  rw [if_neg (by omega), if_neg (by omega), Props.C23_address_roundtrip addr]

open SearchNet (Over search) in
/-- C125: a node published its address, node `p` acknowledged it, and the search asks `p` before the value expires.
If all who answer run this code and the lists offered to them under that key are those that `store_address` makes of the
addresses `addrs`, `find_address` returns one of these addresses and the key of the node. -/
theorem C125_found_partial (hc : c.Lawful) (build : Build) (now tolerance : Nat) (ask : Bytes → Bytes → Option Bytes)
    (peerId : Bytes) (G : Value → Prop)
    (hkeys : ∀ w, G w → c.sha (writeKeyBoxed w.key.key) = c.sha (writeKeyBoxed (addressKey peerId)) → w.key.key = addressKey peerId)
    (addrs : List SockAddr) (htol : now + tolerance < 2 ^ 32)
    (hlists : ∀ w, G w → w.key.key = addressKey peerId → SignedByOwner c w → ∃ addr ∈ addrs, ∃ made start,
      w.value = writeAddrListBoxed ⟨some (toAddr addr), made, start, 0⟩ ∧ made < 2 ^ 32 ∧ start < 2 ^ 32 ∧ start ≤ now + tolerance)
    {cfg : Lookup.Cfg} (hs : Lookup.SortOk cfg.sort) (accept : List DNode → List Bytes) {known : List Bytes} (hn : known.Nodup)
    (bad : Bytes → Bool) (evs : List SearchNet.Ev) (S : SearchNet.World)
    (hS : S = search cfg (asNet c readAddrListBoxed accept fun p => ask p (searchQuery c (addressKey peerId))) known bad evs)
    (ho : Over cfg S) {p : Bytes} (hp : p ∈ S.stream.asked)
    (hall : ∀ p ∈ S.found, Keeps c G (searchQuery c (addressKey peerId)) (ask p (searchQuery c (addressKey peerId))))
    (o : Opts c) (h6 : 6 ≤ o.maxK) (adnl : Node.State c) (localId : Bytes) (maxPeers : Nat) (ds ds' : List (Did c))
    (e e' : Env c) (l peer qid data : Bytes) (v : Value) (hv : Offers data v) (hr : v.key.rule = .signature)
    (hvk : v.key.key = addressKey peerId)
    (hack : (consumeQuery o e (replay o (init adnl localId maxPeers) ds) data).2.1 = .answer writeStored)
    (hno : NoCollision o (ds ++ .asked e l peer qid data :: ds'))
    (hG : ∀ w, (∃ d ∈ ds ++ .asked e l peer qid data :: ds', d.offers o w) → G w ∧ w.wf)
    (hgc : ∀ d ∈ ds', ∀ t, d.collects t → t < v.ttl) (hnow : e'.now < v.ttl)
    (hask : ask p (searchQuery c (addressKey peerId)) =
      (consumeQuery o e' (replay o (init adnl localId maxPeers) (ds ++ .asked e l peer qid data :: ds'))
        (searchQuery c (addressKey peerId))).2.1.toAsker) :
    ∃ addr ∈ addrs, ∃ pub, searchAddress c build now tolerance ask S.found peerId = some (addr, pub) ∧
      ∃ w, G w ∧ Locates c build now tolerance peerId w addr pub := by
  subst hS
  obtain ⟨hfound, a, w, t, ha, hpv, hpt, hno', d, hd, hdw⟩ := C121_asked_gives hs readAddrListBoxed accept
    (fun p => ask p (searchQuery c (addressKey peerId))) hn bad evs ho hp o adnl localId maxPeers ds ds' e e' l peer qid data
    (searchQuery c (addressKey peerId)) v hv hr hack hno
    (fun a ha e w hw => (hG w ⟨a, ha, by rw [hw]; rfl⟩).2) hgc hnow 6 (by decide) h6
    (by rw [hvk]; exact search_says hc _) hask
    (fun d hd w hw hno' => by
      obtain ⟨addr, -, made, start, h1, h2, h3, h4⟩ := hlists w (hG w ⟨d, hd, hw⟩).1 (hno'.key.trans hvk) hno'.signed
      obtain ⟨li, h5, -⟩ := parse_published (build := build) (addr := addr) h2 h3 htol h4
      exact ⟨li, by rw [h1]; exact h5⟩)
  obtain ⟨key, pub, hk1, hk2, -⟩ := hno'.signed
  obtain ⟨addr, -, made, start, h1, h2, h3, h4⟩ := hlists w (hG w ⟨d, hd, hdw⟩).1 (hno'.key.trans hvk) hno'.signed
  obtain ⟨li, h5, h6'⟩ := parse_published (build := build) (addr := addr) h2 h3 htol h4
  rw [h1, h5] at hpt
  cases hpt
  obtain ⟨⟨addr', pub'⟩, hr'⟩ := findAddress_some (c := c) (build := build) (now := now) (tolerance := tolerance)
    (l := yielded c readAddrListBoxed (fun p => ask p (searchQuery c ⟨peerId, keyAddress, 0⟩)) 
      (search cfg (asNet c readAddrListBoxed accept fun p => ask p (searchQuery c (addressKey peerId))) known bad evs).found)
    (key := w.key) (list := t) (List.mem_filterMap.mpr ⟨p, hfound, by
      show (ask p (searchQuery c (addressKey peerId))).bind _ = _
      rw [show ask p (searchQuery c (addressKey peerId)) = some a from ha]
      simp only [Option.bind_some, hpv]⟩) h6' (by rw [hk1]; exact hk2)
  have hr'' : searchAddress c build now tolerance ask _ peerId = some (addr', pub') := hr'
  obtain ⟨w', g1, g2⟩ := C125_owner_partial hc build now tolerance ask _ peerId G hkeys hall addr' pub' hr''
  obtain ⟨addr2, hm, made, start, k1, k2, k3, k4⟩ := hlists w' g1 g2.key g2.signed
  obtain ⟨li', k5, k6⟩ := parse_published (build := build) (addr := addr2) k2 k3 htol k4
  obtain ⟨li2, k7, k8⟩ := g2.list
  rw [k1, k5] at k7
  cases k7
  rw [k6] at k8
  cases k8
  exact ⟨addr', hm, pub', hr'', w', g1, g2⟩


/-! ### An example, and what goes wrong -/
namespace FindExample
open SearchNet (Over search)
open SearchNet.Example (ids wholeCfg two)

abbrev T := Crypto.toy

def addrA : SockAddr := ⟨10, 0, 0, 1, 4000⟩
def addrB : SockAddr := ⟨10, 0, 0, 2, 4000⟩

/-- What the node with key 3, started at 800, stores of its address at time `now`. -/
def announced (addr : SockAddr) (now : Nat) : Value :=
  signValue T (3 : UInt8) ⟨⟨(addressEntry T now 800 (3 : UInt8) addr).key, fullTl T (3 : UInt8), .signature, []⟩,
    (addressEntry T now 800 (3 : UInt8) addr).data, now + 1000, []⟩

def peerId : Bytes := Node.shortId T (3 : UInt8)

example : (addressEntry T 900 800 (3 : UInt8) addrA).sign T .release 900 1000 (3 : UInt8) = some (announced addrA 900) := rfl

theorem announced_wf (addr : SockAddr) (now : Nat) (h : now < 2 ^ 31) : (announced addr now).wf := by
  have hlen : (writeAddrListBoxed ⟨some (toAddr addr), now, 800, 0⟩).length = 36 := by
    simp only [writeAddrListBoxed, writeAddrList, writeOpt, writeAddr, List.length_append, writeU32_length]
  refine published_wf Crypto.toy_lawful (m := .release) (t0 := now) (valueTtl := 1000)
    (en := addressEntry T now 800 (3 : UInt8) addr) (sec := (3 : UInt8)) ?_ rfl
    ⟨show keyAddress.length < 2 ^ 24 by decide, show 0 < 2 ^ 32 by decide, ?_, fun t ht => by cases ht⟩
  · have h1 : now + 1000 < 2 ^ 32 := by omega
    simp only [Entry.sign, Entry.makeValue, addressEntry, addU32, if_pos h1]
    rfl
  · show (writeAddrListBoxed _).length < 2 ^ 24
    rw [hlen]; decide

def G (w : Value) : Prop := w = announced addrA 900 ∨ w = announced addrB 1500

def storeOf (v : Value) : Bytes := writeQuery (.store v)

theorem storeOf_says {v : Value} (h : v.wf) : Says (storeOf v) (.store v) := by
  have := says_write (.store v) h []
  rwa [List.append_nil] at this

def at' (now : Nat) : Env T := { Example.env with now := now, now' := now }

/-- The first node was told the older address, the second one the newer. -/
def did (v : Value) (now : Nat) : List (Did T) := [.asked (at' now) [1] [2] [3] (storeOf v)]

def dht : State T := init ⟨[(Example.localId, [])], [], 0, [], []⟩ Example.localId 100

def ask (p q : Bytes) : Option Bytes :=
  if p = ids 1 then (consumeQuery Example.o (at' 1600) (replay Example.o dht (did (announced addrA 900) 900)) q).2.1.toAsker
  else if p = ids 2 then (consumeQuery Example.o (at' 1600) (replay Example.o dht (did (announced addrB 1500) 1500)) q).2.1.toAsker
  else none

theorem ask_two (q : Bytes) : ask (ids 2) q = (consumeQuery Example.o (at' 1600) (replay Example.o dht
    ([] ++ .asked (at' 1500) [1] [2] [3] (storeOf (announced addrB 1500)) :: [])) q).2.1.toAsker := by
  unfold ask
  rw [if_neg (by decide), if_pos rfl]
  rfl

theorem only (v : Value) (hv : v.wf) (now : Nat) : ∀ w, (∃ d ∈ did v now, d.offers Example.o w) → w = v := by
  rintro w ⟨d, hd, hw⟩
  rcases List.mem_singleton.mp hd with rfl
  obtain ⟨q, h1, h2⟩ := hw
  cases says_unique (storeOf_says hv) h1
  exact (Option.some.inj h2).symm

theorem keeps (p : Bytes) (q : Bytes) : Keeps T G q (ask p q) := by
  unfold ask
  split
  · refine .inr ⟨Example.o, _, _, _, did (announced addrA 900) 900, at' 1600, rfl, fun w hw => ?_⟩
    rw [only _ (announced_wf _ _ (by decide)) _ w hw]
    exact ⟨.inl rfl, announced_wf _ _ (by decide)⟩
  · split
    · refine .inr ⟨Example.o, _, _, _, did (announced addrB 1500) 1500, at' 1600, rfl, fun w hw => ?_⟩
      rw [only _ (announced_wf _ _ (by decide)) _ w hw]
      exact ⟨.inr rfl, announced_wf _ _ (by decide)⟩
    · exact .inl rfl

theorem keys : ∀ w, G w → w.key.key = addressKey peerId := by
  rintro w (rfl | rfl) <;> rfl

abbrev S := search wholeCfg (asNet T readAddrListBoxed (fun _ => []) fun p => ask p (searchQuery T (addressKey peerId)))
  [ids 1, ids 2] (fun _ => false) two

theorem over : Over wholeCfg S := by unfold Over; decide +kernel
theorem asked : ids 2 ∈ S.stream.asked := by decide +kernel

theorem lists : ∀ w, G w → w.key.key = addressKey peerId → SignedByOwner T w → ∃ addr ∈ [addrA, addrB], ∃ made start,
    w.value = writeAddrListBoxed ⟨some (toAddr addr), made, start, 0⟩ ∧ made < 2 ^ 32 ∧ start < 2 ^ 32 ∧ start ≤ 1600 + 60 := by
  rintro w (rfl | rfl) - -
  · exact ⟨addrA, by simp, 900, 800, rfl, by decide, by decide, by decide⟩
  · exact ⟨addrB, by simp, 1500, 800, rfl, by decide, by decide, by decide⟩

example := C125_found_partial Crypto.toy_lawful .release 1600 60 ask peerId G (fun w hw _ => keys w hw) [addrA, addrB]
  (by decide) lists (cfg := wholeCfg) Lookup.sortDesc_ok (fun _ => []) (known := [ids 1, ids 2]) (by decide) (fun _ => false)
  two S rfl over (p := ids 2) asked (fun p _ => keeps p _) Example.o (by decide) _ _ _ [] [] (at' 1500) (at' 1600) [1] [2] [3]
  (storeOf (announced addrB 1500)) (announced addrB 1500) ⟨_, storeOf_says (announced_wf _ _ (by decide)), rfl⟩ rfl rfl
  (by decide +kernel)
  (fun x y hx hy => by
    rw [only _ (announced_wf _ _ (by decide)) 1500 x hx, only _ (announced_wf _ _ (by decide)) 1500 y hy]
    rintro (⟨h, -⟩ | ⟨h, -⟩) <;> exact h rfl)
  (fun w hw => by
    rw [only _ (announced_wf _ _ (by decide)) 1500 w hw]
    exact ⟨.inr rfl, announced_wf _ _ (by decide)⟩)
  (fun d hd => by cases hd) (show 1600 < 2500 by decide) (ask_two _)

/-- The other order: the node with the older list answers first. -/
def late : List SearchNet.Ev := [.complete 1 fun _ => false, .complete 0 fun _ => false]

abbrev S' := search wholeCfg (asNet T readAddrListBoxed (fun _ => []) fun p => ask p (searchQuery T (addressKey peerId)))
  [ids 1, ids 2] (fun _ => false) late

theorem over' : Over wholeCfg S' ∧ S'.found = [ids 1, ids 2] := by unfold Over; decide +kernel

example := C125_owner_partial Crypto.toy_lawful .release 1600 60 ask S'.found peerId G (fun w hw _ => keys w hw) (fun p _ => keeps p _)

theorem result : searchAddress T .release 1600 60 ask S'.found peerId = some (addrA, (3 : UInt8)) := by
  have h : (searchAddress T .release 1600 60 ask S'.found peerId).map (fun r => (r.1, show UInt8 from r.2)) =
      some (addrA, (3 : UInt8)) := by decide +kernel
  obtain ⟨⟨x, y⟩, h1, h2⟩ := Option.map_eq_some_iff.mp h
  rw [h1]
  exact congrArg some h2

/-- The second node has the newer list. -/
theorem has_newer : ask (ids 2) (searchQuery T (addressKey peerId)) = some (writeValueResult (.found (announced addrB 1500))) := by
  decide +kernel

theorem announces (addr : SockAddr) (now : Nat) (hnow : now < 2 ^ 31) :
    Locates T .release 1600 60 peerId (announced addr now) addr (3 : UInt8) where
  key := rfl
  owner := rfl
  pub := Crypto.toy_lawful.decode_pub (show T.Pub from (3 : UInt8))
  signed := signedOk_owner (signedOk_sign Crypto.toy_lawful (3 : UInt8) _ _ _)
  list := parse_published (by omega) (by decide) (by decide) (by decide)

/-- A node that answers every question with its own address. -/
def liar (_ _ : Bytes) : Option Bytes := some (writeValueResult (.found (announced addrA 900)))

theorem lied : searchAddress T .release 1600 60 liar [ids 1] (ids 9) = some (addrA, (3 : UInt8)) := by
  have h : (searchAddress T .release 1600 60 liar [ids 1] (ids 9)).map (fun r => (r.1, show UInt8 from r.2)) =
      some (addrA, (3 : UInt8)) := by decide +kernel
  obtain ⟨⟨x, y⟩, h1, h2⟩ := Option.map_eq_some_iff.mp h
  rw [h1]
  exact congrArg some h2

end FindExample

/-- The property: what `find_address` returns belongs to the node looked for, whatever the nodes asked answer. -/
def C125_full : Prop :=
  ∀ (c : Crypto), c.Lawful → ∀ (build : Build) (now tolerance : Nat) (ask : Bytes → Bytes → Option Bytes) (order : List Bytes)
    (peerId : Bytes) (addr : SockAddr) (pub : c.Pub),
    searchAddress c build now tolerance ask order peerId = some (addr, pub) → Node.shortId c pub = peerId

/-- **C125** is false: a node that answers with its own address list is believed, whoever was looked for. -/
theorem C125_full_false : ¬ C125_full := by
  intro h
  have := h Crypto.toy Crypto.toy_lawful _ _ _ _ _ _ _ _ FindExample.lied
  exact absurd this (by decide +kernel)

open SearchNet (Over search) in
/-- C125: even if all who answer run this code, an address that was replaced can be returned although the search also asks
a node with the newer one: the first answer counts. -/
theorem C125_stale_partial : ∃ (ask : Bytes → Bytes → Option Bytes) (known : List Bytes) (evs : List SearchNet.Ev)
    (cfg : Lookup.Cfg) (S : SearchNet.World) (peerId p : Bytes) (G : Value → Prop) (w w' : Value) (addr addr' : SockAddr) (pub : UInt8),
    S = search cfg (asNet Crypto.toy readAddrListBoxed (fun _ => []) fun p => ask p (searchQuery Crypto.toy (addressKey peerId)))
      known (fun _ => false) evs ∧ Over cfg S ∧
    (∀ p q, Keeps Crypto.toy G q (ask p q)) ∧ (∀ w, G w → w.key.key = addressKey peerId) ∧
    Locates Crypto.toy .release 1600 60 peerId w addr pub ∧ Locates Crypto.toy .release 1600 60 peerId w' addr' pub ∧
    w.ttl < w'.ttl ∧ addr ≠ addr' ∧
    p ∈ S.found ∧ ask p (searchQuery Crypto.toy (addressKey peerId)) = some (writeValueResult (.found w')) ∧
    searchAddress Crypto.toy .release 1600 60 ask S.found peerId = some (addr, pub) :=
  ⟨FindExample.ask, [SearchNet.Example.ids 1, SearchNet.Example.ids 2], FindExample.late, SearchNet.Example.wholeCfg,
    FindExample.S', FindExample.peerId, SearchNet.Example.ids 2, FindExample.G, FindExample.announced FindExample.addrA 900,
    FindExample.announced FindExample.addrB 1500, FindExample.addrA, FindExample.addrB, 3, rfl, FindExample.over'.1, FindExample.keeps,
    FindExample.keys, FindExample.announces _ _ (by decide), FindExample.announces _ _ (by decide), by decide, by decide,
    by rw [FindExample.over'.2]; simp, FindExample.has_newer, FindExample.result⟩
end Verif.Dht
