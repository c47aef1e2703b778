import Verif.Props.SearchNet
import Verif.Props.Publish

/-!
# C117: a published value is found through the peers that have it

The network of `Model/SearchNet.lean` with the answers that DHT nodes give.
-/
namespace Verif.Dht
open Verif.Tl Verif.Address Verif.AdnlProto Verif.DhtProto Verif.Storage
open SearchNet (NoBad Over Near search knownAfter Complete)

variable {c : Crypto}

/-- What the search makes of the answers: `ask p` is the answer of `p` to the query of the search
(streams.rs:69-92, node.rs:495-526); `accept` are the ids of the records that `add_dht_peer` takes. -/
def asNet {T : Type} (c : Crypto) (parseT : Bytes → Option T) (accept : List DNode → List Bytes)
    (ask : Bytes → Option Bytes) (p : Bytes) : SearchNet.Reply :=
  match ask p with
  | none => .silent
  | some a =>
    match parseValueResult c parseT a with
    | .value _ _ => .value
    | .nodes l => .nodes (accept l)
    | .error => .silent

/-- The answer, if there is one. -/
def Reply.toAsker : Reply → Option Bytes
  | .answer a => some a
  | _ => none

/-- C117: a value stored by a node `n` answers away from the one who searches is found by the search that
follows `n` complete ones. The other nodes answer as they like, or not at all. -/
theorem C117_published_partial (hc : c.Lawful) {m : Build} {t0 valueTtl : Nat} {en : Entry} {sec : c.Sec} {v : Value}
    (hv : en.sign c m t0 valueTtl sec = some v) (hid : en.id = Node.shortId c (c.pubOf sec)) (hw : en.wf)
    (o : Opts c) (hf : Fits o.storage en) (e : Env c) (s : State c) (hlive : e.now < v.ttl)
    (hold : ∀ old, s.storage.get (storageKey c en.key) = some old → old.ttl < v.ttl)
    (e' : Env c) (hlive' : e'.now < v.ttl) (hk : 6 ≤ o.maxK)
    {T : Type} (parseT : Bytes → Option T) (x : T) (hx : parseT en.data = some x)
    (accept : List DNode → List Bytes) (ask : Bytes → Option Bytes) {p : Bytes}
    (hask : ask p = (consumeQuery o e' (consumeQuery o e s (writeQuery (.store v))).1
      (writeQuery (.findValue (storageKey c en.key) 6))).2.1.toAsker)
    {cfg : Lookup.Cfg} (hs : Lookup.SortOk cfg.sort) (hb : cfg.batch = none) {known : List Bytes} (hn : known.Nodup)
    (rs : List SearchNet.Round) (hrs : Complete cfg (asNet c parseT accept ask) known rs)
    (hp : Near (asNet c parseT accept ask) known rs.length p) (evs : List SearchNet.Ev) (hg : NoBad evs)
    (ho : Over cfg (search cfg (asNet c parseT accept ask)
      (knownAfter cfg (asNet c parseT accept ask) known rs) (fun _ => false) evs)) :
    p ∈ (search cfg (asNet c parseT accept ask)
      (knownAfter cfg (asNet c parseT accept ask) known rs) (fun _ => false) evs).found := by
  refine (SearchNet.C117_rounds_partial hs hb _ hn rs hrs evs hg ho hp).2 ?_
  rw [C81_found_partial hc hv hid hw o hf e s hlive hold e' 6 hlive' (by decide) hk (by decide)] at hask
  obtain ⟨key, hr, -⟩ := C81_read_partial hc hv hid hw parseT x hx
  unfold asNet
  rw [hask]
  simp only [Reply.toAsker, hr]

/-! An example: the only known peer names one that has the value of `C81`. -/
namespace Example
open SearchNet.Example (ids wholeCfg one two noBad)

/-- Peer 2 has got the value; peer 1 knows nothing but a node. -/
def ask (p : Bytes) : Option Bytes :=
  if p = ids 2 then
    (consumeQuery o env (consumeQuery o env s0 (writeQuery (.store (value 1)))).1
      (writeQuery (.findValue (storageKey T (entry 1).key) 6))).2.1.toAsker
  else if p = ids 1 then some (writeValueResult (.notFound [])) else none

/-- Whatever peer 1 answers, peer 2 becomes known. -/
def accept (_ : List DNode) : List Bytes := [ids 2]

abbrev N : Bytes → SearchNet.Reply := asNet T some accept ask

theorem rounds : Over wholeCfg (search wholeCfg N [ids 1] (fun _ => false) one) ∧
    knownAfter wholeCfg N [ids 1] [⟨one, []⟩] = [ids 1, ids 2] ∧
    Over wholeCfg (search wholeCfg N [ids 1, ids 2] (fun _ => false) two) ∧ N (ids 1) = .nodes [ids 2] := by
  unfold Over; decide +kernel

end Example

open SearchNet.Example (ids wholeCfg one two noBad) in
open Example in
example := C117_published_partial Crypto.toy_lawful (m := .release) (t0 := 1000) (valueTtl := 1000)
  (en := entry 1) (sec := (3 : UInt8)) (v := value 1) rfl rfl (entry_wf 1) o ⟨by decide, by decide⟩ env s0
  (show 1000 < 2000 by decide) (fun old h => by cases h) env (show 1000 < 2000 by decide) (by decide)
  some [1] rfl accept ask (p := ids 2) rfl (cfg := wholeCfg) Lookup.sortDesc_ok rfl (known := [ids 1]) (by decide)
  [⟨one, []⟩] ⟨noBad (.inl rfl), rounds.1, trivial⟩
  (.named 0 (ids 2) (ids 1) [ids 2] (.known 0 _ (by decide)) rounds.2.2.2 (by decide)) two (noBad (.inr rfl))
  (by rw [rounds.2.1]; exact rounds.2.2.1)

end Verif.Dht
