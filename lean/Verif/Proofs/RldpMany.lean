import Verif.Spec.RldpMany
import Verif.Props.RldpExchange
import Verif.Proofs.AMap

/-!
# One RLDP query among others behaves as on its own (for C112)

The part of the world that belongs to one transfer id and its negation is a run of `Model/RldpExchange.lean`, and every
step of that run can be made in the world.
-/
namespace Verif.RldpTable
open Verif.Rldp

variable {f : Fec}

theorem other_neg {t id : Bytes} (h : Other t id) : Other t (negateId id) :=
  ⟨fun e => h.2 (by rw [← e, negateId_negateId]), fun e => h.1 (by
    have := congrArg negateId e
    rwa [negateId_negateId, negateId_negateId] at this)⟩

theorem negate_ne {t : Bytes} (h : t ≠ []) : negateId t ≠ t := by
  intro e
  cases t with
  | nil => exact h rfl
  | cons a l =>
    have : a ^^^ 0xff = a := by
      simp only [negateId, List.map_cons, List.cons.injEq] at e
      exact e.1
    have h2 := congrArg (fun b => a ^^^ b) this
    simp only [← UInt8.xor_assoc, UInt8.xor_self, UInt8.zero_xor] at h2
    exact absurd h2 (by decide)

/-! ### What concerns other transfers -/

/-- The same entries and tasks for transfer `x`. -/
structure AgreeAt (x : Bytes) (s s' : RNode f) : Prop where
  table : s'.table.get x = s.table.get x
  outs : s'.outs.get x = s.outs.get x
  ins : s'.ins.get x = s.ins.get x
  asks : s'.asks.get x = s.asks.get x
  ended : s'.ended.get x = s.ended.get x
  served : x ∈ s'.served ↔ x ∈ s.served
  runs : s'.runs.filter (fun r => decide (r.1 = x)) = s.runs.filter (fun r => decide (r.1 = x))

theorem AgreeAt.refl (x : Bytes) (s : RNode f) : AgreeAt x s s := ⟨rfl, rfl, rfl, rfl, rfl, Iff.rfl, rfl⟩

theorem AgreeAt.trans {x : Bytes} {s s' s'' : RNode f} (h : AgreeAt x s s') (h' : AgreeAt x s' s'') : AgreeAt x s s'' :=
  ⟨h'.table.trans h.table, h'.outs.trans h.outs, h'.ins.trans h.ins, h'.asks.trans h.asks, h'.ended.trans h.ended,
    h'.served.trans h.served, h'.runs.trans h.runs⟩

theorem setState_agree {x id : Bytes} (h : x ≠ id) (s : RNode f) (g : OutState → OutState) :
    AgreeAt x s (s.setState id g) := by
  unfold RNode.setState
  split
  · exact ⟨rfl, AMap.get_put_ne _ _ h, rfl, rfl, rfl, Iff.rfl, rfl⟩
  · exact .refl x s

theorem take_agree {x id : Bytes} (h : x ≠ id) (h' : x ≠ negateId id) (s : RNode f) (m : Part) :
    AgreeAt x s (s.take id m).1 ∧ ∀ r ∈ (s.take id m).2, idOf r.2 = id := by
  unfold RNode.take
  split
  · exact ⟨.refl x s, fun r hr => absurd hr List.not_mem_nil⟩
  · rename_i t _
    refine ⟨?_, ?_⟩
    · have h1 : AgreeAt x s { s with
          ins := s.ins.put id { t with rcv := (t.rcv.step m).1 }
          table := if (t.rcv.step m).1.left && !t.own then s.table.put id .done else s.table } := by
        refine ⟨?_, rfl, AMap.get_put_ne _ _ h, rfl, rfl, Iff.rfl, rfl⟩
        simp only
        split
        · exact AMap.get_put_ne _ _ h
        · rfl
      simp only
      split
      · exact h1.trans (setState_agree h' _ _)
      · exact h1
    · intro r hr
      obtain ⟨a, -, rfl⟩ := List.mem_map.mp hr
      cases a <;> rfl

theorem handle_agree {x : Bytes} (o : ROpts) (build : Build) (s : RNode f) (src : Nat) (m : PartMsg)
    (h : x ≠ idOf m) (h' : x ≠ negateId (idOf m)) :
    AgreeAt x s (s.handle o build src m).1 ∧ ∀ r ∈ (s.handle o build src m).2, idOf r.2 = idOf m := by
  cases m with
  | part id m =>
    simp only [idOf] at h h' ⊢
    simp only [RNode.handle]
    split
    · exact take_agree h h' s m
    · refine ⟨.refl x s, ?_⟩
      intro r hr
      simp only [List.mem_cons, List.not_mem_nil, or_false] at hr
      rcases hr with rfl | rfl <;> rfl
    · obtain ⟨h1, h2⟩ := take_agree h h' { s with
        table := s.table.put id .incoming
        ins := s.ins.put id ⟨Receiving.new f o.maxAnswer, src, false⟩ } m
      refine ⟨AgreeAt.trans ?_ h1, h2⟩
      exact ⟨AMap.get_put_ne _ _ h, rfl, AMap.get_put_ne _ _ h, rfl, rfl, Iff.rfl, rfl⟩
  | confirm id p n =>
    simp only [idOf] at h h' ⊢
    simp only [RNode.handle]
    refine ⟨?_, fun r hr => absurd hr List.not_mem_nil⟩
    split
    · exact setState_agree h _ _
    · exact .refl x s
  | complete id p =>
    simp only [idOf] at h h' ⊢
    simp only [RNode.handle]
    refine ⟨?_, fun r hr => absurd hr List.not_mem_nil⟩
    split
    · exact setState_agree h _ _
    · exact .refl x s

theorem send_agree {x id : Bytes} (h : x ≠ id) (build : Build) (s : RNode f) (a : SendAct) :
    AgreeAt x s (s.send build id a).1 ∧ ∀ r ∈ (s.send build id a).2, idOf r.2 = id := by
  unfold RNode.send
  split
  · exact ⟨.refl x s, fun r hr => absurd hr List.not_mem_nil⟩
  · refine ⟨⟨?_, AMap.get_put_ne _ _ h, rfl, rfl, rfl, Iff.rfl, rfl⟩, ?_⟩
    · simp only
      split
      · rfl
      · exact AMap.get_put_ne _ _ h
    · intro r hr
      obtain ⟨a, -, rfl⟩ := List.mem_map.mp hr
      rfl

theorem ask_agree {x id : Bytes} (h : x ≠ id) (h' : x ≠ negateId id) (z : Zstd) (o : ROpts) (s : RNode f) (peer : Nat)
    (qid data : Bytes) (timeout : Nat) : AgreeAt x s (s.ask z o peer id qid data timeout) := by
  unfold RNode.ask
  refine ⟨?_, AMap.get_put_ne _ _ h, AMap.get_put_ne _ _ h', AMap.get_put_ne _ _ h, rfl, Iff.rfl, rfl⟩
  simp only
  rw [AMap.get_put_ne _ _ h', AMap.get_put_ne _ _ h]

theorem serve_agree {x id : Bytes} (h : x ≠ id) (h' : x ≠ negateId id) (z : Zstd) (o : ROpts) (s : RNode f) :
    AgreeAt x s (s.serve z o id) := by
  unfold RNode.serve
  split
  · exact .refl x s
  · rename_i t _
    split
    · have hs : x ∈ id :: s.served ↔ x ∈ s.served := by simp [h]
      have hr : (s.runs ++ [(id, t.peer, t.rcv.transfer.data)]).filter (fun r => decide (r.1 = x)) =
          s.runs.filter (fun r => decide (r.1 = x)) := by
        rw [List.filter_append]
        simp [Ne.symm h]
      simp only
      split
      · exact ⟨AMap.get_put_ne _ _ h', AMap.get_put_ne _ _ h', rfl, rfl, rfl, hs, hr⟩
      · exact ⟨rfl, rfl, rfl, rfl, rfl, hs, hr⟩
    · exact .refl x s

theorem finish_agree {x id : Bytes} (h : x ≠ id) (h' : x ≠ negateId id) (z : Zstd) (s : RNode f) :
    AgreeAt x s (s.finish z id) := by
  unfold RNode.finish
  split
  · split
    · exact ⟨AMap.get_put_ne _ _ h', rfl, rfl, rfl, AMap.get_put_ne _ _ h, Iff.rfl, rfl⟩
    · exact .refl x s
  · exact .refl x s

theorem quit_agree {x id : Bytes} (h : x ≠ id) (h' : x ≠ negateId id) (s : RNode f) : AgreeAt x s (s.quit id) := by
  unfold RNode.quit
  split
  · exact ⟨AMap.get_put_ne _ _ h', rfl, rfl, rfl, AMap.get_put_ne _ _ h, Iff.rfl, rfl⟩
  · exact .refl x s

theorem expire_agree {x id : Bytes} (h : x ≠ id) (s : RNode f) : AgreeAt x s (s.expire id) := by
  unfold RNode.expire
  split
  · split
    · exact .refl x s
    · exact ⟨AMap.get_put_ne _ _ h, rfl, rfl, rfl, rfl, Iff.rfl, rfl⟩
  · exact .refl x s

theorem other_sym {t id : Bytes} (h : Other t id) : t ≠ id ∧ t ≠ negateId id ∧ negateId t ≠ id ∧ negateId t ≠ negateId id :=
  ⟨fun e => h.1 e.symm, fun e => (other_neg h).1 e.symm, fun e => h.2 e.symm, fun e => (other_neg h).2 e.symm⟩

/-! ### The two ends of one query among others -/

/-- State of the client's receiver for the answer. -/
def recvOf (c : Setup) (x : Exchange f) : Receiving f :=
  match x.answer with
  | some s => s.recv
  | none => Receiving.new f c.maxClient

structure Client (b : Nat) (t : Bytes) (c : Setup) (s : RNode f) (x : Exchange f) : Prop where
  out : s.outs.get t = some ⟨x.query.out, x.query.phase, b⟩
  slot : s.table.get t = some (if x.query.phase.running then .outgoing else .done)
  ask : s.asks.get t = some c.queryId
  ended : s.ended.get t = x.ended
  rcv : s.ins.get (negateId t) = some ⟨recvOf c x, b, true⟩
  rslot : s.table.get (negateId t) = some (if x.ended.isSome then .done else .incoming)
  noIn : s.ins.get t = none
  noOut : s.outs.get (negateId t) = none
  noAsk : s.asks.get (negateId t) = none
  noRun : s.runs.filter (fun r => decide (r.1 = t)) = []

structure Server (a : Nat) (t : Bytes) (c : Setup) (s : RNode f) (x : Exchange f) : Prop where
  rcv : (s.ins.get t = none ∧ s.table.get t = none ∧ x.query.recv = Receiving.new f c.maxServer ∧
      x.query.expired = false) ∨
    (s.ins.get t = some ⟨x.query.recv, a, false⟩ ∧
      s.table.get t = some (if x.query.expired || x.query.recv.left then .done else .incoming))
  served : t ∈ s.served ↔ x.served = true
  runs : s.runs.filter (fun r => decide (r.1 = t)) =
    if x.served then [(t, a, x.query.recv.transfer.data)] else []
  noAnswer : x.answer = none → s.outs.get (negateId t) = none ∧ s.table.get (negateId t) = none
  answer : ∀ y, x.answer = some y → s.outs.get (negateId t) = some ⟨y.out, y.phase, a⟩ ∧
    s.table.get (negateId t) = some (if y.phase.running then .outgoing else .done)
  noIn : s.ins.get (negateId t) = none
  noOut : s.outs.get t = none
  noAsk : s.asks.get t = none ∧ s.asks.get (negateId t) = none

/-- Nodes that have nothing to do with it. -/
structure Apart (t : Bytes) (s : RNode f) : Prop where
  table : s.table.get t = none ∧ s.table.get (negateId t) = none
  ins : s.ins.get t = none ∧ s.ins.get (negateId t) = none
  outs : s.outs.get t = none ∧ s.outs.get (negateId t) = none
  asks : s.asks.get t = none ∧ s.asks.get (negateId t) = none
  served : t ∉ s.served
  runs : s.runs.filter (fun r => decide (r.1 = t)) = []
  ended : s.ended.get t = none

/-- The letters of this query are those of the exchange. -/
def Fits (a b : Nat) (t : Bytes) (x : Exchange f) (l : Letter) : Prop :=
  match l.msg with
  | .part id m => (id = t → l.src = a ∧ l.dst = b ∧ m ∈ x.query.net) ∧
      (id = negateId t → l.src = b ∧ l.dst = a ∧ ∃ y, x.answer = some y ∧ m ∈ y.net)
  | .confirm id p n => (id = t → l.dst = a ∧ Ack.confirm p n ∈ x.query.back) ∧
      (id = negateId t → l.dst = b ∧ ∃ y, x.answer = some y ∧ Ack.confirm p n ∈ y.back)
  | .complete id p => (id = t → l.dst = a ∧ Ack.complete p ∈ x.query.back) ∧
      (id = negateId t → l.dst = b ∧ ∃ y, x.answer = some y ∧ Ack.complete p ∈ y.back)

/-- Everything the exchange sent was really sent. -/
structure Full (a b : Nat) (t : Bytes) (w : World f) (x : Exchange f) : Prop where
  qnet : ∀ m ∈ x.query.net, (⟨a, b, .part t m⟩ : Letter) ∈ w.net
  qback : ∀ k ∈ x.query.back, (⟨b, a, ackMsg t k⟩ : Letter) ∈ w.net
  anet : ∀ y, x.answer = some y → ∀ m ∈ y.net, (⟨b, a, .part (negateId t) m⟩ : Letter) ∈ w.net
  aback : ∀ y, x.answer = some y → ∀ k ∈ y.back, (⟨a, b, ackMsg (negateId t) k⟩ : Letter) ∈ w.net

structure Sim (a b : Nat) (t : Bytes) (c : Setup) (w : World f) (x : Exchange f) : Prop where
  client : Client b t c (w.node a) x
  server : Server a t c (w.node b) x
  apart : ∀ n, n ≠ a → n ≠ b → Apart t (w.node n)
  link : ∀ y, x.answer = some y → y.expired = x.ended.isSome ∧ x.query.recv.left = true ∧ x.served = true
  left : x.served = true → x.query.recv.left = true
  net : ∀ l ∈ w.net, Fits a b t x l
  full : Full a b t w x

theorem fits_other {a b : Nat} {t : Bytes} {x : Exchange f} {l : Letter} (h : Other t (idOf l.msg)) : Fits a b t x l := by
  unfold Fits
  split <;> rename_i e <;> rw [e] at h <;> exact ⟨fun e => absurd e h.1, fun e => absurd e h.2⟩

theorem client_agree {b : Nat} {t : Bytes} {c : Setup} {s s' : RNode f} {x : Exchange f} (h : Client b t c s x)
    (h1 : AgreeAt t s s') (h2 : AgreeAt (negateId t) s s') : Client b t c s' x :=
  ⟨h1.outs.trans h.out, h1.table.trans h.slot, h1.asks.trans h.ask, h1.ended.trans h.ended, h2.ins.trans h.rcv,
    h2.table.trans h.rslot, h1.ins.trans h.noIn, h2.outs.trans h.noOut, h2.asks.trans h.noAsk, h1.runs.trans h.noRun⟩

theorem server_agree {a : Nat} {t : Bytes} {c : Setup} {s s' : RNode f} {x : Exchange f} (h : Server a t c s x)
    (h1 : AgreeAt t s s') (h2 : AgreeAt (negateId t) s s') : Server a t c s' x := by
  refine ⟨?_, h1.served.trans h.served, h1.runs.trans h.runs, ?_, ?_, h2.ins.trans h.noIn, h1.outs.trans h.noOut,
    h1.asks.trans h.noAsk.1, h2.asks.trans h.noAsk.2⟩
  · rcases h.rcv with ⟨r1, r2, r3⟩ | ⟨r1, r2⟩
    · exact .inl ⟨h1.ins.trans r1, h1.table.trans r2, r3⟩
    · exact .inr ⟨h1.ins.trans r1, h1.table.trans r2⟩
  · exact fun hx => ⟨h2.outs.trans (h.noAnswer hx).1, h2.table.trans (h.noAnswer hx).2⟩
  · exact fun y hy => ⟨h2.outs.trans (h.answer y hy).1, h2.table.trans (h.answer y hy).2⟩

theorem apart_agree {t : Bytes} {s s' : RNode f} (h : Apart t s) (h1 : AgreeAt t s s') (h2 : AgreeAt (negateId t) s s') :
    Apart t s' :=
  ⟨⟨h1.table.trans h.table.1, h2.table.trans h.table.2⟩, ⟨h1.ins.trans h.ins.1, h2.ins.trans h.ins.2⟩,
    ⟨h1.outs.trans h.outs.1, h2.outs.trans h.outs.2⟩, ⟨h1.asks.trans h.asks.1, h2.asks.trans h.asks.2⟩,
    fun e => h.served (h1.served.mp e), h1.runs.trans h.runs, h1.ended.trans h.ended⟩

/-- A step that leaves the entries of this query alone and sends nothing for it. -/
theorem sim_frame {a b : Nat} {t : Bytes} {c : Setup} {w : World f} {x : Exchange f} (h : Sim a b t c w x) (n : Nat)
    (r : RNode f × List (Nat × PartMsg)) (h1 : AgreeAt t (w.node n) r.1) (h2 : AgreeAt (negateId t) (w.node n) r.1)
    (h3 : ∀ y ∈ r.2, Other t (idOf y.2)) : Sim a b t c (w.put n r) x := by
  have ag : ∀ k, AgreeAt t (w.node k) ((w.put n r).node k) ∧ AgreeAt (negateId t) (w.node k) ((w.put n r).node k) := by
    intro k
    simp only [World.put]
    split
    · rename_i e; subst e; exact ⟨h1, h2⟩
    · exact ⟨.refl _ _, .refl _ _⟩
  refine ⟨client_agree h.client (ag a).1 (ag a).2, server_agree h.server (ag b).1 (ag b).2,
    fun k ka kb => apart_agree (h.apart k ka kb) (ag k).1 (ag k).2, h.link, h.left, ?_,
    ⟨fun m hm => List.mem_append_left _ (h.full.qnet m hm), fun m hm => List.mem_append_left _ (h.full.qback m hm),
      fun y hy m hm => List.mem_append_left _ (h.full.anet y hy m hm),
      fun y hy m hm => List.mem_append_left _ (h.full.aback y hy m hm)⟩⟩
  intro l hl
  rcases List.mem_append.mp hl with hl | hl
  · exact h.net l hl
  · obtain ⟨y, hy, rfl⟩ := List.mem_map.mp hl
    exact fits_other (h3 y hy)

/-! ### The steps of this query -/

theorem client_congr {b : Nat} {t : Bytes} {c : Setup} {s : RNode f} {x x' : Exchange f} (h : Client b t c s x)
    (h1 : x'.query.out = x.query.out) (h2 : x'.query.phase = x.query.phase) (h3 : x'.ended = x.ended)
    (h4 : recvOf c x' = recvOf c x) : Client b t c s x' :=
  ⟨by rw [h1, h2]; exact h.out, by rw [h2]; exact h.slot, h.ask, by rw [h3]; exact h.ended, by rw [h4]; exact h.rcv,
    by rw [h3]; exact h.rslot, h.noIn, h.noOut, h.noAsk, h.noRun⟩

theorem server_congr {a : Nat} {t : Bytes} {c : Setup} {s : RNode f} {x x' : Exchange f} (h : Server a t c s x)
    (h1 : x'.query.recv = x.query.recv) (h2 : x'.query.expired = x.query.expired) (h3 : x'.served = x.served)
    (h4 : x'.answer.map (fun y => (y.out, y.phase)) = x.answer.map (fun y => (y.out, y.phase))) : Server a t c s x' := by
  refine ⟨by rw [h1, h2]; exact h.rcv, by rw [h3]; exact h.served, by rw [h1, h3]; exact h.runs, ?_, ?_, h.noIn, h.noOut,
    h.noAsk⟩
  · intro e
    rw [e, Option.map_none] at h4
    exact h.noAnswer (Option.map_eq_none_iff.mp h4.symm)
  · intro y e
    rw [e, Option.map_some] at h4
    obtain ⟨y', e', h5⟩ := Option.map_eq_some_iff.mp h4.symm
    have h6 := h.answer y' e'
    simp only [Prod.mk.injEq] at h5
    rw [← h5.1, ← h5.2]
    exact h6

theorem fits_mono {a b : Nat} {t : Bytes} {x x' : Exchange f} {l : Letter} (h : Fits a b t x l)
    (h1 : ∀ m ∈ x.query.net, m ∈ x'.query.net) (h2 : ∀ m ∈ x.query.back, m ∈ x'.query.back)
    (h3 : ∀ y, x.answer = some y → ∃ y', x'.answer = some y' ∧ (∀ m ∈ y.net, m ∈ y'.net) ∧
      ∀ m ∈ y.back, m ∈ y'.back) : Fits a b t x' l := by
  unfold Fits at h ⊢
  split at h
  · refine ⟨fun e => ⟨(h.1 e).1, (h.1 e).2.1, h1 _ (h.1 e).2.2⟩, fun e => ?_⟩
    obtain ⟨k1, k2, y, k3, k4⟩ := h.2 e
    obtain ⟨y', g1, g2, g3⟩ := h3 y k3
    exact ⟨k1, k2, y', g1, g2 _ k4⟩
  · refine ⟨fun e => ⟨(h.1 e).1, h2 _ (h.1 e).2⟩, fun e => ?_⟩
    obtain ⟨k2, y, k3, k4⟩ := h.2 e
    obtain ⟨y', g1, g2, g3⟩ := h3 y k3
    exact ⟨k2, y', g1, g3 _ k4⟩
  · refine ⟨fun e => ⟨(h.1 e).1, h2 _ (h.1 e).2⟩, fun e => ?_⟩
    obtain ⟨k2, y, k3, k4⟩ := h.2 e
    obtain ⟨y', g1, g2, g3⟩ := h3 y k3
    exact ⟨k2, y', g1, g3 _ k4⟩

/-- Nothing of what was sent is taken back. -/
def Grows (x x' : Exchange f) : Prop :=
  (∀ m ∈ x.query.net, m ∈ x'.query.net) ∧ (∀ m ∈ x.query.back, m ∈ x'.query.back) ∧
    ∀ y, x.answer = some y → ∃ y', x'.answer = some y' ∧ (∀ m ∈ y.net, m ∈ y'.net) ∧ ∀ m ∈ y.back, m ∈ y'.back

/-- A step of the client. -/
theorem sim_client {a b : Nat} (hab : a ≠ b) {t : Bytes} {c : Setup} {w : World f} {x x' : Exchange f}
    (h : Sim a b t c w x) (r : RNode f × List (Nat × PartMsg)) (hc : Client b t c r.1 x')
    (hs : Server a t c (w.node b) x')
    (hl : ∀ y, x'.answer = some y → y.expired = x'.ended.isSome ∧ x'.query.recv.left = true ∧ x'.served = true)
    (hv : x'.served = true → x'.query.recv.left = true)
    (hg : Grows x x') (hn : ∀ y ∈ r.2, Fits a b t x' ⟨a, y.1, y.2⟩)
    (hf : Full a b t (w.put a r) x') : Sim a b t c (w.put a r) x' := by
  refine ⟨?_, ?_, ?_, hl, hv, ?_, hf⟩
  · simp only [World.put, if_true]; exact hc
  · simp only [World.put, if_neg hab.symm]; exact hs
  · intro n na nb
    simp only [World.put, if_neg na]
    exact h.apart n na nb
  · intro l hl
    rcases List.mem_append.mp hl with hl | hl
    · exact fits_mono (h.net l hl) hg.1 hg.2.1 hg.2.2
    · obtain ⟨y, hy, rfl⟩ := List.mem_map.mp hl
      exact hn y hy

/-- A step of the server. -/
theorem sim_server {a b : Nat} (hab : a ≠ b) {t : Bytes} {c : Setup} {w : World f} {x x' : Exchange f}
    (h : Sim a b t c w x) (r : RNode f × List (Nat × PartMsg)) (hs : Server a t c r.1 x')
    (hc : Client b t c (w.node a) x')
    (hl : ∀ y, x'.answer = some y → y.expired = x'.ended.isSome ∧ x'.query.recv.left = true ∧ x'.served = true)
    (hv : x'.served = true → x'.query.recv.left = true)
    (hg : Grows x x') (hn : ∀ y ∈ r.2, Fits a b t x' ⟨b, y.1, y.2⟩)
    (hf : Full a b t (w.put b r) x') : Sim a b t c (w.put b r) x' := by
  refine ⟨?_, ?_, ?_, hl, hv, ?_, hf⟩
  · simp only [World.put, if_neg hab]; exact hc
  · simp only [World.put, if_true]; exact hs
  · intro n na nb
    simp only [World.put, if_neg nb]
    exact h.apart n na nb
  · intro l hl
    rcases List.mem_append.mp hl with hl | hl
    · exact fits_mono (h.net l hl) hg.1 hg.2.1 hg.2.2
    · obtain ⟨y, hy, rfl⟩ := List.mem_map.mp hl
      exact hn y hy

/-- Nothing new was sent. -/
theorem full_keep {a b : Nat} {t : Bytes} {w : World f} {x x' : Exchange f} (h : Full a b t w x) (n : Nat)
    (r : RNode f × List (Nat × PartMsg)) (h1 : x'.query.net = x.query.net) (h2 : x'.query.back = x.query.back)
    (h3 : ∀ y', x'.answer = some y' → (∃ y, x.answer = some y ∧ y'.net = y.net ∧ y'.back = y.back) ∨
      (y'.net = [] ∧ y'.back = [])) : Full a b t (w.put n r) x' := by
  refine ⟨?_, ?_, ?_, ?_⟩
  · intro m hm
    rw [h1] at hm
    exact List.mem_append_left _ (h.qnet m hm)
  · intro m hm
    rw [h2] at hm
    exact List.mem_append_left _ (h.qback m hm)
  · intro y' hy' m hm
    rcases h3 y' hy' with ⟨y, k1, k2, k3⟩ | ⟨k2, k3⟩ <;> rw [k2] at hm
    · exact List.mem_append_left _ (h.anet y k1 m hm)
    · exact absurd hm List.not_mem_nil
  · intro y' hy' m hm
    rcases h3 y' hy' with ⟨y, k1, k2, k3⟩ | ⟨k2, k3⟩ <;> rw [k3] at hm
    · exact List.mem_append_left _ (h.aback y k1 m hm)
    · exact absurd hm List.not_mem_nil

/-- A step that does not change the node. -/
theorem sim_same {a b : Nat} {t : Bytes} {c : Setup} {w : World f} {x : Exchange f} (h : Sim a b t c w x) (n : Nat)
    {r : RNode f × List (Nat × PartMsg)} (hr : r = (w.node n, [])) : Sim a b t c (w.put n r) x := by
  subst hr
  exact sim_frame h n _ (.refl _ _) (.refl _ _) (fun y hy => absurd hy List.not_mem_nil)

/-- The step of the transfer that a step of `send` is. -/
def SendAct.act : SendAct → Act
  | .begin => .begin
  | .bind => .bind
  | .chunk => .chunk
  | .check => .check
  | .giveUp => .giveUp

theorem sendStep (build : Build) (s : Sys f) (peer : Nat) (a : SendAct) :
    (OutTask.step f build ⟨s.out, s.phase, peer⟩ a).1 = ⟨(s.step build a.act).out, (s.step build a.act).phase, peer⟩ ∧
    (s.step build a.act).net = s.net ++ (OutTask.step f build ⟨s.out, s.phase, peer⟩ a).2.toList ∧
    (s.step build a.act).recv = s.recv ∧ (s.step build a.act).expired = s.expired ∧
    (s.step build a.act).back = s.back ∧ ((s.step build a.act).phase.running = true → s.phase.running = true) := by
  cases a with
  | begin =>
    simp only [SendAct.act, Sys.step, OutTask.step]
    by_cases hp : s.phase = .start
    · simp only [hp, if_true]
      unfold Sys.begin
      split <;> rename_i e <;> rw [e] <;> simp [Phase.running]
    · simp only [hp, if_false]
      simp
  | bind =>
    simp only [SendAct.act, Sys.step, OutTask.step]
    by_cases hp : s.phase = .begun
    · simp [hp, Phase.running]
    · simp [hp]
  | chunk =>
    simp only [SendAct.act, Sys.step, OutTask.step]
    split
    · rename_i p hp
      unfold Sys.chunk
      split <;> simp_all [Phase.running]
    · split
      · simp_all
      · simp
  | check =>
    simp only [SendAct.act, Sys.step, OutTask.step]
    split
    · rename_i p hp
      unfold Sys.check
      split <;> simp_all [Phase.running]
    · split
      · simp_all
      · simp
  | giveUp =>
    simp only [SendAct.act, Sys.step, OutTask.step]
    split
    · rename_i p hp
      simp [hp, Phase.running]
    · split
      · simp_all
      · simp

theorem xstep_query (c : Setup) (build : Build) (x : Exchange f) (a : SendAct) :
    x.step c build (.query a.act) = { x with query := x.query.step build a.act } := by
  cases a <;> rfl

theorem xstep_answer (c : Setup) (build : Build) (x : Exchange f) (a : SendAct) {y : Sys f} (hy : x.answer = some y) :
    x.step c build (.answer a.act) = { x with answer := some (y.step build a.act) } := by
  cases a <;> simp only [SendAct.act, Exchange.step, hy, Exchange.noted]

/-- A step of the task that sends the query. -/
theorem sim_sendQuery {e : Env} {a b : Nat} (hab : a ≠ b) {t : Bytes} (ht : t ≠ []) {c : Setup} {w : World f}
    {x : Exchange f} (h : Sim a b t c w x) (k : SendAct) :
    Sim a b t c (w.step e (.send a t k)) (x.step c e.build (.query k.act)) := by
  have hne := negate_ne ht
  simp only [World.step]
  rw [xstep_query]
  obtain ⟨s1, s2, s3, s4, s5, s6⟩ := sendStep e.build x.query b k
  have er : (w.node a).send e.build t k = ({ w.node a with
      outs := (w.node a).outs.put t ⟨(x.query.step e.build k.act).out, (x.query.step e.build k.act).phase, b⟩
      table := if (x.query.step e.build k.act).phase.running then (w.node a).table
        else (w.node a).table.put t .done },
      (OutTask.step f e.build ⟨x.query.out, x.query.phase, b⟩ k).2.toList.map fun m => (b, .part t m)) := by
    unfold RNode.send
    rw [h.client.out]
    simp only [s1]
  rw [er]
  have hc := h.client
  refine sim_client hab h _ ⟨AMap.get_put_self _ _ _, ?_, hc.ask, hc.ended, hc.rcv, ?_, hc.noIn, ?_, hc.noAsk, hc.noRun⟩
    (server_congr h.server s3 s4 rfl rfl) ?_ ?_ ⟨?_, ?_, fun y hy => ⟨y, hy, fun _ h => h, fun _ h => h⟩⟩ ?_
    ⟨?_, ?_, ?_, ?_⟩
  · simp only
    cases hr : (x.query.step e.build k.act).phase.running with
    | true => rw [if_pos rfl, if_pos rfl]; rw [hc.slot, s6 hr]; rfl
    | false => simp [AMap.get_put_self]
  · simp only
    split
    · exact hc.rslot
    · rw [AMap.get_put_ne _ _ hne]; exact hc.rslot
  · simp only
    rw [AMap.get_put_ne _ _ hne]; exact hc.noOut
  · intro y hy
    rw [show (_ : Exchange f).query.recv = _ from s3]
    exact h.link y hy
  · intro hv
    rw [show (_ : Exchange f).query.recv = _ from s3]
    exact h.left hv
  · intro m hm
    simp only [s2]
    exact List.mem_append_left _ hm
  · intro m hm
    simp only [s5]
    exact hm
  · intro y hy
    obtain ⟨m, hm, rfl⟩ := List.mem_map.mp hy
    refine ⟨fun _ => ⟨rfl, rfl, ?_⟩, fun e => absurd e.symm hne⟩
    simp only [s2]
    exact List.mem_append_right _ hm
  · intro m hm
    simp only [s2] at hm
    rcases List.mem_append.mp hm with hm | hm
    · exact List.mem_append_left _ (h.full.qnet m hm)
    · exact List.mem_append_right _ (List.mem_map.mpr ⟨_, List.mem_map_of_mem hm, rfl⟩)
  · intro m hm
    simp only [s5] at hm
    exact List.mem_append_left _ (h.full.qback m hm)
  · exact fun y hy m hm => List.mem_append_left _ (h.full.anet y hy m hm)
  · exact fun y hy m hm => List.mem_append_left _ (h.full.aback y hy m hm)

/-- A step of the task that sends the answer. -/
theorem sim_sendAnswer {e : Env} {a b : Nat} (hab : a ≠ b) {t : Bytes} (ht : t ≠ []) {c : Setup} {w : World f}
    {x : Exchange f} (h : Sim a b t c w x) (k : SendAct) :
    Sim a b t c (w.step e (.send b (negateId t) k)) (x.step c e.build (.answer k.act)) := by
  have hne := negate_ne ht
  simp only [World.step]
  cases hy : x.answer with
  | none =>
    have : x.step c e.build (.answer k.act) = x := by
      cases k <;> simp only [SendAct.act, Exchange.step, hy]
    rw [this]
    exact sim_same h b (by simp only [RNode.send, (h.server.noAnswer hy).1])
  | some y =>
    rw [xstep_answer _ _ _ _ hy]
    obtain ⟨s1, s2, s3, s4, s5, s6⟩ := sendStep e.build y a k
    have er : (w.node b).send e.build (negateId t) k = ({ w.node b with
        outs := (w.node b).outs.put (negateId t) ⟨(y.step e.build k.act).out, (y.step e.build k.act).phase, a⟩
        table := if (y.step e.build k.act).phase.running then (w.node b).table
          else (w.node b).table.put (negateId t) .done },
        (OutTask.step f e.build ⟨y.out, y.phase, a⟩ k).2.toList.map fun m => (a, .part (negateId t) m)) := by
      unfold RNode.send
      rw [(h.server.answer y hy).1]
      simp only [s1]
    rw [er]
    have hs := h.server
    have hl := h.link y hy
    refine sim_server hab h _ ⟨?_, hs.served, hs.runs, (fun e => absurd e (by simp)), ?_, hs.noIn, ?_, hs.noAsk⟩
      (client_congr h.client rfl rfl rfl ?_) ?_ h.left ⟨fun _ h => h, fun _ h => h, ?_⟩ ?_ ⟨?_, ?_, ?_, ?_⟩
    · rcases hs.rcv with ⟨r1, r2, r3⟩ | ⟨r1, r2⟩
      · exact absurd hl.2.1 (by rw [r3.1]; simp [Receiving.new])
      · refine .inr ⟨r1, ?_⟩
        simp only
        split
        · exact r2
        · rw [AMap.get_put_ne _ _ hne.symm]; exact r2
    · intro y' e
      cases e
      refine ⟨AMap.get_put_self _ _ _, ?_⟩
      simp only
      cases hr : (y.step e.build k.act).phase.running with
      | true => rw [if_pos rfl, if_pos rfl, (hs.answer y hy).2, s6 hr]; rfl
      | false => simp [AMap.get_put_self]
    · simp only
      rw [AMap.get_put_ne _ _ hne.symm]; exact hs.noOut
    · simp only [recvOf, hy, s3]
    · intro y' e
      cases e
      rw [s4]
      exact hl
    · intro y' e
      rw [hy] at e
      cases e
      refine ⟨_, rfl, ?_, ?_⟩
      · intro m hm
        rw [s2]
        exact List.mem_append_left _ hm
      · intro m hm
        rw [s5]
        exact hm
    · intro z hz
      obtain ⟨m, hm, rfl⟩ := List.mem_map.mp hz
      refine ⟨fun e => absurd e hne, fun _ => ⟨rfl, rfl, _, rfl, ?_⟩⟩
      rw [s2]
      exact List.mem_append_right _ hm
    · exact fun m hm => List.mem_append_left _ (h.full.qnet m hm)
    · exact fun m hm => List.mem_append_left _ (h.full.qback m hm)
    · intro y' e m hm
      cases e
      rw [s2] at hm
      rcases List.mem_append.mp hm with hm | hm
      · exact List.mem_append_left _ (h.full.anet y hy m hm)
      · exact List.mem_append_right _ (List.mem_map.mpr ⟨_, List.mem_map_of_mem hm, rfl⟩)
    · intro y' e m hm
      cases e
      rw [s5] at hm
      exact List.mem_append_left _ (h.full.aback y hy m hm)

/-- Steps of the tasks of others, and of tasks that do not exist. -/
theorem sim_sendOther {e : Env} {a b : Nat} {t : Bytes} {c : Setup} {w : World f} {x : Exchange f}
    (h : Sim a b t c w x) (n : Nat) (id : Bytes) (k : SendAct) (h1 : ¬ (n = a ∧ id = t)) (h2 : ¬ (n = b ∧ id = negateId t)) :
    Sim a b t c (w.step e (.send n id k)) x := by
  simp only [World.step]
  by_cases i1 : id = t
  · subst i1
    have : (w.node n).outs.get id = none := by
      by_cases hb : n = b
      · subst hb; exact h.server.noOut
      · exact (h.apart n (fun e => h1 ⟨e, rfl⟩) hb).outs.1
    exact sim_same h n (by simp only [RNode.send, this])
  · by_cases i2 : id = negateId t
    · subst i2
      have : (w.node n).outs.get (negateId t) = none := by
        by_cases ha : n = a
        · subst ha; exact h.client.noOut
        · exact (h.apart n ha (fun e => h2 ⟨e, rfl⟩)).outs.2
      exact sim_same h n (by simp only [RNode.send, this])
    · have o := other_sym (t := t) ⟨i1, i2⟩
      refine sim_frame h n _ (send_agree o.1 _ _ _).1 (send_agree o.2.2.1 _ _ _).1 ?_
      intro y hy
      rw [(send_agree o.1 e.build (w.node n) k).2 y hy]
      exact ⟨i1, i2⟩

theorem handle_ack (o : ROpts) (build : Build) (s : RNode f) (src : Nat) (id : Bytes) (k : Ack) :
    s.handle o build src (ackMsg id k) =
      (if s.table.get id = some .outgoing then s.setState id (fun st => st.ack build k) else s, []) := by
  cases k <;> rfl

theorem slot_running (p : Phase) : (some (if p.running = true then Slot.outgoing else .done) = some .outgoing) ↔
    p.running = true := by
  cases p.running <;> simp

/-- A confirmation for the query. -/
theorem sim_ackQuery {e : Env} {a b : Nat} (hab : a ≠ b) {t : Bytes} (ht : t ≠ []) {c : Setup} {w : World f}
    {x : Exchange f} (h : Sim a b t c w x) (src : Nat) (k : Ack) {i : Nat} (hi : x.query.back[i]? = some k) :
    Sim a b t c (w.put a ((w.node a).handle (e.opts a) e.build src (ackMsg t k)))
      (x.step c e.build (.query (.ack i))) := by
  have hne := negate_ne ht
  rw [handle_ack]
  have hc := h.client
  by_cases hr : x.query.phase.running = true
  · have ex : x.step c e.build (.query (.ack i)) = { x with query := { x.query with
        out := { x.query.out with st := x.query.out.st.ack e.build k } } } := by
      simp only [Exchange.step, Sys.step, hi, hr, if_true]
    rw [ex, hc.slot, if_pos ((slot_running _).mpr hr)]
    simp only [RNode.setState, hc.out]
    refine sim_client hab h _ ⟨AMap.get_put_self _ _ _, hc.slot, hc.ask, hc.ended, hc.rcv, hc.rslot, hc.noIn, ?_, hc.noAsk, hc.noRun⟩
      (server_congr h.server rfl rfl rfl rfl) h.link h.left
      ⟨fun _ h => h, fun _ h => h, fun y hy => ⟨y, hy, fun _ h => h, fun _ h => h⟩⟩
      (fun y hy => absurd hy List.not_mem_nil)
      (full_keep h.full _ _ rfl rfl fun y hy => .inl ⟨y, hy, rfl, rfl⟩)
    simp only
    rw [AMap.get_put_ne _ _ hne]
    exact hc.noOut
  · have ex : x.step c e.build (.query (.ack i)) = x := by
      simp only [Exchange.step, Sys.step, hi, hr]
      rfl
    rw [ex]
    refine sim_same h a ?_
    rw [hc.slot, if_neg (fun e => hr ((slot_running _).mp e))]

/-- A confirmation for the answer. -/
theorem sim_ackAnswer {e : Env} {a b : Nat} (hab : a ≠ b) {t : Bytes} (ht : t ≠ []) {c : Setup} {w : World f}
    {x : Exchange f} (h : Sim a b t c w x) (src : Nat) (k : Ack) {y : Sys f} (hy : x.answer = some y) {i : Nat}
    (hi : y.back[i]? = some k) :
    Sim a b t c (w.put b ((w.node b).handle (e.opts b) e.build src (ackMsg (negateId t) k)))
      (x.step c e.build (.answer (.ack i))) := by
  have hne := negate_ne ht
  rw [handle_ack]
  have hs := h.server
  by_cases hr : y.phase.running = true
  · have ex : x.step c e.build (.answer (.ack i)) = { x with answer := some { y with
        out := { y.out with st := y.out.st.ack e.build k } } } := by
      simp only [Exchange.step, Sys.step, hy, Exchange.noted, hi, hr, if_true]
    rw [ex, (hs.answer y hy).2, if_pos ((slot_running _).mpr hr)]
    simp only [RNode.setState, (hs.answer y hy).1]
    refine sim_server hab h _ ⟨hs.rcv, hs.served, hs.runs, (fun e => absurd e (by simp)), ?_, hs.noIn, ?_, hs.noAsk⟩
      (client_congr h.client rfl rfl rfl (by simp only [recvOf, hy])) ?_ h.left
      ⟨fun _ h => h, fun _ h => h, ?_⟩ (fun y hy => absurd hy List.not_mem_nil)
      (full_keep h.full _ _ rfl rfl fun y' hy' => by cases hy'; exact .inl ⟨y, hy, rfl, rfl⟩)
    · intro y' e
      cases e
      exact ⟨AMap.get_put_self _ _ _, (hs.answer y hy).2⟩
    · simp only
      rw [AMap.get_put_ne _ _ hne.symm]
      exact hs.noOut
    · intro y' e
      cases e
      exact h.link y hy
    · intro y' e
      rw [hy] at e
      cases e
      exact ⟨_, rfl, fun _ h => h, fun _ h => h⟩
  · have ex : x.step c e.build (.answer (.ack i)) = x := by
      simp only [Exchange.step, Sys.step, hy, Exchange.noted, hi, hr]
      simp [← hy]
    rw [ex]
    refine sim_same h b ?_
    rw [(hs.answer y hy).2, if_neg (fun e => hr ((slot_running _).mp e))]

theorem fits_ackQuery {a b : Nat} {t : Bytes} (ht : t ≠ []) {x : Exchange f} {src : Nat} {k : Ack}
    (h : k ∈ x.query.back) : Fits a b t x ⟨src, a, ackMsg t k⟩ := by
  cases k <;> exact ⟨fun _ => ⟨rfl, h⟩, fun e => absurd e.symm (negate_ne ht)⟩

theorem fits_ackAnswer {a b : Nat} {t : Bytes} (ht : t ≠ []) {x : Exchange f} {src : Nat} {k : Ack} {y : Sys f}
    (hy : x.answer = some y) (h : k ∈ y.back) : Fits a b t x ⟨src, b, ackMsg (negateId t) k⟩ := by
  cases k <;> exact ⟨fun e => absurd e (negate_ne ht), fun _ => ⟨rfl, y, hy, h⟩⟩

/-- A message part of the query. -/
theorem sim_partQuery {e : Env} {a b : Nat} (hab : a ≠ b) {t : Bytes} (ht : t ≠ []) {c : Setup}
    (hm : (e.opts b).maxAnswer = c.maxServer) {w : World f}
    {x : Exchange f} (h : Sim a b t c w x) (m : Part) {i : Nat} (hi : x.query.net[i]? = some m) :
    Sim a b t c (w.put b ((w.node b).handle (e.opts b) e.build a (.part t m)))
      (x.step c e.build (.query (.deliver i))) := by
  have hne := negate_ne ht
  have hs := h.server
  have ex : x.step c e.build (.query (.deliver i)) = { x with query := x.query.receive m } := by
    simp only [Exchange.step, Sys.step, hi]
  rw [ex]
  by_cases hd : (x.query.expired || x.query.recv.left) = true
  · -- blindly confirmed
    have hin : (w.node b).table.get t = some .done := by
      rcases hs.rcv with ⟨r1, r2, r3, r4⟩ | ⟨r1, r2⟩
      · rw [r3, r4] at hd
        exact absurd hd (by simp [Receiving.new])
      · rw [r2, hd]; rfl
    have eh : (w.node b).handle (e.opts b) e.build a (.part t m) =
        (w.node b, [(a, .confirm t m.part m.seqno), (a, .complete t m.part)]) := by
      simp only [RNode.handle, hin]
    have er : x.query.receive m = { x.query with back := x.query.back ++ [.confirm m.part m.seqno, .complete m.part] } := by
      simp only [Sys.receive, hd, if_true]
    rw [eh, er]
    refine sim_server hab h _ (server_congr hs rfl rfl rfl rfl) (client_congr h.client rfl rfl rfl rfl) h.link h.left
      ⟨fun _ h => h, fun _ h => List.mem_append_left _ h, fun y hy => ⟨y, hy, fun _ h => h, fun _ h => h⟩⟩ ?_
      ⟨fun m hm => List.mem_append_left _ (h.full.qnet m hm), ?_,
        fun y hy m hm => List.mem_append_left _ (h.full.anet y hy m hm),
        fun y hy m hm => List.mem_append_left _ (h.full.aback y hy m hm)⟩
    · intro y hy
      simp only [List.mem_cons, List.not_mem_nil, or_false] at hy
      rcases hy with rfl | rfl
      · exact fits_ackQuery (k := .confirm m.part m.seqno) ht (List.mem_append_right _ (by simp))
      · exact fits_ackQuery (k := .complete m.part) ht (List.mem_append_right _ (by simp))
    · intro k hk
      rcases List.mem_append.mp hk with hk | hk
      · exact List.mem_append_left _ (h.full.qback k hk)
      · simp only [List.mem_cons, List.not_mem_nil, or_false] at hk
        rcases hk with rfl | rfl <;> exact List.mem_append_right _ (by simp [ackMsg])
  · -- handed to `receive`
    have er : x.query.receive m = { x.query with
        recv := (x.query.recv.step m).1, back := x.query.back ++ Reply.acks (x.query.recv.step m).2 } := by
      simp only [Sys.receive, hd]
      rfl
    have hsv : x.served = false := by
      cases hv : x.served with
      | false => rfl
      | true => rw [h.left hv] at hd; simp at hd
    have hans : x.answer = none := by
      cases hy : x.answer with
      | none => rfl
      | some y => rw [(h.link y hy).2.2] at hsv; cases hsv
    have hexp : x.query.expired = false := by
      cases hx : x.query.expired with
      | false => rfl
      | true => rw [hx] at hd; simp at hd
    -- the node after the part
    have key : ∀ s1 : RNode f, s1.ins.get t = some ⟨x.query.recv, a, false⟩ → s1.table.get t = some .incoming →
        AgreeAt (negateId t) (w.node b) s1 → s1.outs = (w.node b).outs → s1.served = (w.node b).served →
        s1.runs = (w.node b).runs → s1.asks = (w.node b).asks →
        Sim a b t c (w.put b (s1.take t m)) { x with query := x.query.receive m } := by
      intro s1 k1 k2 k3 k4 k5 k6 k7
      rw [er]
      have et : s1.take t m = ({ s1 with
          ins := s1.ins.put t ⟨(x.query.recv.step m).1, a, false⟩
          table := if (x.query.recv.step m).1.left then s1.table.put t .done else s1.table },
          (Reply.acks (x.query.recv.step m).2).map fun k => (a, ackMsg t k)) := by
        simp only [RNode.take, k1]
        simp
      rw [et]
      refine sim_server hab h _ ⟨?_, ?_, ?_, ?_, ?_, ?_, ?_, ?_⟩ (client_congr h.client rfl rfl rfl rfl) ?_ ?_
        ⟨fun _ h => h, fun _ h => List.mem_append_left _ h, fun y hy => ⟨y, hy, fun _ h => h, fun _ h => h⟩⟩ ?_
        ⟨fun m hm => List.mem_append_left _ (h.full.qnet m hm), ?_,
          fun y hy m hm => List.mem_append_left _ (h.full.anet y hy m hm),
          fun y hy m hm => List.mem_append_left _ (h.full.aback y hy m hm)⟩
      · refine .inr ⟨AMap.get_put_self _ _ _, ?_⟩
        simp only [hexp, Bool.false_or]
        cases (x.query.recv.step m).1.left with
        | true => simp [AMap.get_put_self]
        | false => simpa using k2
      · simp only [k5, hsv]
        rw [← hsv]
        exact hs.served
      · simp only [k6]
        rw [hs.runs, hsv]
        rfl
      · intro hy
        refine ⟨by simp only [k4]; exact (hs.noAnswer hans).1, ?_⟩
        simp only
        have : s1.table.get (negateId t) = none := k3.table.trans (hs.noAnswer hans).2
        split
        · rw [AMap.get_put_ne _ _ hne]; exact this
        · exact this
      · intro y hy
        rw [hans] at hy
        cases hy
      · simp only
        rw [AMap.get_put_ne _ _ hne]
        exact k3.ins.trans hs.noIn
      · simp only [k4]; exact hs.noOut
      · simp only [k7]; exact hs.noAsk
      · intro y hy
        rw [hans] at hy
        cases hy
      · intro hv
        rw [hsv] at hv
        cases hv
      · intro y hy
        obtain ⟨k, hk, rfl⟩ := List.mem_map.mp hy
        exact fits_ackQuery ht (List.mem_append_right _ hk)
      · intro k hk
        rcases List.mem_append.mp hk with hk | hk
        · exact List.mem_append_left _ (h.full.qback k hk)
        · exact List.mem_append_right _ (List.mem_map.mpr ⟨_, List.mem_map_of_mem hk, rfl⟩)
    rcases hs.rcv with ⟨r1, r2, r3, r4⟩ | ⟨r1, r2⟩
    · simp only [RNode.handle, r2]
      refine key _ ?_ ?_ ⟨?_, rfl, ?_, rfl, rfl, Iff.rfl, rfl⟩ rfl rfl rfl rfl
      · simp only [AMap.get_put_self, hm, r3]
      · simp only [AMap.get_put_self]
      · simp only [AMap.get_put_ne _ _ hne]
      · simp only [AMap.get_put_ne _ _ hne]
    · have r2' : (w.node b).table.get t = some .incoming := by rw [r2, if_neg hd]
      simp only [RNode.handle, r2']
      exact key _ r1 r2' (.refl _ _) rfl rfl rfl rfl

/-- A message part of the answer. -/
theorem sim_partAnswer {e : Env} {a b : Nat} (hab : a ≠ b) {t : Bytes} (ht : t ≠ []) {c : Setup} {w : World f}
    {x : Exchange f} (h : Sim a b t c w x) (m : Part) {y : Sys f} (hy : x.answer = some y) {i : Nat}
    (hi : y.net[i]? = some m) :
    Sim a b t c (w.put a ((w.node a).handle (e.opts a) e.build b (.part (negateId t) m)))
      (if x.ended.isNone && y.recv.left then x else x.step c e.build (.answer (.deliver i))) := by
  have hne := negate_ne ht
  have hc := h.client
  obtain ⟨hl1, hl2, hl3⟩ := h.link y hy
  have hrcv : (w.node a).ins.get (negateId t) = some ⟨y.recv, b, true⟩ := by
    have := hc.rcv
    simpa only [recvOf, hy] using this
  by_cases hend : x.ended.isSome = true
  · have hno : x.ended.isNone = false := by rw [Option.isSome_iff_exists] at hend; obtain ⟨r, hr⟩ := hend; rw [hr]; rfl
    rw [hno, Bool.false_and, if_neg Bool.false_ne_true]
    have ex : x.step c e.build (.answer (.deliver i)) = { x with answer := some { y with
        back := y.back ++ [.confirm m.part m.seqno, .complete m.part] } } := by
      simp only [Exchange.step, Sys.step, hy, Exchange.noted, hi, hl1, hend, Sys.receive]
      simp
    have eh : (w.node a).handle (e.opts a) e.build b (.part (negateId t) m) =
        (w.node a, [(b, .confirm (negateId t) m.part m.seqno), (b, .complete (negateId t) m.part)]) := by
      simp only [RNode.handle, hc.rslot, hend, if_true]
    rw [ex, eh]
    refine sim_client hab h _ (client_congr hc rfl rfl rfl (by simp only [recvOf, hy]))
      (server_congr h.server rfl rfl rfl (by simp only [hy, Option.map_some])) ?_ h.left
      ⟨fun _ h => h, fun _ h => h, ?_⟩ ?_
      ⟨fun m hm => List.mem_append_left _ (h.full.qnet m hm), fun m hm => List.mem_append_left _ (h.full.qback m hm), ?_, ?_⟩
    · intro y' e
      cases e
      exact h.link y hy
    · intro y' e
      rw [hy] at e
      cases e
      exact ⟨_, rfl, fun _ h => h, fun _ h => List.mem_append_left _ h⟩
    · intro z hz
      simp only [List.mem_cons, List.not_mem_nil, or_false] at hz
      rcases hz with rfl | rfl
      · exact fits_ackAnswer (k := .confirm m.part m.seqno) ht rfl (List.mem_append_right _ (by simp))
      · exact fits_ackAnswer (k := .complete m.part) ht rfl (List.mem_append_right _ (by simp))
    · intro y' e m hm
      cases e
      exact List.mem_append_left _ (h.full.anet y hy m hm)
    · intro y' e k hk
      cases e
      rcases List.mem_append.mp hk with hk | hk
      · exact List.mem_append_left _ (h.full.aback y hy k hk)
      · simp only [List.mem_cons, List.not_mem_nil, or_false] at hk
        rcases hk with rfl | rfl <;> exact List.mem_append_right _ (by simp [ackMsg])
  · have hslot : (w.node a).table.get (negateId t) = some .incoming := by rw [hc.rslot, if_neg hend]
    have hend' : x.ended.isSome = false := by simpa using hend
    have hno : x.ended.isNone = true := by simpa using hend
    rw [hno, Bool.true_and]
    cases hleft : y.recv.left with
    | true =>
      -- the receiver is done, the query does not know yet
      rw [if_pos rfl]
      have eh : (w.node a).handle (e.opts a) e.build b (.part (negateId t) m) =
          ({ w.node a with ins := (w.node a).ins.put (negateId t) ⟨y.recv, b, true⟩ }, []) := by
        simp only [RNode.handle, hslot, RNode.take, hrcv, Receiving.step, hleft, if_true]
        simp [Reply.acks]
      rw [eh]
      refine sim_frame h a _ ⟨rfl, rfl, ?_, rfl, rfl, Iff.rfl, rfl⟩ ⟨rfl, rfl, ?_, rfl, rfl, Iff.rfl, rfl⟩
        (fun y hy => absurd hy List.not_mem_nil)
      · exact AMap.get_put_ne _ _ hne.symm
      · rw [hrcv]; exact AMap.get_put_self _ _ _
    | false =>
      rw [if_neg Bool.false_ne_true]
      have ex : x.step c e.build (.answer (.deliver i)) = { x with
          query := { x.query with out := { x.query.out with st := { x.query.out.st with hasReply := true } } }
          answer := some { y with recv := (y.recv.step m).1, back := y.back ++ Reply.acks (y.recv.step m).2 } } := by
        simp only [Exchange.step, Sys.step, hy, Exchange.noted, hi, hl1, hend', Sys.receive,
          hleft, hl2]
        simp
      have hsome : (y.recv.step m).2.isSome = true := by simp only [Receiving.step, hleft]; rfl
      have eh : (w.node a).handle (e.opts a) e.build b (.part (negateId t) m) =
          ({ w.node a with
            ins := (w.node a).ins.put (negateId t) ⟨(y.recv.step m).1, b, true⟩
            outs := (w.node a).outs.put t ⟨{ x.query.out with st := { x.query.out.st with hasReply := true } },
              x.query.phase, b⟩ },
          (Reply.acks (y.recv.step m).2).map fun k => (b, ackMsg (negateId t) k)) := by
        simp only [RNode.handle, hslot, RNode.take, hrcv, hsome, RNode.setState, negateId_negateId, hc.out]
        simp
      rw [ex, eh]
      refine sim_client hab h _ ⟨AMap.get_put_self _ _ _, hc.slot, hc.ask, hc.ended, AMap.get_put_self _ _ _, hc.rslot, ?_,
        ?_, hc.noAsk, hc.noRun⟩ (server_congr h.server rfl rfl rfl (by simp only [hy, Option.map_some])) ?_ h.left
        ⟨fun _ h => h, fun _ h => h, ?_⟩ ?_
        ⟨fun m hm => List.mem_append_left _ (h.full.qnet m hm), fun m hm => List.mem_append_left _ (h.full.qback m hm), ?_,
          ?_⟩
      · simp only
        rw [AMap.get_put_ne _ _ hne.symm]
        exact hc.noIn
      · simp only
        rw [AMap.get_put_ne _ _ hne]
        exact hc.noOut
      · intro y' e
        cases e
        exact h.link y hy
      · intro y' e
        rw [hy] at e
        cases e
        exact ⟨_, rfl, fun _ h => h, fun _ h => List.mem_append_left _ h⟩
      · intro z hz
        obtain ⟨k, hk, rfl⟩ := List.mem_map.mp hz
        exact fits_ackAnswer ht rfl (List.mem_append_right _ hk)
      · intro y' e m hm
        cases e
        exact List.mem_append_left _ (h.full.anet y hy m hm)
      · intro y' e k hk
        cases e
        rcases List.mem_append.mp hk with hk | hk
        · exact List.mem_append_left _ (h.full.aback y hy k hk)
        · exact List.mem_append_right _ (List.mem_map.mpr ⟨_, List.mem_map_of_mem hk, rfl⟩)

theorem sim_handle_other {e : Env} {a b : Nat} {t : Bytes} {c : Setup} {w : World f} {x : Exchange f}
    (h : Sim a b t c w x) (n src : Nat) (m : PartMsg) (o : Other t (idOf m)) :
    Sim a b t c (w.put n ((w.node n).handle (e.opts n) e.build src m)) x := by
  have o' := other_sym o
  refine sim_frame h n _ (handle_agree _ _ _ _ _ o'.1 o'.2.1).1 (handle_agree _ _ _ _ _ o'.2.2.1 o'.2.2.2).1 ?_
  intro y hy
  rw [(handle_agree (e.opts n) e.build (w.node n) src m o'.1 o'.2.1).2 y hy]
  exact o

/-- Steps without timeouts and without giving up. -/
structure XPatient (xs : List XAct) : Prop where
  query : ∀ a, XAct.query a ∈ xs → a ≠ .expire ∧ a ≠ .giveUp
  answer : ∀ a, XAct.answer a ∈ xs → a ≠ .expire ∧ a ≠ .giveUp
  whole : XAct.giveUp ∉ xs

theorem XPatient.nil : XPatient [] :=
  ⟨fun _ h => absurd h List.not_mem_nil, fun _ h => absurd h List.not_mem_nil, List.not_mem_nil⟩

theorem XPatient.append {xs ys : List XAct} (h : XPatient xs) (h' : XPatient ys) : XPatient (xs ++ ys) :=
  ⟨fun a ha => (List.mem_append.mp ha).elim (h.query a) (h'.query a),
    fun a ha => (List.mem_append.mp ha).elim (h.answer a) (h'.answer a),
    fun ha => (List.mem_append.mp ha).elim h.whole h'.whole⟩

theorem XPatient.query' {a : Act} (h : a ≠ .expire ∧ a ≠ .giveUp) : XPatient [.query a] :=
  ⟨fun b hb => by simp at hb; subst hb; exact h, fun b hb => by simp at hb, by simp⟩

theorem XPatient.answer' {a : Act} (h : a ≠ .expire ∧ a ≠ .giveUp) : XPatient [.answer a] :=
  ⟨fun b hb => by simp at hb, fun b hb => by simp at hb; subst hb; exact h, by simp⟩

theorem XPatient.serve' : XPatient [.serve] := ⟨fun b hb => by simp at hb, fun b hb => by simp at hb, by simp⟩
theorem XPatient.finish' : XPatient [.finish] := ⟨fun b hb => by simp at hb, fun b hb => by simp at hb, by simp⟩

theorem sim_deliver {e : Env} {a b : Nat} (hab : a ≠ b) {t : Bytes} (ht : t ≠ []) {c : Setup}
    (hm : (e.opts b).maxAnswer = c.maxServer) {w : World f} {x : Exchange f} (h : Sim a b t c w x) (i : Nat) :
    ∃ xs, XPatient xs ∧ Sim a b t c (w.step e (.deliver i)) (x.run c e.build xs) := by
  simp only [World.step]
  cases hi : w.net[i]? with
  | none => exact ⟨[], .nil, h⟩
  | some l =>
    simp only
    have hfit := h.net l (List.mem_of_getElem? hi)
    by_cases o : Other t (idOf l.msg)
    · exact ⟨[], .nil, sim_handle_other h l.dst l.src l.msg o⟩
    · obtain ⟨src, dst, msg⟩ := l
      have hid : idOf msg = t ∨ idOf msg = negateId t := by
        by_cases h1 : idOf msg = t
        · exact .inl h1
        · by_cases h2 : idOf msg = negateId t
          · exact .inr h2
          · exact absurd ⟨h1, h2⟩ o
      cases msg with
      | part id m =>
        rcases hid with hid | hid <;> simp only [idOf] at hid <;> subst hid
        · obtain ⟨h1, h2, h3⟩ := hfit.1 rfl
          simp only at h1 h2
          subst h1 h2
          obtain ⟨j, hj⟩ := List.getElem?_of_mem h3
          exact ⟨[.query (.deliver j)], .query' (by simp), sim_partQuery hab ht hm h m hj⟩
        · obtain ⟨h1, h2, y, h3, h4⟩ := hfit.2 rfl
          simp only at h1 h2
          subst h1 h2
          obtain ⟨j, hj⟩ := List.getElem?_of_mem h4
          have := sim_partAnswer (e := e) hab ht h m h3 hj
          split at this
          · exact ⟨[], .nil, this⟩
          · exact ⟨[.answer (.deliver j)], .answer' (by simp), this⟩
      | confirm id p n =>
        rcases hid with hid | hid <;> simp only [idOf] at hid <;> subst hid
        · obtain ⟨h2, h3⟩ := hfit.1 rfl
          simp only at h2
          subst h2
          obtain ⟨j, hj⟩ := List.getElem?_of_mem h3
          exact ⟨[.query (.ack j)], .query' (by simp), sim_ackQuery hab ht h src (.confirm p n) hj⟩
        · obtain ⟨h2, y, h3, h4⟩ := hfit.2 rfl
          simp only at h2
          subst h2
          obtain ⟨j, hj⟩ := List.getElem?_of_mem h4
          exact ⟨[.answer (.ack j)], .answer' (by simp), sim_ackAnswer hab ht h src (.confirm p n) h3 hj⟩
      | complete id p =>
        rcases hid with hid | hid <;> simp only [idOf] at hid <;> subst hid
        · obtain ⟨h2, h3⟩ := hfit.1 rfl
          simp only at h2
          subst h2
          obtain ⟨j, hj⟩ := List.getElem?_of_mem h3
          exact ⟨[.query (.ack j)], .query' (by simp), sim_ackQuery hab ht h src (.complete p) hj⟩
        · obtain ⟨h2, y, h3, h4⟩ := hfit.2 rfl
          simp only at h2
          subst h2
          obtain ⟨j, hj⟩ := List.getElem?_of_mem h4
          exact ⟨[.answer (.ack j)], .answer' (by simp), sim_ackAnswer hab ht h src (.complete p) h3 hj⟩

theorem third_asks {a b : Nat} {t : Bytes} {c : Setup} {w : World f} {x : Exchange f} (h : Sim a b t c w x) (n : Nat)
    (hn : n ≠ a) : (w.node n).asks.get t = none := by
  by_cases hb : n = b
  · subst hb; exact h.server.noAsk.1
  · exact (h.apart n hn hb).asks.1

theorem any_asks {a b : Nat} {t : Bytes} {c : Setup} {w : World f} {x : Exchange f} (h : Sim a b t c w x) (n : Nat) :
    (w.node n).asks.get (negateId t) = none := by
  by_cases ha : n = a
  · subst ha; exact h.client.noAsk
  · by_cases hb : n = b
    · subst hb; exact h.server.noAsk.2
    · exact (h.apart n ha hb).asks.2

theorem third_ins {a b : Nat} {t : Bytes} {c : Setup} {w : World f} {x : Exchange f} (h : Sim a b t c w x) (n : Nat)
    (hn : n ≠ b) : (w.node n).ins.get t = none := by
  by_cases ha : n = a
  · subst ha; exact h.client.noIn
  · exact (h.apart n ha hn).ins.1

theorem third_answer {a b : Nat} {t : Bytes} {c : Setup} {w : World f} {x : Exchange f} (h : Sim a b t c w x) (n : Nat)
    (hn : n ≠ a) : (w.node n).ins.get (negateId t) = none := by
  by_cases hb : n = b
  · subst hb; exact h.server.noIn
  · exact (h.apart n hn hb).ins.2

theorem sim_expire {e : Env} {a b : Nat} (hab : a ≠ b) {t : Bytes} (ht : t ≠ []) {c : Setup} {w : World f}
    {x : Exchange f} (h : Sim a b t c w x) (n : Nat) (id : Bytes) :
    ∃ xs, (id ≠ t → XPatient xs) ∧ Sim a b t c (w.step e (.expire n id)) (x.run c e.build xs) := by
  have hne := negate_ne ht
  simp only [World.step]
  by_cases h1 : id = t
  · subst h1
    by_cases hn : n = b
    · subst hn
      have hs := h.server
      rcases hs.rcv with ⟨r1, r2, r3⟩ | ⟨r1, r2⟩
      · exact ⟨[], fun _ => .nil, sim_same h n (by simp only [RNode.expire, r1])⟩
      · refine ⟨[.query .expire], fun h => absurd rfl h, ?_⟩
        have ex : x.run c e.build [.query .expire] = { x with query := { x.query with expired := true } } := rfl
        have ee : (w.node n).expire id = { w.node n with table := (w.node n).table.put id .done } := by
          simp only [RNode.expire, r1]
          rfl
        rw [ex, ee]
        refine sim_server hab h _ ⟨.inr ⟨r1, ?_⟩, hs.served, hs.runs, ?_, ?_, hs.noIn, hs.noOut, hs.noAsk⟩
          (client_congr h.client rfl rfl rfl rfl) h.link h.left
          ⟨fun _ h => h, fun _ h => h, fun y hy => ⟨y, hy, fun _ h => h, fun _ h => h⟩⟩
          (fun y hy => absurd hy List.not_mem_nil)
          (full_keep h.full _ _ rfl rfl fun y hy => .inl ⟨y, hy, rfl, rfl⟩)
        · simp [AMap.get_put_self]
        · intro hy
          simp only [AMap.get_put_ne _ _ hne]
          exact hs.noAnswer hy
        · intro y hy
          simp only [AMap.get_put_ne _ _ hne]
          exact hs.answer y hy
    · exact ⟨[], fun _ => .nil, sim_same h n (by simp only [RNode.expire, third_ins h n hn])⟩
  · by_cases h2 : id = negateId t
    · subst h2
      refine ⟨[], fun _ => .nil, sim_same h n ?_⟩
      by_cases hn : n = a
      · subst hn
        simp only [RNode.expire, h.client.rcv, if_true]
      · simp only [RNode.expire, third_answer h n hn]
    · have o := other_sym (t := t) ⟨h1, h2⟩
      exact ⟨[], fun _ => .nil, sim_frame h n _ (expire_agree o.1 _) (expire_agree o.2.2.1 _)
        (fun y hy => absurd hy List.not_mem_nil)⟩

theorem sim_quit {e : Env} {a b : Nat} (hab : a ≠ b) {t : Bytes} (ht : t ≠ []) {c : Setup} {w : World f}
    {x : Exchange f} (h : Sim a b t c w x) (n : Nat) (id : Bytes) :
    ∃ xs, (id ≠ t → XPatient xs) ∧ Sim a b t c (w.step e (.quit n id)) (x.run c e.build xs) := by
  have hne := negate_ne ht
  simp only [World.step]
  by_cases h1 : id = t
  · subst h1
    by_cases hn : n = a
    · subst hn
      have hc := h.client
      cases hend : x.ended with
      | some r =>
        exact ⟨[], fun _ => .nil, sim_same h n (by simp only [RNode.quit, hc.ask, hc.ended, hend])⟩
      | none =>
        refine ⟨[.giveUp], fun h => absurd rfl h, ?_⟩
        have ex : x.run c e.build [.giveUp] =
            { x with ended := some .without, answer := x.answer.map (·.closed true) } := by
          simp only [Exchange.run, List.foldl, Exchange.step, hend]
          simp
        have ee : (w.node n).quit id = { w.node n with
            ended := (w.node n).ended.put id .without, table := (w.node n).table.put (negateId id) .done } := by
          simp only [RNode.quit, hc.ask, hc.ended, hend]
        rw [ex, ee]
        refine sim_client hab h _ ⟨hc.out, ?_, hc.ask, AMap.get_put_self _ _ _, ?_, ?_, hc.noIn, hc.noOut, hc.noAsk, hc.noRun⟩
          (server_congr h.server rfl rfl rfl ?_) ?_ h.left ⟨fun _ h => h, fun _ h => h, ?_⟩
          (fun y hy => absurd hy List.not_mem_nil)
          (full_keep h.full _ _ rfl rfl fun y' hy' => by
            obtain ⟨y, hy, rfl⟩ := Option.map_eq_some_iff.mp hy'
            exact .inl ⟨y, hy, rfl, rfl⟩)
        · simp only [AMap.get_put_ne _ _ hne.symm]
          exact hc.slot
        · simp only
          rw [hc.rcv]
          unfold recvOf
          cases x.answer <;> rfl
        · simp [AMap.get_put_self]
        · cases x.answer <;> rfl
        · intro y hy
          obtain ⟨y', hy', rfl⟩ := Option.map_eq_some_iff.mp hy
          exact ⟨rfl, (h.link y' hy').2⟩
        · intro y hy
          exact ⟨y.closed true, by simp only [hy, Option.map_some], fun _ h => h, fun _ h => h⟩
    · exact ⟨[], fun _ => .nil, sim_same h n (by simp only [RNode.quit, third_asks h n hn])⟩
  · by_cases h2 : id = negateId t
    · subst h2
      exact ⟨[], fun _ => .nil, sim_same h n (by simp only [RNode.quit, any_asks h n])⟩
    · have o := other_sym (t := t) ⟨h1, h2⟩
      exact ⟨[], fun _ => .nil, sim_frame h n _ (quit_agree o.1 o.2.1 _) (quit_agree o.2.2.1 o.2.2.2 _)
        (fun y hy => absurd hy List.not_mem_nil)⟩

theorem sim_finishQuery {e : Env} {a b : Nat} (hab : a ≠ b) {t : Bytes} (ht : t ≠ []) {c : Setup}
    (hz : e.zstd = c.zstd) {w : World f} {x : Exchange f} (h : Sim a b t c w x) :
    Sim a b t c (w.step e (.finish a t)) (x.step c e.build .finish) := by
  have hne := negate_ne ht
  simp only [World.step]
  have hc := h.client
  cases hend : x.ended with
  | some r =>
    have ex : x.step c e.build .finish = x := by
      simp only [Exchange.step, hend]
      cases x.answer <;> rfl
    rw [ex]
    exact sim_same h a (by simp only [RNode.finish, hc.ask, hc.ended, hend])
  | none =>
    by_cases hd : x.query.phase = .ok ∧ (recvOf c x).left = true
    · obtain ⟨hp, hl⟩ := hd
      cases hy : x.answer with
      | none => simp [recvOf, hy, Receiving.new] at hl
      | some y =>
        have hr : recvOf c x = y.recv := by simp only [recvOf, hy]
        rw [hr] at hl
        have ex : x.step c e.build .finish = { x with
            ended := some (.with (queryResult c.zstd c.queryId y.recv.transfer.data))
            answer := some (y.closed true) } := by
          simp only [Exchange.step, hy, hend, hp, hl]
          simp
        have ee : (w.node a).finish e.zstd t = { w.node a with
            ended := (w.node a).ended.put t (.with (queryResult c.zstd c.queryId y.recv.transfer.data))
            table := (w.node a).table.put (negateId t) .done } := by
          simp only [RNode.finish, hc.ask, hc.ended, hend, hc.out, hc.rcv, hr, hp, hl, hz]
          simp
        rw [ex, ee]
        refine sim_client hab h _ ⟨hc.out, ?_, hc.ask, AMap.get_put_self _ _ _, ?_, ?_, hc.noIn, hc.noOut, hc.noAsk, hc.noRun⟩
          (server_congr h.server rfl rfl rfl ?_) ?_ h.left ⟨fun _ h => h, fun _ h => h, ?_⟩
          (fun y hy => absurd hy List.not_mem_nil)
          (full_keep h.full _ _ rfl rfl fun y' hy' => by cases hy'; exact .inl ⟨y, hy, rfl, rfl⟩)
        · simp only [AMap.get_put_ne _ _ hne.symm]
          exact hc.slot
        · simp only
          rw [hc.rcv, hr]
          rfl
        · simp [AMap.get_put_self]
        · simp only [hy]; rfl
        · intro y' hy'
          cases hy'
          exact ⟨rfl, (h.link y hy).2⟩
        · intro y' hy'
          rw [hy] at hy'
          cases hy'
          exact ⟨_, rfl, fun _ h => h, fun _ h => h⟩
    · have ex : x.step c e.build .finish = x := by
        simp only [Exchange.step, hend]
        cases hy : x.answer with
        | none => rfl
        | some y =>
          simp only
          rw [if_neg]
          intro hh
          simp only [Bool.and_eq_true, decide_eq_true_eq] at hh
          exact hd ⟨hh.1.2, by simp only [recvOf, hy]; exact hh.2⟩
      rw [ex]
      refine sim_same h a ?_
      simp only [RNode.finish, hc.ask, hc.ended, hend, hc.out, hc.rcv, if_neg hd]

theorem sim_finish {e : Env} {a b : Nat} (hab : a ≠ b) {t : Bytes} (ht : t ≠ []) {c : Setup}
    (hz : e.zstd = c.zstd) {w : World f} {x : Exchange f} (h : Sim a b t c w x) (n : Nat) (id : Bytes) :
    ∃ xs, XPatient xs ∧ Sim a b t c (w.step e (.finish n id)) (x.run c e.build xs) := by
  by_cases h1 : id = t
  · subst h1
    by_cases hn : n = a
    · subst hn
      exact ⟨[.finish], .finish', sim_finishQuery hab ht hz h⟩
    · exact ⟨[], .nil, sim_same h n (by simp only [RNode.finish, third_asks h n hn])⟩
  · by_cases h2 : id = negateId t
    · subst h2
      exact ⟨[], .nil, sim_same h n (by simp only [RNode.finish, any_asks h n])⟩
    · have o := other_sym (t := t) ⟨h1, h2⟩
      exact ⟨[], .nil, sim_frame h n _ (finish_agree o.1 o.2.1 _ _) (finish_agree o.2.2.1 o.2.2.2 _ _)
        (fun y hy => absurd hy List.not_mem_nil)⟩

theorem sim_serveQuery {e : Env} {a b : Nat} (hab : a ≠ b) {t : Bytes} (ht : t ≠ []) {c : Setup}
    (hz : e.zstd = c.zstd) (hsub : (e.opts b).subs = c.subs) (hfor : (e.opts b).force = c.forceServer)
    {w : World f} {x : Exchange f} (h : Sim a b t c w x) :
    Sim a b t c (w.step e (.serve b t)) (x.step c e.build .serve) := by
  have hne := negate_ne ht
  simp only [World.step]
  have hs := h.server
  rcases hs.rcv with ⟨r1, r2, r3⟩ | ⟨r1, r2⟩
  · have ex : x.step c e.build .serve = x := by
      simp only [Exchange.step, r3.1, Receiving.new]
      rfl
    rw [ex]
    exact sim_same h b (by simp only [RNode.serve, r1])
  · by_cases hd : x.query.recv.left = true ∧ x.served = false
    · obtain ⟨hl, hv⟩ := hd
      have hnone : x.answer = none := by
        cases hy : x.answer with
        | none => rfl
        | some y => rw [(h.link y hy).2.2] at hv; cases hv
      have hmem : (w.node b).served.contains t = false := by
        rw [Bool.eq_false_iff]
        intro hm
        rw [List.contains_iff_mem, hs.served, hv] at hm
        cases hm
      have hruns : ((w.node b).runs ++ [(t, a, x.query.recv.transfer.data)]).filter (fun r => decide (r.1 = t)) =
          [(t, a, x.query.recv.transfer.data)] := by
        rw [List.filter_append, hs.runs, hv]
        simp
      have ex : x.step c e.build .serve = { x with
          served := true
          answer := match Rldp.serve c.zstd c.subs c.forceServer x.query.recv.transfer.data with
            | some (.answer b) => some ((Sys.init f b c.maxClient).closed x.ended.isSome)
            | _ => none } := by
        simp only [Exchange.step, hl, hv]
        rfl
      have rfix : ∀ d : AMap Bytes Slot, d.get t = (w.node b).table.get t →
          d.get t = some (if x.query.expired || x.query.recv.left then .done else .incoming) :=
        fun d hd => hd.trans r2
      rw [ex]
      by_cases hans : ∃ d, Rldp.serve c.zstd c.subs c.forceServer x.query.recv.transfer.data = some (.answer d)
      · obtain ⟨d, hans⟩ := hans
        have ee : (w.node b).serve e.zstd (e.opts b) t = { w.node b with
            served := t :: (w.node b).served
            runs := (w.node b).runs ++ [(t, a, x.query.recv.transfer.data)]
            outs := (w.node b).outs.put (negateId t) ⟨Outgoing.new d, .start, a⟩
            table := (w.node b).table.put (negateId t) .outgoing } := by
          simp only [RNode.serve, r1, hl, hmem, hz, hsub, hfor, hans]
          simp
        rw [ee]
        simp only [hans]
        refine sim_server hab h _ ⟨.inr ⟨r1, ?_⟩, by simp, ?_, (fun e => absurd e (by simp)), ?_, hs.noIn, ?_, hs.noAsk⟩
          (client_congr h.client rfl rfl rfl ?_) ?_ (fun _ => hl) ⟨fun _ h => h, fun _ h => h, ?_⟩
          (fun y hy => absurd hy List.not_mem_nil)
          (full_keep h.full _ _ rfl rfl fun y' hy' => by
            cases hy'
            refine .inr ⟨?_, ?_⟩ <;> cases x.ended.isSome <;> rfl)
        · exact rfix _ (AMap.get_put_ne _ _ hne.symm)
        · simp only [hruns, if_true]
        · intro y hy
          cases hy
          have e1 : ∀ k, ((Sys.init f d c.maxClient).closed k).out = Outgoing.new d := by
            intro k; cases k <;> rfl
          have e2 : ∀ k, ((Sys.init f d c.maxClient).closed k).phase = .start := by
            intro k; cases k <;> rfl
          rw [e1, e2]
          exact ⟨AMap.get_put_self _ _ _, AMap.get_put_self _ _ _⟩
        · simp only
          rw [AMap.get_put_ne _ _ hne.symm]
          exact hs.noOut
        · have e3 : ∀ k, ((Sys.init f d c.maxClient).closed k).recv = Receiving.new f c.maxClient := by
            intro k; cases k <;> rfl
          simp only [recvOf, hnone, e3]
        · intro y hy
          cases hy
          refine ⟨?_, hl, rfl⟩
          cases x.ended.isSome <;> rfl
        · intro y hy
          rw [hnone] at hy
          cases hy
      · have ee : (w.node b).serve e.zstd (e.opts b) t = { w.node b with
            served := t :: (w.node b).served
            runs := (w.node b).runs ++ [(t, a, x.query.recv.transfer.data)] } := by
          simp only [RNode.serve, r1, hl, hmem, hz, hsub, hfor]
          simp only [Bool.not_false, Bool.and_self, if_true]
          split
          · rename_i d hd
            exact absurd ⟨d, hd⟩ hans
          · rfl
        have en : (match Rldp.serve c.zstd c.subs c.forceServer x.query.recv.transfer.data with
            | some (.answer b) => some ((Sys.init f b c.maxClient).closed x.ended.isSome)
            | _ => none) = none := by
          split
          · rename_i d hd
            exact absurd ⟨d, hd⟩ hans
          · rfl
        rw [ee, en]
        refine sim_server hab h _ ⟨.inr ⟨r1, r2⟩, by simp, ?_, fun _ => hs.noAnswer hnone, ?_, hs.noIn, hs.noOut,
          hs.noAsk⟩
          (client_congr h.client rfl rfl rfl (by simp only [recvOf, hnone])) ?_ (fun _ => hl)
          ⟨fun _ h => h, fun _ h => h, ?_⟩ (fun y hy => absurd hy List.not_mem_nil)
          (full_keep h.full _ _ rfl rfl fun y' hy' => by cases hy')
        · simp only [hruns, if_true]
        · intro y hy; cases hy
        · intro y hy; cases hy
        · intro y hy
          rw [hnone] at hy
          cases hy
    · have ex : x.step c e.build .serve = x := by
        simp only [Exchange.step]
        rw [if_neg]
        intro hh
        simp only [Bool.and_eq_true, Bool.not_eq_true'] at hh
        exact hd hh
      rw [ex]
      refine sim_same h b ?_
      have : ((true && x.query.recv.left) && !(w.node b).served.contains t) = false := by
        cases hl : x.query.recv.left with
        | false => rfl
        | true =>
          have hv : x.served = true := by
            cases hv : x.served with
            | true => rfl
            | false => exact absurd ⟨hl, hv⟩ hd
          have : (w.node b).served.contains t = true := by
            rw [List.contains_iff_mem]
            exact hs.served.mpr hv
          rw [this]; rfl
      simp only [RNode.serve, r1, Bool.not_false, this]
      rfl

theorem sim_serve {e : Env} {a b : Nat} (hab : a ≠ b) {t : Bytes} (ht : t ≠ []) {c : Setup}
    (hz : e.zstd = c.zstd) (hsub : (e.opts b).subs = c.subs) (hfor : (e.opts b).force = c.forceServer)
    {w : World f} {x : Exchange f} (h : Sim a b t c w x) (n : Nat) (id : Bytes) :
    ∃ xs, XPatient xs ∧ Sim a b t c (w.step e (.serve n id)) (x.run c e.build xs) := by
  by_cases h1 : id = t
  · subst h1
    by_cases hn : n = b
    · subst hn
      exact ⟨[.serve], .serve', sim_serveQuery hab ht hz hsub hfor h⟩
    · exact ⟨[], .nil, sim_same h n (by simp only [RNode.serve, third_ins h n hn])⟩
  · by_cases h2 : id = negateId t
    · subst h2
      refine ⟨[], .nil, sim_same h n ?_⟩
      by_cases hn : n = a
      · subst hn
        simp only [RNode.serve, h.client.rcv]
        rfl
      · simp only [RNode.serve, third_answer h n hn]
    · have o := other_sym (t := t) ⟨h1, h2⟩
      exact ⟨[], .nil, sim_frame h n _ (serve_agree o.1 o.2.1 _ _ _) (serve_agree o.2.2.1 o.2.2.2 _ _ _)
        (fun y hy => absurd hy List.not_mem_nil)⟩

theorem act_patient {k : SendAct} (h : k ≠ .giveUp) : k.act ≠ .expire ∧ k.act ≠ .giveUp := by
  cases k <;> first | exact absurd rfl h | exact ⟨by simp [SendAct.act], by simp [SendAct.act]⟩

theorem sim_step {e : Env} {a b : Nat} (hab : a ≠ b) {t : Bytes} (ht : t ≠ []) {qid data : Bytes} {timeout : Nat}
    {w : World f} {x : Exchange f} (h : Sim a b t (alone e a b qid data timeout) w x) (op : WAct) (ho : Avoids t op) :
    ∃ xs, (Patient t op → XPatient xs) ∧
      Sim a b t (alone e a b qid data timeout) (w.step e op) (x.run (alone e a b qid data timeout) e.build xs) := by
  cases op with
  | ask n peer id q d k =>
    have o := other_sym ho
    exact ⟨[], fun _ => .nil, sim_frame h n _ (ask_agree o.1 o.2.1 _ _ _ _ _ _ _)
      (ask_agree o.2.2.1 o.2.2.2 _ _ _ _ _ _ _) (fun y hy => absurd hy List.not_mem_nil)⟩
  | send n id k =>
    by_cases h1 : n = a ∧ id = t
    · obtain ⟨rfl, rfl⟩ := h1
      exact ⟨[.query k.act], fun hp => .query' (act_patient (hp (.inl rfl))), sim_sendQuery hab ht h k⟩
    · by_cases h2 : n = b ∧ id = negateId t
      · obtain ⟨rfl, rfl⟩ := h2
        exact ⟨[.answer k.act], fun hp => .answer' (act_patient (hp (.inr rfl))), sim_sendAnswer hab ht h k⟩
      · exact ⟨[], fun _ => .nil, sim_sendOther h n id k h1 h2⟩
  | deliver i =>
    obtain ⟨xs, h1, h2⟩ := sim_deliver hab ht rfl h i
    exact ⟨xs, fun _ => h1, h2⟩
  | inject src dst m => exact ⟨[], fun _ => .nil, sim_handle_other h dst src m ho⟩
  | serve n id =>
    obtain ⟨xs, h1, h2⟩ := sim_serve hab ht rfl rfl rfl h n id
    exact ⟨xs, fun _ => h1, h2⟩
  | finish n id =>
    obtain ⟨xs, h1, h2⟩ := sim_finish hab ht rfl h n id
    exact ⟨xs, fun _ => h1, h2⟩
  | quit n id => exact sim_quit hab ht h n id
  | expire n id => exact sim_expire hab ht h n id

theorem sim_run {e : Env} {a b : Nat} (hab : a ≠ b) {t : Bytes} (ht : t ≠ []) {qid data : Bytes} {timeout : Nat}
    (ops : List WAct) : ∀ {w : World f} {x : Exchange f}, Sim a b t (alone e a b qid data timeout) w x →
    (∀ op ∈ ops, Avoids t op) →
    ∃ xs, ((∀ op ∈ ops, Patient t op) → XPatient xs) ∧
      Sim a b t (alone e a b qid data timeout) (w.run e ops) (x.run (alone e a b qid data timeout) e.build xs) := by
  induction ops with
  | nil => intro w x h _; exact ⟨[], fun _ => .nil, h⟩
  | cons op ops ih =>
    intro w x h ho
    obtain ⟨xs, p1, h1⟩ := sim_step hab ht h op (ho op (List.mem_cons_self ..))
    obtain ⟨ys, p2, h2⟩ := ih h1 (fun k hk => ho k (List.mem_cons_of_mem _ hk))
    refine ⟨xs ++ ys, fun hp => (p1 (hp op (List.mem_cons_self ..))).append
      (p2 fun k hk => hp k (List.mem_cons_of_mem _ hk)), ?_⟩
    rw [Exchange.run_append]
    exact h2

/-! ### Before the query -/

/-- Nothing of the query `t` yet. -/
structure Unused (t : Bytes) (w : World f) : Prop where
  node : ∀ n, Apart t (w.node n)
  net : ∀ l ∈ w.net, Other t (idOf l.msg)

theorem unused_put {t : Bytes} {w : World f} (h : Unused t w) (n : Nat) (r : RNode f × List (Nat × PartMsg))
    (h1 : AgreeAt t (w.node n) r.1) (h2 : AgreeAt (negateId t) (w.node n) r.1) (h3 : ∀ y ∈ r.2, Other t (idOf y.2)) :
    Unused t (w.put n r) := by
  refine ⟨?_, ?_⟩
  · intro k
    simp only [World.put]
    split
    · rename_i e; subst e; exact apart_agree (h.node k) h1 h2
    · exact h.node k
  · intro l hl
    rcases List.mem_append.mp hl with hl | hl
    · exact h.net l hl
    · obtain ⟨y, hy, rfl⟩ := List.mem_map.mp hl
      exact h3 y hy

theorem unused_same {t : Bytes} {w : World f} (h : Unused t w) (n : Nat)
    {r : RNode f × List (Nat × PartMsg)} (hr : r = (w.node n, [])) : Unused t (w.put n r) := by
  subst hr
  exact unused_put h n _ (.refl _ _) (.refl _ _) (fun y hy => absurd hy List.not_mem_nil)

theorem unused_handle {t : Bytes} {w : World f} (h : Unused t w) (e : Env) (n src : Nat) (m : PartMsg)
    (o : Other t (idOf m)) : Unused t (w.put n ((w.node n).handle (e.opts n) e.build src m)) := by
  have o' := other_sym o
  refine unused_put h n _ (handle_agree _ _ _ _ _ o'.1 o'.2.1).1 (handle_agree _ _ _ _ _ o'.2.2.1 o'.2.2.2).1 ?_
  intro y hy
  rw [(handle_agree (e.opts n) e.build (w.node n) src m o'.1 o'.2.1).2 y hy]
  exact o

theorem unused_step {e : Env} {t : Bytes} {w : World f} (h : Unused t w) (op : WAct) (ho : Avoids t op) :
    Unused t (w.step e op) := by
  have em : ∀ y ∈ ([] : List (Nat × PartMsg)), Other t (idOf y.2) := fun y hy => absurd hy List.not_mem_nil
  have cases' : ∀ id, Other t id ∨ id = t ∨ id = negateId t := by
    intro id
    by_cases h1 : id = t
    · exact .inr (.inl h1)
    · by_cases h2 : id = negateId t
      · exact .inr (.inr h2)
      · exact .inl ⟨h1, h2⟩
  cases op with
  | ask n peer id q d k =>
    have o := other_sym ho
    exact unused_put h n _ (ask_agree o.1 o.2.1 _ _ _ _ _ _ _) (ask_agree o.2.2.1 o.2.2.2 _ _ _ _ _ _ _) em
  | send n id k =>
    rcases cases' id with o' | rfl | rfl
    · have o := other_sym o'
      refine unused_put h n _ (send_agree o.1 _ _ _).1 (send_agree o.2.2.1 _ _ _).1 ?_
      intro y hy
      rw [(send_agree o.1 e.build (w.node n) k).2 y hy]
      exact o'
    · exact unused_same h n (by simp only [RNode.send, (h.node n).outs.1])
    · exact unused_same h n (by simp only [RNode.send, (h.node n).outs.2])
  | deliver i =>
    simp only [World.step]
    cases hi : w.net[i]? with
    | none => exact h
    | some l => exact unused_handle h e l.dst l.src l.msg (h.net l (List.mem_of_getElem? hi))
  | inject src dst m => exact unused_handle h e dst src m ho
  | serve n id =>
    rcases cases' id with o' | rfl | rfl
    · have o := other_sym o'
      exact unused_put h n _ (serve_agree o.1 o.2.1 _ _ _) (serve_agree o.2.2.1 o.2.2.2 _ _ _) em
    · exact unused_same h n (by simp only [RNode.serve, (h.node n).ins.1])
    · exact unused_same h n (by simp only [RNode.serve, (h.node n).ins.2])
  | finish n id =>
    rcases cases' id with o' | rfl | rfl
    · have o := other_sym o'
      exact unused_put h n _ (finish_agree o.1 o.2.1 _ _) (finish_agree o.2.2.1 o.2.2.2 _ _) em
    · exact unused_same h n (by simp only [RNode.finish, (h.node n).asks.1])
    · exact unused_same h n (by simp only [RNode.finish, (h.node n).asks.2])
  | quit n id =>
    rcases cases' id with o' | rfl | rfl
    · have o := other_sym o'
      exact unused_put h n _ (quit_agree o.1 o.2.1 _) (quit_agree o.2.2.1 o.2.2.2 _) em
    · exact unused_same h n (by simp only [RNode.quit, (h.node n).asks.1])
    · exact unused_same h n (by simp only [RNode.quit, (h.node n).asks.2])
  | expire n id =>
    rcases cases' id with o' | rfl | rfl
    · have o := other_sym o'
      exact unused_put h n _ (expire_agree o.1 _) (expire_agree o.2.2.1 _) em
    · exact unused_same h n (by simp only [RNode.expire, (h.node n).ins.1])
    · exact unused_same h n (by simp only [RNode.expire, (h.node n).ins.2])

theorem unused_run {e : Env} {t : Bytes} (ops : List WAct) : ∀ {w : World f}, Unused t w → (∀ op ∈ ops, Avoids t op) →
    Unused t (w.run e ops) := by
  induction ops with
  | nil => intro w h _; exact h
  | cons op ops ih =>
    intro w h ho
    exact ih (unused_step h op (ho op (List.mem_cons_self ..))) (fun k hk => ho k (List.mem_cons_of_mem _ hk))

theorem unused_init (t : Bytes) : Unused t (World.init f) :=
  ⟨fun _ => ⟨⟨rfl, rfl⟩, ⟨rfl, rfl⟩, ⟨rfl, rfl⟩, ⟨rfl, rfl⟩, List.not_mem_nil, rfl, rfl⟩,
    fun _ hl => absurd hl List.not_mem_nil⟩

theorem sim_ask {e : Env} {a b : Nat} (hab : a ≠ b) {t : Bytes} (ht : t ≠ []) {w : World f} (h : Unused t w)
    (qid data : Bytes) (timeout : Nat) :
    Sim a b t (alone e a b qid data timeout) (w.step e (.ask a b t qid data timeout))
      (Exchange.init f (alone e a b qid data timeout)) := by
  have hne := negate_ne ht
  have ha := h.node a
  have hb := h.node b
  refine ⟨?_, ?_, ?_, ?_, ?_, ?_, ⟨fun _ h => absurd h List.not_mem_nil, fun _ h => absurd h List.not_mem_nil,
    fun _ h => (nomatch h), fun _ h => (nomatch h)⟩⟩
  · simp only [World.step, World.put, if_true, RNode.ask]
    refine ⟨AMap.get_put_self _ _ _, ?_, AMap.get_put_self _ _ _, ha.ended, AMap.get_put_self _ _ _, AMap.get_put_self _ _ _,
      ?_, ?_, ?_, ha.runs⟩
    · simp only [AMap.get_put_ne _ _ hne.symm, AMap.get_put_self]
      rfl
    · simp only [AMap.get_put_ne _ _ hne.symm]
      exact ha.ins.1
    · simp only [AMap.get_put_ne _ _ hne]
      exact ha.outs.2
    · simp only [AMap.get_put_ne _ _ hne]
      exact ha.asks.2
  · simp only [World.step, World.put, if_neg hab.symm]
    refine ⟨.inl ⟨hb.ins.1, hb.table.1, rfl, rfl⟩, ⟨fun e => absurd e hb.served, fun e => by cases e⟩, hb.runs, fun _ => ⟨hb.outs.2, hb.table.2⟩,
      (fun y hy => by cases hy), hb.ins.2, hb.outs.1, hb.asks⟩
  · intro n na nb
    simp only [World.step, World.put, if_neg na]
    exact h.node n
  · intro y hy; cases hy
  · intro hv; cases hv
  · intro l hl
    simp only [World.step, World.put, List.map_nil, List.append_nil] at hl
    exact fits_other (h.net l hl)

/-- What the query comes to among the others is what it can come to on its own. -/
theorem among_others {e : Env} {a b : Nat} (hab : a ≠ b) {t : Bytes} (ht : t ≠ []) (qid data : Bytes) (timeout : Nat)
    (before after : List WAct) (hb : ∀ op ∈ before, Avoids t op) (ha : ∀ op ∈ after, Avoids t op) :
    ∃ xs, ((∀ op ∈ after, Patient t op) → XPatient xs) ∧ Sim a b t (alone e a b qid data timeout)
      ((World.init f).run e (before ++ .ask a b t qid data timeout :: after))
      ((Exchange.init f (alone e a b qid data timeout)).run (alone e a b qid data timeout) e.build xs) := by
  have h1 := sim_ask (e := e) hab ht (unused_run (e := e) before (unused_init (f := f) t) hb) qid data timeout
  obtain ⟨xs, hp, h2⟩ := sim_run hab ht after h1 ha
  refine ⟨xs, hp, ?_⟩
  have : (World.init f).run e (before ++ .ask a b t qid data timeout :: after) =
      (((World.init f).run e before).step e (.ask a b t qid data timeout)).run e after := by
    simp only [World.run, List.foldl_append, List.foldl_cons]
  rw [this]
  exact h2

/-! ### Every step of the exchange can be made -/

theorem deliver_at {e : Env} {w : World f} {l : Letter} (h : l ∈ w.net) :
    ∃ j, w.step e (.deliver j) = w.put l.dst ((w.node l.dst).handle (e.opts l.dst) e.build l.src l.msg) := by
  obtain ⟨j, hj⟩ := List.getElem?_of_mem h
  exact ⟨j, by simp only [World.step, hj]⟩

theorem deliver_none {e : Env} {w : World f} : w.step e (.deliver w.net.length) = w := by
  simp only [World.step, List.getElem?_length]

theorem real_query {e : Env} {a b : Nat} (hab : a ≠ b) {t : Bytes} (ht : t ≠ []) {c : Setup}
    (hm : (e.opts b).maxAnswer = c.maxServer) {w : World f} {x : Exchange f} (h : Sim a b t c w x) (k : Act)
    (hk : k ≠ .expire ∧ k ≠ .giveUp ∧ k ≠ .reply) :
    ∃ op, Honest op ∧ Sim a b t c (w.step e op) (x.step c e.build (.query k)) := by
  cases k with
  | begin => exact ⟨.send a t .begin, trivial, sim_sendQuery hab ht h .begin⟩
  | bind => exact ⟨.send a t .bind, trivial, sim_sendQuery hab ht h .bind⟩
  | chunk => exact ⟨.send a t .chunk, trivial, sim_sendQuery hab ht h .chunk⟩
  | check => exact ⟨.send a t .check, trivial, sim_sendQuery hab ht h .check⟩
  | giveUp => exact absurd rfl hk.2.1
  | reply => exact absurd rfl hk.2.2
  | expire => exact absurd rfl hk.1
  | deliver i =>
    cases hi : x.query.net[i]? with
    | none =>
      refine ⟨.deliver w.net.length, trivial, ?_⟩
      rw [deliver_none, show x.step c e.build (.query (.deliver i)) = x by simp only [Exchange.step, Sys.step, hi]]
      exact h
    | some m =>
      obtain ⟨j, hj⟩ := deliver_at (e := e) (h.full.qnet m (List.mem_of_getElem? hi))
      exact ⟨.deliver j, trivial, hj ▸ sim_partQuery hab ht hm h m hi⟩
  | ack i =>
    cases hi : x.query.back[i]? with
    | none =>
      refine ⟨.deliver w.net.length, trivial, ?_⟩
      rw [deliver_none, show x.step c e.build (.query (.ack i)) = x by simp only [Exchange.step, Sys.step, hi]]
      exact h
    | some m =>
      obtain ⟨j, hj⟩ := deliver_at (e := e) (h.full.qback m (List.mem_of_getElem? hi))
      exact ⟨.deliver j, trivial, hj ▸ sim_ackQuery hab ht h b m hi⟩

theorem real_answer {e : Env} {a b : Nat} (hab : a ≠ b) {t : Bytes} (ht : t ≠ []) {c : Setup} {w : World f}
    {x : Exchange f} (h : Sim a b t c w x) {y : Sys f} (hy : x.answer = some y) (hl : y.recv.left = false) (k : Act)
    (hk : k ≠ .expire ∧ k ≠ .giveUp ∧ k ≠ .reply) :
    ∃ op, Honest op ∧ Sim a b t c (w.step e op) (x.step c e.build (.answer k)) := by
  cases k with
  | begin => exact ⟨.send b (negateId t) .begin, trivial, sim_sendAnswer hab ht h .begin⟩
  | bind => exact ⟨.send b (negateId t) .bind, trivial, sim_sendAnswer hab ht h .bind⟩
  | chunk => exact ⟨.send b (negateId t) .chunk, trivial, sim_sendAnswer hab ht h .chunk⟩
  | check => exact ⟨.send b (negateId t) .check, trivial, sim_sendAnswer hab ht h .check⟩
  | giveUp => exact absurd rfl hk.2.1
  | reply => exact absurd rfl hk.2.2
  | expire => exact absurd rfl hk.1
  | deliver i =>
    cases hi : y.net[i]? with
    | none =>
      refine ⟨.deliver w.net.length, trivial, ?_⟩
      rw [deliver_none, show x.step c e.build (.answer (.deliver i)) = x by
        simp only [Exchange.step, Sys.step, hy, Exchange.noted, hi]; simp [← hy]]
      exact h
    | some m =>
      obtain ⟨j, hj⟩ := deliver_at (e := e) (h.full.anet y hy m (List.mem_of_getElem? hi))
      have := sim_partAnswer (e := e) hab ht h m hy hi
      rw [hl, Bool.and_false, if_neg Bool.false_ne_true] at this
      exact ⟨.deliver j, trivial, hj ▸ this⟩
  | ack i =>
    cases hi : y.back[i]? with
    | none =>
      refine ⟨.deliver w.net.length, trivial, ?_⟩
      rw [deliver_none, show x.step c e.build (.answer (.ack i)) = x by
        simp only [Exchange.step, Sys.step, hy, Exchange.noted, hi]; simp [← hy]]
      exact h
    | some m =>
      obtain ⟨j, hj⟩ := deliver_at (e := e) (h.full.aback y hy m (List.mem_of_getElem? hi))
      exact ⟨.deliver j, trivial, hj ▸ sim_ackAnswer hab ht h a m hy hi⟩

theorem real_queries {e : Env} {a b : Nat} (hab : a ≠ b) {t : Bytes} (ht : t ≠ []) {c : Setup}
    (hm : (e.opts b).maxAnswer = c.maxServer) (bs : List Act) : ∀ {w : World f} {x : Exchange f}, Sim a b t c w x →
    Calm bs → ∃ ops, (∀ op ∈ ops, Honest op) ∧ Sim a b t c (w.run e ops) (x.run c e.build (bs.map .query)) := by
  induction bs with
  | nil => intro w x h _; exact ⟨[], fun _ h => absurd h List.not_mem_nil, h⟩
  | cons k bs ih =>
    intro w x h hc
    obtain ⟨op, o1, h1⟩ := real_query (e := e) hab ht hm h k (hc k List.mem_cons_self)
    obtain ⟨ops, o2, h2⟩ := ih h1 (fun y hy => hc y (List.mem_cons_of_mem _ hy))
    refine ⟨op :: ops, ?_, h2⟩
    intro y hy
    rcases List.mem_cons.mp hy with rfl | hy
    · exact o1
    · exact o2 y hy

/-- As much of the answer's transfer as is needed. -/
theorem real_answers {e : Env} {a b : Nat} (hab : a ≠ b) {t : Bytes} (ht : t ≠ []) {c : Setup} (bs : List Act) :
    ∀ {w : World f} {x : Exchange f} {y : Sys f}, Sim a b t c w x → x.answer = some y → x.ended = none → Calm bs →
    (y.run e.build bs).recv.left = true →
    ∃ ops xs, (∀ op ∈ ops, Honest op) ∧ Sim a b t c (w.run e ops) (x.run c e.build xs) ∧
      (x.run c e.build xs).ended = none ∧ (x.run c e.build xs).query.phase = x.query.phase ∧
      ∃ y', (x.run c e.build xs).answer = some y' ∧ y'.recv.left = true := by
  induction bs with
  | nil =>
    intro w x y h hy he _ hl
    exact ⟨[], [], fun _ h => absurd h List.not_mem_nil, h, he, rfl, y, hy, hl⟩
  | cons k bs ih =>
    intro w x y h hy he hc hl
    cases hleft : y.recv.left with
    | true => exact ⟨[], [], fun _ h => absurd h List.not_mem_nil, h, he, rfl, y, hy, hleft⟩
    | false =>
      obtain ⟨op, o1, h1⟩ := real_answer (e := e) hab ht h hy hleft k (hc k List.mem_cons_self)
      obtain ⟨r1, r2, r3⟩ := run_answer c e.build [k] x y hy (fun z hz => by
        rw [List.mem_singleton] at hz; subst hz; exact (hc z List.mem_cons_self).2.2)
      obtain ⟨ops, xs, o2, h2, h3, h4, h5⟩ := ih (x := x.step c e.build (.answer k)) (y := y.step e.build k) h1 r1
        (r2.trans he) (fun z hz => hc z (List.mem_cons_of_mem _ hz)) hl
      refine ⟨op :: ops, .answer k :: xs, ?_, h2, h3, h4.trans r3, h5⟩
      intro z hz
      rcases List.mem_cons.mp hz with rfl | hz
      · exact o1
      · exact o2 z hz

theorem World.run_append (e : Env) (w : World f) (as bs : List WAct) : w.run e (as ++ bs) = (w.run e as).run e bs := by
  simp [World.run, List.foldl_append]

end Verif.RldpTable
