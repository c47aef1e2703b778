import Verif.Proofs.RldpMany
import Mathlib.Data.List.Induction

/-!
# C112: RLDP queries that run at the same time do not disturb each other
-/
namespace Verif.RldpTable
open Verif.Rldp

/-! ### The properties -/

/-- C112: whatever else happens, a query that ends with an answer ends with the answer of the asked node's application
to it. -/
def C112_full : Prop :=
  ∀ (f : Fec), f.Lawful → ∀ (e : Env) (a b : Nat), a ≠ b → ∀ (t : Bytes), t.length = 32 →
    ∀ (qid data : Bytes) (timeout : Nat), (alone e a b qid data timeout).Ok → ∀ (before after : List WAct) (r : QueryResult),
    (((World.init f).run e (before ++ .ask a b t qid data timeout :: after)).node a).ended.get t = some (.with r) →
    ∃ v, (alone e a b qid data timeout).application = .processed (some v) ∧
      r = .data (received e.zstd ((alone e a b qid data timeout).sent v))

theorem length_ne_nil {t : Bytes} (h : t.length = 32) : t ≠ [] := by
  intro e; rw [e] at h; cases h

/-- C112, in part: with any number of other queries between any nodes and messages made up by strangers before, during
and after the query, as long as nobody else uses the transfer id or its negation, the result is the application's
answer to this query. -/
theorem C112_result_partial (f : Fec) (hf : f.Lawful) (e : Env) (a b : Nat) (hab : a ≠ b) (t : Bytes) (ht : t.length = 32)
    (qid data : Bytes) (timeout : Nat) (hc : (alone e a b qid data timeout).Ok) (before after : List WAct)
    (hb : ∀ op ∈ before, Avoids t op) (ha : ∀ op ∈ after, Avoids t op) (r : QueryResult)
    (h : (((World.init f).run e (before ++ .ask a b t qid data timeout :: after)).node a).ended.get t = some (.with r)) :
    ∃ v, (alone e a b qid data timeout).application = .processed (some v) ∧
      r = .data (received e.zstd ((alone e a b qid data timeout).sent v)) := by
  obtain ⟨xs, -, hs⟩ := among_others (f := f) (e := e) hab (length_ne_nil ht) qid data timeout before after hb ha
  rw [hs.client.ended] at h
  exact C107_result f hf _ hc e.build xs r h

/-- C112, in part: under the same conditions only the asked node's application is given this query, at most once, as
coming from the asking node, and with the content it was asked with. -/
theorem C112_asked_partial (f : Fec) (hf : f.Lawful) (e : Env) (a b : Nat) (hab : a ≠ b) (t : Bytes) (ht : t.length = 32)
    (qid data : Bytes) (timeout : Nat) (hc : (alone e a b qid data timeout).Ok) (before after : List WAct)
    (hb : ∀ op ∈ before, Avoids t op) (ha : ∀ op ∈ after, Avoids t op) :
    (∀ n, n ≠ b → ∀ r ∈ (((World.init f).run e (before ++ .ask a b t qid data timeout :: after)).node n).runs, r.1 ≠ t) ∧
    ((((World.init f).run e (before ++ .ask a b t qid data timeout :: after)).node b).runs.filter
      (fun r => decide (r.1 = t))).length ≤ 1 ∧
    ∀ r ∈ (((World.init f).run e (before ++ .ask a b t qid data timeout :: after)).node b).runs, r.1 = t →
      r.2.1 = a ∧ fromData r.2.2 = some ⟨qid, (e.opts a).maxAnswer, (alone e a b qid data timeout).payload⟩ := by
  obtain ⟨xs, -, hs⟩ := among_others (f := f) (e := e) hab (length_ne_nil ht) qid data timeout before after hb ha
  refine ⟨?_, ?_, ?_⟩
  · intro n hn r hr e1
    have hnone : ((((World.init f).run e (before ++ .ask a b t qid data timeout :: after)).node n).runs.filter
        (fun r => decide (r.1 = t))) = [] := by
      by_cases hna : n = a
      · subst hna; exact hs.client.noRun
      · exact (hs.apart n hna hn).runs
    have : r ∈ ((((World.init f).run e (before ++ .ask a b t qid data timeout :: after)).node n).runs.filter
        (fun r => decide (r.1 = t))) := List.mem_filter.mpr ⟨hr, by simpa using e1⟩
    rw [hnone] at this
    exact absurd this List.not_mem_nil
  · rw [hs.server.runs]
    split <;> simp
  · intro r hr e1
    have : r ∈ ((((World.init f).run e (before ++ .ask a b t qid data timeout :: after)).node b).runs.filter
        (fun r => decide (r.1 = t))) := List.mem_filter.mpr ⟨hr, by simpa using e1⟩
    rw [hs.server.runs] at this
    split at this
    · rename_i hv
      rw [List.mem_singleton] at this
      subst this
      exact ⟨rfl, C107_asked f hf _ hc e.build xs (hs.left hv)⟩
    · exact absurd this List.not_mem_nil

/-- C112, in part: other queries cannot stop this one. Whatever they did, and whatever of this query was lost, repeated
or reordered, as long as its own timers have not fired the nodes can still bring it to the end with the application's
answer (in builds without overflow checks, C106). -/
theorem C112_can_finish_partial (f : Fec) (hf : f.Lawful) (e : Env) (hrel : e.build = .release) (a b : Nat) (hab : a ≠ b)
    (t : Bytes) (ht : t.length = 32) (qid data : Bytes) (timeout : Nat) (hc : (alone e a b qid data timeout).Ok)
    (hq : (alone e a b qid data timeout).query.length ≤ (e.opts b).maxAnswer) (v : Bytes)
    (hv : (alone e a b qid data timeout).application = .processed (some v))
    (hl : ((alone e a b qid data timeout).sent v).length + 43 ≤ (e.opts a).maxAnswer)
    (before after : List WAct) (hb : ∀ op ∈ before, Avoids t op) (ha : ∀ op ∈ after, Avoids t op)
    (hp : ∀ op ∈ after, Patient t op) :
    ∃ more, (∀ op ∈ more, Honest op) ∧
      (((World.init f).run e (before ++ .ask a b t qid data timeout :: after ++ more)).node a).ended.get t =
        some (.with (.data (received e.zstd ((alone e a b qid data timeout).sent v)))) := by
  have hne := length_ne_nil ht
  obtain ⟨xs, hxp, hs⟩ := among_others (f := f) (e := e) hab hne qid data timeout before after hb ha
  have hxp := hxp hp
  generalize hw : (World.init f).run e (before ++ .ask a b t qid data timeout :: after) = w at hs
  generalize hcc : alone e a b qid data timeout = c at *
  have hz : e.zstd = c.zstd := by rw [← hcc]; rfl
  have hsub : (e.opts b).subs = c.subs := by rw [← hcc]; rfl
  have hfor : (e.opts b).force = c.forceServer := by rw [← hcc]; rfl
  have hmS : (e.opts b).maxAnswer = c.maxServer := by rw [← hcc]; rfl
  have hmC : (e.opts a).maxAnswer = c.maxClient := by rw [← hcc]; rfl
  rw [hmS] at hq
  rw [hmC] at hl
  rw [hz]
  -- what the end of any run gives
  have last : ∀ (ops : List WAct) (ys : List XAct) (r : QueryResult),
      Sim a b t c (w.run e ops) ((Exchange.init f c).run c e.build ys) →
      ((Exchange.init f c).run c e.build ys).ended = some (.with r) →
      (((World.init f).run e (before ++ .ask a b t qid data timeout :: after ++ ops)).node a).ended.get t =
        some (.with (.data (received c.zstd (c.sent v)))) := by
    intro ops ys r h1 h2
    rw [World.run_append, hw, h1.client.ended, h2]
    obtain ⟨v', e1, e2⟩ := C107_result f hf c hc e.build ys r h2
    rw [hv] at e1
    cases e1
    rw [e2]
  have hbd : serve c.zstd c.subs c.forceServer c.query = some (.answer (writeMessage (.answer c.queryId (c.sent v)))) :=
    (hc.serve_iff _).mpr ⟨v, hv, by omega, rfl⟩
  have hbl := (answer_overhead c.queryId (c.sent v) hc.id).2
  have I := xinv_run hf hc (P := fun a => a ≠ .expire ∧ a ≠ .giveUp) (by simp) xs (xinv_init (f := f) c e.build _)
    hxp.query hxp.answer
  have hng := not_given_up c e.build xs (Exchange.init f c) (by simp [Exchange.init]) hxp.whole
  cases he : ((Exchange.init f c).run c e.build xs).ended with
  | some r =>
    cases r with
    | without => exact absurd he hng
    | «with» r => exact ⟨[], fun _ h => absurd h List.not_mem_nil, last [] xs r hs he⟩
  | none =>
    obtain ⟨as, hP, hqr⟩ := I.query
    obtain ⟨bs, cb, p1, l1⟩ := transfer_ends hf (query_nonempty c) hc.query_length hq as hP
    rw [hrel] at hqr
    rw [← hqr, ← hrel] at p1 l1
    rw [← hrel] at hqr
    obtain ⟨ops1, o1, s1⟩ := real_queries hab hne hmS bs hs cb
    have s2 := sim_serveQuery (e := e) hab hne hz hsub hfor s1
    have J := xinv_run hf hc (P := fun a => a ≠ .expire ∧ a ≠ .giveUp) (by simp) (bs.map .query ++ [.serve]) I
      (by
        intro a' h'
        rcases List.mem_append.mp h' with h' | h'
        · obtain ⟨y, hy, e⟩ := List.mem_map.mp h'
          cases e
          exact ⟨(cb a' hy).1, (cb a' hy).2.1⟩
        · simp at h')
      (by
        intro a' h'
        rcases List.mem_append.mp h' with h' | h'
        · obtain ⟨y, hy, e⟩ := List.mem_map.mp h'
          cases e
        · simp at h')
    have hx : ∃ s, ((((Exchange.init f c).run c e.build xs).run c e.build (bs.map .query ++ [.serve])).answer = some s) ∧
        (((Exchange.init f c).run c e.build xs).run c e.build (bs.map .query ++ [.serve])).ended = none ∧
        (((Exchange.init f c).run c e.build xs).run c e.build (bs.map .query ++ [.serve])).query.phase = .ok := by
      rw [Exchange.run_append, run_query c e.build bs _ (fun y hy => (cb y hy).2.2)]
      generalize (Exchange.init f c).run c e.build xs = x at he I hqr p1 l1
      show ∃ s, (Exchange.step c e.build { x with query := x.query.run e.build bs } .serve).answer = some s ∧
        (Exchange.step c e.build { x with query := x.query.run e.build bs } .serve).ended = none ∧
        (Exchange.step c e.build { x with query := x.query.run e.build bs } .serve).query.phase = .ok
      have hdata : (x.query.run e.build bs).recv.transfer.data = c.query := by
        have : x.query.run e.build bs = (Sys.init f c.query c.maxServer).run e.build (as ++ bs) := by
          rw [run_append, hqr]
        rw [this] at l1 ⊢
        exact complete_is_data hf e.build (query_nonempty c) hc.query_length _ _ l1
      simp only [Exchange.step]
      cases hsv : x.served with
      | true =>
        simp only [l1, Bool.not_true, Bool.and_false, Bool.false_eq_true, if_false]
        cases hxa : x.answer with
        | none => exact absurd hbd ((I.served hsv).2 hxa _)
        | some s => exact ⟨s, rfl, he, p1⟩
      | false =>
        simp only [l1, Bool.not_false, Bool.and_self, if_true, hdata, hbd]
        exact ⟨_, rfl, he, p1⟩
    have s3 : Sim a b t c (w.run e (ops1 ++ [.serve b t]))
        (((Exchange.init f c).run c e.build xs).run c e.build (bs.map .query ++ [.serve])) := by
      rw [World.run_append, Exchange.run_append]
      exact s2
    obtain ⟨s, hxa, hxe, hxph⟩ := hx
    obtain ⟨-, d, as2, hb2, hP2, hs2⟩ := J.answer s hxa
    have hb3 : d = writeMessage (.answer c.queryId (c.sent v)) := by
      rw [hbd] at hb2; cases hb2; rfl
    subst hb3
    obtain ⟨bs2, cb2, -, l2⟩ := transfer_ends hf (serve_answer hbd) (hc.answer_length hbd)
      (show (writeMessage (.answer c.queryId (c.sent v))).length ≤ c.maxClient by omega) as2 (hP2 hxe)
    rw [← hrel, ← hs2] at l2
    obtain ⟨ops2, ys, o2, s4, e4, p4, y, a4, left4⟩ := real_answers hab hne bs2 s3 hxa hxe cb2 l2
    have s5 := sim_finishQuery (e := e) hab hne hz s4
    refine ⟨ops1 ++ [.serve b t] ++ ops2 ++ [.finish a t], ?_, ?_⟩
    · intro op hop
      simp only [List.mem_append, List.mem_singleton] at hop
      rcases hop with ((hop | rfl) | hop) | rfl
      · exact o1 op hop
      · trivial
      · exact o2 op hop
      · trivial
    · refine last _ (xs ++ (bs.map .query ++ [.serve]) ++ ys ++ [.finish])
        (queryResult c.zstd c.queryId y.recv.transfer.data) ?_ ?_
      · rw [World.run_append, World.run_append, Exchange.run_append, Exchange.run_append, Exchange.run_append]
        exact s5
      · rw [Exchange.run_append, Exchange.run_append, Exchange.run_append]
        generalize (((Exchange.init f c).run c e.build xs).run c e.build (bs.map XAct.query ++ [XAct.serve])).run c e.build ys
          = x' at e4 p4 a4
        show (x'.step c e.build .finish).ended = _
        simp only [Exchange.step, a4, e4, p4, hxph, left4]
        rfl

/-! ### One result, one direction -/

section
variable {f : Fec}

theorem setState_rest (s : RNode f) (id : Bytes) (g : OutState → OutState) :
    (s.setState id g).runs = s.runs ∧ (s.setState id g).ended = s.ended := by
  unfold RNode.setState; split <;> exact ⟨rfl, rfl⟩

theorem take_rest (s : RNode f) (id : Bytes) (m : Part) : (s.take id m).1.runs = s.runs ∧ (s.take id m).1.ended = s.ended := by
  unfold RNode.take
  split
  · exact ⟨rfl, rfl⟩
  · simp only
    split
    · exact setState_rest _ _ _
    · exact ⟨rfl, rfl⟩

theorem handle_rest (o : ROpts) (build : Build) (s : RNode f) (src : Nat) (m : PartMsg) :
    (s.handle o build src m).1.runs = s.runs ∧ (s.handle o build src m).1.ended = s.ended := by
  cases m with
  | part id m =>
    rw [RNode.handle]
    split
    · exact take_rest _ _ _
    · exact ⟨rfl, rfl⟩
    · exact take_rest _ _ _
  | confirm id p n =>
    rw [RNode.handle]
    dsimp only
    split
    · exact setState_rest _ _ _
    · exact ⟨rfl, rfl⟩
  | complete id p =>
    rw [RNode.handle]
    dsimp only
    split
    · exact setState_rest _ _ _
    · exact ⟨rfl, rfl⟩

theorem send_rest (build : Build) (s : RNode f) (id : Bytes) (k : SendAct) :
    (s.send build id k).1.runs = s.runs ∧ (s.send build id k).1.ended = s.ended := by
  unfold RNode.send; split <;> exact ⟨rfl, rfl⟩

theorem serve_rest (z : Zstd) (o : ROpts) (s : RNode f) (id : Bytes) :
    (s.serve z o id).ended = s.ended ∧
      ∀ r ∈ (s.serve z o id).runs, r ∈ s.runs ∨ (r.1 = id ∧ ∃ t, s.ins.get id = some t ∧ t.own = false) := by
  unfold RNode.serve
  split
  · exact ⟨rfl, fun r h => .inl h⟩
  · rename_i t ht
    split
    · rename_i hc
      have ho : t.own = false := by
        simp only [Bool.and_eq_true, Bool.not_eq_eq_eq_not, Bool.not_true] at hc; exact hc.1.1
      simp only
      split <;>
      · refine ⟨rfl, fun r h => ?_⟩
        rcases List.mem_append.mp h with h | h
        · exact .inl h
        · rw [List.mem_singleton] at h; subst h
          exact .inr ⟨rfl, t, ht, ho⟩
    · exact ⟨rfl, fun r h => .inl h⟩

theorem finish_rest (z : Zstd) (s : RNode f) (id : Bytes) :
    (s.finish z id).runs = s.runs ∧ ∀ q r, s.ended.get q = some r → (s.finish z id).ended.get q = some r := by
  unfold RNode.finish
  split
  · rename_i qid t r _ hn _ _
    split
    · refine ⟨rfl, fun q r h => ?_⟩
      by_cases e : q = id
      · subst e; rw [hn] at h; cases h
      · exact (AMap.get_put_ne _ _ e).trans h
    · exact ⟨rfl, fun _ _ h => h⟩
  · exact ⟨rfl, fun _ _ h => h⟩

theorem quit_rest (s : RNode f) (id : Bytes) :
    (s.quit id).runs = s.runs ∧ ∀ q r, s.ended.get q = some r → (s.quit id).ended.get q = some r := by
  unfold RNode.quit
  split
  · rename_i _ hn
    refine ⟨rfl, fun q r h => ?_⟩
    by_cases e : q = id
    · subst e; rw [hn] at h; cases h
    · exact (AMap.get_put_ne _ _ e).trans h
  · exact ⟨rfl, fun _ _ h => h⟩

theorem expire_rest (s : RNode f) (id : Bytes) : (s.expire id).runs = s.runs ∧ (s.expire id).ended = s.ended := by
  unfold RNode.expire
  split
  · split <;> exact ⟨rfl, rfl⟩
  · exact ⟨rfl, rfl⟩

theorem put_node (w : World f) (n : Nat) (r : RNode f × List (Nat × PartMsg)) (k : Nat) :
    (w.put n r).node k = if k = n then r.1 else w.node k := rfl

/-- One step: results stay, and only `serve` gives something to the application. -/
theorem world_rest (e : Env) (w : World f) (x : WAct) (n : Nat) :
    (∀ q r, (w.node n).ended.get q = some r → ((w.step e x).node n).ended.get q = some r) ∧
    ∀ r ∈ ((w.step e x).node n).runs, r ∈ (w.node n).runs ∨ ∃ t, (w.node n).ins.get r.1 = some t ∧ t.own = false := by
  have lift : ∀ (k : Nat) (p : RNode f × List (Nat × PartMsg)),
      ((∀ q r, (w.node k).ended.get q = some r → p.1.ended.get q = some r) ∧
        ∀ r ∈ p.1.runs, r ∈ (w.node k).runs ∨ ∃ t, (w.node k).ins.get r.1 = some t ∧ t.own = false) →
      (∀ q r, (w.node n).ended.get q = some r → ((w.put k p).node n).ended.get q = some r) ∧
        ∀ r ∈ ((w.put k p).node n).runs, r ∈ (w.node n).runs ∨ ∃ t, (w.node n).ins.get r.1 = some t ∧ t.own = false := by
    intro k p h
    rw [put_node]
    split
    · rename_i e; subst e; exact h
    · exact ⟨fun _ _ h => h, fun _ h => .inl h⟩
  have same : ∀ {s s' : RNode f}, s'.runs = s.runs ∧ s'.ended = s.ended →
      (∀ q r, s.ended.get q = some r → s'.ended.get q = some r) ∧
        ∀ r ∈ s'.runs, r ∈ s.runs ∨ ∃ t, s.ins.get r.1 = some t ∧ t.own = false := by
    intro s s' h
    rw [h.1, h.2]
    exact ⟨fun _ _ h => h, fun _ h => .inl h⟩
  cases x with
  | ask k p id qid data timeout => exact lift k _ (same ⟨rfl, rfl⟩)
  | send k id a => exact lift k _ (same (send_rest _ _ _ _))
  | deliver i =>
    rw [World.step]
    split
    · exact lift _ _ (same (handle_rest _ _ _ _ _))
    · exact ⟨fun _ _ h => h, fun _ h => .inl h⟩
  | inject src dst m => exact lift _ _ (same (handle_rest _ _ _ _ _))
  | serve k id =>
    refine lift k _ ⟨?_, ?_⟩
    · intro q r h
      have := (serve_rest e.zstd (e.opts k) (w.node k) id).1
      exact (congrArg (fun m => AMap.get m q) this).trans h
    · intro r hr
      rcases (serve_rest e.zstd (e.opts k) (w.node k) id).2 r hr with h | ⟨h, t, h1, h2⟩
      · exact .inl h
      · exact .inr ⟨t, by rw [h]; exact h1, h2⟩
  | finish k id =>
    have h := finish_rest e.zstd (w.node k) id
    exact lift k _ ⟨h.2, fun r hr => .inl (h.1 ▸ hr)⟩
  | quit k id =>
    have h := quit_rest (w.node k) id
    exact lift k _ ⟨h.2, fun r hr => .inl (h.1 ▸ hr)⟩
  | expire k id => exact lift k _ (same (expire_rest _ _))

end

/-- C112: a query ends once. Whatever happens afterwards, its result stays. -/
theorem C112_ends_once (f : Fec) (e : Env) (w : World f) (n : Nat) (t : Bytes) (r : Ended)
    (h : (w.node n).ended.get t = some r) (later : List WAct) : ((w.run e later).node n).ended.get t = some r := by
  induction later generalizing w with
  | nil => exact h
  | cons x xs ih => exact ih _ ((world_rest e w x n).1 t r h)

/-- C112, in part: under the conditions of `C112_result_partial` no application is given the answer as if it were a
query. -/
theorem C112_answer_is_no_query_partial (f : Fec) (e : Env) (a b : Nat) (hab : a ≠ b) (t : Bytes) (ht : t.length = 32)
    (qid data : Bytes) (timeout : Nat) (before after : List WAct)
    (hb : ∀ op ∈ before, Avoids t op) (ha : ∀ op ∈ after, Avoids t op) (n : Nat) :
    ∀ r ∈ (((World.init f).run e (before ++ .ask a b t qid data timeout :: after)).node n).runs, r.1 ≠ negateId t := by
  have step : ∀ (w : World f) (x : WAct), (∀ k, (w.node k).ins.get (negateId t) = none ∨
        ∃ i, (w.node k).ins.get (negateId t) = some i ∧ i.own = true) →
      (∀ r ∈ (w.node n).runs, r.1 ≠ negateId t) → ∀ r ∈ ((w.step e x).node n).runs, r.1 ≠ negateId t := by
    intro w x hw h r hr
    rcases (world_rest e w x n).2 r hr with hr | ⟨i, h1, h2⟩
    · exact h r hr
    · intro e1
      rw [e1] at h1
      rcases hw n with h3 | ⟨i', h3, h4⟩
      · rw [h3] at h1; cases h1
      · rw [h3] at h1; cases h1; rw [h4] at h2; cases h2
  have first : ∀ xs : List WAct, (∀ op ∈ xs, Avoids t op) → ∀ r ∈ (((World.init f).run e xs).node n).runs, r.1 ≠ negateId t := by
    intro xs
    induction xs using List.reverseRecOn with
    | nil => intro _ r hr; cases hr
    | append_singleton xs x ih =>
      intro hx
      have hxs : ∀ op ∈ xs, Avoids t op := fun op h => hx op (List.mem_append_left _ h)
      rw [World.run_append]
      exact step _ x (fun k => .inl ((unused_run xs (unused_init t) hxs).node k).ins.2) (ih hxs)
  induction after using List.reverseRecOn with
  | nil =>
    rw [World.run_append]
    exact step _ (.ask a b t qid data timeout) (fun k => .inl ((unused_run before (unused_init t) hb).node k).ins.2) (first before hb)
  | append_singleton xs x ih =>
    have hxs : ∀ op ∈ xs, Avoids t op := fun op h => ha op (List.mem_append_left _ h)
    rw [← List.cons_append, ← List.append_assoc, World.run_append]
    refine step _ x ?_ (ih hxs)
    obtain ⟨xs', -, hs⟩ := among_others (f := f) (e := e) hab (length_ne_nil ht) qid data timeout before xs hb hxs
    intro k
    by_cases h1 : k = a
    · subst h1; exact .inr ⟨_, hs.client.rcv, rfl⟩
    · by_cases h2 : k = b
      · subst h2; exact .inl hs.server.noIn
      · exact .inl (hs.apart k h1 h2).ins.2

/-! ### Messages are matched to transfers by their id alone -/

/-- Node 1 doubles what it is asked, node 2 answers with what it is asked, the others answer nothing. -/
def toyEnv : Env :=
  { zstd := Zstd.toy
    opts := fun n => if n = 1 then ⟨[fun _ q => .consumed (some (q ++ q))], false, 200⟩
      else if n = 2 then ⟨[fun _ q => .consumed (some q)], false, 200⟩ else ⟨[], false, 200⟩
    build := .release }

def toyId : Bytes := List.replicate 32 5
def toyQuery : Bytes := List.replicate 32 1

/-- The query is sent and confirmed. -/
def toySent : List WAct :=
  [.send 0 toyId .begin, .send 0 toyId .bind, .send 0 toyId .chunk, .deliver 0, .deliver 1, .send 0 toyId .check,
    .send 0 toyId .begin]

/-- What a third node sends to node 0: an answer of its own to the query, with the negated transfer id. -/
def toyForged : List WAct :=
  ((Sys.init Fec.toy (writeMessage (.answer toyQuery [6, 6, 6, 6])) 200).run .release [.begin, .bind, .chunk]).net.map
    fun m => .inject 2 0 (.part (negateId toyId) m)

theorem toyEnv_ok : (alone toyEnv 0 1 toyQuery [1, 0, 0, 0] 7).Ok := ⟨by decide, by decide, by decide, by decide, by decide⟩

theorem toy_forged_result :
    (((World.init Fec.toy).run toyEnv ([] ++ .ask 0 1 toyId toyQuery [1, 0, 0, 0] 7 :: (toySent ++ toyForged ++
      [.finish 0 toyId]))).node 0).ended.get toyId = some (.with (.data [6, 6, 6, 6])) := by
  decide +kernel

/-- C112 fails as stated: a third node that knows the ids answers in the place of the asked node, because
`handle_message` does not look at the peer. -/
theorem C112_full_false : ¬ C112_full := by
  intro h
  obtain ⟨v, h1, h2⟩ := h Fec.toy Fec.toy_lawful toyEnv 0 1 (by decide) toyId rfl toyQuery [1, 0, 0, 0] 7 toyEnv_ok [] _ _
    toy_forged_result
  have h3 : (alone toyEnv 0 1 toyQuery [1, 0, 0, 0] 7).application = .processed (some [1, 0, 0, 0, 1, 0, 0, 0]) := by
    decide +kernel
  rw [h3] at h1
  cases h1
  revert h2
  decide +kernel

/-! ### The hypotheses can be met -/

def toyOther : Bytes := List.replicate 32 9

/-- Two queries of node 0 at the same time, to different nodes, with their messages mixed, and a message part made up by
a stranger. -/
def toyBefore : List WAct :=
  [.ask 0 2 toyOther (List.replicate 32 2) [3, 0, 0, 0] 7, .send 0 toyOther .begin, .send 0 toyOther .bind,
    .send 0 toyOther .chunk]

def toyAfter : List WAct :=
  [.send 0 toyId .begin, .send 0 toyId .bind, .deliver 0, .send 0 toyId .chunk, .serve 2 toyOther,
    .inject 5 1 (.confirm (List.replicate 32 7) 0 0), .deliver 2, .deliver 1, .deliver 3, .send 0 toyOther .check,
    .send 0 toyId .check, .send 0 toyId .begin, .serve 1 toyId, .send 1 (negateId toyId) .begin,
    .send 1 (negateId toyId) .bind, .send 1 (negateId toyId) .chunk]

theorem toy_before_avoids : ∀ op ∈ toyBefore, Avoids toyId op := by
  intro op h
  simp only [toyBefore, List.mem_cons, List.not_mem_nil, or_false] at h
  rcases h with rfl | rfl | rfl | rfl
  · exact ⟨by decide, by decide⟩
  all_goals exact trivial

theorem toy_after_avoids : ∀ op ∈ toyAfter ++ [.deliver 4, .finish 0 toyId], Avoids toyId op := by
  intro op h
  simp only [toyAfter, List.cons_append, List.nil_append, List.mem_cons, List.not_mem_nil, or_false] at h
  rcases h with rfl | rfl | rfl | rfl | rfl | rfl | rfl | rfl | rfl | rfl | rfl | rfl | rfl | rfl | rfl | rfl | rfl | rfl
  all_goals first | exact trivial | exact ⟨by decide, by decide⟩

theorem toy_result :
    (((World.init Fec.toy).run toyEnv (toyBefore ++ .ask 0 1 toyId toyQuery [1, 0, 0, 0] 7 :: (toyAfter ++
      [.deliver 4, .finish 0 toyId]))).node 0).ended.get toyId = some (.with (.data [1, 0, 0, 0, 1, 0, 0, 0])) := by
  decide +kernel

example := C112_result_partial Fec.toy Fec.toy_lawful toyEnv 0 1 (by decide) toyId rfl toyQuery [1, 0, 0, 0] 7 toyEnv_ok
  toyBefore _ toy_before_avoids toy_after_avoids _ toy_result
example := C112_asked_partial Fec.toy Fec.toy_lawful toyEnv 0 1 (by decide) toyId rfl toyQuery [1, 0, 0, 0] 7 toyEnv_ok
  toyBefore _ toy_before_avoids toy_after_avoids
example : (((World.init Fec.toy).run toyEnv (toyBefore ++ .ask 0 1 toyId toyQuery [1, 0, 0, 0] 7 :: toyAfter)).node 1).runs.map
    (fun r => (r.1, r.2.1)) = [(toyId, 0)] := by decide +kernel
example := C112_can_finish_partial Fec.toy Fec.toy_lawful toyEnv rfl 0 1 (by decide) toyId rfl toyQuery [1, 0, 0, 0] 7
  toyEnv_ok (by decide +kernel) [1, 0, 0, 0, 1, 0, 0, 0] (by decide +kernel) (by decide +kernel)
  toyBefore toyAfter toy_before_avoids (fun op h => toy_after_avoids op (List.mem_append_left _ h)) (by
    intro op h
    simp only [toyAfter, List.mem_cons, List.not_mem_nil, or_false] at h
    rcases h with rfl | rfl | rfl | rfl | rfl | rfl | rfl | rfl | rfl | rfl | rfl | rfl | rfl | rfl | rfl | rfl
    all_goals first | exact trivial | exact fun _ => by decide)
/-- The timer comes too late. -/
example := C112_ends_once Fec.toy toyEnv _ 0 toyId _ toy_result [.quit 0 toyId, .finish 0 toyId]
example := C112_answer_is_no_query_partial Fec.toy toyEnv 0 1 (by decide) toyId rfl toyQuery [1, 0, 0, 0] 7 toyBefore _ toy_before_avoids
  toy_after_avoids 0

end Verif.RldpTable
