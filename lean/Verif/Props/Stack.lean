import Verif.Props.Runs
import Verif.Props.RldpMany
import Verif.Proofs.RldpProto

/-!
# C120: RLDP queries over ADNL datagrams

The table of transfers of `src/rldp/` (C112) on top of two ADNL nodes (C111): `send_custom_message` takes the
messages of RLDP (rldp/transfers_cache.rs:488-491, 188-262), and what ADNL hands out is given to `try_consume_custom`
(rldp/node.rs:190-212).
-/
namespace Verif.Stack
open Verif.Adnl Verif.AdnlProto Verif.Process Verif.Delivery Verif.RoundTrip Verif.LongTrip Verif.Rldp Verif.RldpTable

variable {c : Crypto} {f : Fec}

/-! ### The system -/

/-- The number of a side of the connection among all RLDP nodes. -/
def idx (b : Bool) : Nat := if b then 1 else 0

/-- From one end of the connection to the other. -/
def Across (src dst : Nat) : Prop := ∃ b, src = idx b ∧ dst = idx !b

structure Joint (c : Crypto) (f : Fec) where
  talk : Talk c
  world : World f

/-- Custom messages that RLDP can read were handed to ADNL by RLDP, for the other side; their numbers are within their
types. -/
def FromRldp (w : World f) (ρ : Talk c) : Prop :=
  ∀ b d m rest, AdnlProto.Message.custom d ∈ ρ.told b → readPartMsg d = some (m, rest) →
    ∃ l ∈ w.net, l.src = idx b ∧ l.dst = (idx !b) ∧ l.msg.wf ∧ d = writePartMsg l.msg

/-- The two sides share RLDP messages through ADNL only. Everything else is as in C112, for any number of other nodes:
`Q` says what RLDP users and strangers do. `who` tells the peers apart by their ids. A message that was handed out may
be processed late, or more than once. -/
inductive JStep (P : Pair c) (M G : AdnlProto.Message → Prop) (e : Env) (who : Bytes → Nat) (Q : WAct → Prop) :
    Joint c f → Joint c f → Prop
  /-- a step of RLDP, or of any other connection -/
  | rldp (j : Joint c f) (x : WAct) : Q x →
      (∀ i l, x = .deliver i → j.world.net[i]? = some l → ¬ Across l.src l.dst) →
      (∀ src dst m, x = .inject src dst m → ¬ Across src dst) →
      JStep P M G e who Q j ⟨j.talk, j.world.step e x⟩
  /-- a step of ADNL: something is sent, a datagram arrives, or something unrelated happens -/
  | adnl (j : Joint c f) (ρ : Talk c) : TStep P M G j.talk ρ → FromRldp j.world ρ → JStep P M G e who Q j ⟨ρ, j.world⟩
  /-- a custom message that arrived is given to RLDP -/
  | hear (j : Joint c f) (b : Bool) (l p d rest : Bytes) (y : Process.Reply) (m : PartMsg) :
      (Event.custom l p d, y) ∈ j.talk.log b → readPartMsg d = some (m, rest) →
      JStep P M G e who Q j
        ⟨j.talk, j.world.put (idx b) ((j.world.node (idx b)).handle (e.opts (idx b)) e.build (who p) m)⟩

inductive JRun (P : Pair c) (M G : AdnlProto.Message → Prop) (e : Env) (who : Bytes → Nat) (Q : WAct → Prop) :
    Joint c f → Joint c f → Prop
  | refl (j : Joint c f) : JRun P M G e who Q j j
  | step (j₁ j₂ j₃ : Joint c f) : JRun P M G e who Q j₁ j₂ → JStep P M G e who Q j₂ j₃ → JRun P M G e who Q j₁ j₃

/-! ### The letters -/

theorem put_net (w : World f) (n : Nat) (r : RNode f × List (Nat × PartMsg)) (l : Letter) (h : l ∈ w.net) : l ∈ (w.put n r).net :=
  List.mem_append_left _ h

theorem step_net (e : Env) (w : World f) (x : WAct) (l : Letter) (h : l ∈ w.net) : l ∈ (w.step e x).net := by
  cases x with
  | deliver i =>
    rw [World.step]
    split
    · exact put_net _ _ _ _ h
    · exact h
  | _ => exact put_net _ _ _ _ h

theorem FromRldp.mono {w w' : World f} {ρ : Talk c} (h : FromRldp w ρ) (hn : ∀ l ∈ w.net, l ∈ w'.net) : FromRldp w' ρ := by
  intro b d m rest h1 h2
  obtain ⟨l, h3, h4⟩ := h b d m rest h1 h2
  exact ⟨l, hn l h3, h4⟩

theorem goes_trans {P : Pair c} {M G : AdnlProto.Message → Prop} {ρ₁ ρ₂ ρ₃ : Talk c} (h1 : Goes P M G ρ₁ ρ₂)
    (h2 : Goes P M G ρ₂ ρ₃) : Goes P M G ρ₁ ρ₃ := by
  induction h2 with
  | refl => exact h1
  | step _ _ _ hs ih => exact .step _ _ _ ih hs

/-- The run of RLDP alone that a run of both layers amounts to: every message RLDP gets from ADNL is one that the other
side's RLDP sent. -/
theorem refines (hc : c.Lawful) (P : Pair c) (hP : P.Fits) (M G : AdnlProto.Message → Prop) (hA : Apart c.sha M)
    (e : Env) (who : Bytes → Nat) (hwho : ∀ b, who (P.id b) = idx b) (Q : WAct → Prop) (ρ₀ : Talk c) (h0 : TStart P M ρ₀)
    (j j' : Joint c f) (h : JRun P M G e who Q j j') (hg : Goes P M G ρ₀ j.talk) (hf : FromRldp j.world j.talk) :
    (∃ acts, j'.world = j.world.run e acts ∧ ∀ x ∈ acts, Q x ∨ ∃ i, x = .deliver i) ∧
      Goes P M G ρ₀ j'.talk ∧ FromRldp j'.world j'.talk := by
  induction h with
  | refl => exact ⟨⟨[], rfl, by simp⟩, hg, hf⟩
  | step j₂ j₃ hr hs ih =>
    obtain ⟨⟨acts, h1, h2⟩, h3, h4⟩ := ih
    cases hs with
    | rldp x hQ hd hi =>
      refine ⟨⟨acts ++ [x], ?_, ?_⟩, h3, h4.mono (step_net e _ x)⟩
      · rw [World.run_append, ← h1]; rfl
      · intro y hy
        rcases List.mem_append.mp hy with hy | hy
        · exact h2 y hy
        · rw [List.mem_singleton.mp hy]; exact .inl hQ
    | adnl ρ ht hf' => exact ⟨⟨acts, h1, h2⟩, .step _ _ _ h3 ht, hf'⟩
    | hear b l p d rest y m hl hm =>
      have hsrc : p = P.id (!b) ∧ AdnlProto.Message.custom d ∈ j₂.talk.told (!b) := by
        rcases C111_nothing_made_up hc P hP M G hA ρ₀ j₂.talk h0 h3 b _ _ hl with ⟨_, _, h, -⟩ | ⟨_, h, g⟩ | ⟨_, _, _, h, -⟩
        · cases h
        · cases h; exact ⟨rfl, g⟩
        · cases h
      obtain ⟨k, hk, k1, k2, k3, k4⟩ := h4 (!b) d m rest hsrc.2 hm
      rw [Bool.not_not] at k2
      have hmk : m = k.msg := by
        have := partMsg_encodes k.msg k3 []
        rw [List.append_nil, ← k4, hm] at this
        exact (Prod.mk.inj (Option.some.inj this)).1
      obtain ⟨i, hi⟩ := List.mem_iff_getElem?.mp hk
      have hstep : j₂.world.step e (.deliver i) =
          j₂.world.put (idx b) ((j₂.world.node (idx b)).handle (e.opts (idx b)) e.build (who p) m) := by
        rw [World.step, hi]
        simp only
        rw [k1, k2, hsrc.1, hwho, hmk]
      refine ⟨⟨acts ++ [.deliver i], ?_, ?_⟩, h3, h4.mono (put_net _ _ _)⟩
      · rw [World.run_append, ← h1, ← hstep]; rfl
      · intro y hy
        rcases List.mem_append.mp hy with hy | hy
        · exact h2 y hy
        · exact .inr ⟨i, List.mem_singleton.mp hy⟩

theorem idx_ne (b : Bool) : idx b ≠ idx !b := by cases b <;> decide

/-- The query in the run of RLDP alone. -/
theorem query_refines (hc : c.Lawful) (P : Pair c) (hP : P.Fits) (M G : AdnlProto.Message → Prop) (hA : Apart c.sha M)
    (e : Env) (who : Bytes → Nat) (hwho : ∀ b, who (P.id b) = idx b) (ρ₀ : Talk c) (h0 : TStart P M ρ₀)
    (hf : FromRldp (World.init f) ρ₀) (t qid data : Bytes) (timeout : Nat) (b : Bool) (j₁ j₂ : Joint c f)
    (h1 : JRun P M G e who (Avoids t) ⟨ρ₀, World.init f⟩ j₁)
    (h2 : JRun P M G e who (Avoids t) ⟨j₁.talk, j₁.world.step e (.ask (idx b) (idx !b) t qid data timeout)⟩ j₂) :
    ∃ before after, (∀ x ∈ before, Avoids t x) ∧ (∀ x ∈ after, Avoids t x) ∧
      j₂.world = (World.init f).run e (before ++ .ask (idx b) (idx !b) t qid data timeout :: after) := by
  have weak : ∀ acts : List WAct, (∀ x ∈ acts, Avoids t x ∨ ∃ i, x = .deliver i) → ∀ x ∈ acts, Avoids t x := by
    intro acts h x hx
    rcases h x hx with h | ⟨i, rfl⟩
    · exact h
    · trivial
  obtain ⟨⟨before, g1, g2⟩, g3, g4⟩ := refines hc P hP M G hA e who hwho _ ρ₀ h0 _ _ h1 (.refl _) hf
  obtain ⟨⟨after, k1, k2⟩, -, -⟩ := refines hc P hP M G hA e who hwho _ ρ₀ h0 _ _ h2 g3 (g4.mono (step_net e _ _))
  refine ⟨before, after, weak _ g2, weak _ k2, ?_⟩
  rw [k1, World.run_append, ← g1]
  rfl

/-! ### The property -/

/-- C120: the RLDP query of one side of an ADNL connection, over a network that loses, repeats, reorders and delays
datagrams, among any number of other queries: if it ends with an answer, it is the answer of the other side's
application to this query. Other queries do not use its transfer id, and no third node makes up messages for it. -/
theorem C120_result (hc : c.Lawful) (P : Pair c) (hP : P.Fits) (M G : AdnlProto.Message → Prop) (hA : Apart c.sha M)
    (hf : f.Lawful) (e : Env) (who : Bytes → Nat) (hwho : ∀ b, who (P.id b) = idx b) (ρ₀ : Talk c) (h0 : TStart P M ρ₀)
    (hR : FromRldp (World.init f) ρ₀) (t : Bytes) (ht : t.length = 32) (qid data : Bytes) (timeout : Nat) (b : Bool)
    (hok : (alone e (idx b) (idx !b) qid data timeout).Ok) (j₁ j₂ : Joint c f)
    (h1 : JRun P M G e who (Avoids t) ⟨ρ₀, World.init f⟩ j₁)
    (h2 : JRun P M G e who (Avoids t) ⟨j₁.talk, j₁.world.step e (.ask (idx b) (idx !b) t qid data timeout)⟩ j₂)
    (r : QueryResult) (hr : (j₂.world.node (idx b)).ended.get t = some (.with r)) :
    ∃ v, (alone e (idx b) (idx !b) qid data timeout).application = .processed (some v) ∧
      r = .data (received e.zstd ((alone e (idx b) (idx !b) qid data timeout).sent v)) := by
  obtain ⟨before, after, hb, ha, hw⟩ := query_refines hc P hP M G hA e who hwho ρ₀ h0 hR t qid data timeout b j₁ j₂ h1 h2
  rw [hw] at hr
  exact C112_result_partial f hf e _ _ (idx_ne b) t ht qid data timeout hok before after hb ha r hr

/-- C120: under the same conditions only the other side's application is given this query, at most once, as coming from
the asking side, and with the content it was asked with. -/
theorem C120_asked (hc : c.Lawful) (P : Pair c) (hP : P.Fits) (M G : AdnlProto.Message → Prop) (hA : Apart c.sha M)
    (hf : f.Lawful) (e : Env) (who : Bytes → Nat) (hwho : ∀ b, who (P.id b) = idx b) (ρ₀ : Talk c) (h0 : TStart P M ρ₀)
    (hR : FromRldp (World.init f) ρ₀) (t : Bytes) (ht : t.length = 32) (qid data : Bytes) (timeout : Nat) (b : Bool)
    (hok : (alone e (idx b) (idx !b) qid data timeout).Ok) (j₁ j₂ : Joint c f)
    (h1 : JRun P M G e who (Avoids t) ⟨ρ₀, World.init f⟩ j₁)
    (h2 : JRun P M G e who (Avoids t) ⟨j₁.talk, j₁.world.step e (.ask (idx b) (idx !b) t qid data timeout)⟩ j₂) :
    (∀ n, n ≠ (idx !b) → ∀ r ∈ (j₂.world.node n).runs, r.1 ≠ t) ∧
    ((j₂.world.node (idx !b)).runs.filter (fun r => decide (r.1 = t))).length ≤ 1 ∧
    ∀ r ∈ (j₂.world.node (idx !b)).runs, r.1 = t →
      r.2.1 = idx b ∧ fromData r.2.2 = some ⟨qid, (e.opts (idx b)).maxAnswer, (alone e (idx b) (idx !b) qid data timeout).payload⟩ := by
  obtain ⟨before, after, hb, ha, hw⟩ := query_refines hc P hP M G hA e who hwho ρ₀ h0 hR t qid data timeout b j₁ j₂ h1 h2
  rw [hw]
  exact C112_asked_partial f hf e _ _ (idx_ne b) t ht qid data timeout hok before after hb ha

/-! ### A computed run -/

inductive JCmd where
  | rldp (x : WAct)
  /-- RLDP's letter `i` is handed to ADNL -/
  | carry (b : Bool) (now i : Nat)
  /-- a datagram arrives -/
  | bring (b : Bool) (i now : Nat)
  /-- entry `i` of what arrived is given to RLDP -/
  | hear (b : Bool) (i : Nat)

instance (m : PartMsg) : Decidable m.wf := by
  cases m <;> simp only [PartMsg.wf, FecType.wf] <;> infer_instance

/-- Nothing is delivered past ADNL. -/
def mine : WAct → Bool
  | .deliver _ => false
  | .inject .. => false
  | _ => true

def jexec1 (P : Pair c) (key : c.Sec) (rand : Nat → Sender.Rand c) (msgs : List AdnlProto.Message) (e : Env) (who : Bytes → Nat)
    (j : Joint c f) : JCmd → Option (Joint c f)
  | .rldp x => if mine x then some ⟨j.talk, j.world.step e x⟩ else none
  | .carry b now i =>
    match j.world.net[i]? with
    | none => none
    | some l =>
      if l.src = idx b ∧ l.dst = (idx !b) ∧ l.msg.wf ∧ (writePartMsg l.msg).length < 2 ^ 24 ∧
          AdnlProto.Message.custom (writePartMsg l.msg) ∈ msgs then
        match LongTrip.exec1 P key rand j.talk (.tell b now (.custom (writePartMsg l.msg))) with
        | some ρ => some ⟨ρ, j.world⟩
        | none => none
      else none
  | .bring b i now =>
    match LongTrip.exec1 P key rand j.talk (.deliver b i now fun _ => .done) with
    | some ρ => some ⟨ρ, j.world⟩
    | none => none
  | .hear b i =>
    match (j.talk.log b)[i]? with
    | some (.custom _ p d, _) =>
      match readPartMsg d with
      | some (m, _) => some ⟨j.talk, j.world.put (idx b) ((j.world.node (idx b)).handle (e.opts (idx b)) e.build (who p) m)⟩
      | none => none
    | _ => none

def jexec (P : Pair c) (key : c.Sec) (rand : Nat → Sender.Rand c) (msgs : List AdnlProto.Message) (e : Env) (who : Bytes → Nat)
    (j : Joint c f) : List JCmd → Option (Joint c f)
  | [] => some j
  | x :: xs =>
    match jexec1 P key rand msgs e who j x with
    | none => none
    | some j' => jexec P key rand msgs e who j' xs

theorem exec1_told_tell {P : Pair c} {key : c.Sec} {rand : Nat → Sender.Rand c} {ρ ρ' : Talk c} {b : Bool} {now : Nat} {m : AdnlProto.Message}
    (h : LongTrip.exec1 P key rand ρ (.tell b now m) = some ρ') (b' : Bool) : ∀ x ∈ ρ'.told b', x ∈ ρ.told b' ∨ (b' = b ∧ x = m) := by
  rw [LongTrip.exec1] at h
  split at h
  · split at h
    · cases h
      intro x hx
      by_cases hb : b' = b
      · subst hb
        simp only [told, Establish.upd_self, List.mem_cons] at hx
        rcases hx with hx | hx
        · exact .inr ⟨rfl, hx⟩
        · exact .inl hx
      · simp only [told, Establish.upd, if_neg hb] at hx
        exact .inl hx
    · cases h
  · cases h

theorem exec1_told_deliver {P : Pair c} {key : c.Sec} {rand : Nat → Sender.Rand c} {ρ ρ' : Talk c} {b : Bool} {i now : Nat}
    {subs : Event → Process.Reply} (h : LongTrip.exec1 P key rand ρ (.deliver b i now subs) = some ρ') : ρ'.told = ρ.told := by
  rw [LongTrip.exec1] at h
  split at h
  · cases h
  · split at h
    · cases h; rfl
    · cases h

theorem jexec1_step {P : Pair c} (hv : ∀ b, (P.opts b).version = some 0) (G : AdnlProto.Message → Prop) (key : c.Sec)
    (rand : Nat → Sender.Rand c) (hb : ∀ k, (rand k).bytes.length = 10) (msgs : List AdnlProto.Message) (e : Env) (who : Bytes → Nat)
    (Q : WAct → Prop) (j j' : Joint c f) (hf : FromRldp j.world j.talk) (x : JCmd) (hx : ∀ y, x = .rldp y → Q y)
    (h : jexec1 P key rand msgs e who j x = some j') :
    JStep P (· ∈ msgs) G e who Q j j' ∧ FromRldp j'.world j'.talk := by
  cases x with
  | rldp x =>
    rw [jexec1] at h
    split at h
    · rename_i hm
      cases h
      refine ⟨.rldp j x (hx x rfl) ?_ ?_, hf.mono (step_net e _ x)⟩
      · rintro i l rfl; cases hm
      · rintro s d m rfl; cases hm
    · cases h
  | carry b now i =>
    rw [jexec1] at h
    split at h
    · cases h
    · rename_i l hl
      split at h
      · rename_i hc
        split at h
        · rename_i ρ he
          cases h
          have hf' : FromRldp j.world ρ := by
            intro b' d m rest hd hm
            rcases exec1_told_tell he b' _ hd with hd | ⟨rfl, hd⟩
            · exact hf b' d m rest hd hm
            · cases hd
              exact ⟨l, List.mem_iff_getElem?.mpr ⟨i, hl⟩, hc.1, hc.2.1, hc.2.2.1, rfl⟩
          exact ⟨.adnl j ρ (exec1_goes hv _ G key rand hb _ _ (.tell b now (.custom (writePartMsg l.msg))) ⟨hc.2.2.2.1, hc.2.2.2.2⟩ he) hf', hf'⟩
        · cases h
      · cases h
  | bring b i now =>
    rw [jexec1] at h
    split at h
    · rename_i ρ he
      cases h
      have hf' : FromRldp j.world ρ := by
        intro b' d m rest hd hm
        rw [exec1_told_deliver he] at hd
        exact hf b' d m rest hd hm
      exact ⟨.adnl j ρ (exec1_goes hv _ G key rand hb _ _ _ (by intro _ _ _ _ _ _ h; cases h) he) hf', hf'⟩
    · cases h
  | hear b i =>
    rw [jexec1] at h
    split at h
    · rename_i l p d y hl
      split at h
      · rename_i m rest hm
        cases h
        exact ⟨.hear j b l p d rest y m (List.mem_iff_getElem?.mpr ⟨i, hl⟩) hm, hf.mono (put_net _ _ _)⟩
      · cases h
    · cases h

theorem jexec_run {P : Pair c} (hv : ∀ b, (P.opts b).version = some 0) (G : AdnlProto.Message → Prop) (key : c.Sec)
    (rand : Nat → Sender.Rand c) (hb : ∀ k, (rand k).bytes.length = 10) (msgs : List AdnlProto.Message) (e : Env) (who : Bytes → Nat)
    (Q : WAct → Prop) (xs : List JCmd) : ∀ (j₀ j j' : Joint c f), JRun P (· ∈ msgs) G e who Q j₀ j → FromRldp j.world j.talk →
      (∀ y, JCmd.rldp y ∈ xs → Q y) → jexec P key rand msgs e who j xs = some j' →
      JRun P (· ∈ msgs) G e who Q j₀ j' ∧ FromRldp j'.world j'.talk := by
  induction xs with
  | nil => intro j₀ j j' h hf _ he; cases he; exact ⟨h, hf⟩
  | cons x xs ih =>
    intro j₀ j j' h hf hx he
    rw [jexec] at he
    split at he
    · cases he
    · rename_i j'' h1
      obtain ⟨k1, k2⟩ := jexec1_step hv G key rand hb msgs e who Q j j'' hf x
        (by rintro y rfl; exact hx y List.mem_cons_self) h1
      exact ih j₀ j'' j' (.step _ _ _ h k1) k2 (fun y hy => hx y (List.mem_cons_of_mem _ hy)) he

/-! ### Example -/

def toyWho (p : Bytes) : Nat := if p = toyPair.id false then 0 else if p = toyPair.id true then 1 else 2

/-- A query of node 0 to a third node is started before. -/
def toyFirst : List JCmd :=
  [.rldp (.ask 0 2 toyOther (List.replicate 32 2) [3, 0, 0, 0] 7), .rldp (.send 0 toyOther .begin),
    .rldp (.send 0 toyOther .bind), .rldp (.send 0 toyOther .chunk)]

def toyThen : List JCmd :=
  [.rldp (.send 0 toyId .begin), .rldp (.send 0 toyId .bind), .rldp (.send 0 toyId .chunk),
    .carry false 130 1, .bring false 0 140, .hear true 0,
    .carry true 141 2, .bring true 0 142, .hear false 0,
    .rldp (.send 0 toyId .check), .rldp (.send 0 toyId .begin), .rldp (.serve 1 toyId),
    .rldp (.send 1 (negateId toyId) .begin), .rldp (.send 1 (negateId toyId) .bind), .rldp (.send 1 (negateId toyId) .chunk),
    .carry true 143 3, .bring true 1 144, .hear false 1, .hear true 0, .rldp (.finish 0 toyId)]

def toyWorld : World Fec.toy := (World.init Fec.toy).run toyEnv (toyBefore ++ .ask 0 1 toyId toyQuery [1, 0, 0, 0] 7 ::
  [.send 0 toyId .begin, .send 0 toyId .bind, .send 0 toyId .chunk, .deliver 1, .deliver 2, .send 0 toyId .check, .send 0 toyId .begin,
   .serve 1 toyId, .send 1 (negateId toyId) .begin, .send 1 (negateId toyId) .bind, .send 1 (negateId toyId) .chunk, .deliver 3])

/-- The messages of both sides. -/
def toyMsgs : List AdnlProto.Message := (toyWorld.net.drop 1).map fun l => .custom (writePartMsg l.msg)

theorem toyMsgs_apart : Apart Crypto.toy.sha (· ∈ toyMsgs) := by
  have : ∀ x ∈ toyMsgs, ∀ y ∈ toyMsgs, Crypto.toy.sha (AdnlProto.writeMessage x) = Crypto.toy.sha (AdnlProto.writeMessage y) → x = y := by
    decide +kernel
  exact fun x y hx hy h => this x hx y hy h

def toyRun (xs : List JCmd) (j : Joint Crypto.toy Fec.toy) : Option (Joint Crypto.toy Fec.toy) :=
  jexec toyPair (show UInt8 from 1) toyRands toyMsgs toyEnv toyWho j xs

def asked (j : Joint Crypto.toy Fec.toy) : Joint Crypto.toy Fec.toy :=
  ⟨j.talk, j.world.step toyEnv (.ask (idx false) (idx !false) toyId toyQuery [1, 0, 0, 0] 7)⟩

theorem toy_computed : (((toyRun toyFirst ⟨toyTalk, World.init Fec.toy⟩).bind fun j => toyRun toyThen (asked j)).map fun j =>
    ((j.world.node 0).ended.get toyId, (j.world.node 1).runs.map fun r => (r.1, r.2.1))) =
    some (some (.with (.data [1, 0, 0, 0, 1, 0, 0, 0])), [(toyId, 0)]) := by
  decide +kernel

theorem toyWho_id : ∀ b, toyWho (toyPair.id b) = idx b := by
  intro b; cases b <;> decide +kernel

theorem toy_fromRldp : FromRldp (World.init Fec.toy) toyTalk := by
  intro b d m rest h; cases h

theorem toyFirst_avoids : ∀ y, JCmd.rldp y ∈ toyFirst → Avoids toyId y := by
  intro y h
  simp only [toyFirst, List.mem_cons, List.not_mem_nil, or_false, JCmd.rldp.injEq] at h
  rcases h with rfl | rfl | rfl | rfl
  · exact ⟨by decide, by decide⟩
  all_goals trivial

theorem toyThen_avoids : ∀ y, JCmd.rldp y ∈ toyThen → Avoids toyId y := by
  intro y h
  simp only [toyThen, List.mem_cons, List.not_mem_nil, or_false, JCmd.rldp.injEq, reduceCtorEq, false_or] at h
  rcases h with rfl | rfl | rfl | rfl | rfl | rfl | rfl | rfl | rfl | rfl <;> trivial

theorem toyRun_run (xs : List JCmd) (j j' : Joint Crypto.toy Fec.toy) (hf : FromRldp j.world j.talk)
    (hx : ∀ y, JCmd.rldp y ∈ xs → Avoids toyId y) (h : toyRun xs j = some j') :
    JRun toyPair (· ∈ toyMsgs) (fun _ => False) toyEnv toyWho (Avoids toyId) j j' ∧ FromRldp j'.world j'.talk :=
  jexec_run (P := toyPair) (fun _ => rfl) (fun _ => False) (show UInt8 from 1) toyRands (fun _ => rfl) toyMsgs toyEnv toyWho
    (Avoids toyId) xs j j j' (.refl _) hf hx h

/-- The two parts of the run, and where it ends. -/
theorem toy_run : ∃ j₁ j₂, JRun toyPair (· ∈ toyMsgs) (fun _ => False) toyEnv toyWho (Avoids toyId) ⟨toyTalk, World.init Fec.toy⟩ j₁ ∧
    JRun toyPair (· ∈ toyMsgs) (fun _ => False) toyEnv toyWho (Avoids toyId) (asked j₁) j₂ ∧
    (j₂.world.node 0).ended.get toyId = some (.with (.data [1, 0, 0, 0, 1, 0, 0, 0])) ∧
    ((j₂.world.node 1).runs.map fun r => (r.1, r.2.1)) = [(toyId, 0)] := by
  have h := toy_computed
  cases e1 : toyRun toyFirst ⟨toyTalk, World.init Fec.toy⟩ with
  | none => rw [e1] at h; cases h
  | some j₁ =>
    rw [e1, Option.bind_some] at h
    cases e2 : toyRun toyThen (asked j₁) with
    | none => rw [e2] at h; cases h
    | some j₂ =>
      rw [e2] at h
      simp only [Option.map_some, Option.some.injEq, Prod.mk.injEq] at h
      obtain ⟨g1, g2⟩ := toyRun_run _ _ _ toy_fromRldp toyFirst_avoids e1
      obtain ⟨g3, -⟩ := toyRun_run _ (asked j₁) _ (g2.mono (step_net toyEnv _ _)) toyThen_avoids e2
      exact ⟨j₁, j₂, g1, g3, h.1, h.2⟩

/-- C120_result, C120_asked: a query and its answer cross the connection as datagrams. -/
example : ∃ j₂ : Joint Crypto.toy Fec.toy,
    (j₂.world.node 0).ended.get toyId = some (.with (.data [1, 0, 0, 0, 1, 0, 0, 0])) ∧
    (∃ v, (alone toyEnv 0 1 toyQuery [1, 0, 0, 0] 7).application = .processed (some v) ∧
      QueryResult.data [1, 0, 0, 0, 1, 0, 0, 0] = .data (received toyEnv.zstd ((alone toyEnv 0 1 toyQuery [1, 0, 0, 0] 7).sent v))) ∧
    ((j₂.world.node 1).runs.filter (fun r => decide (r.1 = toyId))).length ≤ 1 := by
  obtain ⟨j₁, j₂, h1, h2, h3, -⟩ := toy_run
  exact ⟨j₂, h3,
    C120_result Crypto.toy_lawful toyPair toyPair_fits (· ∈ toyMsgs) (fun _ => False) toyMsgs_apart Fec.toy_lawful toyEnv toyWho
      toyWho_id toyTalk (toyTalk_start _) toy_fromRldp toyId rfl toyQuery [1, 0, 0, 0] 7 false toyEnv_ok j₁ j₂ h1 h2 _ h3,
    (C120_asked Crypto.toy_lawful toyPair toyPair_fits (· ∈ toyMsgs) (fun _ => False) toyMsgs_apart Fec.toy_lawful toyEnv toyWho
      toyWho_id toyTalk (toyTalk_start _) toy_fromRldp toyId rfl toyQuery [1, 0, 0, 0] 7 false toyEnv_ok j₁ j₂ h1 h2).2.1⟩

end Verif.Stack
