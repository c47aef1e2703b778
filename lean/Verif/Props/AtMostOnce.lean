import Verif.Proofs.LaneCount
import Verif.Props.LongTrip

/-!
# C116 — A message between two honest nodes is handled at most once per sending

The runs are those of C111 (Props/LongTrip.lean): two nodes as they are after start-up, messages of any length, channel
set-up, datagrams that arrive in any order, several times or never, subscribers that answer or not, transfers
that are given up. `ρ.log (!b)` is what subscribers and waiting queries of one side got to see of the other,
`ρ.sends b` what the other side sent.
-/

namespace Verif.LongTrip
open Verif.Tl Verif.Adnl Verif.AdnlProto Verif.Address Verif.Node Verif.Receiver Verif.Sender Verif.Props
open Verif.Process Verif.Delivery Verif.RoundTrip
open Verif.Establish (upd upd_self upd_not upd_not' Expected)

variable {c : Crypto}

/-- How often the users of the other side got to see the event. -/
def timesSeen (ρ : Talk c) (b : Bool) (e : Event) : Nat := (ρ.log (!b)).countP fun x => decide (x.1 = e)

/-- How often side `b` sent the message. -/
def timesSent (ρ : Talk c) (b : Bool) (m : Message) : Nat := (ρ.sends b).countP fun x => decide (x.1 = m)

/-- Datagram `i` of side `b` belongs to a sending of the message. -/
def belongs (ρ : Talk c) (b : Bool) (m : Message) (i : Nat) : Bool :=
  match (ρ.src b)[i]? with
  | some k => decide ((ρ.sends b)[k]?.map (·.1) = some m)
  | none => false

/-- How often a datagram with (a part of) the message has arrived. -/
def timesArrived (ρ : Talk c) (b : Bool) (m : Message) : Nat := (ρ.seen b).countP (belongs ρ b m)

theorem times_seen {P : Pair c} {M G : Message → Prop} {N : Bool → Rule} {T : Bool → Transfer.Table} {ρ : Talk c} {σ : Sys c}
    {evs : Bool → List Message} (hR : Rel P M G N T ρ σ evs) {b : Bool} {m : Message} {e : Event} (hm : Whole m)
    (hall : ∀ x ∈ evs b, Whole x) (he : eventOf (P.id !b) (P.id b) m = some e) : timesSeen ρ b e = (evs b).count m := by
  have h1 : timesSeen ρ b e = ((ρ.log (!b)).map fun x => some x.1).count (some e) := by
    unfold timesSeen
    rw [List.count, List.countP_map]
    refine List.countP_congr fun x _ => ?_
    simp
  rw [h1, hR.log b, List.count, List.countP_map]
  refine List.countP_congr fun x hx => ?_
  have hw := hall x hx
  simp only [Function.comp_apply, beq_iff_eq]
  rw [← he]
  constructor
  · intro h
    cases x <;> first | cases hw | skip
    all_goals cases m <;> first | cases hm | skip
    all_goals simp [eventOf] at h ⊢
    all_goals exact h
  · intro h
    rw [h]

/-- **C116** Two honest nodes, whatever arrives, in whatever order and however often: if the receiver keeps a history of
packet numbers and the sender has sent fewer than 256 datagrams, then a query, an answer or a custom message is seen
at most as often as it was sent, if all its sendings are cut into at most two datagrams. Partial: see `C116_full`. -/
theorem C116_at_most_once_partial (hc : c.Lawful) (P : Pair c) (hP : P.Fits) (M G : Message → Prop) (hA : Apart c.sha M)
    (ρ₀ ρ : Talk c) (h0 : TStart P M ρ₀) (h : Goes P M G ρ₀ ρ) (b : Bool) (hhist : (P.opts !b).historyEnabled = true)
    (hfew : (ρ.net b).length < 256) (m : Message) (e : Event) (he : eventOf (P.id !b) (P.id b) m = some e)
    (hshort : ∀ a, (m, a) ∈ ρ.sends b → (writeMessage m).length ≤ firstPart a + 1024) :
    timesSeen ρ b e ≤ timesSent ρ b m := by
  obtain ⟨σ, evs, hR⟩ := sim_goes_young hc hP hA h0 h (fun b' => ⟨b' = b, False⟩)
    (fun b' => ⟨fun hb => by rw [show b' = b from hb]; exact ⟨hhist, hfew⟩, fun h => h.elim⟩)
  obtain ⟨last, -, hl⟩ := hR.lane b
  have hI := (lane_run hA (h0.transfers _) hl).1
  have hall : ∀ x ∈ evs b, Whole x := by
    intro x hx
    obtain ⟨a, ha⟩ := hI.evs x hx
    exact (hI.sends _ ha).1
  by_cases hz : timesSeen ρ b e = 0
  · rw [hz]; exact Nat.zero_le _
  · obtain ⟨y, hy, hye⟩ := List.countP_pos_iff.mp (Nat.pos_of_ne_zero hz)
    have hye : y.1 = e := by simpa using hye
    have : some e ∈ (evs b).map (eventOf (P.id !b) (P.id b)) := by
      rw [← hR.log b]; exact List.mem_map.mpr ⟨y, hy, by rw [hye]⟩
    obtain ⟨m', hm', he'⟩ := List.mem_map.mp this
    have hw' := hall m' hm'
    have : m' = m := by
      rw [← he] at he'
      cases m' <;> first | cases hw' | skip
      all_goals cases m <;> first | cases he | skip
      all_goals simp [eventOf] at he' ⊢
      all_goals exact he'
    subst this
    obtain ⟨a, ha⟩ := hI.evs m' hm'
    rw [times_seen hR hw' hall he]
    exact lane_count (N := ⟨b = b, False⟩) rfl hA (h0.transfers _) hl (hI.sends _ ha).2.1 hw' hshort

/-- **C116 (sent once)** Under the same conditions a message that was sent once is seen at most once, whatever its length. -/
theorem C116_sent_once_partial (hc : c.Lawful) (P : Pair c) (hP : P.Fits) (M G : Message → Prop) (hA : Apart c.sha M)
    (ρ₀ ρ : Talk c) (h0 : TStart P M ρ₀) (h : Goes P M G ρ₀ ρ) (b : Bool) (hhist : (P.opts !b).historyEnabled = true)
    (hfew : (ρ.net b).length < 256) (m : Message) (e : Event) (he : eventOf (P.id !b) (P.id b) m = some e) (k : Nat)
    (a : Option Nat) (hO : SentOnce ρ b m k a) : timesSeen ρ b e ≤ 1 := by
  by_cases hs : (writeMessage m).length ≤ firstPart a + 1024
  · refine Nat.le_trans (C116_at_most_once_partial hc P hP M G hA ρ₀ ρ h0 h b hhist hfew m e he ?_) ?_
    · intro a' ha'
      obtain ⟨k', hk'⟩ := List.mem_iff_getElem?.mp ha'
      rw [hO.2 k' a' hk', hO.1] at hk'
      cases hk'
      exact hs
    · obtain ⟨h1, h2⟩ := hO
      obtain ⟨hk, hke⟩ := List.getElem?_eq_some_iff.mp h1
      unfold timesSent
      have hsplit : ρ.sends b = (ρ.sends b).take k ++ (m, a) :: (ρ.sends b).drop (k + 1) := by
        rw [← hke, List.getElem_cons_drop, List.take_append_drop]
      have hno : ∀ (j : Nat) x, (ρ.sends b)[j]? = some x → j ≠ k → ¬ x.1 = m := by
        rintro j ⟨m', a'⟩ hj hne rfl
        exact hne (h2 j a' hj)
      rw [hsplit, List.countP_append, List.countP_cons]
      have e1 : ((ρ.sends b).take k).countP (fun x => decide (x.1 = m)) = 0 := by
        rw [List.countP_eq_zero]
        intro x hx
        obtain ⟨j, hj⟩ := List.mem_iff_getElem?.mp hx
        rw [List.getElem?_take] at hj
        split at hj
        · have := hno j x hj (by omega); simpa using this
        · cases hj
      have e2 : ((ρ.sends b).drop (k + 1)).countP (fun x => decide (x.1 = m)) = 0 := by
        rw [List.countP_eq_zero]
        intro x hx
        obtain ⟨j, hj⟩ := List.mem_iff_getElem?.mp hx
        rw [List.getElem?_drop] at hj
        have := hno _ x hj (by omega); simpa using this
      rw [e1, e2]
      simp
  · have hn := C111_long_never_arrives hc P hP M G hA ρ₀ ρ h0 h b m k a hO (by omega)
    have : timesSeen ρ b e = 0 := by
      unfold timesSeen
      rw [List.countP_eq_zero]
      rintro ⟨e', y⟩ hx
      simp only [decide_eq_true_eq]
      rintro rfl
      exact hn ⟨_, y, he, hx⟩
    omega

/-- **C116 (no history)** If the receiver keeps no history (the default, src/adnl/node/mod.rs:104), a message that
fits into one datagram is seen exactly as often as a datagram with it arrives: each copy the network makes is handled. -/
theorem C116_without_history (hc : c.Lawful) (P : Pair c) (hP : P.Fits) (M G : Message → Prop) (hA : Apart c.sha M)
    (ρ₀ ρ : Talk c) (h0 : TStart P M ρ₀) (h : Goes P M G ρ₀ ρ) (b : Bool) (hhist : (P.opts !b).historyEnabled = false)
    (m : Message) (e : Event) (he : eventOf (P.id !b) (P.id b) m = some e) (hm : Whole m)
    (hfit : ∀ a, (m, a) ∈ ρ.sends b → a.getD 0 + counted m ≤ 1024) : timesSeen ρ b e = timesArrived ρ b m := by
  obtain ⟨σ, evs, hR⟩ := sim_goes_young hc hP hA h0 h (fun b' => ⟨False, b' = b⟩)
    (fun b' => ⟨fun h => h.elim, fun hb => by rw [show b' = b from hb]; exact hhist⟩)
  obtain ⟨last, -, hl⟩ := hR.lane b
  have hI := (lane_run hA (h0.transfers _) hl).1
  have hall : ∀ x ∈ evs b, Whole x := by
    intro x hx
    obtain ⟨a, ha⟩ := hI.evs x hx
    exact (hI.sends _ ha).1
  rw [times_seen hR hm hall he]
  refine (lane_off (N := ⟨False, b = b⟩) rfl hA (h0.transfers _) hl hm hfit).trans ?_
  refine List.countP_congr fun i hi => ?_
  have hlt : i < last.length := hI.old i hi
  obtain ⟨k, m', a, h1, h2, h3⟩ := hI.shape i _ (List.getElem?_eq_getElem hlt)
  change (ρ.src b)[i]? = some k at h1
  change (ρ.sends b)[k]? = some (m', a) at h2
  simp only [belongs, h1, h2, isCopy, decide_eq_true_eq, Option.map_some, Option.some.injEq]
  change last[i]? = some m ↔ m' = m
  constructor
  · intro h
    have hg := (List.getElem?_eq_some_iff.mp h).2
    rw [show last[i] = m from hg] at h3
    exact (cargo_whole hm h3).1.symm
  · rintro rfl
    have := hfit a (List.mem_of_getElem? h2)
    rw [cargo, if_pos this] at h3
    rw [List.getElem?_eq_getElem hlt, List.mem_singleton.mp h3]

/-- The full claim: without conditions on the history and the number of datagrams. -/
def C116_full : Prop :=
  ∀ (c : Crypto), c.Lawful → ∀ P : Pair c, P.Fits → ∀ M G : Message → Prop, Apart c.sha M → ∀ ρ₀ ρ : Talk c, TStart P M ρ₀ →
    Goes P M G ρ₀ ρ → ∀ b m e, eventOf (P.id !b) (P.id b) m = some e → timesSeen ρ b e ≤ timesSent ρ b m

/-! ### Examples -/

/-- The two nodes of the examples of C111, with or without a history. -/
def toyPairH (h : Bool) : Pair Crypto.toy :=
  { toyPair with opts := fun b => { toyPair.opts b with historyEnabled := h } }

theorem toyPairH_fits (h : Bool) : (toyPairH h).Fits where
  start := toyPair_fits.start
  key := toyPair_fits.key
  free := toyPair_fits.free
  split := toyPair_fits.split

theorem toyPairH_start (h : Bool) (M : Message → Prop) : TStart (toyPairH h) M toyTalk where
  sys :=
    { good := toy_start.good
      noChannel := toy_start.noChannel
      peers := toy_start.peers
      net := toy_start.net }
  net := fun _ => ⟨rfl, rfl, rfl, rfl⟩
  log := fun _ => rfl
  transfers := fun _ _ _ => rfl

theorem toyPairH_able (h : Bool) : Able (toyPairH h) false (toyTalk.node false).node 130 toyRands where
  bytes := toy_able.bytes
  time := toy_able.time
  count := toy_able.count

/-- Subscribers that do not answer. -/
def silentSubs : Event → Reply := fun _ => .done

/-- The query is sent and its datagram arrives twice. -/
theorem twice_run (h : Bool) : ∃ ρ, Goes (toyPairH h) (· = toyQuery) (fun _ => False) toyTalk ρ ∧
    ρ.sends false = [(toyQuery, some 40)] ∧ ρ.seen false = [0, 0] ∧ ρ.src false = [0] ∧ (ρ.net false).length = 1 := by
  have hm : User toyQuery := by refine ⟨?_, ?_⟩ <;> decide
  have hA : Apart Crypto.toy.sha (· = toyQuery) := fun x y hx hy _ => hx.trans hy.symm
  obtain ⟨p', ds, hs, -, hone⟩ := C111_send_succeeds Crypto.toy_lawful (toyPairH h) (toyPairH_fits h) (· = toyQuery)
    (fun _ => False) hA toyTalk toyTalk (toyPairH_start h _) (.refl _) false 130 toyQuery false toyRands hm (toyPairH_able h)
  obtain ⟨d, rfl⟩ := List.length_eq_one_iff.mp (hone (show 40 + counted toyQuery ≤ 1024 by decide))
  have hgo : Goes (toyPairH h) (· = toyQuery) (fun _ => False) toyTalk (told (toyPairH h) toyTalk false 130 toyQuery p' [d]) :=
    .step _ _ _ (.refl _) (.tell toyTalk false 130 toyQuery false toyRands p' [d] hm rfl (toyPairH_able h) hs
      (fun _ _ _ _ => .inl rfl))
  have again : ∀ ρ, Goes (toyPairH h) (· = toyQuery) (fun _ => False) toyTalk ρ → (ρ.net false) = [(130, d)] →
      ρ.sends false = [(toyQuery, some 40)] → ρ.src false = [0] →
      ∃ ρ', Goes (toyPairH h) (· = toyQuery) (fun _ => False) toyTalk ρ' ∧ (ρ'.net false) = [(130, d)] ∧
        ρ'.sends false = [(toyQuery, some 40)] ∧ ρ'.src false = [0] ∧ ρ'.seen false = 0 :: ρ.seen false := by
    intro ρ h1 h2 h3 h4
    cases hr : receive ((toyPairH h).opts true) ((toyPairH h).loop true) 140 silentSubs
        (ρ.node true) d (show UInt8 from 1) toyRands with
    | mk f r =>
      refine ⟨_, .step _ _ _ h1 (.deliver ρ false 0 140 silentSubs (show UInt8 from 1) toyRands 130 d f r
        { sent := by rw [h2]; rfl
          clock := show 140 + (toyPair.opts true).clockTolerance < 2 ^ 32 by decide
          started := show (toyPair.opts false).startTime ≤ 140 + (toyPair.opts true).clockTolerance by decide
          recent := show 140 ≤ 130 + 1000 by decide
          mine := by intro l q id x a _ h; cases h
          able := fun _ _ h => by cases h
          result := hr
          clean := fun _ _ _ _ _ => .inl rfl }), h2, h3, h4, rfl⟩
  obtain ⟨ρ₁, a1, a2, a3, a4, a5⟩ := again _ hgo rfl rfl rfl
  obtain ⟨ρ₂, b1, b2, b3, b4, b5⟩ := again _ a1 a2 a3 a4
  refine ⟨ρ₂, b1, b3, ?_, b4, by rw [b2]; rfl⟩
  rw [b5, a5]
  rfl

/-- The event of the query. -/
def toyEvent (h : Bool) : Event := .query ((toyPairH h).id true) ((toyPairH h).id false) (List.replicate 32 4) [5]

theorem toyEvent_of (h : Bool) : eventOf ((toyPairH h).id !false) ((toyPairH h).id false) toyQuery = some (toyEvent h) := rfl

/-- Without a history the query is seen twice though it was sent once. -/
theorem seen_twice : ∃ ρ, Goes (toyPairH false) (· = toyQuery) (fun _ => False) toyTalk ρ ∧
    timesSent ρ false toyQuery = 1 ∧ timesSeen ρ false (toyEvent false) = 2 := by
  obtain ⟨ρ, h1, h2, h3, h4, -⟩ := twice_run false
  refine ⟨ρ, h1, ?_, ?_⟩
  · unfold timesSent
    rw [h2]
    simp
  · rw [C116_without_history Crypto.toy_lawful (toyPairH false) (toyPairH_fits _) _ _
      (fun x y hx hy _ => hx.trans hy.symm) toyTalk ρ (toyPairH_start _ _) h1 false rfl toyQuery _ (toyEvent_of false)
      ⟨by decide, by decide⟩ (by
        intro a ha
        rw [h2] at ha
        cases List.mem_singleton.mp ha
        decide)]
    unfold timesArrived
    rw [h3]
    simp [belongs, h2, h4]

/-- **C116** The full claim is false: with the default options a datagram that arrives twice is handled twice. -/
theorem C116_full_false : ¬ C116_full := by
  intro hfull
  obtain ⟨ρ, h1, h2, h3⟩ := seen_twice
  have := hfull Crypto.toy Crypto.toy_lawful (toyPairH false) (toyPairH_fits _) _ _ (fun x y hx hy _ => hx.trans hy.symm)
    toyTalk ρ (toyPairH_start _ _) h1 false toyQuery _ (toyEvent_of false)
  omega

/-- With a history it is seen once, though its datagram arrives twice. -/
example : ∃ ρ, Goes (toyPairH true) (· = toyQuery) (fun _ => False) toyTalk ρ ∧ ρ.seen false = [0, 0] ∧
    timesSeen ρ false (toyEvent true) = 1 := by
  obtain ⟨ρ, h1, h2, h3, h4, h5⟩ := twice_run true
  have hA : Apart Crypto.toy.sha (· = toyQuery) := fun x y hx hy _ => hx.trans hy.symm
  have hO : SentOnce ρ false toyQuery 0 (some 40) := by
    refine ⟨by rw [h2]; rfl, ?_⟩
    intro k' a' hk
    rw [h2] at hk
    obtain ⟨h, -⟩ := List.getElem?_eq_some_iff.mp hk
    simp only [List.length_cons, List.length_nil] at h
    omega
  have hle := C116_sent_once_partial Crypto.toy_lawful (toyPairH true) (toyPairH_fits _) _ _ hA toyTalk ρ
    (toyPairH_start _ _) h1 false rfl (by omega) toyQuery _ (toyEvent_of true) 0 (some 40) hO
  have hle' := C116_at_most_once_partial Crypto.toy_lawful (toyPairH true) (toyPairH_fits _) _ _ hA toyTalk ρ
    (toyPairH_start _ _) h1 false rfl (by omega) toyQuery _ (toyEvent_of true) (by
      intro a ha
      rw [h2] at ha
      cases List.mem_singleton.mp ha
      decide)
  obtain ⟨e, y, he, hl⟩ := C111_one_datagram Crypto.toy_lawful (toyPairH true) (toyPairH_fits _) _ _ hA toyTalk ρ
    (toyPairH_start _ _) h1 false toyQuery 0 (some 40) hO.1 (by decide) 0 (by rw [h4]; rfl) (by rw [h3]; simp)
  rw [toyEvent_of] at he
  cases he
  have : 0 < timesSeen ρ false (toyEvent true) := List.countP_pos_iff.mpr ⟨_, hl, by simp⟩
  exact ⟨ρ, h1, h3, by omega⟩

end Verif.LongTrip
