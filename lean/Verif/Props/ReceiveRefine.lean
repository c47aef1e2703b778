import Verif.Props.ReceiveProgress
import Verif.Model.Node

/-!
# C133: a task that is not disturbed does what the sequential model says
-/
namespace Verif.ReceiveConc
open Verif.PacketsHistory

/-- The same history, as far as it exists: 8 words, the index and the last number. -/
structure Same (h h' : Hist) : Prop where
  index : h.index = h'.index
  seqno : h.seqno = h'.seqno
  bits : ∀ j < 8, h.bits j = h'.bits j

theorem Same.refl (h : Hist) : Same h h := ⟨rfl, rfl, fun _ _ => rfl⟩

/-- `n` steps of `deliver_packet` alone. -/
def goH (s : Nat) : Nat → Hist × PC → Hist × PC
  | 0, x => x
  | n + 1, x => goH s n (stepPC x.1 s x.2)

theorem goH_add (s m : Nat) : ∀ (n : Nat) (x : Hist × PC), goH s (n + m) x = goH s m (goH s n x) := by
  intro n
  induction n with
  | zero => intro x; simp [goH]
  | succ n ih => intro x; rw [Nat.succ_add]; exact ih _

theorem goH_done (s : Nat) (h : Hist) (r : Bool) : ∀ n, goH s n (h, .done r) = (h, .done r) := by
  intro n
  induction n with
  | zero => rfl
  | succ n ih => exact ih

theorem setHist_self (σ : Sys) (p : Bool) : σ.setHist p (σ.hist p) = σ := by
  have : (fun q => if q = p then σ.hist p else σ.hist q) = σ.hist := by
    funext q; split <;> simp_all
  simp [Sys.setHist, this]

theorem setHist_setHist (σ : Sys) (p : Bool) (h h' : Hist) :
    (σ.setHist p h).setHist p h' = σ.setHist p h' := by
  simp only [Sys.setHist]
  congr 1
  funext q
  split <;> rfl

theorem go_goH (k : Task) : ∀ (n : Nat) (σ : Sys) (pc : PC),
    go k n (σ, .deliver pc) =
      (σ.setHist k.priority (goH k.seqno n (σ.hist k.priority, pc)).1,
        .deliver (goH k.seqno n (σ.hist k.priority, pc)).2) := by
  intro n
  induction n with
  | zero => intro σ pc; simp [go, goH, setHist_self]
  | succ n ih =>
    intro σ pc
    show go k n (stepOf σ k (.deliver pc)) = _
    simp only [stepOf]
    rw [ih]
    simp only [setHist_setHist, goH]
    simp [Sys.setHist]

theorem shift_loop (s : Nat) (h : Hist) :
    (goH s 8 (h, .shift 0 0)).2 = .readSeq 0 0 ∧ (goH s 8 (h, .shift 0 0)).1.index = h.index ∧
    (goH s 8 (h, .shift 0 0)).1.seqno = h.seqno ∧
    ∀ j < 8, (goH s 8 (h, .shift 0 0)).1.bits j = shiftBits h.bits j := by
  refine ⟨by simp [goH, stepPC], by simp [goH, stepPC], by simp [goH, stepPC], ?_⟩
  intro j hj
  have : j = 0 ∨ j = 1 ∨ j = 2 ∨ j = 3 ∨ j = 4 ∨ j = 5 ∨ j = 6 ∨ j = 7 := by omega
  rcases this with rfl | rfl | rfl | rfl | rfl | rfl | rfl | rfl <;>
    simp [goH, stepPC, shiftBits]

theorem clear_loop (s : Nat) (h : Hist) :
    (goH s 8 (h, .clear 0 0)).2 = .readSeq 0 0 ∧ (goH s 8 (h, .clear 0 0)).1.index = h.index ∧
    (goH s 8 (h, .clear 0 0)).1.seqno = h.seqno ∧
    ∀ j < 8, (goH s 8 (h, .clear 0 0)).1.bits j = 0 := by
  refine ⟨by simp [goH, stepPC], by simp [goH, stepPC], by simp [goH, stepPC], ?_⟩
  intro j hj
  have : j = 0 ∨ j = 1 ∨ j = 2 ∨ j = 3 ∨ j = 4 ∨ j = 5 ∨ j = 6 ∨ j = 7 := by omega
  rcases this with rfl | rfl | rfl | rfl | rfl | rfl | rfl | rfl <;>
    simp [goH, stepPC]

/-- The end of `deliver_packet` (packets_history.rs:162-178). -/
theorem finish (s : Nat) (h : Hist) (hl : h.index = inTransit) (n : Nat) :
    goH s (n + 3) (h, .readSeq 0 0) =
      ({ h with index := 0, seqno := if h.seqno < s then s else h.seqno }, .done true) := by
  rw [show n + 3 = 3 + n by omega, goH_add]
  have : goH s 3 (h, .readSeq 0 0) =
      ({ h with index := 0, seqno := if h.seqno < s then s else h.seqno }, .done true) := by
    by_cases hlt : h.seqno < s <;> simp [goH, stepPC, hlt, hl, half]
  rw [this, goH_done]

/-- `deliver_packet` alone on an unlocked history is the sequential `deliver`. -/
theorem goH_deliver (s : Nat) (h' h : Hist) (hh : Same h' h) (h0 : h.index = 0) :
    (goH s 20 (h', .load)).2 = .done (deliver h s).2 ∧
    Same (goH s 20 (h', .load)).1 (deliver h s).1 := by
  have hne : (0 : Nat) ≠ inTransit := by decide
  have hi0 : h'.index = 0 := hh.index.trans h0
  have hq : h'.seqno = h.seqno := hh.seqno
  by_cases hs : s < 256
  · have e1 : s % 256 = s := Nat.mod_eq_of_lt hs
    have hw := wordOf_zero s hs
    have hbits := hh.bits (4 + s / 64) (by omega)
    by_cases hb : (h.bits (4 + s / 64) &&& 1 <<< (s % 64)) = 0
    · have hb' : (h'.bits (4 + s / 64) &&& 1 <<< (s % 64)) = 0 := by rw [hbits]; exact hb
      have hdel : deliver h s = (⟨0, fun i => if i = 4 + s / 64 then
          h.bits i ||| 1 <<< (s % 64) else h.bits i,
          if h.seqno < s then s else h.seqno⟩, true) := by
        simp [deliver, h0, half, e1, hb]
      have e5 : goH s 5 (h', .load) = ({ h' with
          index := inTransit
          bits := fun i => if i = 4 + s / 64 then h'.bits i ||| 1 <<< (s % 64) else h'.bits i },
          .readSeq 0 0) := by
        simp [goH, stepPC, hi0, hne, half, e1, hw, hb']
      rw [show 20 = 5 + (12 + 3) by rfl, goH_add, e5, finish _ _ rfl, hdel]
      refine ⟨rfl, rfl, by simp [hq], ?_⟩
      intro j hj
      simp [hh.bits j hj]
    · have hb' : ¬ (h'.bits (4 + s / 64) &&& 1 <<< (s % 64)) = 0 := by rw [hbits]; exact hb
      have hdel : deliver h s = (h, false) := by simp [deliver, h0, half, e1, hb]
      have e3 : goH s 3 (h', .load) = (h', .done false) := by
        simp [goH, stepPC, hi0, hne, half, e1, hw, hb']
      rw [show 20 = 3 + 17 by rfl, goH_add, e3, goH_done, hdel]
      exact ⟨rfl, hh⟩
  · have hpos : 0 < s - s % 256 := by omega
    have hpos' : ¬ s - s % 256 = 0 := by omega
    by_cases hsh : 256 = s - s % 256
    · have hdel : deliver h s = (⟨0, shiftBits h.bits,
          if h.seqno < s then s else h.seqno⟩, true) := by
        simp [deliver, h0, half, ← hsh]
      have e2 : goH s 2 (h', .load) = ({ h' with index := inTransit }, .shift 0 0) := by
        simp [goH, stepPC, hi0, hne, half, ← hsh]
      obtain ⟨l1, l2, l3, l4⟩ := shift_loop s { h' with index := inTransit }
      rw [show 20 = 2 + (8 + (7 + 3)) by rfl, goH_add, e2, goH_add]
      generalize goH s 8 ({ h' with index := inTransit }, .shift 0 0) = x at *
      obtain ⟨h2, pc2⟩ := x
      simp only at l1 l2 l3 l4
      subst l1
      rw [finish _ _ l2, hdel]
      refine ⟨rfl, rfl, by simp [l3, hq], ?_⟩
      intro j hj
      simp only [l4 j hj, shiftBits]
      split
      · exact hh.bits _ (by omega)
      · rfl
    · have hdel : deliver h s = (⟨0, fun _ => 0,
          if h.seqno < s then s else h.seqno⟩, true) := by
        simp [deliver, h0, half, hsh, Ne.symm hpos']
      have e2 : goH s 2 (h', .load) = ({ h' with index := inTransit }, .clear 0 0) := by
        simp [goH, stepPC, hi0, hne, half, hsh, hpos]
      obtain ⟨l1, l2, l3, l4⟩ := clear_loop s { h' with index := inTransit }
      rw [show 20 = 2 + (8 + (7 + 3)) by rfl, goH_add, e2, goH_add]
      generalize goH s 8 ({ h' with index := inTransit }, .clear 0 0) = x at *
      obtain ⟨h2, pc2⟩ := x
      simp only at l1 l2 l3 l4
      subst l1
      rw [finish _ _ l2, hdel]
      refine ⟨rfl, rfl, by simp [l3, hq], ?_⟩
      intro j hj
      simp only [l4 j hj]

/-- The sequential model of the same checks (`Peer.tryReinit` in `Model/Node.lean` and `deliver` in
`Model/PacketsHistory.lean`): what becomes of the peer, and whether the packet is accepted. -/
def checkSeq {c : Crypto} (p : Node.Peer c) (k : Task) : Node.Peer c × Bool :=
  let r := match k.date with
    | none => (p, true)
    | some d => p.tryReinit d
  if r.2 = false ∨ (k.date ≠ none ∧ k.stale = true) then (r.1, false)
  else
    let h := deliver (r.1.recvHist k.priority) k.seqno
    (r.1.setRecvHist k.priority h.1, h.2)

/-- The shared state says the same as the peer of the sequential model. -/
structure Mirrors {c : Crypto} (σ : Sys) (p : Node.Peer c) : Prop where
  date : σ.date = p.sendDate
  hist : ∀ b, Same (σ.hist b) (p.recvHist b)

/-- **C133** A task that is not disturbed does what the sequential model says: if no history is locked,
48 steps of the task lead to the state and the verdict of `checkSeq`, for every packet. -/
theorem C133_alone_is_sequential {c : Crypto} (tasks : Nat → Task) (σ : Sys) (p : Node.Peer c)
    (hm : Mirrors σ p) (hfree : ∀ b, (σ.hist b).index = 0) (t : Nat) (ht : σ.pc t = .start) :
    Mirrors (σ.run tasks (List.replicate 48 t)) (checkSeq p (tasks t)).1 ∧
    (∀ b, ((σ.run tasks (List.replicate 48 t)).hist b).index = 0) ∧
    ((σ.run tasks (List.replicate 48 t)).accepted t ↔ (checkSeq p (tasks t)).2 = true) := by
  obtain ⟨r1, r2, r3⟩ := run_alone tasks t 48 σ
  rw [ht] at r1 r2 r3
  generalize tasks t = k at *
  -- the part from the look-up of the number on
  have lookup : ∀ (n : Nat) (τ : Sys) (q : Node.Peer c), Mirrors τ q → (∀ b, (τ.hist b).index = 0) →
      (∃ r, (go k (20 + n) (τ, .deliver .load)).2 = .deliver (.done r) ∧
        r = (deliver (q.recvHist k.priority) k.seqno).2) ∧
      (go k (20 + n) (τ, .deliver .load)).1.date = q.sendDate ∧
      (∀ b, Same ((go k (20 + n) (τ, .deliver .load)).1.hist b)
        ((q.setRecvHist k.priority (deliver (q.recvHist k.priority) k.seqno).1).recvHist b)) ∧
      ∀ b, ((go k (20 + n) (τ, .deliver .load)).1.hist b).index = 0 := by
    intro n τ q hmq hfq
    have hs := hmq.hist k.priority
    have hq0 : (q.recvHist k.priority).index = 0 := hs.index ▸ hfq _
    obtain ⟨d1, d2⟩ := goH_deliver k.seqno _ _ hs hq0
    rw [go_goH, goH_add]
    generalize goH k.seqno 20 (τ.hist k.priority, .load) = x at *
    obtain ⟨h2, pc2⟩ := x
    simp only at d1 d2
    subst d1
    rw [goH_done]
    have hset : ∀ b, Same ((τ.setHist k.priority h2).hist b)
        ((q.setRecvHist k.priority (deliver (q.recvHist k.priority) k.seqno).1).recvHist b) := by
      intro b
      by_cases e : b = k.priority
      · subst e
        cases hp : k.priority <;> rw [hp] at d2 <;>
          simpa [Sys.setHist, Node.Peer.setRecvHist, Node.Peer.recvHist] using d2
      · have := hmq.hist b
        revert e
        cases hp : k.priority <;> cases b <;> intro e <;> first
          | exact absurd rfl e
          | simpa [Sys.setHist, Node.Peer.setRecvHist, Node.Peer.recvHist] using this
    refine ⟨⟨_, rfl, rfl⟩, hmq.date, hset, ?_⟩
    intro b
    by_cases e : b = k.priority
    · subst e
      have hd0 : (deliver (q.recvHist k.priority) k.seqno).1.index = 0 := by
        have := run_index (q.recvHist k.priority) hq0 [k.seqno]
        simpa [run] using this
      simp only [Sys.setHist, if_true]
      rw [d2.index, hd0]
    · simp only [Sys.setHist, e, if_false]
      exact hfq b
  -- the goal in terms of the end state
  suffices H : ∃ x : Sys × Pc, go k 48 (σ, .start) = x ∧ x.1.date = (checkSeq p k).1.sendDate ∧
      (∀ b, Same (x.1.hist b) ((checkSeq p k).1.recvHist b)) ∧ (∀ b, (x.1.hist b).index = 0) ∧
      (x.2 = .deliver (.done true) ↔ (checkSeq p k).2 = true) by
    obtain ⟨x, hx, x1, x2, x3, x4⟩ := H
    rw [hx] at r1 r2 r3
    refine ⟨⟨by rw [r3, x1], fun b => by rw [r2]; exact x2 b⟩, fun b => by rw [r2]; exact x3 b, ?_⟩
    rw [Sys.accepted, r1]; exact x4
  have refused : ∀ (n : Nat) (τ : Sys), go k n (τ, .refused) = (τ, .refused) := by
    intro n
    induction n with
    | zero => intro τ; rfl
    | succ n ih => intro τ; exact ih τ
  -- after the dates
  have passed : ∀ (n : Nat) (τ : Sys) (q : Node.Peer c), Mirrors τ q → (∀ b, (τ.hist b).index = 0) →
      go k 48 (σ, .start) = go k (20 + n) (τ, .deliver .load) →
      checkSeq p k = (q.setRecvHist k.priority (deliver (q.recvHist k.priority) k.seqno).1,
        (deliver (q.recvHist k.priority) k.seqno).2) →
      ∃ x : Sys × Pc, go k 48 (σ, .start) = x ∧ x.1.date = (checkSeq p k).1.sendDate ∧
        (∀ b, Same (x.1.hist b) ((checkSeq p k).1.recvHist b)) ∧ (∀ b, (x.1.hist b).index = 0) ∧
        (x.2 = .deliver (.done true) ↔ (checkSeq p k).2 = true) := by
    intro n τ q hmq hfq hgo hseq
    obtain ⟨⟨r, l1, l1'⟩, l2, l3, l4⟩ := lookup n τ q hmq hfq
    refine ⟨_, hgo, ?_, ?_, l4, ?_⟩
    · rw [l2, hseq]
      simp only [Node.Peer.setRecvHist]; split <;> rfl
    · rw [hseq]; exact l3
    · rw [l1, hseq, l1']; simp
  have stopped : ∀ (n : Nat) (τ : Sys) (q : Node.Peer c), Mirrors τ q → (∀ b, (τ.hist b).index = 0) →
      go k 48 (σ, .start) = go k n (τ, .refused) → checkSeq p k = (q, false) →
      ∃ x : Sys × Pc, go k 48 (σ, .start) = x ∧ x.1.date = (checkSeq p k).1.sendDate ∧
        (∀ b, Same (x.1.hist b) ((checkSeq p k).1.recvHist b)) ∧ (∀ b, (x.1.hist b).index = 0) ∧
        (x.2 = .deliver (.done true) ↔ (checkSeq p k).2 = true) := by
    intro n τ q hmq hfq hgo hseq
    rw [refused] at hgo
    refine ⟨_, hgo, ?_, ?_, hfq, ?_⟩
    · rw [hseq]; exact hmq.date
    · rw [hseq]; exact hmq.hist
    · rw [hseq]; simp
  cases hd : k.date with
  | none =>
    refine passed 27 σ p hm hfree ?_ ?_
    · have e1 : go k 1 (σ, .start) = (σ, .deliver .load) := by simp [go, stepOf, hd]
      rw [show 48 = 1 + (20 + 27) by rfl, go_add, e1]
    · simp [checkSeq, hd]
  | some d =>
    have after : ∀ (n : Nat) (τ : Sys) (q : Node.Peer c), Mirrors τ q →
        (∀ b, (τ.hist b).index = 0) → go k 48 (σ, .start) = go k (20 + n) (τ, afterDate k) →
        p.tryReinit d = (q, true) →
        ∃ x : Sys × Pc, go k 48 (σ, .start) = x ∧ x.1.date = (checkSeq p k).1.sendDate ∧
          (∀ b, Same (x.1.hist b) ((checkSeq p k).1.recvHist b)) ∧ (∀ b, (x.1.hist b).index = 0) ∧
          (x.2 = .deliver (.done true) ↔ (checkSeq p k).2 = true) := by
      intro n τ q hmq hfq hgo htry
      by_cases hst : k.stale = true
      · refine stopped (20 + n) τ q hmq hfq (by rw [hgo]; simp [afterDate, hst]) ?_
        simp [checkSeq, hd, htry, hst]
      · refine passed n τ q hmq hfq (by rw [hgo]; simp [afterDate, hst]) ?_
        simp [checkSeq, hd, htry, hst]
    have hdate := hm.date
    by_cases h1 : d = σ.date
    · refine after 26 σ p hm hfree ?_ ?_
      · have e2 : go k 2 (σ, .start) = (σ, afterDate k) := by simp [go, stepOf, hd, h1]
        rw [show 48 = 2 + (20 + 26) by rfl, go_add, e2]
      · simp [Node.Peer.tryReinit, h1, hdate]
    · have h1' : ¬ d = p.sendDate := by rw [← hdate]; exact h1
      by_cases h2 : σ.date < d
      · have h2' : p.sendDate < d := by rw [← hdate]; exact h2
        by_cases h3 : σ.date = 0
        · have h3' : p.sendDate = 0 := by rw [← hdate]; exact h3
          refine after 26 { σ with date := d } { p with sendDate := d } ⟨rfl, fun b => ?_⟩ hfree ?_ ?_
          · have := hm.hist b
            cases b <;> simpa [Node.Peer.recvHist] using this
          · have e2 : go k 2 (σ, .start) = ({ σ with date := d }, afterDate k) := by
              rw [h3] at h1 h2
              simp [go, stepOf, hd, h1, h2, h3]
            rw [show 48 = 2 + (20 + 26) by rfl, go_add, e2]
          · rw [h3'] at h1' h2'
            simp [Node.Peer.tryReinit, h1', h2', h3']
        · have h3' : ¬ p.sendDate = 0 := by rw [← hdate]; exact h3
          have e2 : go k 2 (σ, .start) = ({ σ with date := d }, .lockLoad false) := by
            simp [go, stepOf, hd, h1, h2, h3]
          have hsplit : go k 48 (σ, .start) =
              go k (20 + 2) (go k 12 (go k 12 ({ σ with date := d }, .lockLoad false))) := by
            rw [show 48 = 2 + (12 + (12 + (20 + 2))) by rfl, go_add, e2, go_add, go_add]
          obtain ⟨a1, a2, a3, a4, a5, a6⟩ := go_reset k { σ with date := d } false (hfree false)
          generalize hx : go k 12 ({ σ with date := d }, .lockLoad false) = x at *
          obtain ⟨σ1, pc1⟩ := x
          simp only [Bool.not_false, Bool.false_eq_true, if_false] at a1 a2 a3 a4 a5 a6
          subst a1
          obtain ⟨b1, b2, b3, b4, b5, b6⟩ := go_reset k σ1 true (by rw [a6]; exact hfree true)
          generalize hy : go k 12 (σ1, .lockLoad true) = y at *
          obtain ⟨σ2, pc2⟩ := y
          simp only [Bool.not_true, if_true] at b1 b2 b3 b4 b5 b6
          subst b1
          refine after 2 σ2
            { p with
              sendDate := d
              sendOrd := 0
              sendPrio := 0
              recvOrd := reset p.recvOrd
              recvPrio := reset p.recvPrio } ⟨?_, fun b => ?_⟩ ?_ hsplit ?_
          · rw [b2, a2]
          · cases b
            · rw [b6]
              exact ⟨a3, a4, fun j hj => a5 j hj⟩
            · exact ⟨b3, b4, fun j hj => b5 j hj⟩
          · intro b
            cases b
            · rw [b6]; exact a3
            · exact b3
          · simp [Node.Peer.tryReinit, h1', h2', h3']
      · have h2' : ¬ p.sendDate < d := by rw [← hdate]; exact h2
        refine stopped 46 σ p hm hfree ?_ ?_
        · have e2 : go k 2 (σ, .start) = (σ, .refused) := by simp [go, stepOf, hd, h1, h2]
          rw [show 48 = 2 + 46 by rfl, go_add, e2]
        · simp [checkSeq, hd, Node.Peer.tryReinit, h1', h2']

/-- What the sequential model makes of packets that come one after another: the peer afterwards and
the verdicts. -/
def checkAll {c : Crypto} (p : Node.Peer c) : List Task → Node.Peer c × List Bool
  | [] => (p, [])
  | k :: ks => ((checkAll (checkSeq p k).1 ks).1, (checkSeq p k).2 :: (checkAll (checkSeq p k).1 ks).2)

theorem run_other (tasks : Nat → Task) (u : Nat) : ∀ (sched : List Nat) (σ : Sys), u ∉ sched →
    (σ.run tasks sched).pc u = σ.pc u := by
  intro sched
  induction sched with
  | nil => intro σ _; rfl
  | cons t ts ih =>
    intro σ hu
    show ((σ.step tasks t).run tasks ts).pc u = _
    rw [ih _ (fun h => hu (List.mem_cons_of_mem _ h))]
    have : u ≠ t := fun h => hu (h ▸ List.mem_cons_self)
    simp [Sys.step, this]

/-- **C133** Tasks that run one after another, in any order, do what the sequential model says: the
peer ends in the state of `checkAll`, and every packet gets the verdict it has there. -/
theorem C133_serial_is_sequential {c : Crypto} (tasks : Nat → Task) : ∀ (ts : List Nat) (σ : Sys)
    (p : Node.Peer c), Mirrors σ p → (∀ b, (σ.hist b).index = 0) → ts.Nodup →
    (∀ t ∈ ts, σ.pc t = .start) →
    Mirrors (σ.run tasks (ts.flatMap (List.replicate 48))) (checkAll p (ts.map tasks)).1 ∧
    ts.map (fun t => decide ((σ.run tasks (ts.flatMap (List.replicate 48))).accepted t)) =
      (checkAll p (ts.map tasks)).2 := by
  intro ts
  induction ts with
  | nil => intro σ p hm _ _ _; exact ⟨hm, rfl⟩
  | cons t ts ih =>
    intro σ p hm hfree hnd hst
    obtain ⟨hnt, hnd'⟩ := List.nodup_cons.mp hnd
    obtain ⟨m1, m2, m3⟩ := C133_alone_is_sequential tasks σ p hm hfree t (hst t List.mem_cons_self)
    have hsplit : σ.run tasks ((t :: ts).flatMap (List.replicate 48)) =
        (σ.run tasks (List.replicate 48 t)).run tasks (ts.flatMap (List.replicate 48)) := by
      rw [List.flatMap_cons, Sys.run, List.foldl_append]; rfl
    rw [hsplit]
    have hrest : ∀ u ∈ ts, (σ.run tasks (List.replicate 48 t)).pc u = .start := by
      intro u hu
      rw [run_other tasks u _ σ (fun h => hnt (by rw [← List.eq_of_mem_replicate h]; exact hu))]
      exact hst u (List.mem_cons_of_mem _ hu)
    obtain ⟨i1, i2⟩ := ih _ _ m1 m2 hnd' hrest
    refine ⟨i1, ?_⟩
    rw [List.map_cons, i2]
    have hkeep : ((σ.run tasks (List.replicate 48 t)).run tasks
        (ts.flatMap (List.replicate 48))).accepted t ↔ (checkSeq p (tasks t)).2 = true := by
      rw [Sys.accepted, run_other tasks t]
      · exact m3
      · intro h
        obtain ⟨u, hu, hu'⟩ := List.mem_flatMap.mp h
        exact hnt ((List.mem_replicate.mp hu').2 ▸ hu)
    simp only [List.map_cons, checkAll, List.cons.injEq, and_true]
    rw [Bool.eq_iff_iff, decide_eq_true_iff]
    exact hkeep

/-- Non-vacuity: the restarted peer, known with date 5; the packet is accepted. -/
example : ((Sys.init 5).run restarted (List.replicate 48 0)).accepted 0 :=
  (C133_alone_is_sequential (c := Crypto.toy) restarted (Sys.init 5)
    { Node.Peer.new 1 ⟨1, 2, 3, 4, 5⟩ (Crypto.toy.pubOf (3 : UInt8)) (7 : UInt8) with sendDate := 5 }
    ⟨rfl, fun b => by cases b <;> exact Same.refl _⟩ (fun _ => rfl) 0 rfl).2.2.mpr (by decide +kernel)

/-- Non-vacuity: the first three tasks of the restarted peer, one after another. -/
example : [2, 0, 1].map (fun t => decide (((Sys.init 5).run restarted
      ([2, 0, 1].flatMap (List.replicate 48))).accepted t)) =
    (checkAll (c := Crypto.toy)
      { Node.Peer.new 1 ⟨1, 2, 3, 4, 5⟩ (Crypto.toy.pubOf (3 : UInt8)) (7 : UInt8) with sendDate := 5 }
      ([2, 0, 1].map restarted)).2 :=
  (C133_serial_is_sequential restarted [2, 0, 1] (Sys.init 5) _
    ⟨rfl, fun b => by cases b <;> exact Same.refl _⟩ (fun _ => rfl) (by decide) (fun _ _ => rfl)).2

end Verif.ReceiveConc
