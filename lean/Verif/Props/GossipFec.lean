import Verif.Props.Gossip
import Verif.Props.FecSend

/-!
# C114: how often the packets of an FEC broadcast are sent
-/
namespace Verif.Gossip
open Verif.Overlay Verif.Rldp Verif.Spec

variable {c : Crypto} {f : Fec}

/-! ### Specification -/

/-- C114, full statement: the number of letters with a packet of an FEC broadcast is at most that of its author
and of strangers, and for each receiver its number of targets, once and once more each time it forgets the
broadcast. -/
def C114_full : Prop := ∀ (c : Crypto) (f : Fec) (o : Bytes → Opts) (overlay : Bytes) (as : List (Act c))
  (b : FecPart) (msg : Bytes) (receivers : List Bytes),
  c.Lawful → f.Lawful → Overlay.readMessage msg = some (overlay, .fec b) →
  (∀ m ∈ (run c f o overlay (World.init c f) as).net, m.msg = msg → m.dst ∈ receivers) →
  copies msg (run c f o overlay (World.init c f) as) ≤ started o overlay msg (World.init c f) as +
    (receivers.map fun n => (o n).onwardFec * ((allForgotten (o n).env (State.init c f)
      (history o overlay n (World.init c f) as)).count b.dataHash + 1)).sum

/-! ### Small numbers -/

/-- The packet is passed on. -/
def isPassFec (b : FecPart) : Action → Out → Bool
  | .fec _ b', r => decide (b' = b) && r.forwarded
  | _, _ => false

def passesFec (o : Bytes → Opts) (ov : Bytes) (b : FecPart) (n : Bytes) (w : World c f) (as : List (Act c)) : Nat :=
  (eventsOf o ov n w as).countP fun p => isPassFec b p.1 p.2

theorem passesFec_cons (o : Bytes → Opts) (ov : Bytes) (b : FecPart) (n : Bytes) (w : World c f) (a : Act c)
    (as : List (Act c)) :
    passesFec o ov b n w (a :: as) = (match event c f ov w a with
      | some (m, .fec now b') => if m = n ∧ b' = b ∧
          (Overlay.step c f (o m).env (w.node m) (.fec now b')).2.forwarded = true then 1 else 0
      | _ => 0) + passesFec o ov b n (step c f o ov w a) as := by
  unfold passesFec
  rw [eventsOf_cons, List.countP_append]
  congr 1
  cases event c f ov w a with
  | none => rfl
  | some p =>
    obtain ⟨m, x⟩ := p
    by_cases h : m = n
    · simp only [h, if_true, List.countP_cons, List.countP_nil]
      cases x <;> simp [isPassFec]
    · simp only [h, if_false, List.countP_nil]
      cases x <;> simp [h]

theorem copies_le_fec (o : Bytes → Opts) (ov : Bytes) (b : FecPart) (msg : Bytes)
    (hr : Overlay.readMessage msg = some (ov, .fec b)) (S : List Bytes) (as : List (Act c)) : ∀ w : World c f,
    (∀ m ∈ (run c f o ov w as).net, m.msg = msg → m.dst ∈ S) →
    copies msg (run c f o ov w as) ≤ copies msg w + started o ov msg w as +
      (S.map fun n => (o n).onwardFec * passesFec o ov b n w as).sum := by
  induction as with
  | nil => intro w _; simp only [run]; omega
  | cons a as ih =>
    intro w hS
    have h := ih (step c f o ov w a) hS
    have hc := copies_step (o := o) (ov := ov) msg w a
    have hr' : run c f o ov w (a :: as) = run c f o ov (step c f o ov w a) as := rfl
    rw [hr']
    simp only [passesFec_cons, Nat.mul_add, sum_add, started]
    suffices hk : (letters c f o ov w a).countP (fun m => decide (m.msg = msg)) ≤
        (if isDelivery a then 0 else (letters c f o ov w a).countP fun m => decide (m.msg = msg)) +
        (S.map fun n => (o n).onwardFec * (match event c f ov w a with
          | some (m, .fec now b') => if m = n ∧ b' = b ∧
              (Overlay.step c f (o m).env (w.node m) (.fec now b')).2.forwarded = true then 1 else 0
          | _ => 0)).sum by
      omega
    cases a with
    | tell n now sec data ts => exact Nat.le_add_right _ _
    | post m => exact Nat.le_add_right _ _
    | inner n x => exact Nat.le_add_right _ _
    | deliver k now chosen =>
      simp only [isDelivery, if_true, Nat.zero_add]
      by_cases h0 : (letters c f o ov w (.deliver k now chosen)).countP (fun m => decide (m.msg = msg)) = 0
      · rw [h0]; exact Nat.zero_le _
      · obtain ⟨m', hm', hmm⟩ := List.countP_pos_iff.mp (Nat.pos_of_ne_zero h0)
        have hlen := List.countP_le_length (p := fun m : Letter => decide (m.msg = msg))
          (l := letters c f o ov w (.deliver k now chosen))
        simp only [decide_eq_true_eq] at hmm
        simp only [event]
        simp only [letters] at hm' hlen ⊢
        cases hk : w.net[k]? with
        | none => rw [hk] at hm'; exact absurd hm' List.not_mem_nil
        | some m =>
          rw [hk] at hm' hlen
          simp only [Option.bind_some] at hm' hlen ⊢
          cases hre : reaction ov m now with
          | none => rw [hre] at hm'; exact absurd hm' List.not_mem_nil
          | some p =>
            obtain ⟨n, x⟩ := p
            rw [hre] at hm' hlen
            simp only at hm' hlen ⊢
            by_cases hf : (Overlay.step c f (o n).env (w.node n) x).2.forwarded = true
            · rw [if_pos hf] at hm' hlen ⊢
              obtain ⟨t, _, rfl⟩ := List.mem_map.mp hm'
              simp only at hmm
              unfold reaction at hre
              rw [hmm, hr] at hre
              simp only [if_true, Option.some.injEq, Prod.mk.injEq] at hre
              obtain ⟨rfl, rfl⟩ := hre
              have hmem : m.dst ∈ S := hS m (net_mono (.deliver k now chosen :: as) w m
                (List.mem_of_getElem? hk)) hmm
              have h1 := le_sum (fun n' => (o n').onwardFec * (if m.dst = n' ∧ b = b ∧
                (Overlay.step c f (o m.dst).env (w.node m.dst) (.fec now b)).2.forwarded = true
                then 1 else 0)) hmem
              simp only [hf, and_self, and_true, if_true, Nat.mul_one] at h1
              rw [List.length_map] at hlen
              have h2 : (onwardTo (o m.dst) chosen m.src (.fec now b)).length ≤ (o m.dst).onwardFec := by
                simp only [onwardTo, targets, PeersSet.getRandomPeers, List.length_take]
                exact Nat.min_le_left _ _
              simp only [true_and]
              refine Nat.le_trans hlen (Nat.le_trans h2 (Nat.le_trans h1 (Nat.le_of_eq ?_)))
              simp only [hf, and_true]
            · rw [if_neg hf] at hm'
              exact absurd hm' List.not_mem_nil

theorem passesFec_le (o : Bytes → Opts) (ov : Bytes) (b : FecPart) (n : Bytes) (w : World c f) (as : List (Act c)) :
    passesFec o ov b n w as = (allPassedOn (o n).env (w.node n) (history o ov n w as)).count b := by
  unfold passesFec history
  rw [(eventsOf_trace n as w).1]
  have hl : (trace c f (o n).env (w.node n) ((eventsOf o ov n w as).map (·.1))).map (·.1) =
      (eventsOf o ov n w as).map (·.1) := by
    rw [← (eventsOf_trace n as w).1]
  rw [hl]
  generalize (eventsOf o ov n w as).map (·.1) = l
  generalize w.node n = st
  induction l generalizing st with
  | nil => rfl
  | cons a l ih =>
    simp only [trace, List.countP_cons, allPassedOn, List.count_append]
    rw [ih, Nat.add_comm]
    congr 1
    cases a with
    | fec now b' =>
      simp only [isPassFec, passedOn]
      by_cases hb : b' = b
      · subst hb
        by_cases hf : (Overlay.step c f (o n).env st (.fec now b')).2.forwarded = true <;> simp [hf]
      · by_cases hf : (Overlay.step c f (o n).env st (.fec now b')).2.forwarded = true <;> simp [hf, hb]
    | _ => rfl

/-- Packets come in letters. -/
theorem history_fec (o : Bytes → Opts) (ov : Bytes) (n : Bytes) (as : List (Act c)) : ∀ (w : World c f) (now : Nat)
    (b : FecPart), .fec now b ∈ history o ov n w as →
    ∃ m ∈ (run c f o ov w as).net, Overlay.readMessage m.msg = some (ov, .fec b) := by
  induction as with
  | nil => intro w now b h; exact absurd h List.not_mem_nil
  | cons a as ih =>
    intro w now b h
    unfold history at h
    rw [eventsOf_cons, List.map_append, List.mem_append] at h
    rcases h with h | h
    · cases he : event c f ov w a with
      | none => rw [he] at h; exact absurd h List.not_mem_nil
      | some p =>
        obtain ⟨m, x⟩ := p
        rw [he] at h
        simp only at h
        split at h
        · simp only [List.map_cons, List.map_nil, List.mem_singleton] at h
          subst h
          cases a with
          | tell => cases he
          | post => cases he
          | inner m' x' =>
            simp only [event] at he
            split at he
            · rename_i hx
              cases he
              cases hx
            · cases he
          | deliver k now' chosen =>
            simp only [event, Option.bind_eq_some_iff] at he
            obtain ⟨m', hm', he⟩ := he
            refine ⟨m', net_mono (.deliver k now' chosen :: as) w m' (List.mem_of_getElem? hm'), ?_⟩
            unfold reaction at he
            split at he
            · split at he <;> cases he
            · rename_i id b' hb
              split at he
              · rename_i hid
                cases he
                rw [hb, hid]
              · cases he
            · cases he
        · exact absurd h List.not_mem_nil
    · exact ih _ now b h

/-- C114 for overlays in which only packets with numbers below 256 are sent. Missing: larger numbers. -/
theorem C114_small_numbers_partial (o : Bytes → Opts) (overlay : Bytes) (as : List (Act c)) (b : FecPart) (msg : Bytes)
    (receivers : List Bytes) (hr : Overlay.readMessage msg = some (overlay, .fec b))
    (hS : ∀ m ∈ (run c f o overlay (World.init c f) as).net, m.msg = msg → m.dst ∈ receivers)
    (hsmall : ∀ m ∈ (run c f o overlay (World.init c f) as).net, ∀ b',
      Overlay.readMessage m.msg = some (overlay, .fec b') → b'.seqno < 256) :
    copies msg (run c f o overlay (World.init c f) as) ≤ started o overlay msg (World.init c f) as +
      (receivers.map fun n => (o n).onwardFec * ((allForgotten (o n).env (State.init c f)
        (history o overlay n (World.init c f) as)).count b.dataHash + 1)).sum := by
  have h1 := copies_le_fec o overlay b msg hr receivers as (World.init c f) hS
  have h0 : copies msg (World.init c f) = 0 := rfl
  rw [h0, Nat.zero_add] at h1
  refine Nat.le_trans h1 (Nat.add_le_add_left (sum_le _ _ _ ?_) _)
  intro n _
  refine Nat.mul_le_mul_left _ ?_
  rw [passesFec_le]
  exact C65_small_numbers_partial (o n).env _ (fun now b' hb => by
    obtain ⟨m, hm, hmr⟩ := history_fec o overlay n as _ now b' hb
    exact hsmall m hm b' hmr) b

/-! ### Large numbers -/

/-- The member passes on the packet: it does not know the broadcast, or is receiving it from its author. -/
def Ready (s : State c f) (b : FecPart) (source : Bytes) : Prop :=
  s.owned.get b.dataHash = none ∨
  ∃ i t, s.owned.get b.dataHash = some (.incoming i) ∧ s.transfers[i]? = some t ∧ t.hist.index = 0 ∧
    t.source = source ∧ (t.completed = true ∨ t.phase ≠ .ended)

theorem feed_ready {s : State c f} {i : Nat} {t : Transfer c f} {pub : c.Pub} {b : FecPart}
    (ho : s.owned.get b.dataHash = some (.incoming i)) (ht : s.transfers[i]? = some t) (hi : t.hist.index = 0)
    (hs : t.source = Node.shortId c pub) (hp : t.completed = true ∨ t.phase ≠ .ended) (hn : 256 ≤ b.seqno) :
    (Overlay.feed c f s i t pub (Node.shortId c pub) b).2.forwarded = true ∧
    Ready (Overlay.feed c f s i t pub (Node.shortId c pub) b).1 b (Node.shortId c pub) := by
  have hlen := (List.getElem?_eq_some_iff.mp ht).1
  have ha := (PacketsHistory.accepts_iff t.hist hi b.seqno).mpr (.inl hn)
  have hidx : (PacketsHistory.deliver t.hist b.seqno).1.index = 0 := PacketsHistory.deliver_index t.hist hi b.seqno
  unfold Overlay.feed
  simp only [hs, ne_eq, not_true, if_false]
  cases hq : PacketsHistory.deliver t.hist b.seqno with
  | mk h r =>
    rw [hq] at ha hidx
    simp only at ha hidx
    subst ha
    simp only
    split
    · rename_i hc
      exact ⟨rfl, .inr ⟨i, _, ho, List.getElem?_set_self hlen, hidx, rfl, .inl hc⟩⟩
    · rename_i hc
      rw [if_neg (by rcases hp with hp | hp <;> [exact absurd hp hc; exact hp])]
      refine ⟨rfl, .inr ⟨i, _, ho, List.getElem?_set_self hlen, hidx, rfl, .inr ?_⟩⟩
      exact hp.resolve_left hc

/-- A packet with a large number is passed on each time, and will be the next time. -/
theorem ready_step {e : Env} {s : State c f} {now : Nat} {b : FecPart} {pub : c.Pub}
    (hd : isOutdated e b.date now = some false) (hk : Receiver.fullId c b.src = some pub)
    (hl : b.signature.length = 64) (hn : 256 ≤ b.seqno) (h : Ready s b (Node.shortId c pub)) :
    (Overlay.step c f e s (.fec now b)).2.forwarded = true ∧
    Ready (Overlay.step c f e s (.fec now b)).1 b (Node.shortId c pub) := by
  simp only [Overlay.step, receiveFec, hd, hk, hl, ne_eq, not_true, if_false]
  rcases h with h | ⟨i, t, ho, ht, hi, hs, hp⟩
  · rw [h]
    simp only [Option.isNone_none, if_true]
    have ho : (newTransfer c f e s b (Node.shortId c pub)).owned.get b.dataHash =
        some (.incoming s.transfers.length) := by
      simp only [newTransfer]; exact AMap.get_put_self ..
    have ht : (newTransfer c f e s b (Node.shortId c pub)).transfers[s.transfers.length]? =
        some ⟨b.dataHash, Node.shortId c pub, PacketsHistory.forRecv, [], false, s.clock, 0, f.new b.fec, 0,
          .running⟩ := by
      simp [newTransfer]
    rw [ho]
    simp only
    rw [ht]
    simp only
    exact feed_ready ho ht rfl rfl (.inr (by simp)) hn
  · rw [ho]
    simp only [Option.isNone_some, Bool.false_eq_true, if_false]
    rw [ho]
    simp only
    rw [ht]
    simp only
    exact feed_ready ho ht hi hs hp hn

theorem ready_keys {e : Env} {s : State c f} {now : Nat} {b : FecPart} :
    ∀ x ∈ s.owned.keys, x ∈ (Overlay.step c f e s (.fec now b)).1.owned.keys := by
  intro x hx
  simp only [Overlay.step, receiveFec]
  split
  · exact hx
  · exact hx
  · split
    · exact hx
    · rename_i pub _
      split
      · exact hx
      · obtain ⟨s', hs'⟩ : ∃ s', s' = (if (s.owned.get b.dataHash).isNone = true then
              newTransfer c f e s b (Node.shortId c pub) else s) := ⟨_, rfl⟩
        rw [← hs']
        have hk : x ∈ s'.owned.keys := by
          rw [hs']; split
          · exact AMap.mem_keys_put.mpr (.inr hx)
          · exact hx
        split
        · split
          · rename_i i _ _ t ht
            have := congrArg Overlay.View.keys (feed_view s' i t pub (Node.shortId c pub) b)
            simp only [view] at this
            rw [this]
            exact hk
          · exact hk
        · exact hk

/-- What a storm needs. -/
structure Stormy (o : Bytes → Opts) (ov : Bytes) (b : FecPart) (msg src : Bytes) (w : World c f) : Prop where
  ready : ∀ n, Ready (w.node n) b src
  same : ∀ m ∈ w.net, m.msg = msg

theorem Stormy.step {o : Bytes → Opts} {ov : Bytes} {b : FecPart} {msg : Bytes} {pub : c.Pub} {w : World c f}
    (hr : Overlay.readMessage msg = some (ov, .fec b)) (hk : Receiver.fullId c b.src = some pub)
    (hl : b.signature.length = 64) (hn : 256 ≤ b.seqno) (h : Stormy o ov b msg (Node.shortId c pub) w)
    {i now : Nat} {chosen : List Bytes} {m : Letter} (hm : w.net[i]? = some m)
    (hd : isOutdated (o m.dst).env b.date now = some false) :
    Stormy o ov b msg (Node.shortId c pub) (Gossip.step c f o ov w (.deliver i now chosen)) ∧
    (Gossip.step c f o ov w (.deliver i now chosen)).net.length =
      w.net.length + (targets chosen (o m.dst).onwardFec (some m.src)).length ∧
    event c f ov w (.deliver i now chosen) = some (m.dst, .fec now b) := by
  have hmsg := h.same m (List.mem_of_getElem? hm)
  have hre : reaction ov m now = some (m.dst, .fec now b) := by
    unfold reaction; rw [hmsg, hr]; simp
  have he : event c f ov w (.deliver i now chosen) = some (m.dst, .fec now b) := by
    simp only [event, hm, Option.bind_some, hre]
  obtain ⟨hf, hready⟩ := ready_step hd hk hl hn (h.ready m.dst)
  have hlet : letters c f o ov w (.deliver i now chosen) =
      (targets chosen (o m.dst).onwardFec (some m.src)).map fun t => ⟨m.dst, t, m.msg⟩ := by
    simp only [letters, hm, hre, hf, if_true, onwardTo]
  refine ⟨⟨?_, ?_⟩, ?_, he⟩
  · intro n
    rw [node_step, he]
    simp only
    split
    · rename_i hx; subst hx; exact hready
    · exact h.ready n
  · intro m' hm'
    rw [net_step, hlet] at hm'
    rcases List.mem_append.mp hm' with hm' | hm'
    · exact h.same m' hm'
    · obtain ⟨t, _, rfl⟩ := List.mem_map.mp hm'
      exact hmsg
  · rw [net_step, hlet, List.length_append, List.length_map]

/-- Letters `0`, ..., `N - 1` are delivered, each once and in order. -/
def deliveries (now : Nat → Nat) (chosen : Nat → List Bytes) (i N : Nat) : List (Act c) :=
  (List.range' i N).map fun j => .deliver j (now j) (chosen j)

theorem storm_run {o : Bytes → Opts} {ov : Bytes} {b : FecPart} {msg : Bytes} {pub : c.Pub}
    (hr : Overlay.readMessage msg = some (ov, .fec b)) (hk : Receiver.fullId c b.src = some pub)
    (hl : b.signature.length = 64) (hn : 256 ≤ b.seqno) (now : Nat → Nat) (chosen : Nat → List Bytes) (k : Nat)
    (hk1 : 1 ≤ k) (N : Nat) : ∀ (i : Nat) (w : World c f), Stormy o ov b msg (Node.shortId c pub) w →
    1 + i * k ≤ w.net.length →
    (∀ n j, j < i + N → isOutdated (o n).env b.date (now j) = some false) →
    (∀ j m, j < i + N → (run c f o ov w (deliveries now chosen i N)).net[j]? = some m →
      k ≤ (targets (chosen j) (o m.dst).onwardFec (some m.src)).length) →
    Stormy o ov b msg (Node.shortId c pub) (run c f o ov w (deliveries now chosen i N)) ∧
    1 + (i + N) * k ≤ (run c f o ov w (deliveries now chosen i N)).net.length ∧
    ∀ n, allForgotten (o n).env (w.node n) (history o ov n w (deliveries now chosen i N)) = [] := by
  induction N with
  | zero => intro i w h hw _ _; exact ⟨h, hw, fun n => rfl⟩
  | succ N ih =>
    intro i w h hw hd hc
    have hi : i < w.net.length := by
      have : i * 1 ≤ i * k := Nat.mul_le_mul_left _ hk1
      omega
    obtain ⟨m, hm⟩ : ∃ m, w.net[i]? = some m := ⟨_, List.getElem?_eq_getElem hi⟩
    obtain ⟨h1, h2, h3⟩ := h.step hr hk hl hn (chosen := chosen i) hm (hd m.dst i (by omega))
    have hrun : run c f o ov w (deliveries now chosen i (N + 1)) =
      run c f o ov (Gossip.step c f o ov w (.deliver i (now i) (chosen i))) (deliveries now chosen (i + 1) N) := rfl
    have hm' : (run c f o ov w (deliveries now chosen i (N + 1))).net[i]? = some m :=
      (net_get (o := o) (ov := ov) (deliveries now chosen i (N + 1)) w i hi).trans hm
    have h4 := hc i m (by omega) hm'
    rw [hrun] at hc ⊢
    obtain ⟨a1, a2, a3⟩ := ih (i + 1) _ h1 (by rw [h2, Nat.add_mul]; omega)
      (fun n j hj => hd n j (by omega)) (fun j m hj => hc j m (by omega))
    refine ⟨a1, by rw [show i + (N + 1) = i + 1 + N by omega]; exact a2, ?_⟩
    intro n
    have hhist : history o ov n w (deliveries now chosen i (N + 1)) =
        (if m.dst = n then [.fec (now i) b] else []) ++ history o ov n
          (Gossip.step c f o ov w (.deliver i (now i) (chosen i))) (deliveries now chosen (i + 1) N) := by
      show (eventsOf o ov n w (.deliver i (now i) (chosen i) :: deliveries now chosen (i + 1) N)).map (·.1) = _
      rw [eventsOf_cons, h3]
      simp only [List.map_append, history]
      congr 1
      split <;> rfl
    have hnode := node_step (o := o) (ov := ov) w (.deliver i (now i) (chosen i)) n
    rw [h3] at hnode
    simp only at hnode
    have h5 := a3 n
    rw [hhist]
    split
    · rename_i hx
      subst hx
      rw [if_pos rfl] at hnode
      rw [hnode] at h5
      simp only [List.singleton_append, allForgotten, h5, List.append_nil]
      unfold forgotten
      rw [List.filter_eq_nil_iff]
      intro x hx
      simpa using ready_keys x hx
    · rename_i hx
      rw [if_neg hx] at hnode
      rw [hnode] at h5
      exact h5

/-- C114: a packet with a number of 256 or more is passed on by every receiver each time it arrives. One such
letter, and the delivery of each letter once, makes as many letters as one likes, while nobody forgets anything,
until the date of the packet is outdated. -/
theorem C114_storm (o : Bytes → Opts) (overlay : Bytes) (b : FecPart) (msg : Bytes) (pub : c.Pub)
    (hr : Overlay.readMessage msg = some (overlay, .fec b)) (hk : Receiver.fullId c b.src = some pub)
    (hl : b.signature.length = 64) (hn : 256 ≤ b.seqno) (first : Letter) (hfirst : first.msg = msg)
    (now : Nat → Nat) (chosen : Nat → List Bytes) (k N : Nat) (hk1 : 1 ≤ k) (as : List (Act c))
    (has : as = .post first :: (List.range N).map fun j => .deliver j (now j) (chosen j))
    (hd : ∀ n j, j < N → isOutdated (o n).env b.date (now j) = some false)
    (hc : ∀ j m, j < N → (run c f o overlay (World.init c f) as).net[j]? = some m →
      k ≤ (targets (chosen j) (o m.dst).onwardFec (some m.src)).length) :
    1 + N * k ≤ copies msg (run c f o overlay (World.init c f) as) ∧
    started o overlay msg (World.init c f) as = 1 ∧
    ∀ n, allForgotten (o n).env (State.init c f) (history o overlay n (World.init c f) as) = [] := by
  have hD : (List.range N).map (fun j => Act.deliver (c := c) j (now j) (chosen j)) = deliveries now chosen 0 N := by
    unfold deliveries; rw [List.range_eq_range']
  rw [hD] at has
  subst has
  have hw : Stormy o overlay b msg (Node.shortId c pub)
      (Gossip.step c f o overlay (World.init c f) (.post first)) := by
    refine ⟨fun n => .inl ?_, ?_⟩
    · rw [node_step]; rfl
    · intro m hm
      rw [net_step] at hm
      obtain rfl := List.mem_singleton.mp hm
      exact hfirst
  obtain ⟨h1, h2, h3⟩ := storm_run hr hk hl hn now chosen k hk1 N 0 _ hw (by
    rw [net_step]; simp [World.init, letters]) (fun n j hj => hd n j (by omega))
    (fun j m hj hm => hc j m (by omega) hm)
  refine ⟨?_, ?_, ?_⟩
  · have : copies msg (run c f o overlay (World.init c f) (.post first :: deliveries now chosen 0 N)) =
        (run c f o overlay (Gossip.step c f o overlay (World.init c f) (.post first))
          (deliveries now chosen 0 N)).net.length := by
      unfold copies
      exact List.countP_eq_length.mpr fun m hm => decide_eq_true (h1.same m hm)
    rw [this]
    simpa using h2
  · simp only [started, isDelivery, Bool.false_eq_true, if_false, letters]
    have : ∀ (l : List Nat) (w : World c f), started o overlay msg w
        (l.map fun j => Act.deliver j (now j) (chosen j)) = 0 := by
      intro l
      induction l with
      | nil => intro w; rfl
      | cons j l ih => intro w; simp only [List.map_cons, started, isDelivery, if_true, Nat.zero_add]; exact ih _
    unfold deliveries
    rw [this]
    simp [hfirst]
  · intro n
    have h4 := h3 n
    have h5 : (Gossip.step c f o overlay (World.init c f) (.post first)).node n = State.init c f := by
      rw [node_step]; rfl
    rw [h5] at h4
    have h6 : history o overlay n (World.init c f) (.post first :: deliveries now chosen 0 N) =
        history o overlay n (Gossip.step c f o overlay (World.init c f) (.post first))
          (deliveries now chosen 0 N) := by
      unfold history
      rw [eventsOf_cons]
      rfl
    rw [h6]
    exact h4

/-- What is drawn from enough neighbours is as many targets as asked for. -/
theorem targets_full {chosen pool : List Bytes} {k : Nat} {src : Bytes} (hp : pool.Nodup) (hk : k < pool.length)
    (hfit : k + 1 < 2 ^ 32) (h : IsSample chosen pool (PeersSet.sampleSize k (some src))) :
    (targets chosen k (some src)).length = k := by
  have hsz : PeersSet.sampleSize k (some src) = k + 1 := by
    simp only [PeersSet.sampleSize, Option.isSome_some, if_true]
    exact Nat.mod_eq_of_lt hfit
  obtain ⟨h1, h2⟩ := h
  rw [hsz] at h2
  have hlen : chosen.length = k + 1 := by omega
  have hnd : chosen.Nodup := by
    obtain ⟨l, hl, hs⟩ := h1
    exact hl.nodup_iff.mp (hs.nodup hp)
  simp only [targets, PeersSet.getRandomPeers, List.length_take]
  have : (chosen.filter fun x => decide (x ≠ src)) = chosen.erase src := by
    rw [hnd.erase_eq_filter]
    exact List.filter_congr fun x _ => by by_cases hx : x = src <;> simp [hx]
  rw [this, List.length_erase]
  split <;> omega

/-- C114: so it is in an overlay in which every member has more neighbours than packets are passed on to. -/
theorem C114_storm_neighbours (o : Bytes → Opts) (overlay : Bytes) (b : FecPart) (msg : Bytes) (pub : c.Pub)
    (hr : Overlay.readMessage msg = some (overlay, .fec b)) (hk : Receiver.fullId c b.src = some pub)
    (hl : b.signature.length = 64) (hn : 256 ≤ b.seqno) (first : Letter) (hfirst : first.msg = msg)
    (now : Nat → Nat) (chosen : Nat → List Bytes) (k N : Nat) (hk1 : 1 ≤ k) (hk32 : k + 1 < 2 ^ 32)
    (hopt : ∀ n, (o n).onwardFec = k) (as : List (Act c))
    (has : as = .post first :: (List.range N).map fun j => .deliver j (now j) (chosen j))
    (hd : ∀ n j, j < N → isOutdated (o n).env b.date (now j) = some false)
    (neighbours : Bytes → List Bytes) (hset : ∀ n, (neighbours n).Nodup) (hmany : ∀ n, k < (neighbours n).length)
    (hdraw : ∀ j m, j < N → (run c f o overlay (World.init c f) as).net[j]? = some m →
      IsSample (chosen j) (neighbours m.dst) (PeersSet.sampleSize k (some m.src))) :
    1 + N * k ≤ copies msg (run c f o overlay (World.init c f) as) := by
  refine (C114_storm o overlay b msg pub hr hk hl hn first hfirst now chosen k N hk1 as has hd ?_).1
  intro j m hj hm
  rw [hopt]
  exact Nat.le_of_eq (targets_full (hset m.dst) (hmany m.dst) hk32 (hdraw j m hj hm)).symm

/-- C114: members send such packets themselves: those of data of more than 256 symbols, that is of 196 608 bytes. -/
theorem C114_senders (hc : c.Lawful) (hz : Fec.Sized f) (sec : c.Sec) (overlay : Bytes) (hov : overlay.length = 32)
    (z : Zstd) (compressing : Bool) (data : Bytes) (dates : List Nat) (hlong : 256 * 768 < (payload z compressing data).length)
    (hp : (payload z compressing data).length < 2 ^ 32) (hs : ∀ n, (f.symbol (payload z compressing data) n).length < 2 ^ 24)
    (hdates : ∀ d ∈ dates, d < 2 ^ 32) (hmany : 256 < dates.length) :
    ∃ b ∈ (OutFec.new c z compressing data).sent c f sec dates,
      Overlay.readMessage (fecMessage overlay b) = some (overlay, .fec b) ∧
      Receiver.fullId c b.src = some (c.pubOf sec) ∧ b.signature.length = 64 ∧ 256 ≤ b.seqno := by
  have hcount := hz (payload z compressing data)
  have h1 := C85_source_symbols (c := c) hz z compressing sec data dates 256 dates[256] hp (by omega)
    (List.getElem?_eq_getElem hmany)
  refine ⟨_, List.mem_of_getElem? h1, ?_, ?_, hc.sign_length _ _, Nat.le_refl _⟩
  · exact C85_read_back hc sec overlay hov z compressing data dates _ (List.mem_of_getElem? h1) hp (by omega) hdates
      (show 256 < 2 ^ 32 by decide) (hs 256)
  · exact hc.decode_pub _

/-! ### Examples -/

namespace Storm

/-- A packet with a large number. -/
def part : FecPart := { samplePart with seqno := 300 }

def msg : Bytes := fecMessage (leBytes 32 1) part

theorem read : Overlay.readMessage msg = some (leBytes 32 1, .fec part) := by decide +kernel

/-- Three members in a ring. -/
def member (j : Nat) : Bytes := [UInt8.ofNat (j % 3)]

def acts (n : Nat) : List (Act Crypto.toy) :=
  .post ⟨[0], [1], msg⟩ :: (List.range n).map fun j => .deliver j 100 [member (j + 2)]

theorem net : (run Crypto.toy Fec.toy (Sample.opts 1) (leBytes 32 1) (World.init Crypto.toy Fec.toy) (acts 4)).net =
    [⟨[0], [1], msg⟩, ⟨[1], [2], msg⟩, ⟨[2], [0], msg⟩, ⟨[0], [1], msg⟩, ⟨[1], [2], msg⟩] := by decide +kernel

-- C114_storm: four deliveries make four letters, and so on
theorem storm : 1 + 4 * 1 ≤ copies msg (run Crypto.toy Fec.toy (Sample.opts 1) (leBytes 32 1)
      (World.init Crypto.toy Fec.toy) (acts 4)) ∧
    started (f := Fec.toy) (Sample.opts 1) (leBytes 32 1) msg (World.init Crypto.toy Fec.toy) (acts 4) = 1 ∧
    ∀ n, allForgotten (Sample.opts 1 n).env (State.init Crypto.toy Fec.toy)
      (history (Sample.opts 1) (leBytes 32 1) n (World.init Crypto.toy Fec.toy) (acts 4)) = [] := C114_storm (c := Crypto.toy) (f := Fec.toy) (Sample.opts 1) (leBytes 32 1) part msg (5 : UInt8) read
  (Crypto.toy_lawful.decode_pub (5 : UInt8)) (by decide +kernel) (by decide) ⟨[0], [1], msg⟩ rfl (fun _ => 100) (fun j => [member (j + 2)]) 1 4
  (by decide) (acts 4) rfl (by intro n j _; rfl) (by
    intro j m hj hm
    rw [net] at hm
    match j, hm with
    | 0, hm => cases hm; decide
    | 1, hm => cases hm; decide
    | 2, hm => cases hm; decide
    | 3, hm => cases hm; decide
    | j + 4, _ => omega)

theorem drawn (j : Nat) : IsSample [member (j + 2), [9]] [[0], [1], [2], [9]] 2 := by
  have h : member (j + 2) = [0] ∨ member (j + 2) = [1] ∨ member (j + 2) = [2] := by
    unfold member
    have : (j + 2) % 3 < 3 := Nat.mod_lt _ (by decide)
    match (j + 2) % 3, this with
    | 0, _ => exact .inl rfl
    | 1, _ => exact .inr (.inl rfl)
    | 2, _ => exact .inr (.inr rfl)
  refine ⟨?_, rfl⟩
  rcases h with h | h | h <;> rw [h] <;> exact List.subperm_of_subset (by decide) (by decide)

-- C114_storm_neighbours: every member knows the two others and one more
example := C114_storm_neighbours (c := Crypto.toy) (f := Fec.toy) (Sample.opts 1) (leBytes 32 1) part msg (5 : UInt8)
  read (Crypto.toy_lawful.decode_pub (5 : UInt8)) (by decide +kernel) (by decide) ⟨[0], [1], msg⟩ rfl (fun _ => 100)
  (fun j => [member (j + 2), [9]]) 1 4 (by decide) (by decide) (fun _ => rfl) _ rfl (by intro n j _; rfl)
  (fun n => [[0], [1], [2], [9]]) (fun _ => by decide) (fun _ => by decide) (by
    intro j m hj _
    exact drawn j)

/-- Data of more than 256 symbols. -/
def long : Bytes := List.replicate 200000 7

theorem long_length : (payload sampleEnv.z false long).length = 200000 := List.length_replicate

theorem symbol_length (n : Nat) : (Fec.toy.symbol (payload sampleEnv.z false long) n).length = 200000 := List.length_replicate

-- C114_senders
example (dates : List Nat) (hdates : ∀ d ∈ dates, d < 2 ^ 32) (hmany : 256 < dates.length) :=
  C114_senders (c := Crypto.toy) (f := Fec.toy) Crypto.toy_lawful FecSendExample.sized (5 : UInt8)
  (leBytes 32 1) (by decide) sampleEnv.z false long dates
  (by rw [long_length]; decide) (by rw [long_length]; decide) (by intro n; rw [symbol_length]; decide) hdates hmany

/-- The ring with a packet with a small number. -/
def smallMsg : Bytes := fecMessage (leBytes 32 1) samplePart

theorem smallRead : Overlay.readMessage smallMsg = some (leBytes 32 1, .fec samplePart) := by decide +kernel

def smallActs : List (Act Crypto.toy) :=
  .post ⟨[0], [1], smallMsg⟩ :: (List.range 4).map fun j => .deliver j 100 [member (j + 2)]

theorem smallNet : (run Crypto.toy Fec.toy (Sample.opts 1) (leBytes 32 1) (World.init Crypto.toy Fec.toy) smallActs).net =
    [⟨[0], [1], smallMsg⟩, ⟨[1], [2], smallMsg⟩, ⟨[2], [0], smallMsg⟩, ⟨[0], [1], smallMsg⟩] := by decide +kernel

-- C114_small_numbers_partial: the fourth delivery makes no letter
example := C114_small_numbers_partial (c := Crypto.toy) (f := Fec.toy) (Sample.opts 1) (leBytes 32 1) smallActs
  samplePart smallMsg [[0], [1], [2]] smallRead (by
    rw [smallNet]
    intro m hm _
    simp only [List.mem_cons, List.not_mem_nil, or_false] at hm
    rcases hm with rfl | rfl | rfl | rfl <;> decide) (by
    rw [smallNet]
    intro m hm b' hb
    simp only [List.mem_cons, List.not_mem_nil, or_false] at hm
    have hmm : m.msg = smallMsg := by rcases hm with rfl | rfl | rfl | rfl <;> rfl
    rw [hmm, smallRead] at hb
    cases hb
    decide)

end Storm

/-- Three members, each passing packets on to one other: a packet goes round. -/
theorem C114_full_false : ¬ C114_full := by
  intro h
  have h1 := h Crypto.toy Fec.toy (Sample.opts 1) (leBytes 32 1) (Storm.acts 4) Storm.part Storm.msg [[0], [1], [2]]
    Crypto.toy_lawful Fec.toy_lawful Storm.read (by
      rw [Storm.net]
      intro m hm _
      simp only [List.mem_cons, List.not_mem_nil, or_false] at hm
      rcases hm with rfl | rfl | rfl | rfl | rfl <;> decide)
  obtain ⟨a1, a2, a3⟩ := Storm.storm
  rw [a2] at h1
  simp only [List.map_cons, List.map_nil, a3, List.count_nil, Nat.zero_add] at h1
  have : 1 + 4 * 1 ≤ 1 + ([1 * 1, 1 * 1, 1 * 1] : List Nat).sum := Nat.le_trans a1 h1
  revert this
  decide

end Verif.Gossip
