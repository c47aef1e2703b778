import Verif.Proofs.Gossip
import Verif.Spec.Fifo

/-!
# C113: how an ordinary broadcast spreads in an overlay
-/
namespace Verif.Gossip
open Verif.Overlay Verif.Rldp Verif.Spec

variable {c : Crypto} {f : Fec}

/-! ### Specification -/

/-- The steps of one member in a run. -/
def history (o : Bytes → Opts) (overlay : Bytes) (n : Bytes) (w : World c f) (as : List (Act c)) : List Action :=
  (eventsOf o overlay n w as).map (·.1)

/-- The message of a broadcast: prefix and signed data. -/
def messageOf (c : Crypto) (z : Zstd) (compressing : Bool) (overlay : Bytes) (date : Nat) (sec : c.Sec)
    (data : Bytes) : Bytes :=
  messagePrefix overlay ++ writeBroadcast (.ordinary (ordinaryOf c z compressing date sec data))

/-- Member `n0` sends a broadcast after `before`, and during `after` it spreads. `world` is the state before, `told`
the one after sending, `final` the one at the end. -/
structure Scene (c : Crypto) where
  o : Bytes → Opts
  z : Zstd
  overlay : Bytes
  before : List (Act c)
  n0 : Bytes
  date : Nat
  sec : c.Sec
  data : Bytes
  targets : List Bytes
  after : List (Act c)

namespace Scene
variable (s : Scene c) (f : Fec)

def world : World c f := run c f s.o s.overlay (World.init c f) s.before
def told : World c f := step c f s.o s.overlay (s.world f) (.tell s.n0 s.date s.sec s.data s.targets)
def final : World c f := run c f s.o s.overlay (s.told f) s.after
def broadcast : Ordinary := ordinaryOf c s.z (s.o s.n0).compressing s.date s.sec s.data
def msg : Bytes := messageOf c s.z (s.o s.n0).compressing s.overlay s.date s.sec s.data
def bid : Bytes := ordinaryId c s.data s.date
/-- What the application of a member should get. -/
def content : Delivery := ⟨1, s.data, Node.shortId c (c.pubOf s.sec)⟩

/-- The circumstances: a proper new broadcast, members that agree on the compression library, and no other
message about the same data of the same second. The whole takes less than the timeout of every member. -/
structure Calm : Prop where
  lawful : c.Lawful
  zstd : s.z.Lawful
  same : ∀ n, (s.o n).env.z = s.z
  overlay : s.overlay.length = 32
  size : (payload s.z (s.o s.n0).compressing s.data).length < 2 ^ 24
  size' : s.data.length < 2 ^ 32
  date : ∀ n, s.date + (s.o n).env.timeout < 2 ^ 32
  unmistakable : Unmistakable c s.z s.sec s.data s.date
  /-- nobody knows the broadcast before -/
  fresh : ∀ n, s.bid ∉ ((s.world f).node n).owned.keys
  /-- only members that received it pass it on -/
  alone : (∀ m ∈ (s.world f).net, m.msg ≠ s.msg) ∧ started s.o s.overlay s.msg (s.told f) s.after = 0
  /-- no other broadcast with the same identity -/
  tell : ∀ n now sec data ts, .tell n now sec data ts ∈ s.after → ordinaryId c data now ≠ s.bid
  other : ∀ m ∈ (s.final f).net, m.msg ≠ s.msg → Unrelated c s.bid m.msg
  brisk : ∀ n, ((s.final f).node n).clock < ((s.world f).node n).clock + 1000 * (s.o n).env.timeout

/-- Every letter with the broadcast arrives, or one just like it, before the timeout of its receiver. -/
def AllArrive : Prop := ∀ m ∈ (s.final f).net, m.msg = s.msg →
  ∃ k now, (s.final f).net[k]? = some m ∧ Arrives s.o s.overlay (s.told f) s.after k now ∧
    now ≤ s.date + (s.o m.dst).env.timeout

/-- What the random generator returns when the broadcast arrives is drawn from the neighbours of the receiver. -/
def Draws (neighbours : Bytes → List Bytes) : Prop := ∀ k now chosen m, .deliver k now chosen ∈ s.after →
  (s.final f).net[k]? = some m → m.msg = s.msg →
  IsSample chosen (neighbours m.dst) (PeersSet.sampleSize (s.o m.dst).onward (some m.src))

end Scene

/-- C113, full statement: when all letters arrive in time, every member connected with the sender gets the
broadcast. -/
def C113_full : Prop := ∀ (c : Crypto) (f : Fec) (s : Scene c) (neighbours : Bytes → List Bytes), s.Calm f →
  s.AllArrive f → (∀ n, (s.o n).onward + 1 < 2 ^ 32) → (∀ y ∈ neighbours s.n0, y ∈ s.targets) →
  s.Draws f neighbours →
  ∀ n, Connected neighbours s.n0 n → n ≠ s.n0 →
    given s.o s.overlay s.broadcast n (s.told f) s.after = [s.content]

/-! ### The circumstances as needed by the proofs -/

theorem hold_of {e : Env} {date now : Nat} (h1 : date + e.timeout < 2 ^ 32) (h2 : ¬ now ≤ date + e.timeout) :
    isOutdated e date now = some true := by
  unfold isOutdated addU32
  have : e.timeout % 2 ^ 32 = e.timeout := Nat.mod_eq_of_lt (by omega)
  rw [this, if_pos h1]
  simp
  omega

/-- The broadcast of a scene, with the members to which each passes it on. -/
def Scene.spread (s : Scene c) (f : Fec) (h : s.Calm f) (nb : Bytes → List Bytes) : Spread c f where
  o := s.o
  ov := s.overlay
  bid := s.bid
  msg := s.msg
  b := s.broadcast
  d := s.content
  t n := ((s.world f).node n).clock + 1000 * (s.o n).env.timeout
  nb := nb
  hr := by
    have hw : (Broadcast.ordinary s.broadcast).wf := ordinaryOf_wf h.lawful h.size (by
      have := h.date s.n0; omega)
    have := Props.readMessage_wire s.overlay _ [] h.overlay hw
    simpa [Scene.msg, messageOf, messagePrefix, Scene.broadcast] using this
  hok n now hn := by
    have := check_sent (e := ⟨.release, s.z, 0, 0⟩) (e' := (s.o n).env) h.lawful h.zstd (h.same n)
      (compressing := (s.o s.n0).compressing) h.size' (h.date n) hn h.unmistakable
    exact this
  hold n now hn := by
    have : isOutdated (s.o n).env s.date now = some true := hold_of (h.date n) hn
    unfold checkOrdinary
    show (match isOutdated (s.o n).env s.date now with
      | none => _ | some true => _ | some false => _) = _
    rw [this]
  hone := rfl

theorem Scene.Calm.letters {s : Scene c} {f : Fec} (h : s.Calm f) :
    Gossip.letters c f s.o s.overlay (s.world f) (.tell s.n0 s.date s.sec s.data s.targets) =
      s.targets.map fun t => ⟨s.n0, t, s.msg⟩ := by
  simp only [Gossip.letters, sendOrdinary, createOwn]
  have e0 : c.sha (ordinaryToSign c.sha s.data s.date none) = s.bid := rfl
  rw [e0, AMap.get_eq_none_iff.mpr (h.fresh s.n0), h.same s.n0]
  rfl

/-- Right after sending, the sender has the broadcast. -/
theorem Scene.Calm.start {s : Scene c} {f : Fec} (h : s.Calm f) (nb : Bytes → List Bytes)
    (hnb : ∀ y ∈ nb s.n0, y ∈ s.targets) : (s.spread f h nb).J [s.n0] (s.told f) := by
  have hinv : ∀ n, TInv (view ((s.world f).node n)) := by
    intro n
    unfold Scene.world
    rw [(eventsOf_trace n s.before (World.init c f)).2]
    exact TInv.run _ _ TInv.init
  have hg := AMap.get_eq_none_iff.mpr (h.fresh s.n0)
  have hn0 : (s.told f).node s.n0 = { (s.world f).node s.n0 with
      owned := ((s.world f).node s.n0).owned.put s.bid .other }.spawnGc (s.o s.n0).env s.bid := by
    unfold Scene.told
    rw [node_step]
    simp only [event, if_true, Overlay.step, createOwn]
    have e0 : idOf c s.data s.date = s.bid := rfl
    rw [e0, hg]
  have hoth : ∀ n, n ≠ s.n0 → (s.told f).node n = (s.world f).node n := by
    intro n hn
    unfold Scene.told
    rw [node_step]
    simp only [event]
    rw [if_neg (fun hx => hn hx.symm)]
  have hnet : (s.told f).net = (s.world f).net ++ s.targets.map fun t => ⟨s.n0, t, s.msg⟩ := by
    unfold Scene.told
    rw [net_step, h.letters]
  have hkn := kept_new (e := (s.o s.n0).env) (hinv s.n0) hg
  refine ⟨?_, ?_, ?_, ?_, ?_, ?_, by simp⟩
  · intro n
    by_cases hn : n = s.n0
    · subst hn
      have := (hinv s.n0).eff (step_eff (s.o s.n0).env ((s.world f).node s.n0) (.own s.bid))
      rw [hn0]
      simpa only [Overlay.step, createOwn, hg] using this
    · rw [hoth n hn]; exact hinv n
  · intro n
    have := clock_step (o := s.o) (ov := s.overlay) (s.world f) (.tell s.n0 s.date s.sec s.data s.targets) n
    exact Nat.add_le_add_right this _
  · intro n hn
    obtain rfl := List.mem_singleton.mp hn
    rw [hn0]
    exact hkn
  · intro n hn
    rw [hoth n (fun hx => hn (List.mem_singleton.mpr hx))]
    exact h.fresh n
  · intro m hm hmm
    rw [hnet] at hm
    rcases List.mem_append.mp hm with hm | hm
    · exact absurd hmm (h.alone.1 m hm)
    · obtain ⟨t, _, rfl⟩ := List.mem_map.mp hm
      exact List.mem_singleton.mpr rfl
  · intro n hn y hy
    obtain rfl := List.mem_singleton.mp hn
    right
    rw [hnet]
    exact List.mem_append_right _ (List.mem_map.mpr ⟨y, hnb y hy, rfl⟩)

theorem started_append (o : Bytes → Opts) (ov msg : Bytes) (xs ys : List (Act c)) : ∀ w : World c f,
    started o ov msg w (xs ++ ys) = started o ov msg w xs + started o ov msg (run c f o ov w xs) ys := by
  induction xs with
  | nil => intro w; simp [started, run]
  | cons a xs ih =>
    intro w
    simp only [List.cons_append, started, run]
    rw [ih]
    omega

theorem Scene.Calm.ok {s : Scene c} {f : Fec} (h : s.Calm f) (nb : Bytes → List Bytes)
    (hdraw : ∀ k now chosen m, .deliver k now chosen ∈ s.after → (s.final f).net[k]? = some m → m.msg = s.msg →
      ∀ y ∈ nb m.dst, y ≠ m.src → y ∈ Overlay.targets chosen (s.o m.dst).onward (some m.src)) :
    ∀ before a after, s.after = before ++ a :: after →
      (s.spread f h nb).Ok (run c f s.o s.overlay (s.told f) before) a := by
  intro before a after he
  have hfin : s.final f = run c f s.o s.overlay (step c f s.o s.overlay
      (run c f s.o s.overlay (s.told f) before) a) after := by
    unfold Scene.final
    rw [he, run_append]
    rfl
  refine ⟨?_, ?_, ?_, ?_, ?_⟩
  · intro n
    have h1 := clock_run (o := s.o) (ov := s.overlay) after
      (step c f s.o s.overlay (run c f s.o s.overlay (s.told f) before) a) n
    rw [← hfin] at h1
    exact Nat.lt_of_le_of_lt h1 (h.brisk n)
  · intro m hm hmm
    refine h.other m ?_ hmm
    rw [hfin]
    refine net_mono _ _ _ ?_
    rw [net_step]
    exact List.mem_append_left _ hm
  · intro n now sec data ts ha
    exact h.tell n now sec data ts (by rw [he, ha]; simp)
  · intro hd m hm hmm
    have h0 := h.alone.2
    rw [he, started_append] at h0
    simp only [started, hd, Bool.false_eq_true, if_false] at h0
    have : 0 < (Gossip.letters c f s.o s.overlay (run c f s.o s.overlay (s.told f) before) a).countP
        (fun m => decide (m.msg = s.msg)) := List.countP_pos_iff.mpr ⟨m, hm, decide_eq_true hmm⟩
    omega
  · intro k now chosen m ha hm hmm
    refine hdraw k now chosen m (by rw [he, ha]; simp) ?_ hmm
    rw [hfin]
    have hk := (List.getElem?_eq_some_iff.mp hm).1
    have := net_get (o := s.o) (ov := s.overlay) (a :: after) (run c f s.o s.overlay (s.told f) before) k hk
    exact this.trans hm

/-! ### C113 -/

/-- C113 for any choices of the members: when all letters arrive in time, everybody who can be reached from the
sender along the choices gets the broadcast, exactly once and unchanged, with its author. Missing for the full
statement: the choices need not reach everybody. -/
theorem C113_reached_partial (s : Scene c) (f : Fec) (h : s.Calm f) (harr : s.AllArrive f)
    (choice : Bytes → List Bytes) (hsrc : ∀ y ∈ choice s.n0, y ∈ s.targets)
    (hdraw : ∀ k now chosen m, .deliver k now chosen ∈ s.after → (s.final f).net[k]? = some m → m.msg = s.msg →
      ∀ y ∈ choice m.dst, y ≠ m.src → y ∈ Overlay.targets chosen (s.o m.dst).onward (some m.src)) :
    ∀ n, Connected choice s.n0 n → n ≠ s.n0 →
      given s.o s.overlay s.broadcast n (s.told f) s.after = [s.content] := by
  intro n hcon hn
  obtain ⟨H, hJ, hsub, hg, ha⟩ := Spread.run s.after (h.start choice hsrc) (h.ok choice hdraw)
  have h0 : s.n0 ∈ H := hsub _ (List.mem_singleton.mpr rfl)
  have hall : ∀ m ∈ (s.final f).net, m.msg = s.msg → m.dst ∈ H := by
    intro m hm hmm
    obtain ⟨k, now, hk, h1, h2⟩ := harr m hm hmm
    exact ha k now m h1 hk hmm h2
  have hH := hJ.connected h0 hall hcon
  have := hg n
  rw [if_pos ⟨hH, fun hx => hn (List.mem_singleton.mp hx)⟩] at this
  exact this

/-- C113 where nobody has more neighbours than it passes broadcasts on to: every member connected with the
sender gets the broadcast. -/
theorem C113_everyone_partial (s : Scene c) (f : Fec) (neighbours : Bytes → List Bytes) (h : s.Calm f)
    (harr : s.AllArrive f) (hfit : ∀ n, (s.o n).onward + 1 < 2 ^ 32)
    (hsrc : ∀ y ∈ neighbours s.n0, y ∈ s.targets) (hdraw : s.Draws f neighbours)
    (hfew : ∀ n, (neighbours n).length ≤ (s.o n).onward) :
    ∀ n, Connected neighbours s.n0 n → n ≠ s.n0 →
      given s.o s.overlay s.broadcast n (s.told f) s.after = [s.content] := by
  refine C113_reached_partial s f h harr neighbours hsrc ?_
  intro k now chosen m hk hm hmm y hy hne
  obtain ⟨h1, h2⟩ := hdraw k now chosen m hk hm hmm
  have hsz : PeersSet.sampleSize (s.o m.dst).onward (some m.src) = (s.o m.dst).onward + 1 := by
    simp only [PeersSet.sampleSize, Option.isSome_some, if_true]
    exact Nat.mod_eq_of_lt (hfit m.dst)
  rw [hsz] at h2
  have hf := hfew m.dst
  have hlen : chosen.length = (neighbours m.dst).length := by omega
  have hperm : chosen.Perm (neighbours m.dst) := h1.perm_of_length_le (by omega)
  have hy' : y ∈ chosen := hperm.mem_iff.mpr hy
  simp only [Overlay.targets, PeersSet.getRandomPeers]
  rw [List.take_of_length_le]
  · exact List.mem_filter.mpr ⟨hy', by simpa using hne⟩
  · exact Nat.le_trans (List.length_filter_le _ _) (by omega)

/-- C113: whether the letters arrive or not, nobody gets the broadcast twice, nobody gets anything else for it,
and the sender does not get it. -/
theorem C113_at_most_once (s : Scene c) (f : Fec) (h : s.Calm f) (n : Bytes) :
    given s.o s.overlay s.broadcast n (s.told f) s.after = [] ∨
    (n ≠ s.n0 ∧ given s.o s.overlay s.broadcast n (s.told f) s.after = [s.content]) := by
  obtain ⟨H, hJ, hsub, hg, ha⟩ := Spread.run s.after (h.start (fun _ => []) (by simp)) (h.ok _ (by simp))
  have := hg n
  split at this
  · rename_i hx
    exact .inr ⟨fun hn => hx.2 (List.mem_singleton.mpr hn), this⟩
  · exact .inl this

/-- C113: the number of letters with an ordinary broadcast, in every run: those of its author and of strangers,
and for each receiver its number of targets, once and once more each time it forgets the broadcast. -/
theorem C113_traffic (o : Bytes → Opts) (overlay : Bytes) (as : List (Act c)) (b : Ordinary) (msg bid : Bytes)
    (hr : Overlay.readMessage msg = some (overlay, .ordinary b))
    (hb : ∀ n now x d s, checkOrdinary c (o n).env now b = .ok x d s → x = bid)
    (receivers : List Bytes)
    (hS : ∀ m ∈ (run c f o overlay (World.init c f) as).net, m.msg = msg → m.dst ∈ receivers) :
    copies msg (run c f o overlay (World.init c f) as) ≤ started o overlay msg (World.init c f) as +
      (receivers.map fun n => (o n).onward *
        ((allForgotten (o n).env (State.init c f) (history o overlay n (World.init c f) as)).count bid + 1)).sum := by
  have h1 := copies_le b msg hr receivers as (World.init c f) hS
  have h0 : copies msg (World.init c f) = 0 := rfl
  rw [h0, Nat.zero_add] at h1
  refine Nat.le_trans h1 (Nat.add_le_add_left (sum_le _ _ _ ?_) _)
  intro n _
  refine Nat.mul_le_mul_left _ (Nat.le_trans (passes_le b bid n (hb n) (World.init c f) as) ?_)
  exact C63_once_while_remembered (o n).env _ bid

/-- A member passes on as often as it delivers. -/
theorem passes_given (o : Bytes → Opts) (ov : Bytes) (b : Ordinary) (n : Bytes) (w : World c f)
    (as : List (Act c)) : passes o ov b n w as ≤ (given o ov b n w as).length := by
  unfold passes given
  rw [(eventsOf_trace n as w).1]
  generalize (eventsOf o ov n w as).map (·.1) = l
  generalize w.node n = st
  induction l generalizing st with
  | nil => exact Nat.le_refl _
  | cons a l ih =>
    have h := ih (Overlay.step c f (o n).env st a).1
    simp only [trace, List.countP_cons, List.filterMap_cons]
    by_cases hp : isPass b a (Overlay.step c f (o n).env st a).2 = true
    · rw [if_pos hp]
      cases a with
      | ordinary now b' =>
        simp only [isPass, Bool.and_eq_true, decide_eq_true_eq] at hp
        obtain ⟨rfl, hf⟩ := hp
        obtain ⟨d, hd⟩ := forwarded_ordinary hf
        simp only [hd, if_true, List.length_cons]
        omega
      | _ => cases hp
    · rw [if_neg hp]
      split
      · exact h
      · simp only [List.length_cons]; omega

/-- C113: a broadcast costs no more letters than its first targets and the targets of all other receivers. -/
theorem C113_letters (s : Scene c) (f : Fec) (h : s.Calm f) (receivers : List Bytes)
    (hS : ∀ m ∈ (s.final f).net, m.msg = s.msg → m.dst ∈ receivers) :
    copies s.msg (s.final f) ≤ s.targets.length +
      ((receivers.filter (· ≠ s.n0)).map fun n => (s.o n).onward).sum := by
  have h1 := copies_le (o := s.o) (ov := s.overlay) s.broadcast s.msg (s.spread f h (fun _ => [])).hr receivers s.after
    (s.told f) hS
  rw [h.alone.2, Nat.add_zero] at h1
  have h2 : copies s.msg (s.told f) ≤ s.targets.length := by
    unfold Scene.told
    rw [copies_step, h.letters]
    have : copies s.msg (s.world f) = 0 := by
      unfold copies
      rw [List.countP_eq_zero]
      intro m hm
      simpa using h.alone.1 m hm
    rw [this, Nat.zero_add]
    refine Nat.le_trans List.countP_le_length ?_
    rw [List.length_map]
  have h3 : (receivers.map fun n => (s.o n).onward *
      passes s.o s.overlay s.broadcast n (s.told f) s.after).sum ≤
      ((receivers.filter (· ≠ s.n0)).map fun n => (s.o n).onward).sum := by
    clear hS h1
    induction receivers with
    | nil => exact Nat.le_refl _
    | cons n R ih =>
      have hp := passes_given s.o s.overlay s.broadcast n (s.told f) s.after
      simp only [List.map_cons, List.sum_cons]
      rcases C113_at_most_once s f h n with hg | ⟨hn, hg⟩
      · rw [hg] at hp
        have : passes s.o s.overlay s.broadcast n (s.told f) s.after = 0 := Nat.le_zero.mp hp
        rw [this, Nat.mul_zero, Nat.zero_add]
        refine Nat.le_trans ih ?_
        rw [List.filter_cons]
        split
        · simp only [List.map_cons, List.sum_cons]; omega
        · exact Nat.le_refl _
      · rw [hg] at hp
        simp only [List.length_singleton] at hp
        rw [List.filter_cons, if_pos (by simpa using hn)]
        simp only [List.map_cons, List.sum_cons]
        have : (s.o n).onward * passes s.o s.overlay s.broadcast n (s.told f) s.after ≤ (s.o n).onward * 1 :=
          Nat.mul_le_mul_left _ hp
        omega
  have h4 : copies s.msg (s.final f) = copies s.msg (run c f s.o s.overlay (s.told f) s.after) := rfl
  omega

/-! ### Examples -/

/-- Messages do not take time. -/
theorem clock_event {e : Env} {s : State c f} {a : Action} (ha : isInner a = false) :
    (Overlay.step c f e s a).1.clock = s.clock := by
  cases a with
  | ordinary now b =>
    simp only [Overlay.step, receiveOrdinary]
    split
    · rfl
    · rfl
    · split <;> rfl
  | fec now b =>
    simp only [Overlay.step, receiveFec]
    split
    · rfl
    · rfl
    · split
      · rfl
      · rename_i pub _
        split
        · rfl
        · obtain ⟨s', hs'⟩ : ∃ s', s' = (if (s.owned.get b.dataHash).isNone = true then
                newTransfer c f e s b (Node.shortId c pub) else s) := ⟨_, rfl⟩
          rw [← hs']
          have hk : s'.clock = s.clock := by
            rw [hs']; split <;> rfl
          split
          · split
            · rename_i i _ _ t ht
              have := congrArg View.clock (feed_view s' i t pub (Node.shortId c pub) b)
              exact this.trans hk
            · exact hk
          · exact hk
  | own bid =>
    simp only [Overlay.step, createOwn]
    split <;> rfl
  | _ => cases ha

theorem clock_still (o : Bytes → Opts) (ov : Bytes) (as : List (Act c)) (n : Bytes)
    (ha : ∀ m a, .inner m a ∉ as) : ∀ w : World c f, ((run c f o ov w as).node n).clock = (w.node n).clock := by
  induction as with
  | nil => intro w; rfl
  | cons a as ih =>
    intro w
    have h := ih (fun m x hx => ha m x (List.mem_cons_of_mem _ hx)) (step c f o ov w a)
    refine h.trans ?_
    rw [node_step]
    split
    · rename_i m x he
      split
      · refine clock_event ?_
        cases a with
        | tell => simp only [event, Option.some.injEq, Prod.mk.injEq] at he; rw [← he.2]; rfl
        | deliver k now chosen =>
          simp only [event, Option.bind_eq_some_iff] at he
          obtain ⟨m', _, he⟩ := he
          unfold reaction at he
          split at he
          · split at he
            · simp only [Option.some.injEq, Prod.mk.injEq] at he; rw [← he.2]; rfl
            · cases he
          · split at he
            · simp only [Option.some.injEq, Prod.mk.injEq] at he; rw [← he.2]; rfl
            · cases he
          · cases he
        | post => cases he
        | inner m' x' => exact absurd (List.mem_cons_self ..) (ha m' x')
      · rfl
    · rfl

theorem told_clock (s : Scene c) (f : Fec) (n : Bytes) :
    ((s.told f).node n).clock = ((s.world f).node n).clock :=
  clock_still s.o s.overlay [.tell s.n0 s.date s.sec s.data s.targets] n (fun m a ha => by simp at ha) (s.world f)

/-- Who may have sent letter `i`. -/
def Sourced (net : List Letter) (as : List (Act c)) (i : Nat) (l : Letter) : Prop :=
  .post l ∈ as ∨ (∃ now sec data ts, .tell l.src now sec data ts ∈ as ∧ l.dst ∈ ts) ∨
    ∃ (j : Nat) (l' : Letter), j < i ∧ net[j]? = some l' ∧ l'.dst = l.src ∧ l'.msg = l.msg ∧ l.dst ≠ l'.src

theorem mem_onwardTo {o : Opts} {chosen : List Bytes} {src y : Bytes} {a : Action} (h : y ∈ onwardTo o chosen src a) : y ≠ src := by
  unfold onwardTo at h
  split at h
  · have := (List.mem_filter.mp (List.mem_of_mem_take h)).2
    simpa using this
  · have := (List.mem_filter.mp (List.mem_of_mem_take h)).2
    simpa using this
  · cases h

theorem reaction_dst {ov : Bytes} {m : Letter} {now : Nat} {n : Bytes} {a : Action} (h : reaction ov m now = some (n, a)) : n = m.dst := by
  unfold reaction at h
  split at h
  · split at h
    · cases h; rfl
    · cases h
  · split at h
    · cases h; rfl
    · cases h
  · cases h

theorem letters_sourced (o : Bytes → Opts) (ov : Bytes) (w : World c f) (a : Act c) (l : Letter) (h : l ∈ letters c f o ov w a) :
    a = .post l ∨ (∃ now sec data ts, a = .tell l.src now sec data ts ∧ l.dst ∈ ts) ∨
      ∃ (j : Nat) (l' : Letter), w.net[j]? = some l' ∧ l'.dst = l.src ∧ l'.msg = l.msg ∧ l.dst ≠ l'.src := by
  cases a with
  | tell n now sec data ts =>
    rw [letters] at h
    split at h
    · obtain ⟨t, ht, rfl⟩ := List.mem_map.mp h
      exact .inr (.inl ⟨now, sec, data, ts, rfl, ht⟩)
    · cases h
  | deliver k now chosen =>
    rw [letters] at h
    split at h
    · cases h
    · rename_i m hm
      split at h
      · cases h
      · rename_i n x hr
        split at h
        · obtain ⟨t, ht, rfl⟩ := List.mem_map.mp h
          exact .inr (.inr ⟨k, m, hm, (reaction_dst hr).symm, rfl, mem_onwardTo ht⟩)
        · cases h
  | post m => rw [letters] at h; rw [List.mem_singleton.mp h]; exact .inl rfl
  | inner n x => rw [letters] at h; cases h

theorem run_sourced (o : Bytes → Opts) (ov : Bytes) (as : List (Act c)) : ∀ (w : World c f) (bs : List (Act c)),
    (∀ i l, w.net[i]? = some l → Sourced w.net bs i l) → ∀ i l, (run c f o ov w as).net[i]? = some l →
      Sourced (run c f o ov w as).net (bs ++ as) i l := by
  induction as with
  | nil => intro w bs h i l hl; rw [List.append_nil]; exact h i l hl
  | cons a as ih =>
    intro w bs h
    have := ih (step c f o ov w a) (bs ++ [a]) ?_
    · rwa [List.append_assoc, List.singleton_append] at this
    · intro i l hl
      have hnet : (step c f o ov w a).net = w.net ++ letters c f o ov w a := rfl
      rw [hnet] at hl ⊢
      rcases Nat.lt_or_ge i w.net.length with hi | hi
      · rw [List.getElem?_append_left hi] at hl
        rcases h i l hl with h1 | ⟨now, sec, data, ts, h1, h2⟩ | ⟨j, l', h1, h2, h3⟩
        · exact .inl (List.mem_append_left _ h1)
        · exact .inr (.inl ⟨now, sec, data, ts, List.mem_append_left _ h1, h2⟩)
        · exact .inr (.inr ⟨j, l', h1, by rw [List.getElem?_append_left (by omega)]; exact h2, h3⟩)
      · rw [List.getElem?_append_right hi] at hl
        rcases letters_sourced o ov w a l (List.mem_of_getElem? hl) with rfl | ⟨now, sec, data, ts, rfl, h2⟩ | ⟨j, l', h2, h3⟩
        · exact .inl (List.mem_append_right _ (List.mem_singleton.mpr rfl))
        · exact .inr (.inl ⟨now, sec, data, ts, List.mem_append_right _ (List.mem_singleton.mpr rfl), h2⟩)
        · have hj : j < w.net.length := (List.getElem?_eq_some_iff.mp h2).1
          exact .inr (.inr ⟨j, l', by omega, by rw [List.getElem?_append_left hj]; exact h2, h3⟩)

/-- C113: where letters come from, in every run: from a stranger, from the author to a target of its broadcast, or from
a member that got the same message before, and passes it on to somebody other than the one it got it from. -/
theorem C113_where_from (o : Bytes → Opts) (overlay : Bytes) (as : List (Act c)) (i : Nat) (l : Letter)
    (h : (run c f o overlay (World.init c f) as).net[i]? = some l) :
    .post l ∈ as ∨ (∃ now sec data ts, .tell l.src now sec data ts ∈ as ∧ l.dst ∈ ts) ∨
      ∃ (j : Nat) (l' : Letter), j < i ∧ (run c f o overlay (World.init c f) as).net[j]? = some l' ∧ l'.dst = l.src ∧ l'.msg = l.msg ∧
        l.dst ≠ l'.src := by
  have := run_sourced o overlay as (World.init c f) [] (by intro i l h; cases h) i l h
  rwa [List.nil_append] at this

namespace Sample

/-- Members [0], [1], [2], ...; each passes broadcasts on to `k` others. -/
def opts (k : Nat) : Bytes → Opts := fun _ => ⟨sampleEnv, false, k, k⟩

/-- The first member sends, what it sends arrives, and so does what is passed on. -/
def scene (k : Nat) (targets : List Bytes) (after : List (Act Crypto.toy)) : Scene Crypto.toy :=
  ⟨opts k, sampleEnv.z, leBytes 32 1, [], [0], 100, (5 : UInt8), [1], targets, after⟩

theorem calm (k : Nat) (targets : List Bytes) (after : List (Act Crypto.toy))
    (h1 : ∀ a ∈ after, ∃ k now chosen, a = .deliver k now chosen)
    (h2 : ∀ m ∈ ((scene k targets after).final Fec.toy).net, m.msg = (scene k targets after).msg) :
    (scene k targets after).Calm Fec.toy where
  lawful := Crypto.toy_lawful
  zstd := sampleEnv_lawful
  same _ := rfl
  overlay := show (leBytes 32 1).length = 32 by decide
  size := show (payload sampleEnv.z false [1]).length < 2 ^ 24 by decide
  size' := show [(1 : UInt8)].length < 2 ^ 32 by decide
  date _ := show 100 + 60 < 2 ^ 32 by decide
  unmistakable := SendExample.unmistakable
  fresh _ := by
    show _ ∉ ([] : List Bytes)
    exact List.not_mem_nil
  alone := by
    refine ⟨fun m hm => absurd hm List.not_mem_nil, ?_⟩
    generalize (scene k targets after).told Fec.toy = w
    have : ∀ (as : List (Act Crypto.toy)), (∀ a ∈ as, ∃ k now chosen, a = .deliver k now chosen) →
        ∀ w : World Crypto.toy Fec.toy, started (scene k targets after).o (scene k targets after).overlay
          (scene k targets after).msg w as = 0 := by
      intro as
      induction as with
      | nil => intro _ w; rfl
      | cons a as ih =>
        intro ha w
        obtain ⟨_, _, _, rfl⟩ := ha a (List.mem_cons_self ..)
        simp only [started, isDelivery, if_true, Nat.zero_add]
        exact ih (fun a' h => ha a' (List.mem_cons_of_mem _ h)) _
    exact this after h1 w
  tell n now sec data ts h := by
    obtain ⟨_, _, _, h⟩ := h1 _ h
    cases h
  other m hm hne := absurd (h2 m hm) hne
  brisk n := by
    have hs : ((((scene k targets after).final Fec.toy).node n).clock) =
        (((scene k targets after).told Fec.toy).node n).clock :=
      clock_still _ _ _ n (fun m a ha => by
        obtain ⟨_, _, _, h⟩ := h1 _ ha
        cases h) _
    rw [hs]
    rw [told_clock]
    show 0 < 0 + 1000 * 60
    omega

/-- Three members in a row. -/
def row : Scene Crypto.toy := scene 2 [[1]] [.deliver 0 101 [[0], [2]], .deliver 1 102 [[1]]]

def rowNeighbours (n : Bytes) : List Bytes :=
  if n = [0] then [[1]] else if n = [1] then [[0], [2]] else if n = [2] then [[1]] else []

theorem row_net : (row.final Fec.toy).net = [⟨[0], [1], row.msg⟩, ⟨[1], [2], row.msg⟩] := by decide +kernel

theorem row_calm : row.Calm Fec.toy := calm _ _ _ (by simp) (by
  intro m hm
  change m ∈ (row.final Fec.toy).net at hm
  change m.msg = row.msg
  rw [row_net] at hm
  simp only [List.mem_cons, List.not_mem_nil, or_false] at hm
  rcases hm with rfl | rfl <;> rfl)

theorem row_arrive : row.AllArrive Fec.toy := by
  intro m hm _
  obtain ⟨k, hm⟩ := List.mem_iff_getElem?.mp hm
  rw [row_net] at hm
  match k, hm with
  | 0, hm =>
    refine ⟨0, 101, by rw [row_net]; exact hm, ⟨[], [[0], [2]], _, rfl, by decide +kernel⟩, ?_⟩
    show 101 ≤ 100 + 60
    omega
  | 1, hm =>
    refine ⟨1, 102, by rw [row_net]; exact hm, ⟨[.deliver 0 101 [[0], [2]]], [[1]], _, rfl, by decide +kernel⟩, ?_⟩
    show 102 ≤ 100 + 60
    omega

theorem row_draws : row.Draws Fec.toy rowNeighbours := by
  intro k now chosen m hk hm _
  rw [row_net] at hm
  simp only [row, scene, List.mem_cons, Act.deliver.injEq, List.not_mem_nil, or_false] at hk
  rcases hk with ⟨rfl, rfl, rfl⟩ | ⟨rfl, rfl, rfl⟩
  · cases hm
    exact ⟨List.Subperm.refl _, rfl⟩
  · cases hm
    exact ⟨List.Subperm.refl _, rfl⟩

theorem row_connected : Connected rowNeighbours row.n0 [2] :=
  .next (.next .start (show [1] ∈ rowNeighbours [0] by decide)) (show [2] ∈ rowNeighbours [1] by decide)

-- C113_everyone_partial: the third member gets the broadcast through the second
example : given row.o row.overlay row.broadcast [2] (row.told Fec.toy) row.after = [row.content] :=
  C113_everyone_partial row Fec.toy rowNeighbours row_calm row_arrive (fun _ => by show 2 + 1 < 2 ^ 32; omega)
    (by intro y hy; exact hy) row_draws (by
      intro n
      show (rowNeighbours n).length ≤ 2
      unfold rowNeighbours
      split
      · decide
      · split
        · decide
        · split <;> decide) [2] row_connected (by decide)

-- C113_reached_partial: the choices are all neighbours
example := C113_reached_partial row Fec.toy row_calm row_arrive rowNeighbours (by intro y hy; exact hy) (by
  intro k now chosen m hk hm _
  rw [row_net] at hm
  simp only [row, scene, List.mem_cons, Act.deliver.injEq, List.not_mem_nil, or_false] at hk
  rcases hk with ⟨rfl, rfl, rfl⟩ | ⟨rfl, rfl, rfl⟩ <;> cases hm <;> decide) [2] row_connected (by decide)

-- C113_at_most_once
example : given row.o row.overlay row.broadcast [0] (row.told Fec.toy) row.after = [] :=
  (C113_at_most_once row Fec.toy row_calm [0]).resolve_right (fun h => h.1 rfl)

-- C113_letters: two letters, at most 1 + 2 + 2
example := C113_letters row Fec.toy row_calm [[1], [2]] (by
  rw [row_net]
  intro m hm _
  simp only [List.mem_cons, List.not_mem_nil, or_false] at hm
  rcases hm with rfl | rfl <;> decide)

-- C113_traffic: the same run from the beginning
example := C113_traffic (c := Crypto.toy) (f := Fec.toy) row.o row.overlay
  (.tell [0] 100 (5 : UInt8) [1] [[1]] :: row.after) row.broadcast row.msg row.bid
  (row.spread Fec.toy row_calm (fun _ => [])).hr (by
    intro n now x d s h
    have ht : now ≤ row.broadcast.date + (row.o n).env.timeout := (check_ok h).1
    have h' := ((row.spread Fec.toy row_calm (fun _ => [])).hok n now ht).symm.trans h
    simp only [Checked.ok.injEq] at h'
    exact h'.1.symm) [[1], [2]] (by
  intro m hm _
  have hr : (run Crypto.toy Fec.toy row.o row.overlay (World.init Crypto.toy Fec.toy)
    (.tell [0] 100 (5 : UInt8) [1] [[1]] :: row.after)).net = [⟨[0], [1], row.msg⟩, ⟨[1], [2], row.msg⟩] := by
    decide +kernel
  rw [hr] at hm
  simp only [List.mem_cons, List.not_mem_nil, or_false] at hm
  rcases hm with rfl | rfl <;> decide)

/-- The second member has two more neighbours and passes broadcasts on to one. -/
def fork : Scene Crypto.toy := scene 1 [[1]] [.deliver 0 101 [[2], [3]], .deliver 1 102 [[1]]]

def forkNeighbours (n : Bytes) : List Bytes :=
  if n = [0] then [[1]] else if n = [1] then [[2], [3]] else if n = [2] then [[1]] else []

theorem fork_net : (fork.final Fec.toy).net = [⟨[0], [1], fork.msg⟩, ⟨[1], [2], fork.msg⟩] := by decide +kernel

/-- C113_where_from: the letter that member 1 passes on. -/
example := C113_where_from (f := Fec.toy) (opts 2) row.overlay (row.before ++ .tell row.n0 row.date row.sec row.data row.targets :: row.after) 1
  ⟨[1], [2], row.msg⟩ (by decide +kernel)

end Sample

/-- The members choose at random, and a member may be chosen by nobody. -/
theorem C113_full_false : ¬ C113_full := by
  intro h
  have hcalm : Sample.fork.Calm Fec.toy := Sample.calm _ _ _ (by simp) (by
    intro m hm
    change m ∈ (Sample.fork.final Fec.toy).net at hm
    change m.msg = Sample.fork.msg
    rw [Sample.fork_net] at hm
    simp only [List.mem_cons, List.not_mem_nil, or_false] at hm
    rcases hm with rfl | rfl <;> rfl)
  have harr : Sample.fork.AllArrive Fec.toy := by
    intro m hm _
    obtain ⟨k, hm⟩ := List.mem_iff_getElem?.mp hm
    rw [Sample.fork_net] at hm
    match k, hm with
    | 0, hm =>
      refine ⟨0, 101, by rw [Sample.fork_net]; exact hm, ⟨[], [[2], [3]], _, rfl, by decide +kernel⟩, ?_⟩
      show 101 ≤ 100 + 60
      omega
    | 1, hm =>
      refine ⟨1, 102, by rw [Sample.fork_net]; exact hm, ⟨[.deliver 0 101 [[2], [3]]], [[1]], _, rfl, by decide +kernel⟩, ?_⟩
      show 102 ≤ 100 + 60
      omega
  have hdraw : Sample.fork.Draws Fec.toy Sample.forkNeighbours := by
    intro k now chosen m hk hm _
    rw [Sample.fork_net] at hm
    simp only [Sample.fork, Sample.scene, List.mem_cons, Act.deliver.injEq, List.not_mem_nil, or_false] at hk
    rcases hk with ⟨rfl, rfl, rfl⟩ | ⟨rfl, rfl, rfl⟩
    · cases hm
      exact ⟨List.Subperm.refl _, rfl⟩
    · cases hm
      exact ⟨List.Subperm.refl _, rfl⟩
  have := h Crypto.toy Fec.toy Sample.fork Sample.forkNeighbours hcalm harr
    (fun _ => by show 1 + 1 < 2 ^ 32; omega) (by intro y hy; exact hy) hdraw [3]
    (.next (.next .start (show [1] ∈ Sample.forkNeighbours [0] by decide))
      (show [3] ∈ Sample.forkNeighbours [1] by decide)) (by decide)
  have h2 : given Sample.fork.o Sample.fork.overlay Sample.fork.broadcast [3] (Sample.fork.told Fec.toy)
      Sample.fork.after = [] := by decide +kernel
  rw [h2] at this
  cases this

end Verif.Gossip
