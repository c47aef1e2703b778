import Verif.Proofs.FecSpread
import Verif.Props.GossipFec

/-!
# C123: how an FEC broadcast spreads in an overlay
-/
namespace Verif.Gossip
open Verif.Overlay Verif.Rldp Verif.Spec

variable {c : Crypto} {f : Fec}

/-! ### Specification -/

/-- After `before`, member `n0` sends the packets of an FEC broadcast to `targets`, made at `dates`, and during
`after` they spread. -/
structure FecScene (c : Crypto) where
  o : Bytes → Opts
  z : Zstd
  overlay : Bytes
  before : List (Act c)
  n0 : Bytes
  sec : c.Sec
  data : Bytes
  dates : List Nat
  targets : List Bytes
  after : List (Act c)

namespace FecScene
variable (s : FecScene c) (f : Fec)

def world : World c f := run c f s.o s.overlay (World.init c f) s.before
def final : World c f := run c f s.o s.overlay (s.world f) s.after
def bid : Bytes := c.sha s.data
/-- What is cut into symbols. -/
def body : Bytes := payload s.z (s.o s.n0).compressing s.data
/-- The packets sent by the author. -/
def sent : List FecPart := (OutFec.new c s.z (s.o s.n0).compressing s.data).sent c f s.sec s.dates

/-- The letter carries a packet that goes by the name of the broadcast. -/
def Carries (m : Letter) (b : FecPart) : Prop :=
  Overlay.readMessage m.msg = some (s.overlay, .fec b) ∧ b.dataHash = s.bid

/-- What the application of a member gets for the broadcast. -/
def given (n : Bytes) : List Delivery :=
  (eventsOf s.o s.overlay n (s.world f) s.after).filterMap fun e => match e.1 with
    | .task _ => e.2.delivered.filter fun d => decide (c.sha d.data = s.bid)
    | _ => none

/-- The circumstances: a proper broadcast, new to everybody, members that agree on the compression library, and
nobody but the author making packets with its hash. The whole takes less than the timeout of every member. -/
structure Calm : Prop where
  lawful : c.Lawful
  fec : f.Lawful
  sized : Fec.Sized f
  zstd : s.z.Lawful
  same : ∀ n, (s.o n).env.z = s.z
  overlay : s.overlay.length = 32
  nonempty : s.body ≠ []
  size : s.body.length ≤ 2000000
  size' : s.data.length < 2 ^ 32
  symbols : ∀ n, n < f.count s.body → (f.symbol s.body n).length < 2 ^ 24
  enough : f.count s.body ≤ s.dates.length
  dates : ∀ d ∈ s.dates, ∀ n, d + (s.o n).env.timeout < 2 ^ 32
  /-- the author sends all its packets to all its targets -/
  posted : ∀ b ∈ s.sent f, ∀ y ∈ s.targets, ⟨s.n0, y, fecMessage s.overlay b⟩ ∈ (s.final f).net
  /-- nothing about it before -/
  fresh : ∀ m ∈ (s.world f).net, Unrelated c s.bid m.msg
  /-- no ordinary broadcast with the same identity -/
  tell : ∀ n now sec data ts, .tell n now sec data ts ∈ s.before ++ s.after → ordinaryId c data now ≠ s.bid
  ordinary : ∀ m ∈ (s.final f).net, ∀ id b e now d src, Overlay.readMessage m.msg = some (id, .ordinary b) →
    checkOrdinary c e now b ≠ .ok s.bid d src
  /-- all packets are the author's -/
  genuine : ∀ m ∈ (s.final f).net, ∀ b, s.Carries m b → b ∈ s.sent f
  /-- and are sent by the author or passed on -/
  alone : ∀ before a after, s.after = before ++ a :: after → isDelivery a = false →
    ∀ m ∈ letters c f s.o s.overlay (run c f s.o s.overlay (s.world f) before) a, ∀ b, s.Carries m b → m.src = s.n0
  brisk : ∀ n, ((s.final f).node n).clock < ((s.world f).node n).clock + 1000 * (s.o n).env.timeout

/-- Every letter with a symbol of the data, or one equal to it, arrives, before the timeout of its receiver. -/
def AllArrive : Prop := ∀ m b, m ∈ (s.final f).net → s.Carries m b → b.seqno < f.count s.body →
  ∃ k now, (s.final f).net[k]? = some m ∧ Arrives s.o s.overlay (s.world f) s.after k now ∧
    now ≤ b.date + (s.o m.dst).env.timeout

/-- The receiving tasks of the member have nothing left to do. -/
def Settled (n : Bytes) : Prop := ∀ t ∈ ((s.final f).node n).transfers, t.phase = .running → t.chan = []

/-- What the random generator returns when a packet arrives is drawn from the neighbours of the receiver. -/
def Draws (neighbours : Bytes → List Bytes) : Prop := ∀ k now chosen m b, .deliver k now chosen ∈ s.after →
  (s.final f).net[k]? = some m → s.Carries m b →
  IsSample chosen (neighbours m.dst) (PeersSet.sampleSize (s.o m.dst).onwardFec (some m.src))

end FecScene

/-- C123, full statement: when all letters arrive in time, every member connected with the author gets the
broadcast, once, as data with the hash of the data sent, with its author. -/
def C123_full : Prop := ∀ (c : Crypto) (f : Fec) (s : FecScene c) (neighbours : Bytes → List Bytes), s.Calm f →
  s.AllArrive f → (∀ n, (s.o n).onwardFec + 1 < 2 ^ 32) → (∀ y ∈ neighbours s.n0, y ∈ s.targets) →
  s.Draws f neighbours →
  ∀ n, Connected neighbours s.n0 n → n ≠ s.n0 → s.Settled f n →
    ∃ d, s.given f n = [d] ∧ c.sha d.data = c.sha s.data ∧ d.source = Node.shortId c (c.pubOf s.sec)

/-! ### Histories -/

theorem history_cons (o : Bytes → Opts) (ov n : Bytes) (w : World c f) (a : Act c) (as : List (Act c)) :
    history o ov n w (a :: as) = (match event c f ov w a with
      | some (m, x) => if m = n then [x] else []
      | none => []) ++ history o ov n (step c f o ov w a) as := by
  unfold history
  rw [eventsOf_cons, List.map_append]
  congr 1
  cases event c f ov w a with
  | none => rfl
  | some p =>
    obtain ⟨m, x⟩ := p
    by_cases h : m = n <;> simp [h]

theorem history_append (o : Bytes → Opts) (ov n : Bytes) (xs ys : List (Act c)) : ∀ w : World c f,
    history o ov n w (xs ++ ys) = history o ov n w xs ++ history o ov n (run c f o ov w xs) ys := by
  induction xs with
  | nil => intro w; rfl
  | cons a xs ih =>
    intro w
    rw [List.cons_append, history_cons, history_cons, ih, List.append_assoc]
    rfl

/-- The state of a member is the result of its history. -/
theorem node_history (o : Bytes → Opts) (ov n : Bytes) (w : World c f) (as : List (Act c)) :
    (run c f o ov w as).node n = Overlay.run c f (o n).env (w.node n) (history o ov n w as) :=
  (eventsOf_trace n as w).2

theorem first_event (o : Bytes → Opts) (ov n : Bytes) (p : Action → Bool) (as : List (Act c)) : ∀ w : World c f,
    (∃ x ∈ history o ov n w as, p x = true) →
    ∃ pre a post x, as = pre ++ a :: post ∧ event c f ov (run c f o ov w pre) a = some (n, x) ∧ p x = true ∧
      ∀ y ∈ history o ov n w pre, p y = false := by
  induction as with
  | nil => rintro w ⟨x, h, _⟩; exact absurd h List.not_mem_nil
  | cons a as ih =>
    rintro w ⟨x, h, hx⟩
    rw [history_cons] at h
    have later : (∃ x ∈ history o ov n (step c f o ov w a) as, p x = true) →
        (∀ y, event c f ov w a = some (n, y) → p y = false) →
        ∃ pre a' post x, a :: as = pre ++ a' :: post ∧ event c f ov (run c f o ov w pre) a' = some (n, x) ∧
          p x = true ∧ ∀ y ∈ history o ov n w pre, p y = false := by
      intro h1 h2
      obtain ⟨pre, a', post, x, e1, e2, e3, e4⟩ := ih _ h1
      refine ⟨a :: pre, a', post, x, by rw [e1]; rfl, e2, e3, ?_⟩
      intro y hy
      rw [history_cons] at hy
      rcases List.mem_append.mp hy with hz | hz
      · cases he : event c f ov w a with
        | none => rw [he] at hz; exact absurd hz List.not_mem_nil
        | some q =>
          obtain ⟨m, x'⟩ := q
          rw [he] at hz
          simp only at hz
          split at hz
          · rename_i hm
            rw [List.mem_singleton.mp hz]
            exact h2 _ (by rw [he, hm])
          · exact absurd hz List.not_mem_nil
      · exact e4 y hz
    by_cases hq : ∃ y, event c f ov w a = some (n, y) ∧ p y = true
    · obtain ⟨y, h1, h2⟩ := hq
      exact ⟨[], a, as, y, rfl, h1, h2, fun _ hy => absurd hy List.not_mem_nil⟩
    · have hn : ∀ y, event c f ov w a = some (n, y) → p y = false := by
        intro y hy
        cases hpy : p y with
        | false => rfl
        | true => exact absurd ⟨y, hy, hpy⟩ hq
      rcases List.mem_append.mp h with hz | hz
      · cases he : event c f ov w a with
        | none => rw [he] at hz; exact absurd hz List.not_mem_nil
        | some q =>
          obtain ⟨m, x'⟩ := q
          rw [he] at hz
          simp only at hz
          split at hz
          · rename_i hm
            rw [List.mem_singleton.mp hz] at hx
            rw [hn _ (by rw [he, hm])] at hx
            cases hx
          · exact absurd hz List.not_mem_nil
      · exact later ⟨x, hz, hx⟩ hn

/-- Messages come in letters, and nobody tells unasked. -/
theorem event_deliver {ov n : Bytes} {w : World c f} {a : Act c} {now : Nat} {b : FecPart}
    (h : event c f ov w a = some (n, .fec now b)) : ∃ k chosen m, a = .deliver k now chosen ∧ w.net[k]? = some m ∧
      m.dst = n ∧ Overlay.readMessage m.msg = some (ov, .fec b) ∧ reaction ov m now = some (n, .fec now b) := by
  cases a with
  | tell => cases h
  | post => cases h
  | inner m' x' =>
    simp only [event] at h
    split at h
    · rename_i hx
      cases h
      cases hx
    · cases h
  | deliver k now' chosen =>
    simp only [event, Option.bind_eq_some_iff] at h
    obtain ⟨m, hm, he⟩ := h
    have he' := he
    unfold reaction at he
    split at he
    · split at he <;> cases he
    · rename_i id b' hb
      split at he
      · rename_i hid
        cases he
        exact ⟨k, chosen, m, rfl, hm, rfl, by rw [hb, hid], he'⟩
      · cases he
    · cases he

/-- What a member does, in terms of letters and broadcasts of its own. -/
theorem history_cases (o : Bytes → Opts) (ov n : Bytes) (as : List (Act c)) : ∀ (w : World c f) (x : Action),
    x ∈ history o ov n w as →
    (∃ now b, x = .ordinary now b ∧ ∃ m ∈ (run c f o ov w as).net, Overlay.readMessage m.msg = some (ov, .ordinary b)) ∨
    (∃ now b, x = .fec now b ∧ ∃ m ∈ (run c f o ov w as).net, Overlay.readMessage m.msg = some (ov, .fec b)) ∨
    (∃ now sec data ts, .tell n now sec data ts ∈ as ∧ x = .own (ordinaryId c data now)) ∨ isInner x = true := by
  induction as with
  | nil => intro w x h; exact absurd h List.not_mem_nil
  | cons a as ih =>
    intro w x h
    rw [history_cons] at h
    rcases List.mem_append.mp h with hz | hz
    · cases he : event c f ov w a with
      | none => rw [he] at hz; exact absurd hz List.not_mem_nil
      | some q =>
        obtain ⟨m, x'⟩ := q
        rw [he] at hz
        simp only at hz
        split at hz
        · rename_i hm
          obtain rfl := List.mem_singleton.mp hz
          rw [hm] at he
          clear hz h hm
          cases a with
          | tell n' now sec data ts =>
            simp only [event, Option.some.injEq, Prod.mk.injEq] at he
            obtain ⟨rfl, rfl⟩ := he
            exact .inr (.inr (.inl ⟨now, sec, data, ts, List.mem_cons_self, rfl⟩))
          | post => cases he
          | inner m' y =>
            simp only [event] at he
            split at he
            · rename_i hy
              cases he
              exact .inr (.inr (.inr hy))
            · cases he
          | deliver k now chosen =>
            simp only [event, Option.bind_eq_some_iff] at he
            obtain ⟨m', hm', he⟩ := he
            have hnet : m' ∈ (run c f o ov w (.deliver k now chosen :: as)).net :=
              net_mono (.deliver k now chosen :: as) w m' (List.mem_of_getElem? hm')
            unfold reaction at he
            split at he
            · rename_i id b' hb
              split at he
              · rename_i hid
                cases he
                exact .inl ⟨now, b', rfl, m', hnet, by rw [hb, hid]⟩
              · cases he
            · rename_i id b' hb
              split at he
              · rename_i hid
                cases he
                exact .inr (.inl ⟨now, b', rfl, m', hnet, by rw [hb, hid]⟩)
              · cases he
            · cases he
        · exact absurd hz List.not_mem_nil
    · rcases ih _ x hz with h | h | ⟨now, sec, data, ts, h1, h2⟩ | h
      · exact .inl h
      · exact .inr (.inl h)
      · exact .inr (.inr (.inl ⟨now, sec, data, ts, List.mem_cons_of_mem _ h1, h2⟩))
      · exact .inr (.inr (.inr h))

/-! ### One symbol -/

namespace FecScene
variable {s : FecScene c}

/-- The member gets symbol `j` in date. -/
def Gets (s : FecScene c) (f : Fec) (j : Nat) (n : Bytes) : Prop :=
  ∃ x ∈ history s.o s.overlay n (s.world f) s.after, arrival (s.o n).env s.bid x = some j

theorem unheard (h : s.Calm f) (n : Bytes) : Unheard s.bid ((s.world f).node n) := by
  have h1 : (s.world f).node n = Overlay.run c f (s.o n).env (State.init c f)
      (history s.o s.overlay n (World.init c f) s.before) := node_history _ _ _ _ _
  rw [h1]
  refine unheard_run _ FInv.init unheard_init ?_
  intro x hx
  rcases history_cases s.o s.overlay n s.before (World.init c f) x hx with
    ⟨now, b, rfl, m, hm, hr⟩ | ⟨now, b, rfl, m, hm, hr⟩ | ⟨now, sec, data, ts, ht, rfl⟩ | hi
  · exact fun d src => (h.fresh m hm).1 _ b _ now d src hr
  · exact (h.fresh m hm).2 _ b hr
  · exact h.tell _ _ _ _ _ (List.mem_append_left _ ht)
  · cases x <;> trivial

theorem finv (s : FecScene c) (f : Fec) (n : Bytes) : FInv ((s.world f).node n) := by
  have h1 : (s.world f).node n = Overlay.run c f (s.o n).env (State.init c f)
      (history s.o s.overlay n (World.init c f) s.before) := node_history _ _ _ _ _
  rw [h1]
  exact FInv.run _ _ FInv.init

theorem sent_form {b : FecPart} (hb : b ∈ s.sent f) :
    ∃ n date, date ∈ s.dates ∧ b = fecPartOf c f s.sec s.bid s.body n date := by
  obtain ⟨n, date, hd, h⟩ := sent_own s.sec s.dates _ b hb
  exact ⟨n, date, hd, h⟩

theorem honest (h : s.Calm f) (n : Bytes) :
    ∀ x ∈ history s.o s.overlay n (s.world f) s.after, Honest c f (s.o n).env s.sec s.bid s.body x := by
  intro x hx
  rcases history_cases s.o s.overlay n s.after (s.world f) x hx with
    ⟨now, b, rfl, m, hm, hr⟩ | ⟨now, b, rfl, m, hm, hr⟩ | ⟨now, sec, data, ts, ht, rfl⟩ | hi
  · exact fun d src => h.ordinary m hm _ b _ now d src hr
  · intro hb
    obtain ⟨k, date, _, e⟩ := sent_form (h.genuine m hm b ⟨hr, hb⟩)
    exact ⟨k, date, e⟩
  · exact h.tell _ _ _ _ _ (List.mem_append_right _ ht)
  · cases x <;> trivial

theorem fromSource (h : s.Calm f) (n : Bytes) : ∀ x ∈ history s.o s.overlay n (s.world f) s.after,
    FromSource c (s.o n).env (c.pubOf s.sec) s.bid x := by
  intro x hx
  have := honest h n x hx
  cases x with
  | fec now b =>
    intro hb
    obtain ⟨k, date, rfl⟩ := this hb
    exact ⟨by simp [fecPartOf, Receiver.fullId, h.lawful.decode_pub], by simp [fecPartOf, h.lawful.sign_length]⟩
  | _ => exact this

theorem node_final (s : FecScene c) (f : Fec) (n : Bytes) : (s.final f).node n =
    Overlay.run c f (s.o n).env ((s.world f).node n) (history s.o s.overlay n (s.world f) s.after) :=
  node_history _ _ _ _ _

theorem brisk' (h : s.Calm f) (n : Bytes) : (Overlay.run c f (s.o n).env ((s.world f).node n)
    (history s.o s.overlay n (s.world f) s.after)).clock <
      ((s.world f).node n).clock + 1000 * (s.o n).env.timeout := by
  rw [← node_final]; exact h.brisk n

/-- Letters sent in a step of the run are there in the end. -/
theorem net_final (s : FecScene c) (f : Fec) {pre post : List (Act c)} {a : Act c} (he : s.after = pre ++ a :: post)
    {m : Letter} (hm : m ∈ (run c f s.o s.overlay (s.world f) pre).net ∨
      m ∈ letters c f s.o s.overlay (run c f s.o s.overlay (s.world f) pre) a) : m ∈ (s.final f).net := by
  unfold final
  rw [he, run_append]
  refine net_mono post _ m ?_
  rw [net_step]
  exact List.mem_append.mpr hm

/-- Whoever gets a symbol passes it on: for the letter with which it came first, to all but its sender. -/
theorem passed (h : s.Calm f) {j : Nat} {n : Bytes} (hg : s.Gets f j n) (choice : Bytes → List Bytes)
    (hdraw : ∀ k now chosen m b, .deliver k now chosen ∈ s.after → (s.final f).net[k]? = some m → s.Carries m b →
      ∀ y ∈ choice m.dst, y ≠ m.src → y ∈ Overlay.targets chosen (s.o m.dst).onwardFec (some m.src)) :
    ∃ m b, m ∈ (s.final f).net ∧ s.Carries m b ∧ b.seqno = j ∧
      ∀ y ∈ choice n, y ≠ m.src → ⟨n, y, m.msg⟩ ∈ (s.final f).net := by
  obtain ⟨x0, hx0, harr0⟩ := hg
  obtain ⟨pre, a, post, x, e1, e2, e3, e4⟩ := first_event s.o s.overlay n
    (fun x => decide (arrival (s.o n).env s.bid x = some j)) s.after (s.world f) ⟨x0, hx0, by simpa using harr0⟩
  simp only [decide_eq_true_eq, decide_eq_false_iff_not] at e3 e4
  have hhist : history s.o s.overlay n (s.world f) s.after = history s.o s.overlay n (s.world f) pre ++
      x :: history s.o s.overlay n (step c f s.o s.overlay (run c f s.o s.overlay (s.world f) pre) a) post := by
    rw [e1, history_append, history_cons, e2]
    simp
  have hfw := first_passed (e := (s.o n).env) (pub := c.pubOf s.sec) (finv s f n) (unheard h n)
    (history s.o s.overlay n (s.world f) pre) _ x j (by rw [← hhist]; exact fromSource h n)
    (by rw [← hhist]; exact brisk' h n) e3 e4
  rw [← node_history] at hfw
  cases x with
  | fec now b =>
    simp only [arrival] at e3
    split at e3
    · rename_i hb
      simp only [Option.some.injEq] at e3
      obtain ⟨k, chosen, m, rfl, hm, rfl, hr, hre⟩ := event_deliver e2
      have hcar : s.Carries m b := ⟨hr, hb.1⟩
      refine ⟨m, b, net_final s f e1 (.inl (List.mem_of_getElem? hm)), hcar, e3, ?_⟩
      intro y hy hne
      refine net_final s f e1 (.inr ?_)
      simp only [letters, hm, hre]
      rw [if_pos hfw]
      refine List.mem_map.mpr ⟨y, ?_, rfl⟩
      have hk : (s.final f).net[k]? = some m := by
        have hlt := (List.getElem?_eq_some_iff.mp hm).1
        have := net_get (o := s.o) (ov := s.overlay) (.deliver k now chosen :: post)
          (run c f s.o s.overlay (s.world f) pre) k hlt
        unfold final
        rw [e1, run_append, this]
        exact hm
      exact hdraw k now chosen m b (by rw [e1]; simp) hk hcar y hy hne
    · cases e3
  | _ => cases e3

theorem forwarded_arrival {e : Env} {st : State c f} {now : Nat} {b : FecPart}
    (h : (Overlay.step c f e st (.fec now b)).2.forwarded = true) :
    arrival e b.dataHash (.fec now b) = some b.seqno := by
  simp only [Overlay.step, receiveFec] at h
  cases ho : isOutdated e b.date now with
  | none => rw [ho] at h; cases h
  | some out =>
    cases out with
    | true => rw [ho] at h; cases h
    | false => simp [arrival, ho]

/-- Whoever sends a symbol is the author or got it. -/
theorem source_of (h : s.Calm f) {m : Letter} {b : FecPart} (hm : m ∈ (s.final f).net) (hc : s.Carries m b) :
    m.src = s.n0 ∨ s.Gets f b.seqno m.src := by
  have key : ∀ (as : List (Act c)) (pre : List (Act c)), s.after = pre ++ as →
      (∀ m ∈ (run c f s.o s.overlay (s.world f) pre).net, ∀ b, s.Carries m b →
        m.src = s.n0 ∨ s.Gets f b.seqno m.src) →
      ∀ m ∈ (s.final f).net, ∀ b, s.Carries m b → m.src = s.n0 ∨ s.Gets f b.seqno m.src := by
    intro as
    induction as with
    | nil =>
      intro pre he hp
      unfold final
      rw [he, List.append_nil]
      exact hp
    | cons a as ih =>
      intro pre he hp
      refine ih (pre ++ [a]) (by rw [he]; simp) ?_
      rw [run_append]
      intro m hm b hc
      change m ∈ (step c f s.o s.overlay (run c f s.o s.overlay (s.world f) pre) a).net at hm
      rw [net_step] at hm
      rcases List.mem_append.mp hm with hm | hm
      · exact hp m hm b hc
      · by_cases hd : isDelivery a = false
        · exact .inl (h.alone pre a as he hd m hm b hc)
        · cases a with
          | deliver k now chosen =>
            right
            simp only [letters] at hm
            cases hk : (run c f s.o s.overlay (s.world f) pre).net[k]? with
            | none => rw [hk] at hm; exact absurd hm List.not_mem_nil
            | some m' =>
              rw [hk] at hm
              simp only at hm
              cases hre : reaction s.overlay m' now with
              | none => rw [hre] at hm; exact absurd hm List.not_mem_nil
              | some q =>
                obtain ⟨n, x⟩ := q
                rw [hre] at hm
                simp only at hm
                split at hm
                · rename_i hfw
                  obtain ⟨t, _, rfl⟩ := List.mem_map.mp hm
                  have hr := hc.1
                  simp only at hr ⊢
                  have hev : event c f s.overlay (run c f s.o s.overlay (s.world f) pre) (.deliver k now chosen) =
                      some (n, x) := by
                    simp [event, hk, hre]
                  have hx : x = .fec now b := by
                    unfold reaction at hre
                    rw [hr] at hre
                    simp only [if_true, Option.some.injEq, Prod.mk.injEq] at hre
                    exact hre.2.symm
                  subst hx
                  refine ⟨.fec now b, ?_, ?_⟩
                  · rw [he, history_append, history_cons, hev]
                    simp
                  · have := forwarded_arrival hfw
                    rwa [hc.2] at this
                · exact absurd hm List.not_mem_nil
          | _ => exact absurd rfl hd
  exact key s.after [] rfl (fun m hm b hc => absurd hc.2 ((h.fresh m hm).2 _ b hc.1)) m hm b hc

/-- A letter with a symbol of the data arrives. -/
theorem arrives (h : s.Calm f) (harr : s.AllArrive f) {m : Letter} {b : FecPart} (hm : m ∈ (s.final f).net)
    (hc : s.Carries m b) (hj : b.seqno < f.count s.body) : s.Gets f b.seqno m.dst := by
  obtain ⟨k, now, hk, ⟨pre, chosen, post, he, hlt⟩, hnow⟩ := harr m b hm hc hj
  have hk' : (run c f s.o s.overlay (s.world f) pre).net[k]? = some m := by
    have := net_get (o := s.o) (ov := s.overlay) (.deliver k now chosen :: post)
      (run c f s.o s.overlay (s.world f) pre) k hlt
    rw [← this, ← hk]
    unfold final
    rw [he, run_append]
  have hev : event c f s.overlay (run c f s.o s.overlay (s.world f) pre) (.deliver k now chosen) =
      some (m.dst, .fec now b) := by
    simp [event, hk', reaction, hc.1]
  refine ⟨.fec now b, ?_, ?_⟩
  · rw [he, history_append, history_cons, hev]
    simp
  · obtain ⟨_, date, hd, rfl⟩ := sent_form (h.genuine m hm b hc)
    have h5 := isOutdated_of (e := (s.o m.dst).env) (h.dates date hd m.dst) hnow
    simp only [arrival]
    exact if_pos ⟨hc.2, h5⟩

theorem count_lt (h : s.Calm f) : f.count s.body < 2 ^ 32 := by
  rw [h.sized]
  have := h.size
  omega

/-- Every member reached gets every symbol of the data. -/
theorem reached (h : s.Calm f) (harr : s.AllArrive f) (choice : Bytes → List Bytes)
    (hsrc : ∀ y ∈ choice s.n0, y ∈ s.targets)
    (hdraw : ∀ k now chosen m b, .deliver k now chosen ∈ s.after → (s.final f).net[k]? = some m → s.Carries m b →
      ∀ y ∈ choice m.dst, y ≠ m.src → y ∈ Overlay.targets chosen (s.o m.dst).onwardFec (some m.src))
    {j : Nat} (hj : j < f.count s.body) {n : Bytes} (hn : Connected choice s.n0 n) : n = s.n0 ∨ s.Gets f j n := by
  induction hn with
  | start => exact .inl rfl
  | @next n y hn hy ih =>
    rcases ih with rfl | ih
    · right
      have hp32 : s.body.length < 2 ^ 32 := by have := h.size; omega
      obtain ⟨d, hd⟩ : ∃ d, s.dates[j]? = some d :=
        ⟨_, List.getElem?_eq_getElem (Nat.lt_of_lt_of_le hj h.enough)⟩
      have h1 := C85_source_symbols (c := c) h.sized s.z (s.o s.n0).compressing s.sec s.data s.dates j d hp32 hj hd
      have hb := List.mem_of_getElem? h1
      have hm := h.posted _ hb y (hsrc y hy)
      have hread := C85_read_back h.lawful s.sec s.overlay h.overlay s.z (s.o s.n0).compressing s.data s.dates _ hb
        hp32 (count_lt h) (fun d' hd' => by have := h.dates d' hd' s.n0; omega)
        (show j < 2 ^ 32 from Nat.lt_trans hj (count_lt h)) (h.symbols j hj)
      exact arrives h harr hm ⟨hread, rfl⟩ hj
    · obtain ⟨m, b, hm, hc, rfl, hp⟩ := passed h ih choice hdraw
      by_cases hne : y = m.src
      · rw [hne]; exact source_of h hm hc
      · exact .inr (arrives (m := ⟨n, y, m.msg⟩) h harr (hp y hy hne) hc hj)

/-! ### What is delivered -/

theorem given_trace (s : FecScene c) (f : Fec) (n : Bytes) : s.given f n =
    (trace c f (s.o n).env ((s.world f).node n) (history s.o s.overlay n (s.world f) s.after)).filterMap fun e =>
      match e.1 with
      | .task _ => e.2.delivered.filter fun d => decide (c.sha d.data = s.bid)
      | _ => none := by
  unfold given history
  rw [← (eventsOf_trace n s.after (s.world f)).1]

theorem given_count (e : Env) (bid : Bytes) (as : List Action) : ∀ st : State c f,
    ((trace c f e st as).filterMap fun e => match e.1 with
      | .task _ => e.2.delivered.filter fun d => decide (c.sha d.data = bid)
      | _ => none).length ≤ (deliveredIds e st as).count bid := by
  induction as with
  | nil => intro st; exact Nat.le_refl _
  | cons a as ih =>
    intro st
    have h := ih (Overlay.step c f e st a).1
    simp only [trace, List.filterMap_cons, deliveredIds, List.count_append]
    cases a with
    | task i =>
      simp only [deliveredId]
      cases hd : (Overlay.step c f e st (.task i)).2.delivered with
      | none => simp only [Option.filter_none]; omega
      | some d =>
        by_cases hb : c.sha d.data = bid
        · rw [Option.filter_some_pos (by simpa using hb)]
          simp only [List.length_cons, Option.map_some, Option.toList_some, List.count_singleton, hb, beq_self_eq_true,
            if_true]
          omega
        · rw [Option.filter_some_neg (by simpa using hb)]
          simp only []
          omega
    | _ => simp only; omega

theorem allForgotten_append (e : Env) (xs ys : List Action) : ∀ st : State c f, allForgotten e st (xs ++ ys) =
    allForgotten e st xs ++ allForgotten e (Overlay.run c f e st xs) ys := by
  induction xs with
  | nil => intro st; rfl
  | cons a xs ih => intro st; simp only [List.cons_append, allForgotten, ih, Overlay.run, List.append_assoc]

theorem deliveredIds_append (e : Env) (xs ys : List Action) : ∀ st : State c f, deliveredIds e st (xs ++ ys) =
    deliveredIds e st xs ++ deliveredIds e (Overlay.run c f e st xs) ys := by
  induction xs with
  | nil => intro st; rfl
  | cons a xs ih => intro st; simp only [List.cons_append, deliveredIds, ih, Overlay.run, List.append_assoc]

theorem unheard_forgotten {e : Env} {bid : Bytes} (as : List Action) : ∀ {st : State c f}, FInv st → Unheard bid st →
    (∀ a ∈ as, Overlay.Unrelated c e bid a) → bid ∉ allForgotten e st as := by
  induction as with
  | nil => intro st _ _ _; exact List.not_mem_nil
  | cons a as ih =>
    intro st hF h ha
    have h1 := unheard_run [a] hF h (fun b hb => ha b (by
      rw [List.mem_singleton.mp hb]; exact List.mem_cons_self))
    simp only [allForgotten, List.mem_append, not_or]
    refine ⟨?_, ih (hF.step a) h1 fun b hb => ha b (List.mem_cons_of_mem _ hb)⟩
    intro hm
    exact h.notIn (List.mem_filter.mp hm).1

theorem at_most_once (h : s.Calm f) (n : Bytes) : (s.given f n).length ≤ 1 := by
  have h1 : (s.world f).node n = Overlay.run c f (s.o n).env (State.init c f)
      (history s.o s.overlay n (World.init c f) s.before) := node_history _ _ _ _ _
  have hbefore : ∀ x ∈ history s.o s.overlay n (World.init c f) s.before,
      Overlay.Unrelated c (s.o n).env s.bid x := by
    intro x hx
    rcases history_cases s.o s.overlay n s.before (World.init c f) x hx with
      ⟨now, b, rfl, m, hm, hr⟩ | ⟨now, b, rfl, m, hm, hr⟩ | ⟨now, sec, data, ts, ht, rfl⟩ | hi
    · exact fun d src => (h.fresh m hm).1 _ b _ now d src hr
    · exact (h.fresh m hm).2 _ b hr
    · exact h.tell _ _ _ _ _ (List.mem_append_left _ ht)
    · cases x <;> trivial
  have hc := C63_once_while_remembered (c := c) (f := f) (s.o n).env
    (history s.o s.overlay n (World.init c f) s.before ++ history s.o s.overlay n (s.world f) s.after) s.bid
  rw [allForgotten_append, deliveredIds_append, ← h1, List.count_append, List.count_append,
    List.count_eq_zero.mpr (unheard_forgotten _ FInv.init unheard_init hbefore),
    List.count_eq_zero.mpr (knows_kept (pub := c.pubOf s.sec) (t0 := ((s.world f).node n).clock) _ (finv s f n)
      (.inl ⟨unheard h n, rfl⟩) (fromSource h n) (Nat.le_refl _) (brisk' h n))] at hc
  have := given_count (f := f) (s.o n).env s.bid (history s.o s.overlay n (s.world f) s.after) ((s.world f).node n)
  rw [← given_trace] at this
  omega

theorem given_some (h : s.Calm f) (n : Bytes) (hall : ∀ j, j < f.count s.body → s.Gets f j n) (hset : s.Settled f n) :
    ∃ d ∈ s.given f n, Right c s.sec s.data d := by
  have hp : s.body = s.data ∨ decompress (s.o n).env.z s.body = some s.data := by
    rw [h.same n]; exact payload_eq h.zstd h.size'
  rcases coming_trace h.lawful h.fec (t0 := ((s.world f).node n).clock) h.nonempty h.size hp
    (history s.o s.overlay n (s.world f) s.after) (finv s f n) (.inl ⟨unheard h n, rfl⟩) (Nat.le_refl _) (brisk' h n)
    (honest h n) with ⟨i, o, d, h1, h2, h3⟩ | hcoming
  · refine ⟨d, ?_, h3⟩
    rw [given_trace]
    refine List.mem_filterMap.mpr ⟨_, h1, ?_⟩
    simp only [h2, Option.filter]
    have : c.sha d.data = s.bid := h3.1
    simp [this]
  · rw [List.nil_append] at hcoming
    rcases hcoming with ⟨_, h1⟩ | ⟨i, t, used, wait, hg⟩
    · obtain ⟨x, hx, harr⟩ := hall 0 (h.fec.count_pos _ h.nonempty)
      have : 0 ∈ (history s.o s.overlay n (s.world f) s.after).filterMap (arrival (s.o n).env s.bid) :=
        List.mem_filterMap.mpr ⟨x, hx, harr⟩
      rw [show (history s.o s.overlay n (s.world f) s.after).filterMap (arrival (s.o n).env s.bid) = [] from h1] at this
      exact absurd this List.not_mem_nil
    · have hch := hset t (by rw [node_final]; exact List.mem_of_getElem? hg.tr) hg.running
      have hw : wait = [] := by
        have := hg.chan
        rw [hch] at this
        exact List.map_eq_nil_iff.mp this.symm
      subst hw
      have hgot : ∀ j, j < f.count s.body →
          j ∈ (history s.o s.overlay n (s.world f) s.after).filterMap (arrival (s.o n).env (c.sha s.data)) := by
        intro j hj
        obtain ⟨x, hx, harr⟩ := hall j hj
        exact List.mem_filterMap.mpr ⟨x, hx, harr⟩
      obtain ⟨d, hd, _⟩ := going_finish h.lawful h.fec (e := (s.o n).env) h.nonempty h.size hp 0 hg hgot (Nat.le_refl _)
      exact absurd hd List.not_mem_nil

end FecScene

/-! ### C123 -/

/-- C123 for any choices of the members: when all letters with symbols of the data arrive in time, everybody who
can be reached from the author along the choices, and whose tasks got to their work, gets the broadcast, exactly
once, as data with the hash of the data sent, with its author. Missing for the full statement: the choices need not
reach everybody. -/
theorem C123_reached_partial (s : FecScene c) (f : Fec) (h : s.Calm f) (harr : s.AllArrive f)
    (choice : Bytes → List Bytes) (hsrc : ∀ y ∈ choice s.n0, y ∈ s.targets)
    (hdraw : ∀ k now chosen m b, .deliver k now chosen ∈ s.after → (s.final f).net[k]? = some m → s.Carries m b →
      ∀ y ∈ choice m.dst, y ≠ m.src → y ∈ Overlay.targets chosen (s.o m.dst).onwardFec (some m.src)) :
    ∀ n, Connected choice s.n0 n → n ≠ s.n0 → s.Settled f n →
      ∃ d, s.given f n = [d] ∧ c.sha d.data = c.sha s.data ∧ d.source = Node.shortId c (c.pubOf s.sec) := by
  intro n hcon hn hset
  obtain ⟨d, hd, h1, h2⟩ := FecScene.given_some h n
    (fun j hj => (FecScene.reached h harr choice hsrc hdraw hj hcon).resolve_left hn) hset
  refine ⟨d, ?_, h1, h2⟩
  have hl := FecScene.at_most_once h n
  match hg : s.given f n, hd, hl with
  | [x], hd, _ => rw [List.mem_singleton.mp hd]
  | _ :: _ :: _, _, hl => simp at hl

/-- C123 where nobody has more neighbours than it passes packets on to: every member connected with the author gets
the broadcast. -/
theorem C123_everyone_partial (s : FecScene c) (f : Fec) (neighbours : Bytes → List Bytes) (h : s.Calm f)
    (harr : s.AllArrive f) (hfit : ∀ n, (s.o n).onwardFec + 1 < 2 ^ 32)
    (hsrc : ∀ y ∈ neighbours s.n0, y ∈ s.targets) (hdraw : s.Draws f neighbours)
    (hfew : ∀ n, (neighbours n).length ≤ (s.o n).onwardFec) :
    ∀ n, Connected neighbours s.n0 n → n ≠ s.n0 → s.Settled f n →
      ∃ d, s.given f n = [d] ∧ c.sha d.data = c.sha s.data ∧ d.source = Node.shortId c (c.pubOf s.sec) := by
  refine C123_reached_partial s f h harr neighbours hsrc ?_
  intro k now chosen m b hk hm hc y hy hne
  obtain ⟨h1, h2⟩ := hdraw k now chosen m b hk hm hc
  have hsz : PeersSet.sampleSize (s.o m.dst).onwardFec (some m.src) = (s.o m.dst).onwardFec + 1 := by
    simp only [PeersSet.sampleSize, Option.isSome_some, if_true]
    exact Nat.mod_eq_of_lt (hfit m.dst)
  rw [hsz] at h2
  have hf := hfew m.dst
  have hlen : chosen.length = (neighbours m.dst).length := by omega
  have hperm : chosen.Perm (neighbours m.dst) := h1.perm_of_length_le (by omega)
  have hy' : y ∈ chosen := hperm.mem_iff.mpr hy
  simp only [Overlay.targets, PeersSet.getRandomPeers]
  rw [List.take_of_length_le]
  · exact List.mem_filter.mpr ⟨hy', by simpa using hne⟩
  · exact Nat.le_trans (List.length_filter_le _ _) (by omega)

/-- C123: whether the letters arrive or not, nobody gets the broadcast twice. -/
theorem C123_at_most_once (s : FecScene c) (f : Fec) (h : s.Calm f) (n : Bytes) : (s.given f n).length ≤ 1 :=
  FecScene.at_most_once h n

/-- C123: whoever gets a packet in time, the first with its number, passes it on, to everybody chosen except the one
it got it from; also when its own copy of the broadcast is complete. -/
theorem C123_passed_on (s : FecScene c) (f : Fec) (h : s.Calm f) (before after : List (Act c)) (k now : Nat)
    (chosen : List Bytes) (m : Letter) (b : FecPart) (he : s.after = before ++ .deliver k now chosen :: after)
    (hm : (run c f s.o s.overlay (s.world f) before).net[k]? = some m) (hc : s.Carries m b)
    (hnow : now ≤ b.date + (s.o m.dst).env.timeout)
    (hnew : ∀ now' b', .fec now' b' ∈ history s.o s.overlay m.dst (s.world f) before → b'.dataHash = s.bid →
      b'.seqno ≠ b.seqno) :
    letters c f s.o s.overlay (run c f s.o s.overlay (s.world f) before) (.deliver k now chosen) =
      (Overlay.targets chosen (s.o m.dst).onwardFec (some m.src)).map fun y => ⟨m.dst, y, m.msg⟩ := by
  have hev : event c f s.overlay (run c f s.o s.overlay (s.world f) before) (.deliver k now chosen) =
      some (m.dst, .fec now b) := by
    simp [event, hm, reaction, hc.1]
  have hhist : history s.o s.overlay m.dst (s.world f) s.after = history s.o s.overlay m.dst (s.world f) before ++
      .fec now b :: history s.o s.overlay m.dst
        (step c f s.o s.overlay (run c f s.o s.overlay (s.world f) before) (.deliver k now chosen)) after := by
    rw [he, history_append, history_cons, hev]
    simp
  have hin : m ∈ (s.final f).net := FecScene.net_final s f he (.inl (List.mem_of_getElem? hm))
  have hout : isOutdated (s.o m.dst).env b.date now = some false := by
    obtain ⟨_, date, hd, rfl⟩ := FecScene.sent_form (h.genuine m hin b hc)
    exact isOutdated_of (e := (s.o m.dst).env) (h.dates date hd m.dst) hnow
  have hfw := first_passed (e := (s.o m.dst).env) (pub := c.pubOf s.sec) (FecScene.finv s f m.dst)
    (FecScene.unheard h m.dst) (history s.o s.overlay m.dst (s.world f) before) _ (.fec now b) b.seqno
    (by rw [← hhist]; exact FecScene.fromSource h m.dst) (by rw [← hhist]; exact FecScene.brisk' h m.dst)
    (by simp only [arrival]; exact if_pos ⟨hc.2, hout⟩)
    (by
      intro x hx ha
      cases x with
      | fec now' b' =>
        simp only [arrival] at ha
        split at ha
        · rename_i hb
          simp only [Option.some.injEq] at ha
          exact hnew now' b' hx hb.1 ha
        · cases ha
      | _ => cases ha)
  rw [← node_history] at hfw
  have hre : reaction s.overlay m now = some (m.dst, .fec now b) := by simp [reaction, hc.1]
  simp only [letters, hm, hre]
  rw [if_pos hfw]
  rfl

/-! ### Examples -/

theorem clock_task {e : Env} {st : State c f} {i : Nat} : (Overlay.step c f e st (.task i)).1.clock = st.clock := by
  simp only [Overlay.step, taskStep]
  repeat' split
  all_goals rfl

theorem clock_tasks (o : Bytes → Opts) (ov : Bytes) (as : List (Act c)) (n : Bytes)
    (ha : ∀ m a, .inner m a ∈ as → ∃ i, a = .task i) :
    ∀ w : World c f, ((run c f o ov w as).node n).clock = (w.node n).clock := by
  induction as with
  | nil => intro w; rfl
  | cons a as ih =>
    intro w
    refine (ih (fun m x hx => ha m x (List.mem_cons_of_mem _ hx)) (step c f o ov w a)).trans ?_
    cases a with
    | inner m x =>
      obtain ⟨i, rfl⟩ := ha m x List.mem_cons_self
      rw [node_step]
      simp only [event, isInner, if_true]
      split
      · exact clock_task
      · rfl
    | tell n' now sec data ts =>
      exact clock_still o ov [.tell n' now sec data ts] n (fun m x hx => by simp at hx) w
    | deliver k now chosen => exact clock_still o ov [.deliver k now chosen] n (fun m x hx => by simp at hx) w
    | post m' => exact clock_still o ov [.post m'] n (fun m x hx => by simp at hx) w

namespace FecSample

/-- The packets for `[1]`: its symbol and one more. -/
def p0 : FecPart := FecSendExample.parts[0]'(by decide +kernel)
def p1 : FecPart := FecSendExample.parts[1]'(by decide +kernel)
def m0 : Bytes := fecMessage (leBytes 32 1) p0
def m1 : Bytes := fecMessage (leBytes 32 1) p1

theorem read0 : Overlay.readMessage m0 = some (leBytes 32 1, .fec p0) := by decide +kernel
theorem read1 : Overlay.readMessage m1 = some (leBytes 32 1, .fec p1) := by decide +kernel
theorem parts_eq : FecSendExample.parts = [p0, p1] := FecSendExample.parts_two

/-- The author [0] sends two packets to [1]; the second is lost. -/
def scene (k : Nat) (rest : List (Act Crypto.toy)) : FecScene Crypto.toy :=
  ⟨Sample.opts k, sampleEnv.z, leBytes 32 1, [], [0], (5 : UInt8), [1], [100, 101], [[1]],
    .post ⟨[0], [1], m0⟩ :: .post ⟨[0], [1], m1⟩ :: rest⟩

def Quiet (a : Act Crypto.toy) : Prop := (∃ k now chosen, a = .deliver k now chosen) ∨ ∃ n i, a = .inner n (.task i)

theorem calm (k : Nat) (rest : List (Act Crypto.toy)) (h1 : ∀ a ∈ rest, Quiet a)
    (h2 : ∀ m ∈ ((scene k rest).final Fec.toy).net, m.msg = m0 ∨ m.msg = m1) : (scene k rest).Calm Fec.toy where
  lawful := Crypto.toy_lawful
  fec := Fec.toy_lawful
  sized := FecSendExample.sized
  zstd := sampleEnv_lawful
  same _ := rfl
  overlay := show (leBytes 32 1).length = 32 by decide
  nonempty := show payload sampleEnv.z false [1] ≠ [] by decide
  size := show (payload sampleEnv.z false [1]).length ≤ 2000000 by decide
  size' := show [(1 : UInt8)].length < 2 ^ 32 by decide
  symbols n h := by
    show (Fec.toy.symbol (payload sampleEnv.z false [1]) n).length < 2 ^ 24
    have : n < 1 := Nat.lt_of_lt_of_le h
      (show Fec.toy.count (payload sampleEnv.z false [1]) ≤ 1 by decide +kernel)
    obtain rfl : n = 0 := by omega
    decide +kernel
  enough := show Fec.toy.count (payload sampleEnv.z false [1]) ≤ 2 by decide
  dates d hd n := by
    show d + 60 < 2 ^ 32
    have : d ∈ [100, 101] := hd
    simp only [List.mem_cons, List.not_mem_nil, or_false] at this
    omega
  posted b hb y hy := by
    have hb' : b ∈ FecSendExample.parts := hb
    rw [parts_eq] at hb'
    have hy' : y ∈ [[(1 : UInt8)]] := hy
    simp only [List.mem_cons, List.not_mem_nil, or_false] at hb' hy'
    subst hy'
    refine net_mono rest (run Crypto.toy Fec.toy (Sample.opts k) (leBytes 32 1) ((scene k rest).world Fec.toy)
      [.post ⟨[0], [1], m0⟩, .post ⟨[0], [1], m1⟩]) _ ?_
    rcases hb' with rfl | rfl
    · exact List.mem_cons_self
    · exact List.mem_cons_of_mem _ List.mem_cons_self
  fresh m hm := absurd hm List.not_mem_nil
  tell n now sec data ts h := by
    have h' : Act.tell n now sec data ts ∈ Act.post ⟨[0], [1], m0⟩ :: .post ⟨[0], [1], m1⟩ :: rest := h
    simp only [List.mem_cons, reduceCtorEq, false_or] at h'
    rcases h1 _ h' with ⟨_, _, _, h⟩ | ⟨_, _, h⟩ <;> cases h
  ordinary m hm id b e now d src hr := by
    rcases h2 m hm with h | h
    · rw [h, read0] at hr; cases hr
    · rw [h, read1] at hr; cases hr
  genuine m hm b hc := by
    have hr := hc.1
    show b ∈ FecSendExample.parts
    rw [parts_eq]
    rcases h2 m hm with h | h
    · rw [h, read0] at hr; cases hr; exact List.mem_cons_self
    · rw [h, read1] at hr; cases hr; exact List.mem_cons_of_mem _ List.mem_cons_self
  alone before a after he hd m hm b hc := by
    have ha : a ∈ Act.post ⟨[0], [1], m0⟩ :: .post ⟨[0], [1], m1⟩ :: rest := by
      rw [show Act.post ⟨[0], [1], m0⟩ :: .post ⟨[0], [1], m1⟩ :: rest = before ++ a :: after from he]
      simp
    simp only [List.mem_cons] at ha
    rcases ha with rfl | rfl | ha
    · rw [letters] at hm; rw [List.mem_singleton.mp hm]; rfl
    · rw [letters] at hm; rw [List.mem_singleton.mp hm]; rfl
    · rcases h1 _ ha with ⟨_, _, _, rfl⟩ | ⟨_, _, rfl⟩
      · cases hd
      · rw [letters] at hm; cases hm
  brisk n := by
    have hs : (((scene k rest).final Fec.toy).node n).clock = (((scene k rest).world Fec.toy).node n).clock :=
      clock_tasks _ _ _ n (fun m a ha => by
        have h' : Act.inner m a ∈ Act.post ⟨[0], [1], m0⟩ :: .post ⟨[0], [1], m1⟩ :: rest := ha
        simp only [List.mem_cons, reduceCtorEq, false_or] at h'
        rcases h1 _ h' with ⟨_, _, _, h⟩ | ⟨_, i, h⟩
        · cases h
        · cases h; exact ⟨i, rfl⟩) _
    rw [hs]
    show 0 < 0 + 1000 * 60
    omega

/-- Three members in a row. -/
def rowRest : List (Act Crypto.toy) :=
  [.deliver 0 101 [[0], [2]], .inner [1] (.task 0), .deliver 2 102 [[1]], .inner [2] (.task 0)]
def row : FecScene Crypto.toy := scene 2 rowRest

theorem row_net : (row.final Fec.toy).net = [⟨[0], [1], m0⟩, ⟨[0], [1], m1⟩, ⟨[1], [2], m0⟩] := by decide +kernel

theorem row_calm : row.Calm Fec.toy := calm 2 rowRest (by
  intro a ha
  simp only [rowRest, List.mem_cons, List.not_mem_nil, or_false] at ha
  rcases ha with rfl | rfl | rfl | rfl
  · exact .inl ⟨_, _, _, rfl⟩
  · exact .inr ⟨_, _, rfl⟩
  · exact .inl ⟨_, _, _, rfl⟩
  · exact .inr ⟨_, _, rfl⟩) (by
  intro m hm
  change m ∈ (row.final Fec.toy).net at hm
  rw [row_net] at hm
  simp only [List.mem_cons, List.not_mem_nil, or_false] at hm
  rcases hm with rfl | rfl | rfl
  · exact .inl rfl
  · exact .inr rfl
  · exact .inl rfl)

theorem late1 {k : Nat} {rest : List (Act Crypto.toy)} {b : FecPart} {x y : Bytes}
    (hc : (scene k rest).Carries ⟨x, y, m1⟩ b) : ¬ b.seqno < Fec.toy.count (scene k rest).body := by
  have hr := hc.1
  rw [show (Letter.mk x y m1).msg = m1 from rfl, read1] at hr
  cases hr
  show ¬ p1.seqno < Fec.toy.count (payload sampleEnv.z false [1])
  decide +kernel

theorem date0 {k : Nat} {rest : List (Act Crypto.toy)} {b : FecPart} {x y : Bytes}
    (hc : (scene k rest).Carries ⟨x, y, m0⟩ b) : b.date = 100 := by
  have hr := hc.1
  rw [show (Letter.mk x y m0).msg = m0 from rfl, read0] at hr
  cases hr
  decide +kernel

theorem row_arrive : row.AllArrive Fec.toy := by
  intro m b hm hc hj
  rw [row_net] at hm ⊢
  simp only [List.mem_cons, List.not_mem_nil, or_false] at hm
  rcases hm with rfl | rfl | rfl
  · refine ⟨0, 101, rfl, ⟨[_, _], [[0], [2]], _, rfl, by decide +kernel⟩, ?_⟩
    rw [date0 hc]
    show 101 ≤ 100 + 60
    omega
  · exact absurd hj (late1 hc)
  · refine ⟨2, 102, rfl, ⟨[_, _, _, _], [[1]], _, rfl, by decide +kernel⟩, ?_⟩
    rw [date0 hc]
    show 102 ≤ 100 + 60
    omega

theorem row_draws : row.Draws Fec.toy Sample.rowNeighbours := by
  intro k now chosen m b hk hm _
  rw [row_net] at hm
  simp only [row, scene, rowRest, List.mem_cons, Act.deliver.injEq, List.not_mem_nil, or_false, reduceCtorEq,
    false_or] at hk
  rcases hk with ⟨rfl, rfl, rfl⟩ | ⟨rfl, rfl, rfl⟩
  · cases hm
    exact ⟨List.Subperm.refl _, rfl⟩
  · cases hm
    exact ⟨List.Subperm.refl _, rfl⟩

theorem row_connected : Connected Sample.rowNeighbours row.n0 [2] :=
  .next (.next .start (show [1] ∈ Sample.rowNeighbours [0] by decide)) (show [2] ∈ Sample.rowNeighbours [1] by decide)

theorem row_settled : row.Settled Fec.toy [2] := by
  unfold FecScene.Settled
  decide +kernel

-- C123_everyone_partial: the third member gets the broadcast through the second
example : ∃ d, row.given Fec.toy [2] = [d] ∧ Crypto.toy.sha d.data = Crypto.toy.sha [1] ∧
    d.source = Node.shortId Crypto.toy (Crypto.toy.pubOf (5 : UInt8)) :=
  C123_everyone_partial row Fec.toy Sample.rowNeighbours row_calm row_arrive (fun _ => by show 2 + 1 < 2 ^ 32; omega)
    (by intro y hy; exact hy) row_draws (by
      intro n
      show (Sample.rowNeighbours n).length ≤ 2
      unfold Sample.rowNeighbours
      split
      · decide
      · split
        · decide
        · split <;> decide) [2] row_connected (by decide) row_settled

-- C123_reached_partial: the choices are all neighbours
example := C123_reached_partial row Fec.toy row_calm row_arrive Sample.rowNeighbours (by intro y hy; exact hy) (by
  intro k now chosen m b hk hm _
  rw [row_net] at hm
  simp only [row, scene, rowRest, List.mem_cons, Act.deliver.injEq, List.not_mem_nil, or_false, reduceCtorEq,
    false_or] at hk
  rcases hk with ⟨rfl, rfl, rfl⟩ | ⟨rfl, rfl, rfl⟩ <;> cases hm <;> decide) [2] row_connected (by decide) row_settled

-- C123_at_most_once
example := C123_at_most_once row Fec.toy row_calm [1]

-- C123_passed_on: the first packet at the second member
example := C123_passed_on row Fec.toy row_calm [_, _] _ 0 101 [[0], [2]] ⟨[0], [1], m0⟩ p0 rfl (by decide +kernel)
  ⟨read0, by decide +kernel⟩ (by decide +kernel) (by
    have : history row.o row.overlay [1] (row.world Fec.toy) [.post ⟨[0], [1], m0⟩, .post ⟨[0], [1], m1⟩] = [] := by
      decide +kernel
    intro now' b' h
    rw [show (Letter.mk [0] [1] m0).dst = [1] from rfl, this] at h
    cases h)

/-- The second member has two more neighbours and passes packets on to one. -/
def forkRest : List (Act Crypto.toy) :=
  [.deliver 0 101 [[2], [3]], .inner [1] (.task 0), .deliver 2 102 [[1]], .inner [2] (.task 0)]
def fork : FecScene Crypto.toy := scene 1 forkRest

theorem fork_net : (fork.final Fec.toy).net = [⟨[0], [1], m0⟩, ⟨[0], [1], m1⟩, ⟨[1], [2], m0⟩] := by decide +kernel

end FecSample

/-- The members choose at random, and a member may be chosen by nobody. -/
theorem C123_full_false : ¬ C123_full := by
  intro h
  have hcalm : FecSample.fork.Calm Fec.toy := FecSample.calm 1 FecSample.forkRest (by
    intro a ha
    simp only [FecSample.forkRest, List.mem_cons, List.not_mem_nil, or_false] at ha
    rcases ha with rfl | rfl | rfl | rfl
    · exact .inl ⟨_, _, _, rfl⟩
    · exact .inr ⟨_, _, rfl⟩
    · exact .inl ⟨_, _, _, rfl⟩
    · exact .inr ⟨_, _, rfl⟩) (by
    intro m hm
    change m ∈ (FecSample.fork.final Fec.toy).net at hm
    rw [FecSample.fork_net] at hm
    simp only [List.mem_cons, List.not_mem_nil, or_false] at hm
    rcases hm with rfl | rfl | rfl
    · exact .inl rfl
    · exact .inr rfl
    · exact .inl rfl)
  have harr : FecSample.fork.AllArrive Fec.toy := by
    intro m b hm hc hj
    rw [FecSample.fork_net] at hm ⊢
    simp only [List.mem_cons, List.not_mem_nil, or_false] at hm
    rcases hm with rfl | rfl | rfl
    · refine ⟨0, 101, rfl, ⟨[_, _], [[2], [3]], _, rfl, by decide +kernel⟩, ?_⟩
      rw [FecSample.date0 hc]
      show 101 ≤ 100 + 60
      omega
    · exact absurd hj (FecSample.late1 hc)
    · refine ⟨2, 102, rfl, ⟨[_, _, _, _], [[1]], _, rfl, by decide +kernel⟩, ?_⟩
      rw [FecSample.date0 hc]
      show 102 ≤ 100 + 60
      omega
  have hdraw : FecSample.fork.Draws Fec.toy Sample.forkNeighbours := by
    intro k now chosen m b hk hm _
    rw [FecSample.fork_net] at hm
    simp only [FecSample.fork, FecSample.scene, FecSample.forkRest, List.mem_cons, Act.deliver.injEq,
      List.not_mem_nil, or_false, reduceCtorEq, false_or] at hk
    rcases hk with ⟨rfl, rfl, rfl⟩ | ⟨rfl, rfl, rfl⟩
    · cases hm
      exact ⟨List.Subperm.refl _, rfl⟩
    · cases hm
      exact ⟨List.Subperm.refl _, rfl⟩
  obtain ⟨d, h1, _⟩ := h Crypto.toy Fec.toy FecSample.fork Sample.forkNeighbours hcalm harr
    (fun _ => by show 1 + 1 < 2 ^ 32; omega) (by intro y hy; exact hy) hdraw [3]
    (.next (.next .start (show [1] ∈ Sample.forkNeighbours [0] by decide))
      (show [3] ∈ Sample.forkNeighbours [1] by decide)) (by decide) (by
        unfold FecScene.Settled
        decide +kernel)
  have h2 : FecSample.fork.given Fec.toy [3] = [] := by decide +kernel
  rw [h2] at h1
  cases h1

end Verif.Gossip
