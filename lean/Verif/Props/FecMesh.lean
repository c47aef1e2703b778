import Verif.Props.Mesh
import Verif.Props.FecGossip

/-!
# C127: FEC broadcasts over ADNL connections

The system of C126, with the broadcasts of C123.
-/
namespace Verif.Mesh
open Verif.Adnl Verif.AdnlProto Verif.Process Verif.Delivery Verif.RoundTrip Verif.LongTrip Verif.Rldp
open Verif.Overlay Verif.Gossip

variable {ι : Type} {c : Crypto} {f : Fec}

/-! ### Specification -/

/-- An FEC broadcast: who sends it, with which key and to whom, and the dates of its packets. -/
structure FecTelling (c : Crypto) where
  z : Zstd
  n0 : Bytes
  sec : c.Sec
  data : Bytes
  dates : List Nat
  targets : List Bytes

namespace FecTelling
variable (t : FecTelling c) (x : Net ι c) (f : Fec)

def scene (before after : List (Act c)) : FecScene c :=
  ⟨x.o, t.z, x.overlay, before, t.n0, t.sec, t.data, t.dates, t.targets, after⟩

def bid : Bytes := c.sha t.data
/-- What is cut into symbols. -/
def body : Bytes := payload t.z (x.o t.n0).compressing t.data
/-- The packets sent by the author. -/
def sent : List FecPart := (OutFec.new c t.z (x.o t.n0).compressing t.data).sent c f t.sec t.dates

/-- The message is a packet that goes by the name of the broadcast. -/
def Carries (d : Bytes) (b : FecPart) : Prop :=
  Overlay.readMessage d = some (x.overlay, .fec b) ∧ b.dataHash = t.bid

/-- The records of what is done and heard start here. -/
def mark {f : Fec} (j : Joint ι c f) : Joint ι c f := ⟨j.talk, j.world, [], []⟩

/-- Nobody but the author makes up letters with packets of the broadcast; others pass them on. Nobody sends an
ordinary broadcast with the same identity. -/
def Alone {f : Fec} (w : World c f) (a : Act c) : Prop :=
  (∀ m ∈ letters c f x.o x.overlay w a, ∀ b, t.Carries x m.msg b → m.src = t.n0) ∧
  ∀ n now sec data ts, a = .tell n now sec data ts → ordinaryId c data now ≠ t.bid

/-- The circumstances, as in C123. -/
structure Calm {f : Fec} (w₁ w₂ : World c f) : Prop where
  fec : f.Lawful
  sized : Fec.Sized f
  zstd : t.z.Lawful
  same : ∀ n, (x.o n).env.z = t.z
  overlay : x.overlay.length = 32
  nonempty : t.body x ≠ []
  size : (t.body x).length ≤ 2000000
  size' : t.data.length < 2 ^ 32
  symbols : ∀ n, n < f.count (t.body x) → (f.symbol (t.body x) n).length ≤ 768
  enough : f.count (t.body x) ≤ t.dates.length
  dates : ∀ d ∈ t.dates, ∀ n, d + (x.o n).env.timeout < 2 ^ 32
  /-- the author sends all its packets to all its targets -/
  posted : ∀ b ∈ t.sent x f, ∀ y ∈ t.targets, ⟨t.n0, y, fecMessage x.overlay b⟩ ∈ w₂.net
  /-- nothing about it before -/
  fresh : ∀ m ∈ w₁.net, Unrelated c t.bid m.msg
  /-- no ordinary broadcast with the same identity -/
  ordinary : ∀ m ∈ w₂.net, ∀ id b e now d src, Overlay.readMessage m.msg = some (id, .ordinary b) →
    checkOrdinary c e now b ≠ .ok t.bid d src
  /-- all packets are the author's, as it wrote them -/
  genuine : ∀ m ∈ w₂.net, ∀ b, t.Carries x m.msg b → b ∈ t.sent x f ∧ m.msg = fecMessage x.overlay b
  brisk : ∀ n, (w₂.node n).clock < (w₁.node n).clock + 1000 * (x.o n).env.timeout

/-- What a member gave to its application for the broadcast. -/
def got {f : Fec} (n : Bytes) (j : Joint ι c f) : List Delivery :=
  j.did.filterMap fun e => match e with
    | (m, .task _, out) => if m = n then out.delivered.filter fun d => decide (c.sha d.data = t.bid) else none
    | _ => none

/-- The letters with the symbols of the data have arrived. -/
def Complete {f : Fec} (here : Letter → Prop) (w : World c f) : Prop :=
  ∀ m ∈ w.net, ∀ b, t.Carries x m.msg b → b.seqno < f.count (t.body x) → here m

/-- What arrived of the broadcast was given to the overlay in time. -/
def InTime {f : Fec} (j : Joint ι c f) : Prop :=
  ∀ ℓ b d p, t.Carries x d p → LongTrip.Heard (x.pair ℓ) (j.talk ℓ) b d →
    ∃ now, (ℓ, b, d, now) ∈ j.heard ∧ now ≤ p.date + (x.o ((x.pair ℓ).id !b)).env.timeout

/-- Whenever a packet is received, what is drawn includes `choice`, but for the one it came from. -/
def Draws (choice : Bytes → List Bytes) (m : Letter) (_now : Nat) (chosen : List Bytes) : Prop :=
  ∀ b, t.Carries x m.msg b → ∀ y ∈ choice m.dst, y ≠ m.src → y ∈ Overlay.targets chosen (x.o m.dst).onwardFec (some m.src)

end FecTelling

/-- One datagram of the message of the letter, with nothing attached, has arrived; or all datagrams have, of the
message sent once, whose parts are not given up. -/
def Came (x : Net ι c) (talk : ι → Talk c) (m : Letter) : Prop :=
  (∃ ℓ b k i, m.src = (x.pair ℓ).id b ∧ m.dst = (x.pair ℓ).id (!b) ∧
    ((talk ℓ).sends b)[k]? = some (.custom m.msg, none) ∧ ((talk ℓ).src b)[i]? = some k ∧ i ∈ (talk ℓ).seen b) ∨
  Arrived x talk m

/-- The receiving tasks of the member have nothing left to do. -/
def Settled (w : World c f) (n : Bytes) : Prop := ∀ t ∈ (w.node n).transfers, t.phase = .running → t.chan = []

/-! ### Proofs -/

theorem fecGot_given (t : FecTelling c) (x : Net ι c) (n : Bytes) (j : Joint ι c f) (before after : List (Act c))
    (h : j.did = events x.o x.overlay ((t.scene x before after).world f) after) :
    t.got n j = (t.scene x before after).given f n := by
  unfold FecTelling.got FecScene.given eventsOf
  rw [h, List.filterMap_filterMap]
  refine List.filterMap_congr ?_
  rintro ⟨m, a, out⟩ _
  by_cases hm : m = n
  · cases a <;> simp [hm]
    rfl
  · cases a <;> simp [hm]

theorem fecScene_of (x : Net ι c) (hx : x.Sound) (t : FecTelling c) (D : Letter → Nat → List Bytes → Prop)
    (hf : ∀ ℓ, FromOverlay x (World.init c f) ℓ (x.start ℓ)) (j₁ j₂ : Joint ι c f)
    (h1 : JRun x (t.Alone x) (fun _ _ _ => True) ⟨x.start, World.init c f, [], []⟩ j₁)
    (h2 : JRun x (t.Alone x) D (FecTelling.mark j₁) j₂) (hcalm : t.Calm x j₁.world j₂.world) :
    ∃ before after, (t.scene x before after).Calm f ∧ j₁.world = (t.scene x before after).world f ∧
      Refines x (t.Alone x) D (FecTelling.mark j₁) j₂ after := by
  obtain ⟨before, hB⟩ := refines x hx _ _ _ _ h1 (fun ℓ => .refl _) hf
  obtain ⟨after, hA⟩ := refines x hx _ _ _ _ h2 hB.goes hB.from
  have hw : j₁.world = (t.scene x before after).world f := hB.world
  have hm : (FecTelling.mark j₁).world = (t.scene x before after).world f := hw
  have hfin : j₂.world = (t.scene x before after).final f := by
    rw [hA.world, hm]; rfl
  refine ⟨before, after, ?_, hw, hA⟩
  exact {
    lawful := hx.lawful
    fec := hcalm.fec
    sized := hcalm.sized
    zstd := hcalm.zstd
    same := hcalm.same
    overlay := hcalm.overlay
    nonempty := hcalm.nonempty
    size := hcalm.size
    size' := hcalm.size'
    symbols := fun n hn => Nat.lt_of_le_of_lt (hcalm.symbols n hn) (by decide)
    enough := hcalm.enough
    dates := hcalm.dates
    posted := by rw [← hfin]; exact hcalm.posted
    fresh := by rw [← hw]; exact hcalm.fresh
    tell := by
      intro n now sec data ts hm
      rcases List.mem_append.mp hm with hm | hm
      · obtain ⟨pre, post, he⟩ := List.append_of_mem hm
        rcases hB.allowed pre _ post he with ⟨-, hQ⟩ | ⟨k, now, chosen, m, h, -⟩
        · exact hQ.2 n now sec data ts rfl
        · cases h
      · obtain ⟨pre, post, he⟩ := List.append_of_mem hm
        rcases hA.allowed pre _ post he with ⟨-, hQ⟩ | ⟨k, now, chosen, m, h, -⟩
        · exact hQ.2 n now sec data ts rfl
        · cases h
    ordinary := by rw [← hfin]; exact hcalm.ordinary
    genuine := by rw [← hfin]; exact fun m hm b hb => (hcalm.genuine m hm b hb).1
    alone := by
      intro pre a post he hd m hmem b hb
      rcases hA.allowed pre a post he with ⟨-, hQ⟩ | ⟨k, now, chosen, m, rfl, -⟩
      · rw [hm] at hQ; exact hQ.1 m hmem b hb
      · cases hd
    brisk := by rw [← hfin, ← hw]; exact hcalm.brisk }

/-- C127: the members of an overlay are connected by any number of ADNL connections, over a network that loses,
repeats, reorders and delays datagrams. Nobody gets an FEC broadcast twice. -/
theorem C127_at_most_once (x : Net ι c) (hx : x.Sound) (hf : ∀ ℓ, FromOverlay x (World.init c f) ℓ (x.start ℓ))
    (t : FecTelling c) (j₁ j₂ : Joint ι c f)
    (h1 : JRun x (t.Alone x) (fun _ _ _ => True) ⟨x.start, World.init c f, [], []⟩ j₁)
    (h2 : JRun x (t.Alone x) (fun _ _ _ => True) (FecTelling.mark j₁) j₂) (hcalm : t.Calm x j₁.world j₂.world) (n : Bytes) :
    (t.got n j₂).length ≤ 1 := by
  obtain ⟨before, after, hC, hw, hR⟩ := fecScene_of x hx t _ hf j₁ j₂ h1 h2 hcalm
  have hdid : j₂.did = events x.o x.overlay ((t.scene x before after).world f) after := by
    rw [hR.did, ← hw]; rfl
  rw [fecGot_given t x n j₂ before after hdid]
  exact C123_at_most_once (t.scene x before after) f hC n

/-- The message of a packet with a symbol of the data arrives. -/
theorem came_heard (x : Net ι c) (hx : x.Sound) (talk : ι → Talk c)
    (hgoes : ∀ ℓ, Goes (x.pair ℓ) (x.M ℓ) (x.G ℓ) (x.start ℓ) (talk ℓ)) (m : Letter) (hlen : m.msg.length ≤ 984)
    (h : Came x talk m) :
    ∃ ℓ b, m.src = (x.pair ℓ).id b ∧ m.dst = (x.pair ℓ).id (!b) ∧ LongTrip.Heard (x.pair ℓ) (talk ℓ) b m.msg := by
  rcases h with ⟨ℓ, b, k, i, e1, e2, hk, hi, hs⟩ | ⟨ℓ, b, k, a, e1, e2, hO, hG, hall⟩
  · refine ⟨ℓ, b, e1, e2, heard_iff.mp (C111_one_datagram hx.lawful (x.pair ℓ) (hx.fits ℓ) (x.M ℓ) (x.G ℓ) (hx.apart ℓ) _ _
      (hx.start ℓ) (hgoes ℓ) b _ k none hk ?_ i hi hs)⟩
    simp only [counted, Option.getD_none]
    omega
  · refine ⟨ℓ, b, e1, e2, heard_iff.mp (C111_arrives_partial hx.lawful (x.pair ℓ) (hx.fits ℓ) (x.M ℓ) (x.G ℓ) (hx.apart ℓ) _ _
      (hx.start ℓ) (hgoes ℓ) b _ k a hO hG hall ?_)⟩
    have g1 := sends_sizes hx.lawful (hx.fits ℓ) (hx.apart ℓ) (hx.start ℓ) (hgoes ℓ) hO.1
    have g4 := bytes_room hlen (by decide)
    rw [custom_length]
    omega

/-- C127: an FEC broadcast reaches everybody who is connected with its author by the choices of the members and whose tasks
got to their work, exactly once, as data with the hash of the data sent, with its author, as soon as the letters with the
symbols of the data have arrived: all datagrams of each, or only one if nothing was attached to it. Packets with further
symbols need not arrive. -/
theorem C127_reached (x : Net ι c) (hx : x.Sound) (hf : ∀ ℓ, FromOverlay x (World.init c f) ℓ (x.start ℓ))
    (t : FecTelling c) (choice : Bytes → List Bytes) (hsrc : ∀ y ∈ choice t.n0, y ∈ t.targets) (j₁ j₂ : Joint ι c f)
    (h1 : JRun x (t.Alone x) (fun _ _ _ => True) ⟨x.start, World.init c f, [], []⟩ j₁)
    (h2 : JRun x (t.Alone x) (t.Draws x choice) (FecTelling.mark j₁) j₂) (hcalm : t.Calm x j₁.world j₂.world)
    (hcar : t.Complete x (Came x j₂.talk) j₂.world) (htime : t.InTime x j₂)
    (n : Bytes) (hcon : Connected choice t.n0 n) (hn : n ≠ t.n0) (hset : Settled j₂.world n) :
    ∃ d, t.got n j₂ = [d] ∧ c.sha d.data = c.sha t.data ∧ d.source = Node.shortId c (c.pubOf t.sec) := by
  obtain ⟨before, after, hC, hw, hR⟩ := fecScene_of x hx t _ hf j₁ j₂ h1 h2 hcalm
  have hm : (FecTelling.mark j₁).world = (t.scene x before after).world f := hw
  have hfin : j₂.world = (t.scene x before after).final f := by
    rw [hR.world, hm]; rfl
  have hdid : j₂.did = events x.o x.overlay ((t.scene x before after).world f) after := by
    rw [hR.did, ← hw]; rfl
  rw [fecGot_given t x n j₂ before after hdid]
  refine C123_reached_partial (t.scene x before after) f hC ?_ choice hsrc ?_ n hcon hn ?_
  · intro m p hmem hp hj
    rw [← hfin] at hmem
    have hp' : t.Carries x m.msg p := hp
    have hj' : p.seqno < f.count (t.body x) := hj
    have hlen : m.msg.length ≤ 984 := by
      obtain ⟨hs, he⟩ := hcalm.genuine m hmem p hp'
      obtain ⟨i, date, -, rfl⟩ := FecScene.sent_form (s := t.scene x before after) hs
      have g1 := bytes_room (hcalm.symbols i hj') (by decide)
      have g2 := fec_length hx.lawful f t.sec t.bid (t.body x) x.overlay i date hcalm.overlay (hx.lawful.sha_length _)
      rw [he]
      exact Nat.le_trans (Nat.le_of_eq g2) (by omega)
    obtain ⟨ℓ, b, e1, e2, hheard⟩ := came_heard x hx j₂.talk hR.goes m hlen (hcar m hmem p hp' hj')
    obtain ⟨now, hin, hnow⟩ := htime ℓ b m.msg p hp' hheard
    rcases hR.heard ℓ b _ now hin with h | ⟨k', g1, g2⟩
    · cases h
    · refine ⟨k', now, ?_, ?_, ?_⟩
      · rw [← hfin, g1]
        congr 1
        rw [← e1, ← e2]
      · rw [hm] at g2; exact g2
      · rw [e2]; exact hnow
  · intro k now chosen m p hk hmem hp
    obtain ⟨pre, post, he⟩ := List.append_of_mem hk
    rcases hR.allowed pre _ post he with ⟨hd, -⟩ | ⟨k', now', chosen', m', h, g1, g2⟩
    · cases hd
    · cases h
      rw [hm] at g1
      have hkl := (List.getElem?_eq_some_iff.mp g1).1
      have he2 : ((t.scene x before after).final f).net[k]? = some m' := by
        have he' : (t.scene x before after).after = pre ++ .deliver k now chosen :: post := he
        unfold FecScene.final
        rw [he', Gossip.run_append]
        exact (net_get _ _ k hkl).trans g1
      rw [he2] at hmem
      cases hmem
      exact g2 p hp
  · rw [hfin] at hset
    exact hset

/-! ### Example: three members in a row -/

namespace FecRow
open Gossip.FecSample

/-- The first member sends a symbol and one more packet to the second. -/
def telling : FecTelling Crypto.toy := ⟨sampleEnv.z, rowId 0, (5 : UInt8), [1], [100, 101], [rowId 1]⟩

def net : Net Bool Crypto.toy :=
  ⟨rowPair, fun _ m => m = .custom m0, fun _ _ => False, rowTalk, Gossip.Sample.opts 2, leBytes 32 1⟩

theorem net_sound : net.Sound where
  lawful := Crypto.toy_lawful
  fits := rowPair_fits
  apart _ _ _ hx hy _ := hx.trans hy.symm
  start i := rowTalk_start i _

def own (j : Joint Bool Crypto.toy Fec.toy) (a : Act Crypto.toy) : Joint Bool Crypto.toy Fec.toy :=
  { j with
    world := Gossip.step Crypto.toy Fec.toy net.o net.overlay j.world a
    did := j.did ++ events net.o net.overlay j.world [a] }

def check (m : Letter) (chosen : List Bytes) : Bool :=
  decide (∀ y ∈ rowChoice m.dst, y ≠ m.src → y ∈ Overlay.targets chosen 2 (some m.src))

/-- The two packets are sent; the second is lost. -/
def first : Joint Bool Crypto.toy Fec.toy := ⟨rowTalk, World.init Crypto.toy Fec.toy, [], []⟩
def posted : Joint Bool Crypto.toy Fec.toy :=
  own (own first (.post ⟨rowId 0, rowId 1, m0⟩)) (.post ⟨rowId 0, rowId 1, m1⟩)

def cmds : List (JCmd Bool) :=
  [.carry false false 130 0, .bring false false 0 131, .hear false false 0 132 [rowId 0, rowId 2],
    .carry true false 133 2, .bring true false 0 134, .hear true false 0 135 [rowId 1]]

def middle : Option (Joint Bool Crypto.toy Fec.toy) := jexec net (show UInt8 from 1) toyRands m0 check posted cmds

def finish (j : Joint Bool Crypto.toy Fec.toy) : Joint Bool Crypto.toy Fec.toy :=
  own (own j (.inner (rowId 1) (.task 0))) (.inner (rowId 2) (.task 0))

def good (j : Joint Bool Crypto.toy Fec.toy) : Bool :=
  decide (j.world.net = [⟨rowId 0, rowId 1, m0⟩, ⟨rowId 0, rowId 1, m1⟩, ⟨rowId 1, rowId 2, m0⟩]) &&
  decide (j.heard = [(true, false, m0, 135), (false, false, m0, 132)]) &&
  decide (∀ t ∈ (j.world.node (rowId 2)).transfers, t.phase = .running → t.chan = []) &&
  [false, true].all fun i => decide ((j.talk i).sends false = [(.custom m0, some 40)]) &&
    decide ((j.talk i).src false = [0]) && decide ((j.talk i).seen false = [0]) && decide (((j.talk i).log false).length = 0) &&
    ((j.talk i).log true).all fun e => match e.1 with
      | .custom _ _ d => decide (d = m0)
      | _ => true

theorem computed : (middle.map finish).any good = true := by decide +kernel

theorem spec : ∃ j, middle = some j ∧
    (finish j).world.net = [⟨rowId 0, rowId 1, m0⟩, ⟨rowId 0, rowId 1, m1⟩, ⟨rowId 1, rowId 2, m0⟩] ∧
    (finish j).heard = [(true, false, m0, 135), (false, false, m0, 132)] ∧ Settled (finish j).world (rowId 2) ∧
    ∀ i, ((finish j).talk i).sends false = [(.custom m0, some 40)] ∧ ((finish j).talk i).src false = [0] ∧
      ((finish j).talk i).seen false = [0] ∧ ((finish j).talk i).log false = [] ∧
      ∀ l p d y, (Event.custom l p d, y) ∈ ((finish j).talk i).log true → d = m0 := by
  have h := computed
  cases he : middle with
  | none => rw [he] at h; cases h
  | some j =>
    rw [he] at h
    have h : good (finish j) = true := h
    simp only [good, Bool.and_eq_true, decide_eq_true_eq, List.all_eq_true, List.length_eq_zero_iff] at h
    refine ⟨j, rfl, h.1.1.1, h.1.1.2, h.1.2, fun i => ?_⟩
    have := h.2 i (by cases i <;> simp)
    exact ⟨this.1.1.1.1, this.1.1.1.2, this.1.1.2, this.1.2, fun l p d y hy => by simpa using this.2 _ hy⟩

theorem nothing_made (a : Act Crypto.toy) (w : World Crypto.toy Fec.toy)
    (ha : (∃ m, a = .post m ∧ m.src = rowId 0) ∨ ∃ n i, a = .inner n (.task i)) : telling.Alone net w a := by
  rcases ha with ⟨m, rfl, hm⟩ | ⟨n, i, rfl⟩
  · refine ⟨fun l hl _ _ => ?_, fun _ _ _ _ _ h => by cases h⟩
    rw [letters] at hl
    rw [List.mem_singleton.mp hl]
    exact hm
  · refine ⟨fun l hl _ _ => ?_, fun _ _ _ _ _ h => by cases h⟩
    rw [letters] at hl
    cases hl

theorem run (D : Letter → Nat → List Bytes → Prop) (hD : ∀ m now chosen, check m chosen = true → D m now chosen)
    (j : Joint Bool Crypto.toy Fec.toy) (he : middle = some j) :
    JRun net (telling.Alone net) D (FecTelling.mark first) (finish j) ∧ ∀ n, ((finish j).world.node n).clock = 0 := by
  have h0 : JRun net (telling.Alone net) D first posted :=
    .step _ _ _ (.step _ _ _ (.refl _) (.own first _ rfl (nothing_made _ _ (.inl ⟨_, rfl, rfl⟩))))
      (.own _ _ rfl (nothing_made _ _ (.inl ⟨_, rfl, rfl⟩)))
  obtain ⟨h1, h2⟩ := jexec_run (f := Fec.toy) net (show UInt8 from 1) toyRands m0 check (fun _ _ => rfl) (fun _ => rfl)
    (fun _ => rfl) (telling.Alone net) D hD cmds first posted j h0 (fun i b d h => by cases h) he
  refine ⟨.step _ _ _ (.step _ _ _ h1 (.own j _ rfl (nothing_made _ _ (.inr ⟨_, _, rfl⟩))))
    (.own _ _ rfl (nothing_made _ _ (.inr ⟨_, _, rfl⟩))), fun n => ?_⟩
  have h3 := clock_tasks (f := Fec.toy) net.o net.overlay [.inner (rowId 1) (.task 0), .inner (rowId 2) (.task 0)] n (by
    intro m a ha
    simp only [List.mem_cons, Act.inner.injEq, List.not_mem_nil, or_false] at ha
    rcases ha with ⟨-, rfl⟩ | ⟨-, rfl⟩ <;> exact ⟨_, rfl⟩) j.world
  exact h3.trans ((h2 n).trans rfl)

theorem calm (j : Joint Bool Crypto.toy Fec.toy)
    (hnet : j.world.net = [⟨rowId 0, rowId 1, m0⟩, ⟨rowId 0, rowId 1, m1⟩, ⟨rowId 1, rowId 2, m0⟩])
    (hk : ∀ n, (j.world.node n).clock = 0) : telling.Calm net first.world j.world where
  fec := Fec.toy_lawful
  sized := FecSendExample.sized
  zstd := sampleEnv_lawful
  same _ := rfl
  overlay := show (leBytes 32 1).length = 32 by decide
  nonempty := show payload sampleEnv.z false [1] ≠ [] by decide
  size := show (payload sampleEnv.z false [1]).length ≤ 2000000 by decide
  size' := show [(1 : UInt8)].length < 2 ^ 32 by decide
  symbols n h := by
    show (Fec.toy.symbol (payload sampleEnv.z false [1]) n).length ≤ 768
    have : n < 1 := Nat.lt_of_lt_of_le h
      (show Fec.toy.count (payload sampleEnv.z false [1]) ≤ 1 by decide +kernel)
    obtain rfl : n = 0 := by omega
    decide +kernel
  enough := show Fec.toy.count (payload sampleEnv.z false [1]) ≤ 2 by decide
  dates d hd n := by
    show d + 60 < 2 ^ 32
    have : d ∈ [100, 101] := hd
    simp only [List.mem_cons, List.not_mem_nil, or_false] at this
    omega
  posted b hb y hy := by
    have hb' : b ∈ FecSendExample.parts := hb
    rw [parts_eq] at hb'
    have hy' : y ∈ [rowId 1] := hy
    simp only [List.mem_cons, List.not_mem_nil, or_false] at hb' hy'
    subst hy'
    rw [hnet]
    rcases hb' with rfl | rfl
    · exact List.mem_cons_self
    · exact List.mem_cons_of_mem _ List.mem_cons_self
  fresh m hm := absurd hm List.not_mem_nil
  ordinary m hm id b e now d src hr := by
    rw [hnet] at hm
    simp only [List.mem_cons, List.not_mem_nil, or_false] at hm
    rcases hm with rfl | rfl | rfl
    · rw [read0] at hr; cases hr
    · rw [read1] at hr; cases hr
    · rw [read0] at hr; cases hr
  genuine m hm b hc := by
    have hr := hc.1
    show b ∈ FecSendExample.parts ∧ _
    rw [parts_eq]
    rw [hnet] at hm
    simp only [List.mem_cons, List.not_mem_nil, or_false] at hm
    rcases hm with rfl | rfl | rfl
    · rw [read0] at hr; cases hr; exact ⟨List.mem_cons_self, rfl⟩
    · rw [read1] at hr; cases hr; exact ⟨List.mem_cons_of_mem _ List.mem_cons_self, rfl⟩
    · rw [read0] at hr; cases hr; exact ⟨List.mem_cons_self, rfl⟩
  brisk n := by
    rw [hk n]
    show 0 < 0 + 1000 * 60
    omega

theorem intime (j : Joint Bool Crypto.toy Fec.toy) (hheard : j.heard = [(true, false, m0, 135), (false, false, m0, 132)])
    (hlog : ∀ i, (j.talk i).log false = [])
    (hlog' : ∀ i l p d y, (Event.custom l p d, y) ∈ (j.talk i).log true → d = m0) : telling.InTime net j := by
  rintro i b d p hp ⟨y, hy⟩
  cases b with
  | true =>
    rw [Bool.not_true, hlog i] at hy
    cases hy
  | false =>
    obtain rfl := hlog' i _ _ _ _ hy
    have hdate : p.date = 100 := by
      have hr := hp.1
      rw [show net.overlay = leBytes 32 1 from rfl, read0] at hr
      cases hr
      decide +kernel
    rw [hheard, hdate]
    cases i with
    | false => exact ⟨132, List.mem_cons_of_mem _ (List.mem_singleton.mpr rfl), show 132 ≤ 100 + 60 by decide⟩
    | true => exact ⟨135, List.mem_cons_self, show 135 ≤ 100 + 60 by decide⟩

theorem start_from (i : Bool) : FromOverlay net (World.init Crypto.toy Fec.toy) i (rowTalk i) := by
  intro b d h; cases h

theorem connected : Connected rowChoice telling.n0 (rowId 2) :=
  .next (.next .start (show rowId 1 ∈ rowChoice (rowId 0) by decide +kernel)) (show rowId 2 ∈ rowChoice (rowId 1) by decide +kernel)

/-- C127_reached: the last member gets the broadcast of the first by way of the second. -/
example : ∃ j d, middle = some j ∧ telling.got (rowId 2) (finish j) = [d] ∧ Crypto.toy.sha d.data = Crypto.toy.sha [1] ∧
    d.source = Node.shortId Crypto.toy (Crypto.toy.pubOf (5 : UInt8)) := by
  obtain ⟨j, he, hnet, hheard, hset, htalk⟩ := spec
  obtain ⟨hr, hk⟩ := run (telling.Draws net rowChoice) (fun m _ chosen h _ _ => of_decide_eq_true h) j he
  have hcar : telling.Complete net (Came net (finish j).talk) (finish j).world := by
    intro m hm b hb hj
    rw [hnet] at hm
    have carried : ∀ i, SentOnce ((finish j).talk i) false (.custom m0) 0 (some 40) ∧ ¬ net.G i (.custom m0) ∧
        AllHere ((finish j).talk i) false 0 := by
      intro i
      obtain ⟨g1, g2, g3, -⟩ := htalk i
      refine ⟨⟨by rw [g1]; rfl, ?_⟩, fun h => h, ?_⟩
      · intro k' a' hk
        rw [g1] at hk
        obtain ⟨h, -⟩ := List.getElem?_eq_some_iff.mp hk
        simp only [List.length_cons, List.length_nil] at h
        omega
      · intro i' hi
        rw [g2] at hi
        obtain ⟨h, -⟩ := List.getElem?_eq_some_iff.mp hi
        simp only [List.length_cons, List.length_nil] at h
        rw [g3]
        exact List.mem_singleton.mpr (by omega)
    simp only [List.mem_cons, List.not_mem_nil, or_false] at hm
    rcases hm with rfl | rfl | rfl
    · exact .inr ⟨false, false, 0, some 40, rfl, rfl, carried false⟩
    · exact absurd hj (late1 (k := 2) (rest := []) (x := rowId 0) (y := rowId 1) hb)
    · exact .inr ⟨true, false, 0, some 40, rfl, rfl, carried true⟩
  obtain ⟨d, h⟩ := C127_reached net net_sound start_from telling rowChoice (by decide +kernel) first (finish j) (.refl _) hr
    (calm (finish j) hnet hk) hcar (intime (finish j) hheard (fun i => (htalk i).2.2.2.1) fun i => (htalk i).2.2.2.2) (rowId 2)
    connected (by decide +kernel) hset
  exact ⟨j, d, he, h⟩

/-- C127_at_most_once: the second member in the same run. -/
example : ∃ j, middle = some j ∧ (telling.got (rowId 1) (finish j)).length ≤ 1 := by
  obtain ⟨j, he, hnet, -⟩ := spec
  obtain ⟨hr, hk⟩ := run (fun _ _ _ => True) (fun _ _ _ _ => trivial) j he
  exact ⟨j, he, C127_at_most_once net net_sound start_from telling first (finish j) (.refl _) hr (calm (finish j) hnet hk) (rowId 1)⟩

end FecRow

end Verif.Mesh
