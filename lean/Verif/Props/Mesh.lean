import Verif.Props.UpperSizes
import Verif.Props.Gossip
import Verif.Props.Runs

/-!
# C126: broadcasts over ADNL connections

The members of an overlay (C113), with an ADNL connection (C111) for each pair of neighbours: the letters of a member
are custom messages of its connections (overlay.rs:1114-1131), and custom messages that arrive are given to
`try_consume_custom` (overlay/node.rs:138-170).
-/
namespace Verif.Mesh
open Verif.Adnl Verif.AdnlProto Verif.Process Verif.Delivery Verif.RoundTrip Verif.LongTrip Verif.Rldp
open Verif.Overlay Verif.Gossip

variable {ι : Type} {c : Crypto} {f : Fec}

/-! ### The system -/

/-- The connections with the messages they carry (`M`, `G` as in C111) and the states in which they start, the
options of the members and the overlay. -/
structure Net (ι : Type) (c : Crypto) where
  pair : ι → Pair c
  M : ι → AdnlProto.Message → Prop
  G : ι → AdnlProto.Message → Prop
  start : ι → Talk c
  o : Bytes → Opts
  overlay : Bytes

/-- The conditions of C111 on each connection. -/
structure Net.Sound (x : Net ι c) : Prop where
  lawful : c.Lawful
  fits : ∀ ℓ, (x.pair ℓ).Fits
  apart : ∀ ℓ, Apart c.sha (x.M ℓ)
  start : ∀ ℓ, TStart (x.pair ℓ) (x.M ℓ) (x.start ℓ)

/-- All connections, all members, what the members did, and which messages were given to them: connection, sending
side, message and time. -/
structure Joint (ι : Type) (c : Crypto) (f : Fec) where
  talk : ι → Talk c
  world : World c f
  did : List (Bytes × Action × Out)
  heard : List (ι × Bool × Bytes × Nat)

/-- A message for overlays. -/
def IsOverlay (d : Bytes) : Prop := d.take 4 = Tl.writeU32 messageId

/-- The overlay messages handed to a connection are letters of the member at this end to the one at the other. -/
def FromOverlay (x : Net ι c) (w : World c f) (ℓ : ι) (ρ : Talk c) : Prop :=
  ∀ b d, AdnlProto.Message.custom d ∈ ρ.told b → IsOverlay d → ⟨(x.pair ℓ).id b, (x.pair ℓ).id !b, d⟩ ∈ w.net

/-- A member gets a message: its step, what it passes on, and what can be seen of it. -/
def hear (o : Bytes → Opts) (overlay : Bytes) (w : World c f) (m : Letter) (now : Nat) (chosen : List Bytes) :
    World c f × List (Bytes × Action × Out) :=
  match reaction overlay m now with
  | none => (w, [])
  | some (n, a) =>
    let r := Overlay.step c f (o n).env (w.node n) a
    ({ w.update n r.1 with
        net := w.net ++ if r.2.forwarded then (onwardTo (o n) chosen m.src a).map fun t => ⟨n, t, m.msg⟩ else [] },
      [(n, a, r.2)])

/-- `Q` is a condition on what members do by themselves, `D` one on what they draw on getting a message. A message
that arrived may be processed late, or more than once. -/
inductive JStep (x : Net ι c) (Q : World c f → Act c → Prop) (D : Letter → Nat → List Bytes → Prop) :
    Joint ι c f → Joint ι c f → Prop
  /-- a member sends a broadcast, a timer of it ends, or somebody sends something else -/
  | own (j : Joint ι c f) (a : Act c) : isDelivery a = false → Q j.world a →
      JStep x Q D j { j with
        world := Gossip.step c f x.o x.overlay j.world a
        did := j.did ++ events x.o x.overlay j.world [a] }
  /-- a step of a connection: something is sent, a datagram arrives, or something unrelated happens -/
  | adnl (j : Joint ι c f) (ℓ : ι) (talk : ι → Talk c) :
      TStep (x.pair ℓ) (x.M ℓ) (x.G ℓ) (j.talk ℓ) (talk ℓ) → (∀ ℓ', ℓ' ≠ ℓ → talk ℓ' = j.talk ℓ') →
      FromOverlay x j.world ℓ (talk ℓ) → JStep x Q D j { j with talk := talk }
  /-- a custom message of side `b` that arrived is given to the overlay -/
  | hear (j : Joint ι c f) (ℓ : ι) (b : Bool) (l p d : Bytes) (y : Process.Reply) (now : Nat) (chosen : List Bytes) :
      (Event.custom l p d, y) ∈ (j.talk ℓ).log (!b) → IsOverlay d → D ⟨p, l, d⟩ now chosen →
      JStep x Q D j { j with
        world := (hear x.o x.overlay j.world ⟨p, l, d⟩ now chosen).1
        did := j.did ++ (hear x.o x.overlay j.world ⟨p, l, d⟩ now chosen).2
        heard := (ℓ, b, d, now) :: j.heard }

inductive JRun (x : Net ι c) (Q : World c f → Act c → Prop) (D : Letter → Nat → List Bytes → Prop) :
    Joint ι c f → Joint ι c f → Prop
  | refl (j : Joint ι c f) : JRun x Q D j j
  | step (j₁ j₂ j₃ : Joint ι c f) : JRun x Q D j₁ j₂ → JStep x Q D j₂ j₃ → JRun x Q D j₁ j₃

/-! ### Letters -/

theorem events_append (o : Bytes → Opts) (ov : Bytes) (as bs : List (Act c)) : ∀ w : World c f,
    events o ov w (as ++ bs) = events o ov w as ++ events o ov (Gossip.run c f o ov w as) bs := by
  induction as with
  | nil => intro w; rfl
  | cons a as ih => intro w; rw [List.cons_append, events_cons, ih, events_cons, List.append_assoc]; rfl

/-- Getting a message is the delivery of the letter. -/
theorem hear_deliver (o : Bytes → Opts) (ov : Bytes) (w : World c f) (m : Letter) (now : Nat) (chosen : List Bytes)
    (k : Nat) (hk : w.net[k]? = some m) :
    hear o ov w m now chosen = (Gossip.step c f o ov w (.deliver k now chosen), events o ov w [.deliver k now chosen]) := by
  unfold hear
  simp only [Gossip.step, events, event, letters, hk, Option.bind_some]
  cases reaction ov m now with
  | none => simp
  | some p => simp [World.update]

theorem hear_net (o : Bytes → Opts) (ov : Bytes) (w : World c f) (m l : Letter) (now : Nat) (chosen : List Bytes)
    (h : l ∈ w.net) : l ∈ (hear o ov w m now chosen).1.net := by
  unfold hear
  split
  · exact h
  · exact List.mem_append_left _ h

theorem FromOverlay.mono {x : Net ι c} {w w' : World c f} {ℓ : ι} {ρ : Talk c} (h : FromOverlay x w ℓ ρ)
    (hn : ∀ l ∈ w.net, l ∈ w'.net) : FromOverlay x w' ℓ ρ := fun b d h1 h2 => hn _ (h b d h1 h2)

/-- What happens is a run of the overlay alone: every message a member gets is one that another member sent. -/
structure Refines (x : Net ι c) (Q : World c f → Act c → Prop) (D : Letter → Nat → List Bytes → Prop)
    (j j' : Joint ι c f) (acts : List (Act c)) : Prop where
  world : j'.world = Gossip.run c f x.o x.overlay j.world acts
  did : j'.did = j.did ++ events x.o x.overlay j.world acts
  allowed : ∀ pre a post, acts = pre ++ a :: post → isDelivery a = false ∧ Q (Gossip.run c f x.o x.overlay j.world pre) a ∨
    ∃ k now chosen m, a = .deliver k now chosen ∧ (Gossip.run c f x.o x.overlay j.world pre).net[k]? = some m ∧ D m now chosen
  heard : ∀ ℓ b d now, (ℓ, b, d, now) ∈ j'.heard → (ℓ, b, d, now) ∈ j.heard ∨
    ∃ k, j'.world.net[k]? = some ⟨(x.pair ℓ).id b, (x.pair ℓ).id !b, d⟩ ∧ Arrives x.o x.overlay j.world acts k now
  goes : ∀ ℓ, Goes (x.pair ℓ) (x.M ℓ) (x.G ℓ) (x.start ℓ) (j'.talk ℓ)
  «from» : ∀ ℓ, FromOverlay x j'.world ℓ (j'.talk ℓ)

theorem arrives_more {o : Bytes → Opts} {ov : Bytes} {w : World c f} {as bs : List (Act c)} {k now : Nat}
    (h : Arrives o ov w as k now) : Arrives o ov w (as ++ bs) k now := by
  obtain ⟨pre, ch, post, rfl, h2⟩ := h
  exact ⟨pre, ch, post ++ bs, by simp, h2⟩

theorem split_snoc {α : Type} {as pre post : List α} {a b : α} (h : as ++ [b] = pre ++ a :: post) :
    (pre = as ∧ a = b ∧ post = []) ∨ ∃ post', post = post' ++ [b] ∧ as = pre ++ a :: post' := by
  rcases List.eq_nil_or_concat post with rfl | ⟨post', y, rfl⟩
  · have := List.append_inj' h rfl
    exact .inl ⟨this.1.symm, by simpa using this.2.symm, rfl⟩
  · rw [List.concat_eq_append, ← List.cons_append, ← List.append_assoc] at h
    have := List.append_inj' h rfl
    refine .inr ⟨post', ?_, this.1⟩
    rw [List.concat_eq_append]
    congr 1
    exact this.2.symm

theorem refines (x : Net ι c) (hx : x.Sound) (Q : World c f → Act c → Prop) (D : Letter → Nat → List Bytes → Prop)
    (j j' : Joint ι c f) (h : JRun x Q D j j') (hg : ∀ ℓ, Goes (x.pair ℓ) (x.M ℓ) (x.G ℓ) (x.start ℓ) (j.talk ℓ))
    (hf : ∀ ℓ, FromOverlay x j.world ℓ (j.talk ℓ)) : ∃ acts, Refines x Q D j j' acts := by
  induction h with
  | refl => exact ⟨[], rfl, by simp [events], by simp, fun _ _ _ _ h => .inl h, hg, hf⟩
  | step j₂ j₃ hr hs ih =>
    obtain ⟨acts, hR⟩ := ih
    cases hs with
    | own a ha hQ =>
      refine ⟨acts ++ [a], ?_, ?_, ?_, ?_, hR.goes, ?_⟩
      · show Gossip.step c f x.o x.overlay j₂.world a = _
        rw [Gossip.run_append, ← hR.world]; rfl
      · show j₂.did ++ events x.o x.overlay j₂.world [a] = _
        rw [hR.did, List.append_assoc, events_append, ← hR.world]
      · intro pre a' post he
        rcases split_snoc he with ⟨rfl, rfl, rfl⟩ | ⟨post', rfl, h'⟩
        · rw [← hR.world]; exact .inl ⟨ha, hQ⟩
        · exact hR.allowed pre a' post' h'
      · intro ℓ b d now hh
        rcases hR.heard ℓ b d now hh with h' | ⟨k, h1, h2⟩
        · exact .inl h'
        · refine .inr ⟨k, ?_, arrives_more h2⟩
          show (Gossip.step c f x.o x.overlay j₂.world a).net[k]? = _
          rw [net_step, List.getElem?_append_left (List.getElem?_eq_some_iff.mp h1).1]
          exact h1
      · intro ℓ
        refine (hR.from ℓ).mono ?_
        intro l hl
        show l ∈ (Gossip.step c f x.o x.overlay j₂.world a).net
        rw [net_step]
        exact List.mem_append_left _ hl
    | adnl ℓ talk ht hoth hfr =>
      refine ⟨acts, hR.world, hR.did, hR.allowed, hR.heard, ?_, ?_⟩
      · intro ℓ'
        by_cases he : ℓ' = ℓ
        · subst he
          exact .step _ _ _ (hR.goes ℓ') ht
        · show Goes _ _ _ _ (talk ℓ')
          rw [hoth ℓ' he]
          exact hR.goes ℓ'
      · intro ℓ'
        by_cases he : ℓ' = ℓ
        · subst he
          exact hfr
        · show FromOverlay x j₂.world ℓ' (talk ℓ')
          rw [hoth ℓ' he]
          exact hR.from ℓ'
    | hear ℓ b l p d y now chosen hl hd hD =>
      have hsrc : l = (x.pair ℓ).id (!b) ∧ p = (x.pair ℓ).id b ∧ AdnlProto.Message.custom d ∈ (j₂.talk ℓ).told b := by
        rcases C111_nothing_made_up hx.lawful (x.pair ℓ) (hx.fits ℓ) (x.M ℓ) (x.G ℓ) (hx.apart ℓ) _ _ (hx.start ℓ) (hR.goes ℓ)
          (!b) _ _ hl with ⟨_, _, h, -⟩ | ⟨_, h, g⟩ | ⟨_, _, _, h, -⟩
        · cases h
        · cases h
          rw [Bool.not_not] at g ⊢
          exact ⟨rfl, rfl, g⟩
        · cases h
      obtain ⟨rfl, rfl, ht⟩ := hsrc
      obtain ⟨k, hk⟩ := List.mem_iff_getElem?.mp (hR.from ℓ b d ht hd)
      have hkl := (List.getElem?_eq_some_iff.mp hk).1
      have he := hear_deliver x.o x.overlay j₂.world _ now chosen k hk
      refine ⟨acts ++ [.deliver k now chosen], ?_, ?_, ?_, ?_, hR.goes, ?_⟩
      · show (hear _ _ _ _ _ _).1 = _
        rw [Gossip.run_append, ← hR.world, he]; rfl
      · show j₂.did ++ (hear _ _ _ _ _ _).2 = _
        rw [hR.did, List.append_assoc, events_append, ← hR.world, he]
      · intro pre a' post hs
        rcases split_snoc hs with ⟨rfl, rfl, rfl⟩ | ⟨post', rfl, h'⟩
        · rw [← hR.world]; exact .inr ⟨k, now, chosen, _, rfl, hk, hD⟩
        · exact hR.allowed pre a' post' h'
      · intro ℓ' b' d' now' hh
        have hnet : ∀ (k' : Nat) (m' : Letter), j₂.world.net[k']? = some m' →
            (hear x.o x.overlay j₂.world ⟨(x.pair ℓ).id b, (x.pair ℓ).id !b, d⟩ now chosen).1.net[k']? = some m' := by
          intro k' m' h1
          rw [he]
          show (Gossip.step c f x.o x.overlay j₂.world _).net[k']? = _
          rw [net_step, List.getElem?_append_left (List.getElem?_eq_some_iff.mp h1).1]
          exact h1
        rcases List.mem_cons.mp hh with hh | hh
        · cases hh
          refine .inr ⟨k, hnet k _ hk, acts, chosen, [], rfl, ?_⟩
          rw [← hR.world]
          exact hkl
        · rcases hR.heard ℓ' b' d' now' hh with h' | ⟨k', h1, h2⟩
          · exact .inl h'
          · exact .inr ⟨k', hnet k' _ h1, arrives_more h2⟩
      · intro ℓ'
        exact (hR.from ℓ').mono (fun l hl => hear_net _ _ _ _ _ _ _ hl)

/-! ### The property -/

/-- An ordinary broadcast: who sends it, when, with which key and to whom. -/
structure Telling (c : Crypto) where
  z : Zstd
  n0 : Bytes
  date : Nat
  sec : c.Sec
  data : Bytes
  targets : List Bytes

namespace Telling
variable (t : Telling c) (x : Net ι c)

def scene (before after : List (Act c)) : Scene c :=
  ⟨x.o, t.z, x.overlay, before, t.n0, t.date, t.sec, t.data, t.targets, after⟩

def broadcast : Ordinary := ordinaryOf c t.z (x.o t.n0).compressing t.date t.sec t.data
/-- The message of the broadcast. -/
def msg : Bytes := messageOf c t.z (x.o t.n0).compressing x.overlay t.date t.sec t.data
def bid : Bytes := ordinaryId c t.data t.date
/-- What the applications should get. -/
def content : Delivery := ⟨1, t.data, Node.shortId c (c.pubOf t.sec)⟩

/-- The broadcast is sent. The records of what is done and heard start here. -/
def tell (j : Joint ι c f) : Joint ι c f :=
  ⟨j.talk, Gossip.step c f x.o x.overlay j.world (.tell t.n0 t.date t.sec t.data t.targets), [], []⟩

/-- Nobody makes up letters with the broadcast, or another broadcast of the same data in the same second. -/
def Alone (w : World c f) (a : Act c) : Prop :=
  (∀ m ∈ letters c f x.o x.overlay w a, m.msg ≠ t.msg x) ∧
  ∀ n now sec data ts, a = .tell n now sec data ts → ordinaryId c data now ≠ t.bid

/-- The circumstances, as in C113. -/
structure Calm (w₁ w₂ : World c f) : Prop where
  zstd : t.z.Lawful
  same : ∀ n, (x.o n).env.z = t.z
  overlay : x.overlay.length = 32
  size : (payload t.z (x.o t.n0).compressing t.data).length < 2 ^ 24
  size' : t.data.length < 2 ^ 32
  date : ∀ n, t.date + (x.o n).env.timeout < 2 ^ 32
  unmistakable : Unmistakable c t.z t.sec t.data t.date
  fresh : ∀ n, t.bid ∉ (w₁.node n).owned.keys
  alone : ∀ m ∈ w₁.net, m.msg ≠ t.msg x
  other : ∀ m ∈ w₂.net, m.msg ≠ t.msg x → Unrelated c t.bid m.msg
  brisk : ∀ n, (w₂.node n).clock < (w₁.node n).clock + 1000 * (x.o n).env.timeout

/-- What a member gave to its application for the broadcast. -/
def got (n : Bytes) (j : Joint ι c f) : List Delivery :=
  j.did.filterMap fun e => match e with
    | (m, .ordinary _ b, out) => if m = n ∧ b = t.broadcast x then out.delivered else none
    | _ => none

theorem tell_world (j : Joint ι c f) : (t.tell x j).world =
    Gossip.step c f x.o x.overlay j.world (.tell t.n0 t.date t.sec t.data t.targets) := rfl

end Telling

theorem got_given (t : Telling c) (x : Net ι c) (n : Bytes) (j : Joint ι c f) (w : World c f) (as : List (Act c))
    (h : j.did = events x.o x.overlay w as) : t.got x n j = Gossip.given x.o x.overlay (t.broadcast x) n w as := by
  unfold Telling.got Gossip.given eventsOf
  rw [h, List.filterMap_filterMap]
  refine List.filterMap_congr ?_
  rintro ⟨m, a, out⟩ _
  by_cases hm : m = n
  · cases a <;> simp [hm]
  · cases a <;> simp [hm]

theorem started_zero (t : Telling c) (x : Net ι c) (as : List (Act c)) : ∀ w : World c f,
    (∀ pre a post, as = pre ++ a :: post → isDelivery a = false →
      ∀ m ∈ letters c f x.o x.overlay (Gossip.run c f x.o x.overlay w pre) a, m.msg ≠ t.msg x) →
    started x.o x.overlay (t.msg x) w as = 0 := by
  induction as with
  | nil => intro w _; rfl
  | cons a as ih =>
    intro w h
    simp only [started]
    have h1 := ih (Gossip.step c f x.o x.overlay w a) (fun pre a' post he => h (a :: pre) a' post (by rw [he]; rfl))
    rw [h1, Nat.add_zero]
    split
    · rfl
    · rename_i hd
      rw [List.countP_eq_zero]
      intro m hm
      have := h [] a as rfl (by simpa using hd) m hm
      simpa using this

/-- The run of the overlay alone in which the broadcast spreads. -/
theorem scene_of (x : Net ι c) (hx : x.Sound) (t : Telling c) (D : Letter → Nat → List Bytes → Prop)
    (hf : ∀ ℓ, FromOverlay x (World.init c f) ℓ (x.start ℓ)) (j₁ j₂ : Joint ι c f)
    (h1 : JRun x (fun _ _ => True) (fun _ _ _ => True) ⟨x.start, World.init c f, [], []⟩ j₁)
    (h2 : JRun x (t.Alone x) D (t.tell x j₁) j₂) (hcalm : t.Calm x j₁.world j₂.world) :
    ∃ before after, (t.scene x before after).Calm f ∧ j₁.world = (t.scene x before after).world f ∧
      Refines x (t.Alone x) D (t.tell x j₁) j₂ after := by
  obtain ⟨before, hB⟩ := refines x hx _ _ _ _ h1 (fun ℓ => .refl _) hf
  obtain ⟨after, hA⟩ := refines x hx _ _ _ _ h2 hB.goes (fun ℓ => (hB.from ℓ).mono (by
    intro l hl
    show l ∈ (Gossip.step c f x.o x.overlay j₁.world _).net
    rw [net_step]
    exact List.mem_append_left _ hl))
  have hw : j₁.world = (t.scene x before after).world f := hB.world
  have ht : (t.tell x j₁).world = (t.scene x before after).told f := by
    rw [t.tell_world, hw]; rfl
  have hfin : j₂.world = (t.scene x before after).final f := by
    rw [hA.world, ht]; rfl
  refine ⟨before, after, ?_, hw, hA⟩
  exact {
    lawful := hx.lawful
    zstd := hcalm.zstd
    same := hcalm.same
    overlay := hcalm.overlay
    size := hcalm.size
    size' := hcalm.size'
    date := hcalm.date
    unmistakable := hcalm.unmistakable
    fresh := by rw [← hw]; exact hcalm.fresh
    alone := by
      refine ⟨by rw [← hw]; exact hcalm.alone, ?_⟩
      refine started_zero t x after _ ?_
      intro pre a post he hd
      rcases hA.allowed pre a post he with ⟨-, hQ⟩ | ⟨k, now, chosen, m, rfl, -⟩
      · rw [ht] at hQ; exact hQ.1
      · cases hd
    tell := by
      intro n now sec data ts hm
      obtain ⟨pre, post, he⟩ := List.append_of_mem hm
      rcases hA.allowed pre _ post he with ⟨-, hQ⟩ | ⟨k, now, chosen, m, h, -⟩
      · exact hQ.2 n now sec data ts rfl
      · cases h
    other := by rw [← hfin]; exact hcalm.other
    brisk := by rw [← hfin, ← hw]; exact hcalm.brisk }

/-- C126: the members of an overlay are connected by any number of ADNL connections, over a network that loses,
repeats, reorders and delays datagrams. Nobody gets an ordinary broadcast twice or gets anything else for it, and its
sender does not get it. -/
theorem C126_at_most_once (x : Net ι c) (hx : x.Sound) (hf : ∀ ℓ, FromOverlay x (World.init c f) ℓ (x.start ℓ))
    (t : Telling c) (j₁ j₂ : Joint ι c f)
    (h1 : JRun x (fun _ _ => True) (fun _ _ _ => True) ⟨x.start, World.init c f, [], []⟩ j₁)
    (h2 : JRun x (t.Alone x) (fun _ _ _ => True) (t.tell x j₁) j₂) (hcalm : t.Calm x j₁.world j₂.world) (n : Bytes) :
    t.got x n j₂ = [] ∨ (n ≠ t.n0 ∧ t.got x n j₂ = [t.content]) := by
  obtain ⟨before, after, hC, hw, hR⟩ := scene_of x hx t _ hf j₁ j₂ h1 h2 hcalm
  have hdid : j₂.did = events x.o x.overlay ((t.scene x before after).told f) after := by
    rw [hR.did, t.tell_world, hw]; rfl
  rw [got_given t x n j₂ _ after hdid]
  exact C113_at_most_once (t.scene x before after) f hC n

/-- What arrived of the broadcast was given to the overlay in time. -/
def InTime (x : Net ι c) (t : Telling c) (j : Joint ι c f) : Prop :=
  ∀ ℓ b, LongTrip.Heard (x.pair ℓ) (j.talk ℓ) b (t.msg x) →
    ∃ now, (ℓ, b, t.msg x, now) ∈ j.heard ∧ now ≤ t.date + (x.o ((x.pair ℓ).id !b)).env.timeout

/-- Whenever the broadcast is received, what is drawn includes `choice`, but for the one it came from. -/
def Draws (x : Net ι c) (t : Telling c) (choice : Bytes → List Bytes) (m : Letter) (_now : Nat) (chosen : List Bytes) : Prop :=
  m.msg = t.msg x → ∀ y ∈ choice m.dst, y ≠ m.src → y ∈ Overlay.targets chosen (x.o m.dst).onward (some m.src)

/-- One datagram of the message of the letter has arrived. -/
def OneHere (x : Net ι c) (talk : ι → Talk c) (m : Letter) : Prop :=
  ∃ ℓ b k a i, m.src = (x.pair ℓ).id b ∧ m.dst = (x.pair ℓ).id (!b) ∧
    ((talk ℓ).sends b)[k]? = some (.custom m.msg, a) ∧ ((talk ℓ).src b)[i]? = some k ∧ i ∈ (talk ℓ).seen b

/-- All datagrams of the message of the letter, sent once, have arrived, and its parts are not given up. -/
def Arrived (x : Net ι c) (talk : ι → Talk c) (m : Letter) : Prop :=
  ∃ ℓ b k a, m.src = (x.pair ℓ).id b ∧ m.dst = (x.pair ℓ).id (!b) ∧
    SentOnce (talk ℓ) b (.custom m.msg) k a ∧ ¬ x.G ℓ (.custom m.msg) ∧ AllHere (talk ℓ) b k

/-- C126, full statement: an ordinary broadcast reaches everybody who is connected with the sender by the choices of the
members, exactly once, as soon as all datagrams of its letters have arrived. -/
def C126_full : Prop := ∀ (ι : Type) (c : Crypto) (f : Fec) (x : Net ι c), x.Sound →
  (∀ ℓ, FromOverlay x (World.init c f) ℓ (x.start ℓ)) → ∀ (t : Telling c) (choice : Bytes → List Bytes),
  (∀ y ∈ choice t.n0, y ∈ t.targets) → ∀ j₁ j₂ : Joint ι c f,
  JRun x (fun _ _ => True) (fun _ _ _ => True) ⟨x.start, World.init c f, [], []⟩ j₁ →
  JRun x (t.Alone x) (Draws x t choice) (t.tell x j₁) j₂ → t.Calm x j₁.world j₂.world →
  (∀ m ∈ j₂.world.net, m.msg = t.msg x → Arrived x j₂.talk m) → InTime x t j₂ →
  ∀ n, Connected choice t.n0 n → n ≠ t.n0 → t.got x n j₂ = [t.content]

/-- When all letters are heard. -/
theorem reached_heard (x : Net ι c) (hx : x.Sound) (hf : ∀ ℓ, FromOverlay x (World.init c f) ℓ (x.start ℓ))
    (t : Telling c) (choice : Bytes → List Bytes) (hsrc : ∀ y ∈ choice t.n0, y ∈ t.targets) (j₁ j₂ : Joint ι c f)
    (h1 : JRun x (fun _ _ => True) (fun _ _ _ => True) ⟨x.start, World.init c f, [], []⟩ j₁)
    (h2 : JRun x (t.Alone x) (Draws x t choice) (t.tell x j₁) j₂) (hcalm : t.Calm x j₁.world j₂.world)
    (hcar : (∀ ℓ, Goes (x.pair ℓ) (x.M ℓ) (x.G ℓ) (x.start ℓ) (j₂.talk ℓ)) → ∀ m ∈ j₂.world.net, m.msg = t.msg x →
      ∃ ℓ b, m.src = (x.pair ℓ).id b ∧ m.dst = (x.pair ℓ).id (!b) ∧ LongTrip.Heard (x.pair ℓ) (j₂.talk ℓ) b (t.msg x))
    (htime : InTime x t j₂) (n : Bytes) (hcon : Connected choice t.n0 n) (hn : n ≠ t.n0) : t.got x n j₂ = [t.content] := by
  obtain ⟨before, after, hC, hw, hR⟩ := scene_of x hx t _ hf j₁ j₂ h1 h2 hcalm
  have ht : (t.tell x j₁).world = (t.scene x before after).told f := by
    rw [t.tell_world, hw]; rfl
  have hfin : j₂.world = (t.scene x before after).final f := by
    rw [hR.world, ht]; rfl
  have hdid : j₂.did = events x.o x.overlay ((t.scene x before after).told f) after := by
    rw [hR.did, ht]; rfl
  rw [got_given t x n j₂ _ after hdid]
  refine C113_reached_partial (t.scene x before after) f hC ?_ choice hsrc ?_ n hcon hn
  · intro m hm hmm
    rw [← hfin] at hm
    have hmm' : m.msg = t.msg x := hmm
    obtain ⟨ℓ, b, e1, e2, hheard⟩ := hcar hR.goes m hm hmm'
    obtain ⟨now, hin, hnow⟩ := htime ℓ b hheard
    rcases hR.heard ℓ b _ now hin with h | ⟨k', g1, g2⟩
    · cases h
    · refine ⟨k', now, ?_, ?_, ?_⟩
      · rw [← hfin, g1]
        congr 1
        rw [← e1, ← e2, ← hmm']
      · rw [ht] at g2; exact g2
      · rw [e2]; exact hnow
  · intro k now chosen m hk hm hmm
    obtain ⟨pre, post, he⟩ := List.append_of_mem hk
    rcases hR.allowed pre _ post he with ⟨hd, -⟩ | ⟨k', now', chosen', m', h, g1, g2⟩
    · cases hd
    · cases h
      rw [ht] at g1
      have hkl := (List.getElem?_eq_some_iff.mp g1).1
      have he2 : ((t.scene x before after).final f).net[k]? = some m' := by
        have he' : (t.scene x before after).after = pre ++ .deliver k now chosen :: post := he
        unfold Scene.final
        rw [he', Gossip.run_append]
        exact (net_get _ _ k hkl).trans g1
      rw [he2] at hm
      cases hm
      exact g2 hmm

theorem msg_length (x : Net ι c) (hx : x.Sound) (t : Telling c) (ho : x.overlay.length = 32) :
    (t.msg x).length = 156 + (Tl.writeBytes (payload t.z (x.o t.n0).compressing t.data)).length :=
  ordinary_length hx.lawful t.z (x.o t.n0).compressing t.date t.sec t.data x.overlay ho

/-- C126, partial: with at most 768 bytes of data, compressed if compression is on, an ordinary broadcast reaches everybody
who is connected with the sender by the choices of the members, exactly once, as soon as one datagram of each of its
letters has arrived, however often it is sent and whatever is given up. -/
theorem C126_short_partial (x : Net ι c) (hx : x.Sound) (hf : ∀ ℓ, FromOverlay x (World.init c f) ℓ (x.start ℓ))
    (t : Telling c) (choice : Bytes → List Bytes) (hsrc : ∀ y ∈ choice t.n0, y ∈ t.targets) (j₁ j₂ : Joint ι c f)
    (h1 : JRun x (fun _ _ => True) (fun _ _ _ => True) ⟨x.start, World.init c f, [], []⟩ j₁)
    (h2 : JRun x (t.Alone x) (Draws x t choice) (t.tell x j₁) j₂) (hcalm : t.Calm x j₁.world j₂.world)
    (hlen : (payload t.z (x.o t.n0).compressing t.data).length ≤ 768)
    (hcar : ∀ m ∈ j₂.world.net, m.msg = t.msg x → OneHere x j₂.talk m) (htime : InTime x t j₂)
    (n : Bytes) (hcon : Connected choice t.n0 n) (hn : n ≠ t.n0) : t.got x n j₂ = [t.content] := by
  refine reached_heard x hx hf t choice hsrc j₁ j₂ h1 h2 hcalm ?_ htime n hcon hn
  intro hgoes m hm hmm
  obtain ⟨ℓ, b, k, a, i, e1, e2, hk, hi, hs⟩ := hcar m hm hmm
  rw [hmm] at hk
  refine ⟨ℓ, b, e1, e2, heard_iff.mp (C111_one_datagram hx.lawful (x.pair ℓ) (hx.fits ℓ) (x.M ℓ) (x.G ℓ) (hx.apart ℓ) _ _
    (hx.start ℓ) (hgoes ℓ) b _ k a hk ?_ i hi hs)⟩
  have g1 := sends_sizes hx.lawful (hx.fits ℓ) (hx.apart ℓ) (hx.start ℓ) (hgoes ℓ) hk
  have g2 := bytes_room hlen (by decide)
  have g3 := msg_length x hx t hcalm.overlay
  simp only [counted]
  omega

/-- C126, partial: the full statement for data of at most 1768 bytes, compressed if compression is on. Missing: longer
broadcasts, which never arrive. -/
theorem C126_reached_partial (x : Net ι c) (hx : x.Sound) (hf : ∀ ℓ, FromOverlay x (World.init c f) ℓ (x.start ℓ))
    (t : Telling c) (choice : Bytes → List Bytes) (hsrc : ∀ y ∈ choice t.n0, y ∈ t.targets) (j₁ j₂ : Joint ι c f)
    (h1 : JRun x (fun _ _ => True) (fun _ _ _ => True) ⟨x.start, World.init c f, [], []⟩ j₁)
    (h2 : JRun x (t.Alone x) (Draws x t choice) (t.tell x j₁) j₂) (hcalm : t.Calm x j₁.world j₂.world)
    (hlen : (payload t.z (x.o t.n0).compressing t.data).length ≤ 1768)
    (hcar : ∀ m ∈ j₂.world.net, m.msg = t.msg x → Arrived x j₂.talk m) (htime : InTime x t j₂)
    (n : Bytes) (hcon : Connected choice t.n0 n) (hn : n ≠ t.n0) : t.got x n j₂ = [t.content] := by
  refine reached_heard x hx hf t choice hsrc j₁ j₂ h1 h2 hcalm ?_ htime n hcon hn
  intro hgoes m hm hmm
  obtain ⟨ℓ, b, k, a, e1, e2, hO, hG, hall⟩ := hcar m hm hmm
  rw [hmm] at hO hG
  refine ⟨ℓ, b, e1, e2, heard_iff.mp (C111_arrives_partial hx.lawful (x.pair ℓ) (hx.fits ℓ) (x.M ℓ) (x.G ℓ) (hx.apart ℓ) _ _
    (hx.start ℓ) (hgoes ℓ) b _ k a hO hG hall ?_)⟩
  have g1 := sends_sizes hx.lawful (hx.fits ℓ) (hx.apart ℓ) (hx.start ℓ) (hgoes ℓ) hO.1
  have g2 := bytes_room hlen (by decide)
  have g3 := msg_length x hx t hcalm.overlay
  have g4 := bytes_room (d := t.msg x) (n := 1928) (by omega) (by decide)
  rw [custom_length]
  omega

/-! ### A computed run -/

inductive JCmd (ι : Type) where
  /-- letter `k` is handed to the connection -/
  | carry (ℓ : ι) (b : Bool) (now k : Nat)
  /-- a datagram arrives -/
  | bring (ℓ : ι) (b : Bool) (i now : Nat)
  /-- entry `i` of what arrived from side `b` is given to the overlay -/
  | hear (ℓ : ι) (b : Bool) (i now : Nat) (chosen : List Bytes)

section
variable [DecidableEq ι] (x : Net ι c) (key : c.Sec) (rand : Nat → Sender.Rand c) (msg : Bytes)
  (check : Letter → List Bytes → Bool)

instance (d : Bytes) : Decidable (IsOverlay d) := inferInstanceAs (Decidable (_ = _))

def Joint.put (j : Joint ι c f) (ℓ : ι) (ρ : Talk c) : Joint ι c f :=
  { j with talk := fun ℓ' => if ℓ' = ℓ then ρ else j.talk ℓ' }

def jexec1 (j : Joint ι c f) : JCmd ι → Option (Joint ι c f)
  | .carry ℓ b now k =>
    match j.world.net[k]? with
    | none => none
    | some l =>
      if l = ⟨(x.pair ℓ).id b, (x.pair ℓ).id !b, msg⟩ ∧ msg.length < 2 ^ 24 then
        (LongTrip.exec1 (x.pair ℓ) key rand (j.talk ℓ) (.tell b now (.custom msg))).map (j.put ℓ)
      else none
  | .bring ℓ b i now =>
    (LongTrip.exec1 (x.pair ℓ) key rand (j.talk ℓ) (.deliver b i now fun _ => .done)).map (j.put ℓ)
  | .hear ℓ b i now chosen =>
    match ((j.talk ℓ).log (!b))[i]? with
    | some (.custom l p d, _) =>
      if IsOverlay d ∧ check ⟨p, l, d⟩ chosen = true then
        some { j with
          world := (hear x.o x.overlay j.world ⟨p, l, d⟩ now chosen).1
          did := j.did ++ (hear x.o x.overlay j.world ⟨p, l, d⟩ now chosen).2
          heard := (ℓ, b, d, now) :: j.heard }
      else none
    | _ => none

def jexec (j : Joint ι c f) : List (JCmd ι) → Option (Joint ι c f)
  | [] => some j
  | y :: ys =>
    match jexec1 x key rand msg check j y with
    | none => none
    | some j' => jexec j' ys

theorem hear_clock (o : Bytes → Opts) (ov : Bytes) (w : World c f) (m : Letter) (now : Nat) (chosen : List Bytes) (n : Bytes) :
    ((hear o ov w m now chosen).1.node n).clock = (w.node n).clock := by
  unfold hear
  split
  · rfl
  · rename_i n' a hr
    have ha : isInner a = false := by
      unfold reaction at hr
      split at hr
      · split at hr <;> cases hr
        rfl
      · split at hr <;> cases hr
        rfl
      · cases hr
    show ((w.update n' _).node n).clock = _
    unfold World.update
    simp only
    split
    · rename_i hn
      subst hn
      exact clock_event ha
    · rfl

theorem exec1_told_tell {P : Pair c} {key : c.Sec} {rand : Nat → Sender.Rand c} {ρ ρ' : Talk c} {b : Bool} {now : Nat} {m : AdnlProto.Message}
    (h : LongTrip.exec1 P key rand ρ (.tell b now m) = some ρ') (b' : Bool) : ∀ y ∈ ρ'.told b', y ∈ ρ.told b' ∨ (b' = b ∧ y = m) := by
  rw [LongTrip.exec1] at h
  split at h
  · split at h
    · cases h
      intro y hy
      by_cases hb : b' = b
      · subst hb
        simp only [told, Establish.upd_self, List.mem_cons] at hy
        rcases hy with hy | hy
        · exact .inr ⟨rfl, hy⟩
        · exact .inl hy
      · simp only [told, Establish.upd, if_neg hb] at hy
        exact .inl hy
    · cases h
  · cases h

theorem exec1_told_deliver {P : Pair c} {key : c.Sec} {rand : Nat → Sender.Rand c} {ρ ρ' : Talk c} {b : Bool} {i now : Nat}
    {subs : Event → Process.Reply} (h : LongTrip.exec1 P key rand ρ (.deliver b i now subs) = some ρ') : ρ'.told = ρ.told := by
  rw [LongTrip.exec1] at h
  split at h
  · cases h
  · split at h
    · cases h; rfl
    · cases h

theorem put_self (j : Joint ι c f) (ℓ : ι) (ρ : Talk c) : (j.put ℓ ρ).talk ℓ = ρ := if_pos rfl

theorem jexec1_step (hv : ∀ ℓ b, ((x.pair ℓ).opts b).version = some 0) (hb : ∀ k, (rand k).bytes.length = 10)
    (hM : ∀ ℓ, x.M ℓ (.custom msg)) (Q : World c f → Act c → Prop) (D : Letter → Nat → List Bytes → Prop)
    (hD : ∀ m now chosen, check m chosen = true → D m now chosen) (j j' : Joint ι c f)
    (hf : ∀ ℓ, FromOverlay x j.world ℓ (j.talk ℓ)) (y : JCmd ι) (h : jexec1 x key rand msg check j y = some j') :
    JStep x Q D j j' ∧ (∀ ℓ, FromOverlay x j'.world ℓ (j'.talk ℓ)) ∧
      ∀ n, (j'.world.node n).clock = (j.world.node n).clock := by
  have keep : ∀ (ℓ : ι) (ρ : Talk c), FromOverlay x j.world ℓ ρ → ∀ ℓ', FromOverlay x j.world ℓ' ((j.put ℓ ρ).talk ℓ') := by
    intro ℓ ρ h ℓ'
    by_cases he : ℓ' = ℓ
    · subst he; rw [put_self]; exact h
    · have : (j.put ℓ ρ).talk ℓ' = j.talk ℓ' := if_neg he
      rw [this]; exact hf ℓ'
  cases y with
  | carry ℓ b now k =>
    rw [jexec1] at h
    split at h
    · cases h
    · rename_i l hl
      split at h
      · rename_i hc
        obtain ⟨ρ, he, rfl⟩ := Option.map_eq_some_iff.mp h
        have hf' : FromOverlay x j.world ℓ ρ := by
          intro b' d hd hm
          rcases exec1_told_tell he b' _ hd with hd | ⟨rfl, hd⟩
          · exact hf ℓ b' d hd hm
          · cases hd
            rw [← hc.1]
            exact List.mem_of_getElem? hl
        refine ⟨.adnl j ℓ _ ?_ (fun ℓ' hne => if_neg hne) (by rw [if_pos rfl]; exact hf'), keep ℓ ρ hf', fun _ => rfl⟩
        rw [if_pos rfl]
        exact exec1_goes (hv ℓ) _ _ key rand hb _ _ (.tell b now (.custom msg)) ⟨hc.2, hM ℓ⟩ he
      · cases h
  | bring ℓ b i now =>
    rw [jexec1] at h
    obtain ⟨ρ, he, rfl⟩ := Option.map_eq_some_iff.mp h
    have hf' : FromOverlay x j.world ℓ ρ := by
      intro b' d hd hm
      rw [exec1_told_deliver he] at hd
      exact hf ℓ b' d hd hm
    refine ⟨.adnl j ℓ _ ?_ (fun ℓ' hne => if_neg hne) (by rw [if_pos rfl]; exact hf'), keep ℓ ρ hf', fun _ => rfl⟩
    rw [if_pos rfl]
    exact exec1_goes (hv ℓ) _ _ key rand hb _ _ _ (by intro _ _ _ _ _ _ h; cases h) he
  | hear ℓ b i now chosen =>
    rw [jexec1] at h
    split at h
    · rename_i l p d y hl
      split at h
      · rename_i hc
        cases h
        exact ⟨.hear j ℓ b l p d y now chosen (List.mem_of_getElem? hl) hc.1 (hD _ _ _ hc.2),
          fun ℓ' => (hf ℓ').mono (fun l hl => hear_net _ _ _ _ _ _ _ hl), fun n => hear_clock ..⟩
      · cases h
    · cases h

theorem jexec_run (hv : ∀ ℓ b, ((x.pair ℓ).opts b).version = some 0) (hb : ∀ k, (rand k).bytes.length = 10)
    (hM : ∀ ℓ, x.M ℓ (.custom msg)) (Q : World c f → Act c → Prop) (D : Letter → Nat → List Bytes → Prop)
    (hD : ∀ m now chosen, check m chosen = true → D m now chosen) (ys : List (JCmd ι)) : ∀ (j₀ j j' : Joint ι c f),
    JRun x Q D j₀ j → (∀ ℓ, FromOverlay x j.world ℓ (j.talk ℓ)) → jexec x key rand msg check j ys = some j' →
    JRun x Q D j₀ j' ∧ ∀ n, (j'.world.node n).clock = (j.world.node n).clock := by
  induction ys with
  | nil => intro j₀ j j' h _ he; cases he; exact ⟨h, fun _ => rfl⟩
  | cons y ys ih =>
    intro j₀ j j' h hf he
    rw [jexec] at he
    split at he
    · cases he
    · rename_i j'' h1
      obtain ⟨k1, k2, k3⟩ := jexec1_step x key rand msg check hv hb hM Q D hD j j'' hf y h1
      obtain ⟨g1, g2⟩ := ih j₀ j'' j' (.step _ _ _ h k1) k2 he
      exact ⟨g1, fun n => (g2 n).trans (k3 n)⟩

end

/-! ### Example: three members in a row -/

/-- The keys of the two ends of the two connections; the one in the middle has key 5. -/
def rowSec (i b : Bool) : UInt8 := if i then (if b then 13 else 5) else if b then 5 else 3

def rowPair (i : Bool) : Pair Crypto.toy where
  opts b := { Verif.Sender.toyOpts with
    startTime := 100
    socketAddr := ⟨1, 2, 3, 4, 5⟩
    keys := fun k => if k = Node.shortId Crypto.toy (rowSec i b) then some (rowSec i b) else none }
  loop _ := false
  sec b := rowSec i b
  chan b := show UInt8 from if b then 9 else 7

theorem rowPair_fits (i : Bool) : (rowPair i).Fits where
  start := by intro b; show 100 < 2 ^ 32; decide
  key b := by simp only [rowPair, Pair.id]; exact if_pos rfl
  free := by cases i <;> decide +kernel
  split := by cases i <;> decide +kernel

def rowNode (i b : Bool) : Verif.Node.State Crypto.toy where
  peers := [((rowPair i).id b, [((rowPair i).id !b,
    Verif.Node.Peer.new 120 ⟨1, 2, 3, 4, 6⟩ ((rowPair i).sec !b) ((rowPair i).chan b))])]
  heap := []
  next := 0
  byPeer := []
  byId := []

def rowTalk (i : Bool) : Talk Crypto.toy :=
  ⟨fun b => ⟨rowNode i b, []⟩, fun _ => [], fun _ => [], fun _ => [], fun _ => [], fun _ => [], fun _ => []⟩

theorem rowTalk_start (i : Bool) (M : AdnlProto.Message → Prop) : TStart (rowPair i) M (rowTalk i) where
  sys :=
    { good := fun _ => { live := by intro _ _ h; cases h
                         bound := by intro _ _ h; cases h
                         listed := by intro _ _ _ h; cases h }
      noChannel := fun _ => rfl
      peers := fun b => ⟨120, ⟨1, 2, 3, 4, 6⟩, by simp [rowTalk, rowNode, Verif.Node.State.peer, AMap.get]; rfl⟩
      net := fun _ => ⟨rfl, rfl⟩ }
  net := fun _ => ⟨rfl, rfl, rfl, rfl⟩
  log := fun _ => rfl
  transfers := fun _ _ _ => rfl

/-- The members, first to last. -/
def rowId (n : Nat) : Bytes := if n = 0 then (rowPair false).id false else if n = 1 then (rowPair false).id true else (rowPair true).id true

/-- The first member sends the broadcast to the second. -/
def rowTelling : Telling Crypto.toy := ⟨sampleEnv.z, rowId 0, 100, (5 : UInt8), [1], [rowId 1]⟩

def rowMsg : Bytes := messageOf Crypto.toy sampleEnv.z false (leBytes 32 1) 100 (5 : UInt8) [1]

def rowNet : Net Bool Crypto.toy :=
  ⟨rowPair, fun _ m => m = .custom rowMsg, fun _ _ => False, rowTalk, Gossip.Sample.opts 2, leBytes 32 1⟩

theorem rowNet_sound : rowNet.Sound where
  lawful := Crypto.toy_lawful
  fits := rowPair_fits
  apart _ _ _ hx hy _ := hx.trans hy.symm
  start i := rowTalk_start i _

def rowChoice (n : Bytes) : List Bytes :=
  if n = rowId 0 then [rowId 1] else if n = rowId 1 then [rowId 2] else []

def rowCheck (m : Letter) (chosen : List Bytes) : Bool :=
  decide (∀ y ∈ rowChoice m.dst, y ≠ m.src → y ∈ Overlay.targets chosen 2 (some m.src))

def rowCmds : List (JCmd Bool) :=
  [.carry false false 130 0, .bring false false 0 131, .hear false false 0 132 [rowId 0, rowId 2],
    .carry true false 133 1, .bring true false 0 134, .hear true false 0 135 [rowId 1]]

def rowFirst : Joint Bool Crypto.toy Fec.toy := ⟨rowTalk, World.init Crypto.toy Fec.toy, [], []⟩

def rowEnd : Option (Joint Bool Crypto.toy Fec.toy) :=
  jexec rowNet (show UInt8 from 1) toyRands rowMsg rowCheck (rowTelling.tell rowNet rowFirst) rowCmds

def rowGood (j : Joint Bool Crypto.toy Fec.toy) : Bool :=
  decide (j.world.net = [⟨rowId 0, rowId 1, rowMsg⟩, ⟨rowId 1, rowId 2, rowMsg⟩]) &&
  decide (j.heard = [(true, false, rowMsg, 135), (false, false, rowMsg, 132)]) &&
  [false, true].all fun i => decide ((j.talk i).sends false = [(.custom rowMsg, some 40)]) &&
    decide ((j.talk i).src false = [0]) && decide ((j.talk i).seen false = [0]) && decide (((j.talk i).log false).length = 0)

theorem row_computed : rowEnd.any rowGood = true := by decide +kernel

theorem row_spec : ∃ j₂, rowEnd = some j₂ ∧
    j₂.world.net = [⟨rowId 0, rowId 1, rowMsg⟩, ⟨rowId 1, rowId 2, rowMsg⟩] ∧
    j₂.heard = [(true, false, rowMsg, 135), (false, false, rowMsg, 132)] ∧
    ∀ i, (j₂.talk i).sends false = [(.custom rowMsg, some 40)] ∧ (j₂.talk i).src false = [0] ∧
      (j₂.talk i).seen false = [0] ∧ (j₂.talk i).log false = [] := by
  have h := row_computed
  cases he : rowEnd with
  | none => rw [he] at h; cases h
  | some j₂ =>
    rw [he] at h
    have h : rowGood j₂ = true := h
    simp only [rowGood, Bool.and_eq_true, decide_eq_true_eq, List.all_eq_true, List.length_eq_zero_iff] at h
    refine ⟨j₂, rfl, h.1.1, h.1.2, fun i => ?_⟩
    have := h.2 i (by cases i <;> simp)
    exact ⟨this.1.1.1, this.1.1.2, this.1.2, this.2⟩

theorem row_from (i : Bool) : FromOverlay rowNet (World.init Crypto.toy Fec.toy) i (rowTalk i) := by
  intro b d h; cases h

theorem row_run (j₂ : Joint Bool Crypto.toy Fec.toy) (he : rowEnd = some j₂) :
    JRun rowNet (rowTelling.Alone rowNet) (Draws rowNet rowTelling rowChoice) (rowTelling.tell rowNet rowFirst) j₂ ∧
    ∀ n, (j₂.world.node n).clock = 0 := by
  obtain ⟨h1, h2⟩ := jexec_run (f := Fec.toy) rowNet (show UInt8 from 1) toyRands rowMsg rowCheck (fun _ _ => rfl) (fun _ => rfl)
    (fun _ => rfl) (rowTelling.Alone rowNet) (Draws rowNet rowTelling rowChoice)
    (fun m _ chosen h _ => of_decide_eq_true h) rowCmds _ _ j₂ (.refl _)
    (fun i b d h => by cases h) he
  exact ⟨h1, fun n => (h2 n).trans (Gossip.told_clock (rowTelling.scene rowNet [] []) Fec.toy n)⟩

theorem row_calm (j₂ : Joint Bool Crypto.toy Fec.toy)
    (hnet : j₂.world.net = [⟨rowId 0, rowId 1, rowMsg⟩, ⟨rowId 1, rowId 2, rowMsg⟩]) (hk : ∀ n, (j₂.world.node n).clock = 0) :
    rowTelling.Calm rowNet (World.init Crypto.toy Fec.toy) j₂.world where
  zstd := sampleEnv_lawful
  same _ := rfl
  overlay := show (leBytes 32 1).length = 32 by decide
  size := show (payload sampleEnv.z false [1]).length < 2 ^ 24 by decide
  size' := show [(1 : UInt8)].length < 2 ^ 32 by decide
  date _ := show 100 + 60 < 2 ^ 32 by decide
  unmistakable := SendExample.unmistakable
  fresh _ := by
    show _ ∉ ([] : List Bytes)
    exact List.not_mem_nil
  alone m hm := absurd hm List.not_mem_nil
  other m hm hne := by
    rw [hnet] at hm
    simp only [List.mem_cons, List.not_mem_nil, or_false] at hm
    rcases hm with rfl | rfl <;> exact absurd rfl hne
  brisk n := by
    rw [hk n]
    show 0 < 0 + 1000 * 60
    omega

theorem row_connected : Connected rowChoice rowTelling.n0 (rowId 2) :=
  .next (.next .start (show rowId 1 ∈ rowChoice (rowId 0) by decide +kernel)) (show rowId 2 ∈ rowChoice (rowId 1) by decide +kernel)

theorem row_intime (j₂ : Joint Bool Crypto.toy Fec.toy) (hheard : j₂.heard = [(true, false, rowMsg, 135), (false, false, rowMsg, 132)])
    (hlog : ∀ i, (j₂.talk i).log false = []) : InTime rowNet rowTelling j₂ := by
  rintro i b ⟨y, hy⟩
  cases b with
  | true =>
    rw [Bool.not_true, hlog i] at hy
    cases hy
  | false =>
    rw [hheard]
    cases i with
    | false => exact ⟨132, List.mem_cons_of_mem _ (List.mem_singleton.mpr rfl), show 132 ≤ 100 + 60 by decide⟩
    | true => exact ⟨135, List.mem_cons_self, show 135 ≤ 100 + 60 by decide⟩

/-- C126_short_partial: the last member gets the broadcast of the first by way of the second. -/
example : ∃ j₂, rowEnd = some j₂ ∧ rowTelling.got rowNet (rowId 2) j₂ = [rowTelling.content] := by
  obtain ⟨j₂, he, hnet, hheard, htalk⟩ := row_spec
  obtain ⟨hr, hk⟩ := row_run j₂ he
  refine ⟨j₂, he, C126_short_partial rowNet rowNet_sound row_from rowTelling rowChoice (by decide +kernel) rowFirst j₂ (.refl _) hr
    (row_calm j₂ hnet hk) (by decide) ?_ (row_intime j₂ hheard fun i => (htalk i).2.2.2) (rowId 2) row_connected (by decide +kernel)⟩
  intro m hm _
  rw [hnet] at hm
  have carried : ∀ i, ((j₂.talk i).sends false)[0]? = some (.custom rowMsg, some 40) ∧ ((j₂.talk i).src false)[0]? = some 0 ∧
      0 ∈ (j₂.talk i).seen false := by
    intro i
    obtain ⟨g1, g2, g3, -⟩ := htalk i
    rw [g1, g2, g3]
    exact ⟨rfl, rfl, List.mem_singleton.mpr rfl⟩
  simp only [List.mem_cons, List.not_mem_nil, or_false] at hm
  rcases hm with rfl | rfl
  · exact ⟨false, false, 0, some 40, 0, rfl, rfl, (carried false).1, (carried false).2⟩
  · exact ⟨true, false, 0, some 40, 0, rfl, rfl, (carried true).1, (carried true).2⟩

/-- C126_reached_partial: the same. -/
example : ∃ j₂, rowEnd = some j₂ ∧ rowTelling.got rowNet (rowId 2) j₂ = [rowTelling.content] := by
  obtain ⟨j₂, he, hnet, hheard, htalk⟩ := row_spec
  obtain ⟨hr, hk⟩ := row_run j₂ he
  refine ⟨j₂, he, C126_reached_partial rowNet rowNet_sound row_from rowTelling rowChoice (by decide +kernel) rowFirst j₂ (.refl _) hr
    (row_calm j₂ hnet hk) (by decide) ?_ (row_intime j₂ hheard fun i => (htalk i).2.2.2) (rowId 2) row_connected (by decide +kernel)⟩
  intro m hm _
  rw [hnet] at hm
  have carried : ∀ i, SentOnce (j₂.talk i) false (.custom rowMsg) 0 (some 40) ∧ ¬ rowNet.G i (.custom rowMsg) ∧
      AllHere (j₂.talk i) false 0 := by
    intro i
    obtain ⟨g1, g2, g3, -⟩ := htalk i
    refine ⟨⟨by rw [g1]; rfl, ?_⟩, fun h => h, ?_⟩
    · intro k' a' hk
      rw [g1] at hk
      obtain ⟨h, -⟩ := List.getElem?_eq_some_iff.mp hk
      simp only [List.length_cons, List.length_nil] at h
      omega
    · intro i' hi
      rw [g2] at hi
      obtain ⟨h, -⟩ := List.getElem?_eq_some_iff.mp hi
      simp only [List.length_cons, List.length_nil] at h
      rw [g3]
      exact List.mem_singleton.mpr (by omega)
  simp only [List.mem_cons, List.not_mem_nil, or_false] at hm
  rcases hm with rfl | rfl
  · exact ⟨false, false, 0, some 40, rfl, rfl, carried false⟩
  · exact ⟨true, false, 0, some 40, rfl, rfl, carried true⟩

/-- C126_at_most_once: the sender does not get it. -/
example : ∃ j₂, rowEnd = some j₂ ∧ rowTelling.got rowNet (rowId 0) j₂ = [] := by
  obtain ⟨j₂, he, hnet, -⟩ := row_spec
  obtain ⟨-, hk⟩ := row_run j₂ he
  obtain ⟨h1, -⟩ := jexec_run (f := Fec.toy) rowNet (show UInt8 from 1) toyRands rowMsg rowCheck (fun _ _ => rfl) (fun _ => rfl)
    (fun _ => rfl) (rowTelling.Alone rowNet) (fun _ _ _ => True) (fun _ _ _ _ => trivial) rowCmds _ _ j₂ (.refl _)
    (fun i b d h => by cases h) he
  exact ⟨j₂, he, (C126_at_most_once rowNet rowNet_sound row_from rowTelling rowFirst j₂ (.refl _) h1 (row_calm j₂ hnet hk)
    (rowId 0)).resolve_right (fun h => h.1 rfl)⟩

/-! ### Longer broadcasts -/

theorem told_grows {P : Pair c} {M G : AdnlProto.Message → Prop} {ρ ρ' : Talk c} (h : TStep P M G ρ ρ') (b : Bool) :
    ∀ m ∈ ρ.told b, m ∈ ρ'.told b := by
  cases h with
  | tell b' now m prio rand p' ds =>
    intro y hy
    by_cases hb : b = b'
    · subst hb
      simp only [told, Establish.upd_self]
      exact List.mem_cons_of_mem _ hy
    · simp only [told, Establish.upd, if_neg hb]
      exact hy
  | deliver => exact fun _ h => h
  | other => exact fun _ h => h

/-- A run of the only connection is a run of the whole. -/
theorem jrun_goes (x : Net Unit c) (Q : World c f → Act c → Prop) (D : Letter → Nat → List Bytes → Prop) (j : Joint Unit c f)
    (ρ : Talk c) (h : Goes (x.pair ()) (x.M ()) (x.G ()) (j.talk ()) ρ) (hf : FromOverlay x j.world () ρ) :
    JRun x Q D j { j with talk := fun _ => ρ } := by
  generalize he : j.talk () = ρ₀ at h
  induction h with
  | refl =>
    subst he
    exact .refl j
  | step ρ₂ ρ₃ _ hs ih =>
    refine .step _ _ _ (ih ?_) (.adnl { j with talk := fun _ => ρ₂ } () (fun _ => ρ₃) hs (fun _ h => absurd rfl h) hf)
    intro b d hd
    exact hf b d (told_grows hs b _ hd)

/-- The first member sends 2500 bytes to the second. -/
def longTelling : Telling Crypto.toy := ⟨sampleEnv.z, toyPair.id false, 100, (5 : UInt8), Fit.long, [toyPair.id true]⟩

def longNet : Net Unit Crypto.toy :=
  ⟨fun _ => toyPair, fun _ m => m = .custom (Fit.message Fit.long), fun _ _ => False, fun _ => toyTalk, Gossip.Sample.opts 2, Fit.overlay⟩

theorem long_msg : longTelling.msg longNet = Fit.message Fit.long := rfl

theorem longNet_sound : longNet.Sound where
  lawful := Crypto.toy_lawful
  fits _ := toyPair_fits
  apart _ _ _ hx hy _ := hx.trans hy.symm
  start _ := toyTalk_start _

theorem long_unmistakable : Unmistakable Crypto.toy sampleEnv.z (5 : UInt8) Fit.long 100 := by
  intro d h
  have : decompress sampleEnv.z Fit.long = none := by decide +kernel
  rw [this] at h; cases h

def longFirst : Joint Unit Crypto.toy Fec.toy := ⟨fun _ => toyTalk, World.init Crypto.toy Fec.toy, [], []⟩

theorem long_net : (longTelling.tell longNet longFirst).world.net =
    [⟨toyPair.id false, toyPair.id true, Fit.message Fit.long⟩] := rfl

/-- A broadcast of 2500 bytes does not get anywhere. -/
theorem C126_full_false : ¬ C126_full := by
  intro hfull
  have hlen := Fit.message_length Fit.long
  have hb := bytes_room (d := Fit.long) (n := 2500) (by rw [Fit.long_length]) (by decide)
  have hm : User (.custom (Fit.message Fit.long)) := by
    show (Fit.message Fit.long).length < 2 ^ 24
    omega
  obtain ⟨ρ, g1, g2, g3, g4, g5⟩ := toy_whole_told _ hm
  have hrun : JRun longNet (longTelling.Alone longNet)
      (Draws longNet longTelling (fun n => if n = toyPair.id false then [toyPair.id true] else []))
      (longTelling.tell longNet longFirst) { longTelling.tell longNet longFirst with talk := fun _ => ρ } := by
    refine jrun_goes longNet _ _ (longTelling.tell longNet longFirst) ρ g1 ?_
    intro b d hd _
    cases b with
    | true => rw [g5] at hd; cases hd
    | false =>
      rw [g4] at hd
      cases List.mem_singleton.mp hd
      rw [long_net]
      exact List.mem_singleton.mpr rfl
  have hs := fresh_ordinary (c := Crypto.toy) Fec.toy sampleEnv 3000 false Fit.overlay 100 (5 : UInt8) Fit.long
    (by rw [Fit.long_length]; decide)
  have hno : ∀ b, ¬ LongTrip.Heard toyPair ρ b (Fit.message Fit.long) := by
    intro b hh
    cases b with
    | true =>
      obtain ⟨y, hy⟩ := hh
      rcases C111_nothing_made_up Crypto.toy_lawful toyPair toyPair_fits _ _ (Fit.apart _) toyTalk ρ (toyTalk_start _) g1
        false _ _ hy with ⟨_, _, h, -⟩ | ⟨_, h, g⟩ | ⟨_, _, _, h, -⟩
      · cases h
      · rw [Bool.not_false, g5] at g; cases g
      · cases h
    | false =>
      exact C115_too_long Crypto.toy_lawful toyPair toyPair_fits _ _ (Fit.apart _) toyTalk ρ (toyTalk_start _) g1 false
        Fec.toy sampleEnv 3000 false Fit.overlay List.length_replicate 100 (5 : UInt8) _ Fit.long _ hs
        (by show 1880 < Fit.long.length; rw [Fit.long_length]; decide) 0 _ g2 hh
  have := hfull Unit Crypto.toy Fec.toy longNet longNet_sound (fun _ b d h => by cases h) longTelling
    (fun n => if n = toyPair.id false then [toyPair.id true] else [])
    (by intro y hy; rw [show longTelling.n0 = toyPair.id false from rfl, if_pos rfl] at hy; exact hy) longFirst _ (.refl _) hrun
    { zstd := sampleEnv_lawful
      same := fun _ => rfl
      overlay := List.length_replicate
      size := by show Fit.long.length < 2 ^ 24; rw [Fit.long_length]; decide
      size' := by show Fit.long.length < 2 ^ 32; rw [Fit.long_length]; decide
      date := fun _ => show 100 + 60 < 2 ^ 32 by decide
      unmistakable := long_unmistakable
      fresh := fun _ => by
        show _ ∉ ([] : List Bytes)
        exact List.not_mem_nil
      alone := fun m hm => absurd hm List.not_mem_nil
      other := by
        intro m hm hne
        have hm : m ∈ (longTelling.tell longNet longFirst).world.net := hm
        rw [long_net] at hm
        cases List.mem_singleton.mp hm
        exact absurd rfl hne
      brisk := by
        intro n
        have : ((longTelling.tell longNet longFirst).world.node n).clock = 0 :=
          Gossip.told_clock (longTelling.scene longNet [] []) Fec.toy n
        show ((longTelling.tell longNet longFirst).world.node n).clock < 0 + 1000 * 60
        rw [this]; omega }
    (by
      intro m hm _
      have hm : m ∈ (longTelling.tell longNet longFirst).world.net := hm
      rw [long_net] at hm
      cases List.mem_singleton.mp hm
      exact ⟨(), false, 0, _, rfl, rfl, g2, fun h => h, g3⟩)
    (fun _ b hh => absurd hh (hno b)) (toyPair.id true)
    (.next .start (by rw [show longTelling.n0 = toyPair.id false from rfl, if_pos rfl]; exact List.mem_singleton.mpr rfl))
    (by decide +kernel)
  cases this

end Verif.Mesh
