import Mathlib.Data.List.Forall2
import Mathlib.Data.List.TakeWhile
import Verif.Model.Builder

/-!
# C129: building a network
-/
namespace Verif.Builder
open Verif.Address

/-! ### Specification -/

/-- Who is registered for queries at once, and who when the network is built. -/
def earlyQuery : Call → List Sub
  | .query n => [.app n]
  | .overlay i _ => [.overlay i]
  | _ => []

def lateQuery : Call → List Sub
  | .dht i _ => [.dht i]
  | _ => []

/-- The same for messages. -/
def earlyMessage : Call → List Sub
  | .message n => [.app n]
  | .overlay i _ => [.overlay i]
  | _ => []

def lateMessage : Call → List Sub
  | .rldp i _ => [.rldp i]
  | _ => []

/-- The overlay nodes made before the next RLDP node. -/
def overlays : List Call → List Sub
  | [] => []
  | .overlay i _ :: cs => .overlay i :: overlays cs
  | .rldp _ _ :: _ => []
  | _ :: cs => overlays cs

/-- What is handed out: a node for each layer, in the order of the calls, and each RLDP node gives its queries to the
subscribers named when it was added and to the overlay nodes added after it. -/
def made : List Call → List Built
  | [] => []
  | .dht i _ :: cs => .dht i :: made cs
  | .rldp i ext :: cs => .rldp i (ext.map .app ++ overlays cs) :: made cs
  | .overlay i _ :: cs => .overlay i :: made cs
  | _ :: cs => made cs

/-- An overlay is only added after RLDP (the compiler sees to it, overlay/mod.rs:53-56); `r`: there is an RLDP layer. -/
def typed (r : Bool) : List Call → Bool
  | [] => true
  | .overlay _ _ :: cs => r && typed r cs
  | .rldp _ _ :: cs => typed true cs
  | _ :: cs => typed r cs

/-- The tags of keys in a call. -/
def tags : Call → List Nat
  | .dht _ t | .overlay _ t => [t]
  | _ => []

/-- The call adds a layer. -/
def isLayer : Call → Bool
  | .query _ | .message _ => false
  | _ => true

/-- The error of making the ADNL node. -/
def cause (addr : Option (List Resolved)) (bound : Option UInt16) : Option Err :=
  match addr with
  | none => some .parse
  | some [] => some .noAddress
  | some (.v6 :: _) => some .ipv6
  | some (.v4 _ :: _) => if bound = none then some .socket else none

/-- C129, full statement: if the ADNL node can be made and all keys are there, every layer and every subscriber given to
the builder is registered, once, with the running node; otherwise nothing runs, and the error says why. -/
def C129_full : Prop := ∀ (addr : Option (List Resolved)) (known : Nat → Bool) (bound : Option UInt16) (cs : List Call),
  typed false cs →
  let r := build (calls (withAdnl addr known bound) cs)
  (cause addr bound = none → (∀ c ∈ cs, ∀ t ∈ tags c, known t) →
    r.2 = .ok (made cs) ∧ ∃ a, r.1 = some a ∧ a.running =
      some ⟨cs.flatMap earlyMessage ++ cs.reverse.flatMap lateMessage,
        cs.flatMap earlyQuery ++ cs.reverse.flatMap lateQuery ++ [.ping]⟩) ∧
  (cause addr bound = none → (∃ c ∈ cs, ∃ t ∈ tags c, known t = false) →
    r.2 = .error .keyTagNotFound ∧ ∀ a, r.1 = some a → a.running = none) ∧
  ∀ e, cause addr bound = some e → r = (none, .error e)

/-! ### Calls on the builder -/

/-- The layers, in the order of the calls. -/
def layersOf : List Call → List Layer
  | [] => []
  | .dht i t :: cs => .dht i (.ok t) :: layersOf cs
  | .rldp i ext :: cs => .rldp i (.ok (ext.map .app ++ overlays cs)) :: layersOf cs
  | .overlay i _ :: cs => .overlay i (.ok ()) :: layersOf cs
  | _ :: cs => layersOf cs

def pushAll (ss : List Sub) (l : List Layer) : List Layer := ss.foldl (fun l s => pushRldp s l) l

theorem lastRldp_push (s : Sub) {l : List Layer} {r : List Sub} (h : lastRldp l = some (.ok r)) :
    lastRldp (pushRldp s l) = some (.ok (r ++ [s])) := by
  induction l with
  | nil => cases h
  | cons x l ih =>
    cases x with
    | rldp i r' =>
      simp only [lastRldp, Option.some.injEq] at h
      subst h
      rfl
    | dht i r' => exact ih h
    | overlay i r' => exact ih h

theorem pushAll_rldp (ss : List Sub) : ∀ (i : Nat) (r : List Sub) (l : List Layer),
    pushAll ss (.rldp i (.ok r) :: l) = .rldp i (.ok (r ++ ss)) :: l := by
  induction ss with
  | nil => intro i r l; simp [pushAll]
  | cons s ss ih =>
    intro i r l
    have := ih i (r ++ [s]) l
    simp only [List.append_assoc, List.singleton_append] at this
    exact this

theorem pushAll_dht (ss : List Sub) : ∀ (i : Nat) (r : Except Err Nat) (l : List Layer),
    pushAll ss (.dht i r :: l) = .dht i r :: pushAll ss l := by
  induction ss with
  | nil => intro i r l; rfl
  | cons s ss ih => intro i r l; exact ih i r (pushRldp s l)

theorem pushAll_overlay (ss : List Sub) : ∀ (i : Nat) (r : Except Err Unit) (l : List Layer),
    pushAll ss (.overlay i r :: l) = .overlay i r :: pushAll ss l := by
  induction ss with
  | nil => intro i r l; rfl
  | cons s ss ih => intro i r l; exact ih i r (pushRldp s l)

/-- All keys are there. -/
theorem calls_good (cs : List Call) : ∀ (a : Adnl) (s : Subs) (l : List Layer) (r : Bool),
    a.init = some s → (r = true → ∃ x, lastRldp l = some (.ok x)) → typed r cs →
    (∀ c ∈ cs, ∀ t ∈ tags c, a.known t) →
    calls ⟨.ok a, l⟩ cs = ⟨.ok { a with init := some ⟨s.messages ++ cs.flatMap earlyMessage,
      s.queries ++ cs.flatMap earlyQuery⟩ }, (layersOf cs).reverse ++ pushAll (overlays cs) l⟩ := by
  induction cs with
  | nil =>
    intro a s l r ha _ _ _
    obtain ⟨addr, known, init, running⟩ := a
    simp only at ha
    subst ha
    simp [calls, layersOf, overlays, pushAll]
  | cons c cs ih =>
    intro a s l r ha hr ht hk
    have hk' : ∀ c ∈ cs, ∀ t ∈ tags c, a.known t := fun x hx => hk x (List.mem_cons_of_mem _ hx)
    have hc : ∀ b, calls b (c :: cs) = calls (call b c) cs := fun b => rfl
    rw [hc]
    cases c with
    | query n =>
      have := ih { a with init := some { s with queries := s.queries ++ [.app n] } } _ l r rfl hr ht hk'
      simp only [call, withQuery, addQuery, ha]
      rw [this]
      simp [earlyMessage, earlyQuery, layersOf, overlays]
    | message n =>
      have := ih { a with init := some { s with messages := s.messages ++ [.app n] } } _ l r rfl hr ht hk'
      simp only [call, withMessage, addMessage, ha]
      rw [this]
      simp [earlyMessage, earlyQuery, layersOf, overlays]
    | dht i t =>
      have := ih a s (.dht i (.ok t) :: l) r ha hr ht hk'
      simp only [call, withDht]
      rw [this]
      simp [earlyMessage, earlyQuery, layersOf, overlays, pushAll_dht]
    | rldp i ext =>
      have := ih a s (.rldp i (.ok (ext.map .app)) :: l) true ha (fun _ => ⟨_, rfl⟩) ht hk'
      simp only [call, withRldp]
      rw [this]
      simp [earlyMessage, earlyQuery, layersOf, overlays, pushAll_rldp]
      rfl
    | overlay i t =>
      simp only [typed, Bool.and_eq_true] at ht
      obtain ⟨x, hx⟩ := hr ht.1
      have hkt : a.known t = true := hk _ List.mem_cons_self t (List.mem_singleton_self t)
      have := ih { a with init := some ⟨s.messages ++ [.overlay i], s.queries ++ [.overlay i]⟩ } _
        (.overlay i (.ok ()) :: pushRldp (.overlay i) l) r rfl (fun _ => ⟨_, lastRldp_push _ hx⟩) ht.2 hk'
      simp only [call, withOverlay, hx, newOverlay, hkt, if_true, addQuery, addMessage, ha]
      rw [this]
      simp [earlyMessage, earlyQuery, layersOf, overlays, pushAll_overlay]
      rfl

/-- What a layer registers when it is initialized, and what comes of it. -/
def lateQ : Layer → List Sub
  | .dht i _ => [.dht i]
  | _ => []

def lateM : Layer → List Sub
  | .rldp i _ => [.rldp i]
  | _ => []

/-- The layer will be initialized, with this result. -/
inductive Good (known : Nat → Bool) : Layer → Built → Prop
  | dht {i t : Nat} (h : known t = true) : Good known (.dht i (.ok t)) (.dht i)
  | rldp {i : Nat} {subs : List Sub} : Good known (.rldp i (.ok subs)) (.rldp i subs)
  | overlay {i : Nat} : Good known (.overlay i (.ok ())) (.overlay i)

theorem init_good (l : List Layer) : ∀ (ys : List Built) (a : Adnl) (s : Subs), a.init = some s →
    List.Forall₂ (Good a.known) l ys →
    initLayers a l = ({ a with init := some ⟨s.messages ++ l.flatMap lateM, s.queries ++ l.flatMap lateQ⟩ },
      .ok ys.reverse) := by
  induction l with
  | nil =>
    intro ys a s ha h
    cases h
    obtain ⟨addr, known, init, running⟩ := a
    simp only at ha
    subst ha
    simp [initLayers]
  | cons x l ih =>
    intro ys a s ha h
    cases h with
    | cons hx hl =>
      rename_i y ys
      cases hx with
      | dht hk =>
        rename_i i t
        have := ih ys { a with init := some { s with queries := s.queries ++ [.dht i] } } _ rfl hl
        simp only [initLayers, initLayer, newDht, hk, if_true, addQuery, ha, Except.map]
        rw [this]
        simp [lateM, lateQ]
      | rldp =>
        rename_i i subs
        have := ih ys { a with init := some { s with messages := s.messages ++ [.rldp i] } } _ rfl hl
        simp only [initLayers, initLayer, newRldp, addMessage, ha, Except.map]
        rw [this]
        simp [lateM, lateQ]
      | overlay =>
        have := ih ys a s ha hl
        simp only [initLayers, initLayer]
        rw [this]
        simp [lateM, lateQ]

theorem layersOf_good {known : Nat → Bool} (cs : List Call) (h : ∀ c ∈ cs, ∀ t ∈ tags c, known t) :
    List.Forall₂ (Good known) (layersOf cs) (made cs) := by
  induction cs with
  | nil => exact .nil
  | cons c cs ih =>
    have ih := ih fun x hx => h x (List.mem_cons_of_mem _ hx)
    cases c with
    | query n => exact ih
    | message n => exact ih
    | dht i t => exact .cons (.dht (h _ List.mem_cons_self t (List.mem_singleton_self t))) ih
    | rldp i ext => exact .cons .rldp ih
    | overlay i t => exact .cons .overlay ih

theorem late_layers (cs : List Call) : (layersOf cs).reverse.flatMap lateQ = cs.reverse.flatMap lateQuery ∧
    (layersOf cs).reverse.flatMap lateM = cs.reverse.flatMap lateMessage := by
  induction cs with
  | nil => exact ⟨rfl, rfl⟩
  | cons c cs ih => cases c <;> simp [layersOf, ih, lateQ, lateM, lateQuery, lateMessage]

/-- C129: if the ADNL node can be made and all keys are there, every layer is made and registered with the running node,
in this order. -/
theorem C129_built (a : SockAddr) (rest : List Resolved) (known : Nat → Bool) (p : UInt16) (cs : List Call)
    (ht : typed false cs) (hk : ∀ c ∈ cs, ∀ t ∈ tags c, known t) :
    build (calls (withAdnl (some (.v4 a :: rest)) known (some p)) cs) =
      (some ⟨if a.port = 0 then { a with port := p } else a, known, none,
        some ⟨cs.flatMap earlyMessage ++ cs.reverse.flatMap lateMessage,
          cs.flatMap earlyQuery ++ cs.reverse.flatMap lateQuery ++ [.ping]⟩⟩, .ok (made cs)) := by
  unfold withAdnl parseSocketAddr newAdnl
  simp only
  generalize (if a.port = 0 then { a with port := p } else a) = addr
  rw [calls_good cs ⟨addr, known, some ⟨[], []⟩, none⟩ ⟨[], []⟩ [] false rfl (fun h => by cases h) ht hk]
  have h0 : ∀ ss, pushAll ss [] = [] := by
    intro ss
    induction ss with
    | nil => rfl
    | cons s ss ih => exact ih
  rw [h0, List.append_nil]
  unfold build
  simp only
  rw [init_good (layersOf cs).reverse (made cs).reverse _ _ rfl (List.rel_reverse (layersOf_good cs hk)),
    (late_layers cs).1, (late_layers cs).2, List.reverse_reverse]
  simp [start]

/-! ### Keys that are not there -/

/-- The layer, or the only error it can have while there is an ADNL node. -/
inductive Sane : Layer → Prop
  | dht (i t : Nat) : Sane (.dht i (.ok t))
  | rldp (i : Nat) (subs : List Sub) : Sane (.rldp i (.ok subs))
  | overlay (i : Nat) : Sane (.overlay i (.ok ()))
  | failed (i : Nat) : Sane (.overlay i (.error .keyTagNotFound))

/-- A layer that cannot be made. -/
inductive Bad (known : Nat → Bool) : Layer → Prop
  | dht (i t : Nat) (h : known t = false) : Bad known (.dht i (.ok t))
  | overlay (i : Nat) : Bad known (.overlay i (.error .keyTagNotFound))

theorem push_sane (s : Sub) {l : List Layer} (h : ∀ x ∈ l, Sane x) : ∀ x ∈ pushRldp s l, Sane x := by
  induction l with
  | nil => exact h
  | cons y l ih =>
    have hl := ih fun x hx => h x (List.mem_cons_of_mem _ hx)
    have hy := h y List.mem_cons_self
    cases hy with
    | rldp i subs =>
      intro x hx
      rcases List.mem_cons.mp hx with rfl | hx
      · exact .rldp _ _
      · exact h x (List.mem_cons_of_mem _ hx)
    | dht i t =>
      intro x hx
      rcases List.mem_cons.mp hx with rfl | hx
      · exact .dht _ _
      · exact hl x hx
    | overlay i =>
      intro x hx
      rcases List.mem_cons.mp hx with rfl | hx
      · exact .overlay _
      · exact hl x hx
    | failed i =>
      intro x hx
      rcases List.mem_cons.mp hx with rfl | hx
      · exact .failed _
      · exact hl x hx

theorem push_bad {known : Nat → Bool} (s : Sub) {l : List Layer} {x : Layer} (hx : x ∈ l) (hb : Bad known x) :
    x ∈ pushRldp s l := by
  induction l with
  | nil => cases hx
  | cons y l ih =>
    rcases List.mem_cons.mp hx with rfl | hx'
    · cases hb <;> exact List.mem_cons_self
    · clear hx
      cases y with
      | rldp i r => exact List.mem_cons_of_mem _ hx'
      | dht i r => exact List.mem_cons_of_mem _ (ih hx')
      | overlay i r => exact List.mem_cons_of_mem _ (ih hx')

/-- A builder with an ADNL node, not yet started. -/
structure Ready (known : Nat → Bool) (b : Builder) (a : Adnl) (s : Subs) : Prop where
  node : b.node = .ok a
  known : a.known = known
  init : a.init = some s
  running : a.running = none
  sane : ∀ x ∈ b.layers, Sane x

theorem call_ready {known : Nat → Bool} {b : Builder} {a : Adnl} {s : Subs} (h : Ready known b a s) (c : Call)
    (hc : ∀ i t, c = .overlay i t → ∃ x, lastRldp b.layers = some (.ok x)) :
    (∃ a' s', Ready known (call b c) a' s') ∧
    (∀ x ∈ b.layers, Bad known x → x ∈ (call b c).layers) ∧
    ((∃ x, lastRldp b.layers = some (.ok x)) ∨ (∃ i ext, c = .rldp i ext) →
      ∃ x, lastRldp (call b c).layers = some (.ok x)) ∧
    ((∃ t ∈ tags c, known t = false) → ∃ x ∈ (call b c).layers, Bad known x) := by
  obtain ⟨node, layers⟩ := b
  obtain ⟨hn, hk, hi, hr, hs⟩ := h
  simp only at hn hs hc ⊢
  subst hn
  have cons_sane : ∀ {y : Layer}, Sane y → ∀ x ∈ y :: layers, Sane x := by
    intro y hy x hx
    rcases List.mem_cons.mp hx with rfl | hx
    · exact hy
    · exact hs x hx
  cases c with
  | query n =>
    simp only [call, withQuery, addQuery, hi]
    refine ⟨⟨_, _, ⟨rfl, hk, rfl, hr, hs⟩⟩, fun x hx _ => hx, ?_, ?_⟩
    · rintro (h | ⟨i, ext, h⟩)
      · exact h
      · cases h
    · rintro ⟨t, ht, -⟩; cases ht
  | message n =>
    simp only [call, withMessage, addMessage, hi]
    refine ⟨⟨_, _, ⟨rfl, hk, rfl, hr, hs⟩⟩, fun x hx _ => hx, ?_, ?_⟩
    · rintro (h | ⟨i, ext, h⟩)
      · exact h
      · cases h
    · rintro ⟨t, ht, -⟩; cases ht
  | dht i t =>
    simp only [call, withDht]
    refine ⟨⟨_, _, ⟨rfl, hk, hi, hr, cons_sane (.dht _ _)⟩⟩, fun x hx _ => List.mem_cons_of_mem _ hx, ?_, ?_⟩
    · rintro (h | ⟨i, ext, h⟩)
      · exact h
      · cases h
    · rintro ⟨t', ht, hb⟩
      rw [List.mem_singleton.mp ht] at hb
      exact ⟨_, List.mem_cons_self, .dht _ _ hb⟩
  | rldp i ext =>
    simp only [call, withRldp]
    refine ⟨⟨_, _, ⟨rfl, hk, hi, hr, cons_sane (.rldp _ _)⟩⟩, fun x hx _ => List.mem_cons_of_mem _ hx,
      fun _ => ⟨_, rfl⟩, ?_⟩
    rintro ⟨t', ht, hb⟩
    cases ht
  | overlay i t =>
    obtain ⟨x, hx⟩ := hc i t rfl
    cases hkt : known t with
    | true =>
      have hkt' : a.known t = true := by rw [hk, hkt]
      simp only [call, withOverlay, hx, newOverlay, hkt', if_true, addQuery, addMessage, hi]
      refine ⟨⟨_, _, ⟨rfl, hk, rfl, hr, ?_⟩⟩, fun y hy hb => List.mem_cons_of_mem _ (push_bad _ hy hb),
        fun _ => ⟨_, lastRldp_push _ hx⟩, ?_⟩
      · intro y hy
        rcases List.mem_cons.mp hy with rfl | hy
        · exact .overlay _
        · exact push_sane _ hs y hy
      · rintro ⟨t', ht, hb⟩
        rw [List.mem_singleton.mp ht, hkt] at hb
        cases hb
    | false =>
      have hkt' : a.known t = false := by rw [hk, hkt]
      simp only [call, withOverlay, hx, newOverlay, hkt', Bool.false_eq_true, if_false]
      exact ⟨⟨_, _, ⟨rfl, hk, hi, hr, cons_sane (.failed _)⟩⟩, fun x hx _ => List.mem_cons_of_mem _ hx,
        fun _ => ⟨x, hx⟩, fun _ => ⟨_, List.mem_cons_self, .overlay _⟩⟩

theorem calls_ready {known : Nat → Bool} (cs : List Call) : ∀ (b : Builder) (a : Adnl) (s : Subs) (r : Bool),
    Ready known b a s → (r = true → ∃ x, lastRldp b.layers = some (.ok x)) → typed r cs →
    (∃ a' s', Ready known (calls b cs) a' s') ∧
    ((∃ x ∈ b.layers, Bad known x) ∨ (∃ c ∈ cs, ∃ t ∈ tags c, known t = false) →
      ∃ x ∈ (calls b cs).layers, Bad known x) := by
  induction cs with
  | nil =>
    intro b a s r h _ _
    refine ⟨⟨a, s, h⟩, ?_⟩
    rintro (h | ⟨c, hc, -⟩)
    · exact h
    · cases hc
  | cons c cs ih =>
    intro b a s r h hr ht
    have hc : ∀ i t, c = .overlay i t → ∃ x, lastRldp b.layers = some (.ok x) := by
      rintro i t rfl
      simp only [typed, Bool.and_eq_true] at ht
      exact hr ht.1
    obtain ⟨⟨a', s', h1⟩, h2, h3, h4⟩ := call_ready h c hc
    have key : ∃ r', (r' = true → ∃ x, lastRldp (call b c).layers = some (.ok x)) ∧ typed r' cs = true := by
      cases c with
      | rldp i ext => exact ⟨true, fun _ => h3 (.inr ⟨i, ext, rfl⟩), ht⟩
      | overlay i t =>
        simp only [typed, Bool.and_eq_true] at ht
        exact ⟨r, fun hh => h3 (.inl (hr hh)), ht.2⟩
      | query n => exact ⟨r, fun hh => h3 (.inl (hr hh)), ht⟩
      | message n => exact ⟨r, fun hh => h3 (.inl (hr hh)), ht⟩
      | dht i t => exact ⟨r, fun hh => h3 (.inl (hr hh)), ht⟩
    obtain ⟨r', hr', ht'⟩ := key
    obtain ⟨h5, h6⟩ := ih (call b c) a' s' r' h1 hr' ht'
    refine ⟨h5, fun hh => h6 ?_⟩
    rcases hh with ⟨x, hx, hb⟩ | ⟨c', hc', hbad⟩
    · exact .inl ⟨x, h2 x hx hb, hb⟩
    · rcases List.mem_cons.mp hc' with rfl | hc'
      · exact .inl (h4 hbad)
      · exact .inr ⟨c', hc', hbad⟩

theorem init_bad (l : List Layer) : ∀ (a : Adnl) (s : Subs), a.init = some s → a.running = none →
    (∀ x ∈ l, Sane x) → (∃ x ∈ l, Bad a.known x) →
    (initLayers a l).2 = .error .keyTagNotFound ∧ (initLayers a l).1.running = none := by
  induction l with
  | nil => rintro a s _ _ _ ⟨x, hx, -⟩; cases hx
  | cons y l ih =>
    intro a s hi hr hs hb
    have hs' : ∀ x ∈ l, Sane x := fun x hx => hs x (List.mem_cons_of_mem _ hx)
    have hb' : ¬ Bad a.known y → ∃ x ∈ l, Bad a.known x := by
      intro hy
      obtain ⟨x, hx, hb⟩ := hb
      rcases List.mem_cons.mp hx with rfl | hx
      · exact absurd hb hy
      · exact ⟨x, hx, hb⟩
    have hy := hs y List.mem_cons_self
    cases hy with
    | dht i t =>
      cases hk : a.known t with
      | false => simp [initLayers, initLayer, newDht, hk, Except.map, hr]
      | true =>
        have := ih { a with init := some { s with queries := s.queries ++ [.dht i] } } _ rfl hr hs'
          (hb' (fun h => by cases h with | dht _ _ h => rw [hk] at h; cases h))
        simp only [initLayers, initLayer, newDht, hk, if_true, addQuery, hi, Except.map]
        generalize initLayers _ l = r at this
        obtain ⟨a', r⟩ := r
        simp only at this
        rw [this.1]
        exact ⟨rfl, this.2⟩
    | rldp i subs =>
      have := ih { a with init := some { s with messages := s.messages ++ [.rldp i] } } _ rfl hr hs'
        (hb' (fun h => by cases h))
      simp only [initLayers, initLayer, newRldp, addMessage, hi, Except.map]
      generalize initLayers _ l = r at this
      obtain ⟨a', r⟩ := r
      simp only at this
      rw [this.1]
      exact ⟨rfl, this.2⟩
    | overlay i =>
      have := ih a s hi hr hs' (hb' (fun h => by cases h))
      simp only [initLayers, initLayer]
      generalize initLayers _ l = r at this
      obtain ⟨a', r⟩ := r
      simp only at this
      rw [this.1]
      exact ⟨rfl, this.2⟩
    | failed i => simp [initLayers, initLayer, hr]

/-- C129: if a key is missing, the error says so and the node is not started. -/
theorem C129_key_missing (a : SockAddr) (rest : List Resolved) (known : Nat → Bool) (p : UInt16) (cs : List Call)
    (ht : typed false cs) (hk : ∃ c ∈ cs, ∃ t ∈ tags c, known t = false) :
    let r := build (calls (withAdnl (some (.v4 a :: rest)) known (some p)) cs)
    r.2 = .error .keyTagNotFound ∧ ∀ a, r.1 = some a → a.running = none := by
  obtain ⟨⟨a', s', h⟩, hb⟩ := calls_ready (known := known) cs (withAdnl (some (.v4 a :: rest)) known (some p)) _ _ false
    ⟨rfl, rfl, rfl, rfl, fun x hx => by cases hx⟩ (fun h => by cases h) ht
  have := init_bad _ a' s' h.init h.running h.sane (by rw [h.known]; exact hb (.inr hk))
  unfold build
  simp only [h.node]
  generalize initLayers _ _ = r at this
  obtain ⟨a', r⟩ := r
  simp only at this
  rw [this.1]
  refine ⟨rfl, fun x hx => ?_⟩
  simp only [Option.some.injEq] at hx
  rw [← hx]
  exact this.2

/-! ### No ADNL node -/

theorem calls_error {e : Err} (cs : List Call) : ∀ b : Builder, b.node = .error e →
    (b.layers = [] ∨ firstErr b.layers = some .adnlNotInitialized) →
    (∀ x, lastRldp b.layers ≠ some (.ok x)) →
    (calls b cs).node = .error e ∧
    (if cs.any isLayer then firstErr (calls b cs).layers = some .adnlNotInitialized
      else (calls b cs).layers = b.layers) := by
  induction cs with
  | nil => intro b h _ _; exact ⟨h, rfl⟩
  | cons c cs ih =>
    intro b h hl hx
    obtain ⟨node, layers⟩ := b
    simp only at h hl hx
    subst h
    cases c with
    | query n => exact ih _ rfl hl hx
    | message n => exact ih _ rfl hl hx
    | dht i t =>
      have := ih ⟨.error e, .dht i (.error .adnlNotInitialized) :: layers⟩ rfl (.inr rfl) hx
      refine ⟨this.1, ?_⟩
      rw [if_pos (by simp [isLayer])]
      by_cases hc : cs.any isLayer
      · rw [if_pos hc] at this; exact this.2
      · rw [if_neg hc] at this
        show firstErr (calls _ cs).layers = _
        exact (congrArg firstErr this.2).trans rfl
    | rldp i ext =>
      have := ih ⟨.error e, .rldp i (.error .adnlNotInitialized) :: layers⟩ rfl (.inr rfl) (fun x h => by cases h)
      refine ⟨this.1, ?_⟩
      rw [if_pos (by simp [isLayer])]
      by_cases hc : cs.any isLayer
      · rw [if_pos hc] at this; exact this.2
      · rw [if_neg hc] at this
        exact (congrArg firstErr this.2).trans rfl
    | overlay i t =>
      have hcall : call ⟨.error e, layers⟩ (.overlay i t) =
          ⟨.error e, .overlay i (.error .adnlNotInitialized) :: layers⟩ := by
        simp only [call, withOverlay]
        split
        · rename_i h; exact absurd h (by simp)
        · rfl
      have := ih ⟨.error e, .overlay i (.error .adnlNotInitialized) :: layers⟩ rfl (.inr rfl) hx
      rw [show calls ⟨.error e, layers⟩ (.overlay i t :: cs) = calls (call ⟨.error e, layers⟩ (.overlay i t)) cs from rfl,
        hcall]
      refine ⟨this.1, ?_⟩
      rw [if_pos (by simp [isLayer])]
      by_cases hc : cs.any isLayer
      · rw [if_pos hc] at this; exact this.2
      · rw [if_neg hc] at this
        exact (congrArg firstErr this.2).trans rfl

theorem withAdnl_error {addr : Option (List Resolved)} {known : Nat → Bool} {bound : Option UInt16} {e : Err}
    (h : cause addr bound = some e) : withAdnl addr known bound = ⟨.error e, []⟩ := by
  unfold cause at h
  split at h
  · cases h; rfl
  · cases h; rfl
  · cases h; rfl
  · split at h
    · rename_i hb
      cases h
      subst hb
      rfl
    · cases h

/-- C129: if the ADNL node cannot be made, there is an error, but it only says why if there is no other layer. Missing
from the full claim: with other layers the reason is lost. -/
theorem C129_no_node_partial (addr : Option (List Resolved)) (known : Nat → Bool) (bound : Option UInt16)
    (cs : List Call) (e : Err) (h : cause addr bound = some e) :
    build (calls (withAdnl addr known bound) cs) =
      (none, .error (if cs.any isLayer then .adnlNotInitialized else e)) := by
  rw [withAdnl_error h]
  obtain ⟨h1, h2⟩ := calls_error (e := e) cs ⟨.error e, []⟩ rfl (.inl rfl) (fun x h => by cases h)
  unfold build
  rw [h1]
  simp only
  by_cases hc : cs.any isLayer
  · rw [if_pos hc] at h2 ⊢
    rw [h2]; rfl
  · rw [if_neg hc] at h2 ⊢
    rw [h2]; rfl

/-- C129: the reason is lost when a DHT node is wanted at an address that is taken. -/
theorem C129_full_false : ¬ C129_full := by
  intro h
  have h1 := (h (some [.v4 ⟨127, 0, 0, 1, 1000⟩]) (fun _ => true) none [.dht 1 0] rfl).2.2 .socket rfl
  have h2 := C129_no_node_partial (some [.v4 ⟨127, 0, 0, 1, 1000⟩]) (fun _ => true) none [.dht 1 0] .socket rfl
  rw [h2] at h1
  cases h1

/-! ### Direct use -/

/-- Calls before the first start. -/
def before (ops : List Op) : List Op := ops.takeWhile (· ≠ .start)

def messagesOf : Op → List Sub
  | .addMessage s => [s]
  | _ => []

def queriesOf : Op → List Sub
  | .addQuery s => [s]
  | _ => []

theorem acts_stopped (a : Adnl) (h : a.init = none) (ops : List Op) :
    acts a ops = (a, List.replicate ops.length (.error .alreadyRunning)) := by
  induction ops with
  | nil => rfl
  | cons op ops ih =>
    have hact : act a op = (a, .error .alreadyRunning) := by
      cases op <;> simp [act, addMessage, addQuery, start, h]
    simp only [acts, hact, ih]
    rfl

theorem acts_from (ops : List Op) : ∀ (a : Adnl) (s : Subs), a.init = some s →
    acts a ops = if .start ∈ ops
      then ({ a with init := none, running := some ⟨s.messages ++ (before ops).flatMap messagesOf,
          s.queries ++ (before ops).flatMap queriesOf ++ [.ping]⟩ },
        List.replicate ((before ops).length + 1) (.ok ()) ++
          List.replicate (ops.length - ((before ops).length + 1)) (.error .alreadyRunning))
      else ({ a with init := some ⟨s.messages ++ ops.flatMap messagesOf, s.queries ++ ops.flatMap queriesOf⟩ },
        List.replicate ops.length (.ok ())) := by
  induction ops with
  | nil =>
    intro a s h
    obtain ⟨addr, known, init, running⟩ := a
    simp only at h
    subst h
    simp [acts]
  | cons op ops ih =>
    intro a s h
    cases op with
    | start =>
      simp only [acts, act, start, h]
      rw [acts_stopped _ rfl]
      simp [before]
    | addMessage x =>
      simp only [acts, act, addMessage, h]
      rw [ih _ _ rfl]
      have hb : before (.addMessage x :: ops) = .addMessage x :: before ops := by simp [before]
      by_cases hs : Op.start ∈ ops
      · simp [hs, hb, messagesOf, queriesOf, List.replicate_succ]
      · simp [hs, messagesOf, queriesOf, List.replicate_succ]
    | addQuery x =>
      simp only [acts, act, addQuery, h]
      rw [ih _ _ rfl]
      have hb : before (.addQuery x :: ops) = .addQuery x :: before ops := by simp [before]
      by_cases hs : Op.start ∈ ops
      · simp [hs, hb, messagesOf, queriesOf, List.replicate_succ]
      · simp [hs, messagesOf, queriesOf, List.replicate_succ]

/-- C129, without the builder: exactly the subscribers added before the first start are served, in the order in which
they were added, with the ping subscriber after them; the first start and the calls before it succeed, and nothing after
it does. -/
theorem C129_registered (addr : SockAddr) (known : Nat → Bool) (p : UInt16) (a : Adnl) (ops : List Op)
    (ha : newAdnl addr known (some p) = .ok a) :
    (acts a ops).1.running = (if .start ∈ ops
      then some ⟨(before ops).flatMap messagesOf, (before ops).flatMap queriesOf ++ [.ping]⟩ else none) ∧
    (acts a ops).2 = List.replicate (min ops.length ((before ops).length + 1)) (.ok ()) ++
      List.replicate (ops.length - ((before ops).length + 1)) (.error .alreadyRunning) := by
  unfold newAdnl at ha
  simp only [Except.ok.injEq] at ha
  subst ha
  rw [acts_from ops _ ⟨[], []⟩ rfl]
  by_cases hs : Op.start ∈ ops
  · rw [if_pos hs, if_pos hs]
    have : (before ops).length < ops.length := by
      have hl : (before ops).length ≤ ops.length := (List.takeWhile_sublist _).length_le
      rcases Nat.lt_or_eq_of_le hl with h | h
      · exact h
      · have := (List.takeWhile_sublist (fun o : Op => decide (o ≠ .start))).eq_of_length h
        have hall := List.takeWhile_eq_self_iff.mp this .start hs
        simp at hall
    refine ⟨by simp, ?_⟩
    rw [Nat.min_eq_right (by omega)]
  · rw [if_neg hs, if_neg hs]
    have : before ops = ops := List.takeWhile_eq_self_iff.mpr (fun o ho => by
      simp only [decide_eq_true_eq]
      rintro rfl
      exact hs ho)
    refine ⟨rfl, ?_⟩
    rw [this, Nat.min_eq_left (by omega), show ops.length - (ops.length + 1) = 0 by omega]
    simp

/-! ### Examples -/

/-- A network with all layers, and with two RLDP nodes: the overlay serves the second one. -/
example : (build (calls (withAdnl (some [.v4 ⟨127, 0, 0, 1, 0⟩]) (fun t => decide (t < 2)) (some 4000))
      [.query 5, .dht 1 0, .rldp 2 [6], .overlay 3 1, .message 7])) =
    (some ⟨⟨127, 0, 0, 1, 4000⟩, fun t => decide (t < 2), none,
      some ⟨[.overlay 3, .app 7, .rldp 2], [.app 5, .overlay 3, .dht 1, .ping]⟩⟩,
    .ok [.dht 1, .rldp 2 [.app 6, .overlay 3], .overlay 3]) :=
  C129_built _ _ _ _ _ rfl (by decide)

example : (build (calls (withAdnl (some [.v4 ⟨127, 0, 0, 1, 0⟩, .v6]) (fun _ => true) (some 4000))
      [.rldp 1 [], .rldp 2 [], .overlay 3 1])).2 = .ok [.rldp 1 [], .rldp 2 [.overlay 3], .overlay 3] :=
  congrArg Prod.snd (C129_built _ _ _ _ _ rfl (by decide))

/-- A key is missing. -/
example := C129_key_missing ⟨127, 0, 0, 1, 0⟩ [] (fun t => decide (t < 2)) 4000
  [.dht 1 0, .rldp 2 [6], .overlay 3 9, .message 7] rfl ⟨.overlay 3 9, by simp, 9, List.mem_singleton_self _, rfl⟩

/-- There is no such address. -/
example := C129_no_node_partial none (fun _ => true) (some 1) [.rldp 2 []] .parse rfl

/-- Three subscribers before the start and one after it. -/
example := C129_registered ⟨127, 0, 0, 1, 0⟩ (fun _ => true) 4000 _
  [.addQuery (.app 1), .addMessage (.app 2), .addQuery (.app 3), .start, .addQuery (.app 4), .start] rfl

end Verif.Builder
