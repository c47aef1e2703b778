import Verif.Model.DhtProto
import Verif.Proofs.AdnlProto

namespace Verif.Tl

/-- Whatever a reader returns satisfies `P`. -/
def Yields {α : Type} (rd : Reader α) (P : α → Prop) : Prop := ∀ b x r, rd b = some (x, r) → P x

theorem Yields.bind {α β : Type} {m : Reader α} {f : α → Reader β} {P : α → Prop} {Q : β → Prop}
    (h : Yields m P) (h' : ∀ x, P x → Yields (f x) Q) : Yields (m >>= f) Q := by
  intro b y r hb
  obtain ⟨x, r1, h1, h2⟩ := bind_some hb
  exact h' x (h _ _ _ h1) _ _ _ h2

theorem Yields.pure {α : Type} {P : α → Prop} {x : α} (h : P x) : Yields (pure x : Reader α) P := by
  intro b y r hb; cases hb; exact h

theorem Yields.fail {α : Type} {P : α → Prop} : Yields (fail : Reader α) P := by
  intro b y r hb; cases hb

theorem Yields.ite {α : Type} {P : α → Prop} {m m' : Reader α} {c : Prop} [Decidable c]
    (h : Yields m P) (h' : Yields m' P) : Yields (if c then m else m') P := by
  split
  · exact h
  · exact h'

theorem Yields.mono {α : Type} {P Q : α → Prop} {m : Reader α} (h : Yields m P) (hpq : ∀ x, P x → Q x) :
    Yields m Q := fun b x r hb => hpq x (h b x r hb)

theorem Yields.u32 : Yields readU32 (· < 2 ^ 32) := fun _ _ _ h => readU32_lt h

theorem Yields.raw (n : Nat) : Yields (readRaw n) (·.length = n) := by
  intro b x r h
  obtain ⟨h1, h2, -⟩ := readRaw_some h
  subst h2
  simp; omega

theorem Yields.hash : Yields readHash (·.length = 32) := Yields.raw 32

theorem Yields.bytes : Yields readBytes (·.length < 2 ^ 24) := by
  refine Yields.bind (Yields.raw 1) fun h hh => Yields.ite ?_ ?_
  · refine Yields.bind (Yields.raw 3) fun l hl => Yields.bind (Yields.raw _) fun d hd =>
      Yields.bind (Yields.raw _) fun _ _ => Yields.pure ?_
    have := ofLE_lt l
    rw [hl] at this
    rw [hd]
    simpa using this
  · refine Yields.bind (Yields.raw _) fun d hd => Yields.bind (Yields.raw _) fun _ _ => Yields.pure ?_
    have := ofLE_lt h
    rw [hh] at this
    rw [hd]
    omega

theorem Yields.readN {α : Type} {P : α → Prop} {rd : Reader α} (h : Yields rd P) (n : Nat) :
    Yields (readN rd n) (fun l => l.length = n ∧ ∀ x ∈ l, P x) := by
  induction n with
  | zero => exact Yields.pure ⟨rfl, fun _ h => absurd h List.not_mem_nil⟩
  | succ n ih =>
    refine Yields.bind h fun x hx => Yields.bind ih fun xs hxs => Yields.pure ⟨by simp [hxs.1], ?_⟩
    intro y hy
    rcases List.mem_cons.mp hy with rfl | hy
    · exact hx
    · exact hxs.2 y hy

theorem Yields.vec {α : Type} {P : α → Prop} {rd : Reader α} (h : Yields rd P) :
    Yields (readVec rd) (fun l => l.length < 2 ^ 32 ∧ ∀ x ∈ l, P x) :=
  Yields.bind Yields.u32 fun n hn => (Yields.readN h n).mono fun _ hl => ⟨hl.1 ▸ hn, hl.2⟩

/-- Two values with the same encoding are equal. -/
theorem Encodes.inj {α : Type} {rd : Reader α} {w : Bytes} {x y : α} (h : Encodes rd w x)
    (h' : Encodes rd w y) : x = y := by
  have e1 := h []
  have e2 := h' []
  rw [e1] at e2
  cases e2
  rfl

end Verif.Tl

namespace Verif.DhtProto
open Verif.Tl Verif.Address Verif.AdnlProto

/-- Values as the Rust types can hold them. -/
def ONode.wf (n : ONode) : Prop :=
  n.id.wf ∧ n.overlay.length = 32 ∧ n.version < 2 ^ 32 ∧ n.signature.length < 2 ^ 24

def Key.wf (k : Key) : Prop := k.id.length = 32 ∧ k.name.length < 2 ^ 24 ∧ k.idx < 2 ^ 32

def KeyDesc.wf (d : KeyDesc) : Prop := d.key.wf ∧ d.id.wf ∧ d.signature.length < 2 ^ 24

def Value.wf (v : Value) : Prop :=
  v.key.wf ∧ v.value.length < 2 ^ 24 ∧ v.ttl < 2 ^ 32 ∧ v.signature.length < 2 ^ 24

def DNode.wf (n : DNode) : Prop :=
  n.id.wf ∧ addrListWf n.addrList ∧ n.version < 2 ^ 32 ∧ n.signature.length < 2 ^ 24

theorem pubKey_yields : Yields readPubKey PubKey.wf := by
  refine Yields.bind Yields.u32 fun _ _ => Yields.ite ?_ (Yields.ite ?_ (Yields.ite ?_ (Yields.ite ?_ ?_)))
  · exact Yields.bind Yields.hash fun _ h => Yields.pure h
  · exact Yields.bind Yields.hash fun _ h => Yields.pure h
  · exact Yields.bind Yields.bytes fun _ h => Yields.pure h
  · exact Yields.bind Yields.bytes fun _ h => Yields.pure h
  · exact Yields.fail

theorem onode_yields : Yields readONode ONode.wf :=
  Yields.bind pubKey_yields fun _ h1 => Yields.bind Yields.hash fun _ h2 =>
    Yields.bind Yields.u32 fun _ h3 => Yields.bind Yields.bytes fun _ h4 =>
      Yields.pure ⟨h1, h2, h3, h4⟩

theorem onodes_yields : Yields readONodes (fun l => l.length < 2 ^ 32 ∧ ∀ n ∈ l, ONode.wf n) :=
  Yields.bind Yields.u32 fun _ _ => Yields.ite (Yields.vec onode_yields) Yields.fail

theorem onode_encodes (n : ONode) (h : n.wf) : Encodes readONode (writeONode n) n :=
  Encodes.bind (pubKey_encodes _ h.1) <| Encodes.bind (Encodes.hash h.2.1) <|
    Encodes.bind (Encodes.u32 h.2.2.1) <| Encodes.bindPure (Encodes.bytes h.2.2.2) rfl

theorem onodes_encodes (l : List ONode) (hl : l.length < 2 ^ 32) (h : ∀ n ∈ l, ONode.wf n) :
    Encodes readONodes (writeONodes l) l := by
  refine Encodes.bind (Encodes.u32 (by decide)) ?_
  rw [if_pos rfl]
  exact Encodes.vec l hl fun n hn => onode_encodes n (h n hn)

theorem key_encodes (k : Key) (h : k.wf) : Encodes readKey (writeKey k) k :=
  Encodes.bind (Encodes.hash h.1) <| Encodes.bind (Encodes.bytes h.2.1) <|
    Encodes.bindPure (Encodes.u32 h.2.2) rfl

theorem rule_encodes (r : UpdateRule) : Encodes readRule (writeRule r) r := by
  cases r <;> exact Encodes.bindPure (Encodes.u32 (by decide)) (by rfl)

theorem keyDesc_encodes (d : KeyDesc) (h : d.wf) : Encodes readKeyDesc (writeKeyDesc d) d :=
  Encodes.bind (key_encodes _ h.1) <| Encodes.bind (pubKey_encodes _ h.2.1) <|
    Encodes.bind (rule_encodes _) <| Encodes.bindPure (Encodes.bytes h.2.2) rfl

theorem value_encodes (v : Value) (h : v.wf) : Encodes readValue (writeValue v) v :=
  Encodes.bind (keyDesc_encodes _ h.1) <| Encodes.bind (Encodes.bytes h.2.1) <|
    Encodes.bind (Encodes.u32 h.2.2.1) <| Encodes.bindPure (Encodes.bytes h.2.2.2) rfl

theorem dnode_encodes (n : DNode) (h : n.wf) : Encodes readDNode (writeDNode n) n :=
  Encodes.bind (pubKey_encodes _ h.1) <| Encodes.bind (addrList_encodes _ h.2.1) <|
    Encodes.bind (Encodes.u32 h.2.2.1) <| Encodes.bindPure (Encodes.bytes h.2.2.2) rfl

theorem key_yields : Yields readKey Key.wf :=
  Yields.bind Yields.hash fun _ h1 => Yields.bind Yields.bytes fun _ h2 =>
    Yields.bind Yields.u32 fun _ h3 => Yields.pure ⟨h1, h2, h3⟩

theorem keyDesc_yields : Yields readKeyDesc KeyDesc.wf :=
  Yields.bind key_yields fun _ h1 => Yields.bind pubKey_yields fun _ h2 =>
    Yields.bind (P := fun _ => True) (fun _ _ _ _ => trivial) fun _ _ =>
      Yields.bind Yields.bytes fun _ h3 => Yields.pure ⟨h1, h2, h3⟩

theorem value_yields : Yields readValue Value.wf :=
  Yields.bind keyDesc_yields fun _ h1 => Yields.bind Yields.bytes fun _ h2 =>
    Yields.bind Yields.u32 fun _ h3 => Yields.bind Yields.bytes fun _ h4 =>
      Yields.pure ⟨h1, h2, h3, h4⟩

theorem valueResult_encodes (r : ValueResult)
    (h : match r with
      | .found v => v.wf
      | .notFound l => l.length < 2 ^ 32 ∧ ∀ n ∈ l, DNode.wf n) :
    Encodes readValueResult (writeValueResult r) r := by
  cases r with
  | found v =>
    refine Encodes.bind (Encodes.u32 (by decide)) ?_
    rw [if_pos rfl]
    refine Encodes.bind (Encodes.u32 (by decide)) ?_
    rw [if_pos rfl]
    exact Encodes.bindPure (value_encodes v h) rfl
  | notFound l =>
    refine Encodes.bind (Encodes.u32 (by decide)) ?_
    rw [if_neg (by decide), if_pos rfl]
    exact Encodes.bindPure (Encodes.vec l h.1 fun n hn => dnode_encodes n (h.2 n hn)) rfl

end Verif.DhtProto
