import Verif.Model.AMap

/-!
# Model of `src/adnl/keystore.rs`

`σ` is the type of secret keys, `ι` of short ids; `nodeId` is `compute_node_ids().1` (external
crypto). The stored `Key` is determined by the secret key, so the secret key stands for it.
-/
namespace Verif.Keystore

variable {σ ι : Type} [DecidableEq ι]

/-- `Keystore` (keystore.rs:12-15). -/
structure Store (σ ι : Type) where
  keys : AMap ι σ
  tags : AMap Nat ι

/-- `KeystoreError` (keystore.rs:154-166). -/
inductive Err where
  | duplicatedKeyTag | duplicatedKey | keyIdNotFound | keyTagNotFound
deriving DecidableEq, Repr

/-- `Keystore::default`. -/
def empty : Store σ ι := ⟨[], []⟩

/-- `key_by_id` (keystore.rs:23-29). -/
def keyById (s : Store σ ι) (id : ι) : Except Err σ :=
  match s.keys.get id with
  | some k => .ok k
  | none => .error .keyIdNotFound

/-- `key_by_tag` (keystore.rs:32-38). -/
def keyByTag (s : Store σ ι) (tag : Nat) : Except Err σ :=
  match s.tags.get tag with
  | some id => keyById s id
  | none => .error .keyTagNotFound

/-- `add_key` (keystore.rs:49-72). Note that the tag is bound (line 55) before the duplicate check
of the key (line 61). -/
def addKey (nodeId : σ → ι) (s : Store σ ι) (key : σ) (tag : Nat) : Store σ ι × Except Err ι :=
  let id := nodeId key
  match s.tags.get tag with
  | none =>
    let tags := s.tags.put tag id
    match s.keys.get id with
    | none => (⟨s.keys.put id key, tags⟩, .ok id)
    | some _ => (⟨s.keys, tags⟩, .error .duplicatedKey)
  | some id' => if id' = id then (s, .ok id) else (s, .error .duplicatedKeyTag)

/-- A history of additions through `&mut Keystore`, errors ignored by the caller. -/
def addAll (nodeId : σ → ι) (s : Store σ ι) (adds : List (σ × Nat)) : Store σ ι :=
  adds.foldl (fun s a => (addKey nodeId s a.1 a.2).1) s

/-- `KeystoreBuilder::with_tagged_keys` (keystore.rs:94-102): stops at the first error. -/
def withTaggedKeys (nodeId : σ → ι) (s : Store σ ι) : List (σ × Nat) → Except Err (Store σ ι)
  | [] => .ok s
  | a :: as =>
    match addKey nodeId s a.1 a.2 with
    | (s', .ok _) => withTaggedKeys nodeId s' as
    | (_, .error e) => .error e

end Verif.Keystore
