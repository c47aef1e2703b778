import Verif.Model.Keystore
import Verif.Proofs.AMap
import Mathlib.Tactic.ByContra

/-!
# C19: the keystore (`src/adnl/keystore.rs`)
-/
namespace Verif.Props
open Verif Verif.Keystore

variable {σ ι : Type} [DecidableEq ι]

/-- The addition of `a` at this point of the history is accepted. -/
def accepted (nodeId : σ → ι) (s : Store σ ι) (a : σ × Nat) : Prop :=
  (addKey nodeId s a.1 a.2).2 = .ok (nodeId a.1)

/-- C19, atomicity part in full: an addition that reports an error changes nothing. -/
def C19_atomic_full : Prop :=
  ∀ (σ ι : Type) [DecidableEq ι] (nodeId : σ → ι) (adds : List (σ × Nat)) (key : σ) (tag : Nat)
    (e : Err), (addKey nodeId (addAll nodeId empty adds) key tag).2 = .error e →
    (addKey nodeId (addAll nodeId empty adds) key tag).1 = addAll nodeId empty adds

/-- It is false: adding a known key under a new tag fails, but binds the tag. -/
theorem C19_atomic_full_false : ¬ C19_atomic_full := by
  intro h
  have := h Nat Nat (fun k => k) [(7, 1)] 7 2 .duplicatedKey (by decide)
  have h2 := congrArg (fun s => s.tags.get 2) this
  revert h2; decide

/-- What a caller can see of it: the key is afterwards found under the tag whose addition failed. -/
theorem C19_failed_tag_visible :
    (addKey (fun k : Nat => k) (addAll (fun k => k) empty [(7, 1)]) 7 2).2 = .error .duplicatedKey ∧
    keyByTag (addKey (fun k : Nat => k) (addAll (fun k => k) empty [(7, 1)]) 7 2).1 2 = .ok 7 := by
  decide

structure KInv (nodeId : σ → ι) (s : Store σ ι) : Prop where
  ids : ∀ id k, s.keys.get id = some k → nodeId k = id
  tags : ∀ t id, s.tags.get t = some id → ∃ k, s.keys.get id = some k

theorem addKey_inv (nodeId : σ → ι) (s : Store σ ι) (h : KInv nodeId s) (key : σ) (tag : Nat) :
    KInv nodeId (addKey nodeId s key tag).1 := by
  unfold addKey
  simp only []
  cases ht : s.tags.get tag with
  | some id' =>
    simp only; split
    · exact h
    · exact h
  | none =>
    simp only
    cases hk : s.keys.get (nodeId key) with
    | none =>
      simp only
      constructor
      · intro id k hg
        simp only [AMap.get_put] at hg
        split at hg
        · cases hg; simp [*]
        · exact h.ids id k hg
      · intro t id hg
        simp only [AMap.get_put] at hg ⊢
        split at hg
        · cases hg; exact ⟨key, by simp⟩
        · split
          · exact ⟨key, rfl⟩
          · exact h.tags t id hg
    | some k0 =>
      simp only
      constructor
      · exact h.ids
      · intro t id hg
        simp only [AMap.get_put] at hg
        split at hg
        · cases hg; exact ⟨k0, hk⟩
        · exact h.tags t id hg

theorem addAll_inv (nodeId : σ → ι) (s : Store σ ι) (h : KInv nodeId s) (adds : List (σ × Nat)) :
    KInv nodeId (addAll nodeId s adds) := by
  induction adds generalizing s with
  | nil => exact h
  | cons a as ih => exact ih _ (addKey_inv nodeId s h a.1 a.2)

theorem empty_inv (nodeId : σ → ι) : KInv nodeId (empty : Store σ ι) :=
  ⟨by intro id k h; simp [empty, AMap.get] at h, by intro t id h; simp [empty, AMap.get] at h⟩

/-- After any history (also with failed additions) lookups are consistent: lookup by id returns a
key with that id, and every tag that resolves to an id resolves to a stored key. -/
theorem C19_lookups_consistent (nodeId : σ → ι) (adds : List (σ × Nat)) :
    let s := addAll nodeId empty adds
    (∀ id k, keyById s id = .ok k → nodeId k = id) ∧
    (∀ tag, keyByTag s tag ≠ .error .keyIdNotFound) := by
  have h := addAll_inv nodeId _ (empty_inv nodeId) adds
  refine ⟨?_, ?_⟩
  · intro id k hk
    unfold keyById at hk
    split at hk
    · cases hk; exact h.ids _ _ (by assumption)
    · cases hk
  · intro tag
    unfold keyByTag
    split
    · rename_i id hid
      obtain ⟨k, hk⟩ := h.tags tag id hid
      simp [keyById, hk]
    · simp

/-- Every step keeps what is there: a bound tag and a stored key never change again. -/
theorem addKey_keeps (nodeId : σ → ι) (s : Store σ ι) (key : σ) (tag : Nat) :
    (∀ t id, s.tags.get t = some id → (addKey nodeId s key tag).1.tags.get t = some id) ∧
    (∀ id k, s.keys.get id = some k → (addKey nodeId s key tag).1.keys.get id = some k) := by
  unfold addKey
  simp only []
  cases ht : s.tags.get tag with
  | some id' =>
    simp only; split <;> exact ⟨fun _ _ h => h, fun _ _ h => h⟩
  | none =>
    have h1 : ∀ t id, s.tags.get t = some id → (s.tags.put tag (nodeId key)).get t = some id := by
      intro t id hg
      rw [AMap.get_put]
      split
      · rename_i he; rw [he, ht] at hg; cases hg
      · exact hg
    cases hk : s.keys.get (nodeId key) with
    | none =>
      refine ⟨h1, ?_⟩
      intro id k hg
      simp only [AMap.get_put]
      split
      · rename_i he; rw [he, hk] at hg; cases hg
      · exact hg
    | some k0 => exact ⟨h1, fun _ _ h => h⟩

theorem addAll_keeps (nodeId : σ → ι) (s : Store σ ι) (adds : List (σ × Nat)) :
    (∀ t id, s.tags.get t = some id → (addAll nodeId s adds).tags.get t = some id) ∧
    (∀ id k, s.keys.get id = some k → (addAll nodeId s adds).keys.get id = some k) := by
  induction adds generalizing s with
  | nil => exact ⟨fun _ _ h => h, fun _ _ h => h⟩
  | cons a as ih =>
    obtain ⟨a1, a2⟩ := addKey_keeps nodeId s a.1 a.2
    obtain ⟨b1, b2⟩ := ih (addKey nodeId s a.1 a.2).1
    exact ⟨fun t id h => b1 t id (a1 t id h), fun id k h => b2 id k (a2 id k h)⟩

/-- An accepted addition is permanent: from then on, whatever is added later (successfully or not),
lookup by tag and by id return a key with the accepted id. -/
theorem C19_accepted_is_permanent (nodeId : σ → ι) (pre post : List (σ × Nat)) (a : σ × Nat)
    (h : accepted nodeId (addAll nodeId empty pre) a) :
    ∃ k, nodeId k = nodeId a.1 ∧
      keyByTag (addAll nodeId empty (pre ++ a :: post)) a.2 = .ok k ∧
      keyById (addAll nodeId empty (pre ++ a :: post)) (nodeId a.1) = .ok k := by
  have hsplit : addAll nodeId (empty : Store σ ι) (pre ++ a :: post) =
      addAll nodeId (addKey nodeId (addAll nodeId empty pre) a.1 a.2).1 post := by
    simp [addAll, List.foldl_append]
  rw [hsplit]
  generalize hs : addAll nodeId (empty : Store σ ι) pre = s at h ⊢
  have hinv : KInv nodeId s := hs ▸ addAll_inv nodeId _ (empty_inv nodeId) pre
  have htag : (addKey nodeId s a.1 a.2).1.tags.get a.2 = some (nodeId a.1) := by
    unfold accepted addKey at h
    unfold addKey
    simp only [] at h ⊢
    cases ht : s.tags.get a.2 with
    | some id' =>
      simp only [ht] at h ⊢
      by_cases he : id' = nodeId a.1
      · simp [he, ht]
      · simp [he] at h
    | none =>
      cases hk : s.keys.get (nodeId a.1) with
      | none => simp [AMap.get_put]
      | some k0 => simp [ht, hk] at h
  obtain ⟨k, hk⟩ := (addKey_inv nodeId s hinv a.1 a.2).tags _ _ htag
  have hid := (addKey_inv nodeId s hinv a.1 a.2).ids _ _ hk
  obtain ⟨p1, p2⟩ := addAll_keeps nodeId (addKey nodeId s a.1 a.2).1 post
  refine ⟨k, hid, ?_, ?_⟩
  · simp [keyByTag, p1 _ _ htag, keyById, p2 _ _ hk]
  · simp [keyById, p2 _ _ hk]

example : accepted (fun k : Nat => k) (addAll (fun k => k) empty [(7, 1)]) (8, 2) := by
  unfold accepted; decide

/-- What the code guarantees about failed additions: stored keys and all *other* tags are
unchanged; the tag itself is unchanged too when it was bound before. (Missing for the full claim:
a failing addition of a known key under a new tag binds that tag.) -/
theorem C19_atomic_partial (nodeId : σ → ι) (s : Store σ ι) (key : σ) (tag : Nat) (e : Err)
    (h : (addKey nodeId s key tag).2 = .error e) :
    (addKey nodeId s key tag).1.keys = s.keys ∧
    (∀ t, t ≠ tag → (addKey nodeId s key tag).1.tags.get t = s.tags.get t) ∧
    (e ≠ .duplicatedKey → (addKey nodeId s key tag).1 = s) ∧
    (e = .duplicatedKey → s.tags.get tag = none ∧
      (addKey nodeId s key tag).1.tags.get tag = some (nodeId key)) := by
  unfold addKey at h ⊢
  simp only [] at h ⊢
  cases ht : s.tags.get tag with
  | some id' =>
    simp only [ht] at h ⊢
    by_cases he : id' = nodeId key
    · simp [he] at h
    · simp only [he, if_false] at h ⊢
      refine ⟨trivial, fun _ _ => trivial, fun _ => trivial, ?_⟩
      intro hc; rw [hc] at h; cases h
  | none =>
    simp only [ht] at h ⊢
    cases hk : s.keys.get (nodeId key) with
    | none => simp [hk] at h
    | some k0 =>
      simp only [hk] at h ⊢
      cases h
      refine ⟨trivial, ?_, by simp, ?_⟩
      · intro t hne; rw [AMap.get_put_ne _ _ hne]
      · intro _; exact ⟨trivial, by simp⟩

example : (addKey (fun k : Nat => k) (addAll (fun k => k) empty [(7, 1)]) 8 1).2 =
    .error .duplicatedKeyTag := by decide

/-- Only accepted keys are ever stored. -/
theorem C19_only_accepted_keys_stored (nodeId : σ → ι) (adds : List (σ × Nat)) (id : ι) (k : σ)
    (h : keyById (addAll nodeId empty adds) id = .ok k) :
    ∃ pre tag post, adds = pre ++ (k, tag) :: post ∧ nodeId k = id ∧
      accepted nodeId (addAll nodeId empty pre) (k, tag) := by
  have key : ∀ (rest pre : List (σ × Nat)),
      (∀ id k, (addAll nodeId (empty : Store σ ι) pre).keys.get id = some k →
        ∃ p t q, pre = p ++ (k, t) :: q ∧ accepted nodeId (addAll nodeId (empty : Store σ ι) p) (k, t)) →
      ∀ id k, (addAll nodeId (empty : Store σ ι) (pre ++ rest)).keys.get id = some k →
        ∃ p t q, pre ++ rest = p ++ (k, t) :: q ∧
          accepted nodeId (addAll nodeId (empty : Store σ ι) p) (k, t) := by
    intro rest
    induction rest with
    | nil => intro pre hp; simpa using hp
    | cons a rest ih =>
      intro pre hp
      have := ih (pre ++ [a]) ?_
      · simpa using this
      · intro id k hg
        have hstep : addAll nodeId (empty : Store σ ι) (pre ++ [a]) =
            (addKey nodeId (addAll nodeId empty pre) a.1 a.2).1 := by
          simp [addAll, List.foldl_append]
        rw [hstep] at hg
        generalize hs : addAll nodeId (empty : Store σ ι) pre = s at hg hp
        have old : ∀ {id k}, s.keys.get id = some k → ∃ p t q, pre ++ [a] = p ++ (k, t) :: q ∧
            accepted nodeId (addAll nodeId (empty : Store σ ι) p) (k, t) := by
          intro id k hk
          obtain ⟨p, t, q, h1, h2⟩ := hp id k hk
          exact ⟨p, t, q ++ [a], by simp [h1], h2⟩
        have hcopy := hg
        unfold addKey at hg
        simp only [] at hg
        cases ht : s.tags.get a.2 with
        | some id' =>
          simp only [ht] at hg
          split at hg <;> exact old hg
        | none =>
          simp only [ht] at hg
          cases hk : s.keys.get (nodeId a.1) with
          | some k0 => simp only [hk] at hg; exact old hg
          | none =>
            simp only [hk, AMap.get_put] at hg
            split at hg
            · cases hg
              refine ⟨pre, a.2, [], rfl, ?_⟩
              rw [hs]
              simp [accepted, addKey, ht, hk]
            · exact old hg
  have hk : (addAll nodeId empty adds).keys.get id = some k := by
    unfold keyById at h
    split at h
    · cases h; assumption
    · cases h
  obtain ⟨p, t, q, h1, h2⟩ := key adds [] (by intro id k hg; simp [addAll, empty, AMap.get] at hg)
    id k (by simpa using hk)
  exact ⟨p, t, q, by simpa using h1,
    (addAll_inv nodeId _ (empty_inv nodeId) adds).ids id k hk, h2⟩

/-- The builder, which gives up on the first error, does satisfy the full claim: if it returns a
keystore then every listed key is found under its tag, and nothing else is found under any tag. -/
theorem C19_builder (nodeId : σ → ι) (adds : List (σ × Nat)) (s : Store σ ι)
    (h : withTaggedKeys nodeId empty adds = .ok s) :
    (∀ a ∈ adds, ∃ k, nodeId k = nodeId a.1 ∧ keyByTag s a.2 = .ok k) ∧
    (∀ tag k, keyByTag s tag = .ok k → ∃ a ∈ adds, a.2 = tag ∧ nodeId a.1 = nodeId k) := by
  -- generalised over the already accepted prefix
  have key : ∀ (rest pre : List (σ × Nat)) (s0 : Store σ ι), KInv nodeId s0 →
      (∀ a ∈ pre, s0.tags.get a.2 = some (nodeId a.1)) →
      (∀ t id, s0.tags.get t = some id → ∃ a ∈ pre, a.2 = t ∧ nodeId a.1 = id) →
      withTaggedKeys nodeId s0 rest = .ok s →
      KInv nodeId s ∧ (∀ a ∈ pre ++ rest, s.tags.get a.2 = some (nodeId a.1)) ∧
      (∀ t id, s.tags.get t = some id → ∃ a ∈ pre ++ rest, a.2 = t ∧ nodeId a.1 = id) := by
    intro rest
    induction rest with
    | nil =>
      intro pre s0 hi h1 h2 hw
      simp only [withTaggedKeys] at hw
      cases hw
      rw [List.append_nil]; exact ⟨hi, h1, h2⟩
    | cons a rest ih =>
      intro pre s0 hi h1 h2 hw
      simp only [withTaggedKeys] at hw
      have hinv := addKey_inv nodeId s0 hi a.1 a.2
      have hkeep := (addKey_keeps nodeId s0 a.1 a.2).1
      cases hadd : addKey nodeId s0 a.1 a.2 with
      | mk s1 r =>
        rw [hadd] at hw hinv hkeep
        cases r with
        | error e => simp at hw
        | ok id =>
          simp only at hw hinv hkeep
          have htag : s1.tags.get a.2 = some (nodeId a.1) ∧
              ∀ t id, s1.tags.get t = some id → s0.tags.get t = some id ∨
                (t = a.2 ∧ id = nodeId a.1) := by
            unfold addKey at hadd
            simp only [] at hadd
            cases ht : s0.tags.get a.2 with
            | some id' =>
              simp only [ht] at hadd
              by_cases he : id' = nodeId a.1
              · simp only [he, if_true] at hadd
                cases hadd
                exact ⟨by rw [ht, he], fun t id h => .inl h⟩
              · simp [he] at hadd
            | none =>
              simp only [ht] at hadd
              cases hk : s0.keys.get (nodeId a.1) with
              | some k0 => simp [hk] at hadd
              | none =>
                simp only [hk] at hadd
                cases hadd
                refine ⟨by simp [AMap.get_put], ?_⟩
                intro t id hg
                simp only [AMap.get_put] at hg
                split at hg
                · cases hg; right; exact ⟨by assumption, rfl⟩
                · exact .inl hg
          have := ih (pre ++ [a]) s1 hinv ?_ ?_ hw
          · simpa using this
          · intro b hb
            rcases List.mem_append.mp hb with hb | hb
            · exact hkeep _ _ (h1 b hb)
            · simp at hb; rw [hb]; exact htag.1
          · intro t id hg
            rcases htag.2 t id hg with h3 | ⟨h3, h4⟩
            · obtain ⟨b, hb, e⟩ := h2 t id h3
              exact ⟨b, List.mem_append_left _ hb, e⟩
            · exact ⟨a, by simp, h3.symm, h4.symm⟩
  obtain ⟨hi, h1, h2⟩ := key adds [] empty (empty_inv nodeId) (by simp)
    (by intro t id hg; simp [empty, AMap.get] at hg) h
  refine ⟨?_, ?_⟩
  · intro a ha
    have ht := h1 a (by simpa using ha)
    obtain ⟨k, hk⟩ := hi.tags _ _ ht
    exact ⟨k, hi.ids _ _ hk, by simp [keyByTag, ht, keyById, hk]⟩
  · intro tag k hk
    unfold keyByTag at hk
    split at hk
    · rename_i id hid
      obtain ⟨a, ha, e1, e2⟩ := h2 tag id hid
      refine ⟨a, by simpa using ha, e1, ?_⟩
      unfold keyById at hk
      split at hk
      · rename_i k' hk'
        cases hk
        rw [e2, hi.ids _ _ hk']
      · cases hk
    · cases hk

example : ∃ s, withTaggedKeys (fun k : Nat => k) empty [(7, 1), (8, 2), (7, 1)] = .ok s := ⟨_, rfl⟩

example := C19_only_accepted_keys_stored (fun k : Nat => k) [(7, 1), (8, 1), (9, 2)] 9 9 (by decide)

end Verif.Props
