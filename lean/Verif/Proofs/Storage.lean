import Verif.Model.Storage
import Verif.Proofs.DhtProto
import Verif.Proofs.AMap

namespace Verif.Storage
open Verif.Tl Verif.AdnlProto Verif.DhtProto

variable {c : Crypto}

/-! ### Merging -/

/-- `m` holds, for every id seen, a record with the greatest version seen. -/
structure Merged (m : AMap PubKey ONode) (seen : List ONode) : Prop where
  id : ∀ k n, (k, n) ∈ m → n.id = k ∧ n ∈ seen
  max : ∀ n ∈ seen, ∃ n', (n.id, n') ∈ m ∧ n.version ≤ n'.version
  nodup : (AMap.keys m).Nodup
  len : m.length ≤ seen.length

theorem merged_put {m : AMap PubKey ONode} {seen : List ONode} (h : Merged m seen) (n : ONode)
    (hv : ∀ old, m.get n.id = some old → old.version ≤ n.version) :
    Merged (m.put n.id n) (seen ++ [n]) := by
  refine ⟨?_, ?_, AMap.nodup_put h.nodup _ _, ?_⟩
  · intro k x hm
    rcases AMap.mem_put.mp hm with hm | ⟨hm, -⟩
    · cases hm; exact ⟨rfl, by simp⟩
    · obtain ⟨h1, h2⟩ := h.id k x hm
      exact ⟨h1, by simp [h2]⟩
  · intro x hx
    by_cases he : x.id = n.id
    · refine ⟨n, by rw [he]; exact AMap.mem_put.mpr (.inl rfl), ?_⟩
      rcases List.mem_append.mp hx with hx | hx
      · obtain ⟨n', h1, h2⟩ := h.max x hx
        rw [he] at h1
        have := hv n' (AMap.get_of_mem h.nodup h1)
        omega
      · rw [List.mem_singleton.mp hx]; exact Nat.le_refl _
    · rcases List.mem_append.mp hx with hx | hx
      · obtain ⟨n', h1, h2⟩ := h.max x hx
        exact ⟨n', AMap.mem_put.mpr (.inr ⟨h1, he⟩), h2⟩
      · rw [List.mem_singleton.mp hx] at he; exact absurd rfl he
  · have h1 : (AMap.erase m n.id).length ≤ m.length := List.length_filter_le _ _
    have h2 := h.len
    simp only [AMap.put, List.length_cons, List.length_append, List.length_nil]
    omega

theorem merged_keep {m : AMap PubKey ONode} {seen : List ONode} (h : Merged m seen) (n old : ONode)
    (hg : m.get n.id = some old) (hv : n.version ≤ old.version) : Merged m (seen ++ [n]) := by
  refine ⟨?_, ?_, h.nodup, by have := h.len; simp; omega⟩
  · intro k x hm
    obtain ⟨h1, h2⟩ := h.id k x hm
    exact ⟨h1, by simp [h2]⟩
  · intro x hx
    rcases List.mem_append.mp hx with hx | hx
    · exact h.max x hx
    · rw [List.mem_singleton.mp hx]
      exact ⟨old, AMap.mem_of_get hg, hv⟩

theorem mergeNode_merged {m : AMap PubKey ONode} {seen : List ONode} (h : Merged m seen) (n : ONode) :
    Merged (mergeNode m n) (seen ++ [n]) := by
  unfold mergeNode
  cases hg : m.get n.id with
  | none => exact merged_put h n fun old ho => by rw [hg] at ho; cases ho
  | some old =>
    simp only
    by_cases hv : old.version < n.version
    · rw [if_pos hv]
      exact merged_put h n fun o ho => by rw [hg] at ho; cases ho; omega
    · rw [if_neg hv]
      exact merged_keep h n old hg (by omega)

theorem fold_merged (new : List ONode) : ∀ {m : AMap PubKey ONode} {seen : List ONode},
    Merged m seen → Merged (new.foldl mergeNode m) (seen ++ new) := by
  induction new with
  | nil => intro m seen h; simpa using h
  | cons n new ih =>
    intro m seen h
    have := ih (mergeNode_merged h n)
    simpa using this

theorem collect_merged (old : List ONode) (hn : (old.map (·.id)).Nodup) :
    ∀ {m : AMap PubKey ONode} {seen : List ONode}, Merged m seen →
      (∀ n ∈ old, m.get n.id = none) →
      Merged (old.foldl (fun m n => m.put n.id n) m) (seen ++ old) := by
  induction old with
  | nil => intro m seen h _; simpa using h
  | cons n old ih =>
    intro m seen h hno
    simp only [List.map_cons, List.nodup_cons] at hn
    have h1 := merged_put h n fun o ho => by rw [hno n (by simp)] at ho; cases ho
    have := ih hn.2 h1 (by
      intro x hx
      rw [AMap.get_put]
      rw [if_neg]
      · exact hno x (by simp [hx])
      · intro e; exact hn.1 (List.mem_map.mpr ⟨x, hx, e⟩))
    simpa using this

theorem nil_merged : Merged [] [] :=
  ⟨fun _ _ h => absurd h List.not_mem_nil, fun _ h => absurd h List.not_mem_nil, List.nodup_nil,
    Nat.le_refl _⟩

theorem merge_merged (old new : List ONode) (hn : (old.map (·.id)).Nodup) :
    Merged (merge old new) (old ++ new) := by
  have h := collect_merged old hn nil_merged fun _ _ => rfl
  have := fold_merged new h
  simpa [merge] using this

/-- The list of records stored after a merge. -/
theorem merged_list {m : AMap PubKey ONode} {seen res : List ONode} (h : Merged m seen)
    (hp : res.Perm (m.map (·.2))) :
    (res.map (·.id)).Nodup ∧ (∀ n ∈ res, n ∈ seen) ∧
    (∀ n ∈ seen, ∃ n' ∈ res, n'.id = n.id ∧ n.version ≤ n'.version) ∧
    res.length ≤ seen.length := by
  have hid : (m.map (·.2)).map (·.id) = AMap.keys m := by
    rw [List.map_map]
    apply List.map_congr_left
    intro e he
    exact (h.id e.1 e.2 he).1
  refine ⟨?_, ?_, ?_, ?_⟩
  · rw [(hp.map _).nodup_iff, hid]; exact h.nodup
  · intro n hn
    obtain ⟨e, he, rfl⟩ := List.mem_map.mp (hp.mem_iff.mp hn)
    exact (h.id e.1 e.2 he).2
  · intro n hn
    obtain ⟨n', h1, h2⟩ := h.max n hn
    exact ⟨n', hp.mem_iff.mpr (List.mem_map.mpr ⟨_, h1, rfl⟩), (h.id _ _ h1).1, h2⟩
  · rw [hp.length_eq, List.length_map]; exact h.len

/-! ### What the checks give -/

theorem signedOk_iff (v : Value) : signedOk c v = .ok () ↔
    ∃ p, Receiver.fullId c v.key.id = some p ∧
      verifySig c p (writeKeyDescBoxed { v.key with signature := [] }) v.key.signature = true ∧
      verifySig c p (writeValueBoxed { v with signature := [] }) v.signature = true := by
  unfold signedOk
  cases hf : Receiver.fullId c v.key.id with
  | none => simp
  | some p =>
    simp only [Option.some.injEq, exists_eq_left']
    cases verifySig c p (writeKeyDescBoxed { v.key with signature := [] }) v.key.signature <;>
      cases verifySig c p (writeValueBoxed { v with signature := [] }) v.signature <;> simp

theorem overlayOk_some {v : Value} {new : List ONode} (h : overlayOk c v = .ok new) :
    v.signature = [] ∧ v.key.signature = [] ∧ isOverlay v.key.id = true ∧
    v.key.key = ⟨c.sha (writePubKey v.key.id), keyNodes, 0⟩ ∧ new ≠ [] ∧
    ∃ l, decodeNodes v.value = some l ∧
      new = l.filter (verifyONode c (c.sha (writePubKey v.key.id))) := by
  unfold overlayOk at h
  split at h
  · cases h
  rename_i h1
  split at h
  · cases h
  rename_i h2
  split at h
  · cases h
  rename_i h3
  cases hd : decodeNodes v.value with
  | none => rw [hd] at h; cases h
  | some l =>
    rw [hd] at h
    simp only at h
    split at h
    · cases h
    rename_i h4
    cases h
    simp only [not_or, ne_eq, Decidable.not_not] at h1 h3
    exact ⟨h1.1, h1.2, by simpa using h2, h3, h4, l, rfl, rfl⟩

theorem decodeNodes_wf {b : Bytes} {l : List ONode} (h : decodeNodes b = some l) :
    l.length < 2 ^ 32 ∧ ∀ n ∈ l, ONode.wf n := by
  unfold decodeNodes at h
  cases hr : readONodes b with
  | none => rw [hr] at h; cases h
  | some p =>
    rw [hr] at h
    cases h
    exact onodes_yields b p.1 p.2 hr

theorem decodeNodes_write {l : List ONode} (hl : l.length < 2 ^ 32) (h : ∀ n ∈ l, ONode.wf n) :
    decodeNodes (writeONodes l) = some l := by
  have := onodes_encodes l hl h []
  rw [List.append_nil] at this
  simp [decodeNodes, this]

end Verif.Storage
