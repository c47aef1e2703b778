import Verif.Model.AMap
import Mathlib.Data.List.Nodup
import Mathlib.Data.List.Basic

namespace Verif.AMap
variable {κ ν : Type} [DecidableEq κ]

@[simp] theorem get_nil (k : κ) : get ([] : AMap κ ν) k = none := rfl

theorem get_cons (k' : κ) (v : ν) (m : AMap κ ν) (k : κ) :
    get ((k', v) :: m) k = if k' = k then some v else get m k := rfl

theorem get_erase (m : AMap κ ν) (k k' : κ) :
    get (erase m k) k' = if k' = k then none else get m k' := by
  induction m with
  | nil => simp [erase, get]
  | cons e m ih =>
    obtain ⟨a, b⟩ := e
    simp only [erase] at ih ⊢
    by_cases h : a = k
    · simp only [List.filter_cons, h, ne_eq, not_true_eq_false, decide_false, Bool.false_eq_true,
        if_false]
      rw [ih, get_cons]
      by_cases h2 : k' = k
      · simp [h2]
      · have : ¬ k = k' := fun h => h2 h.symm
        simp [h2, this]
    · simp only [List.filter_cons, h, ne_eq, not_false_eq_true, decide_true, if_true]
      rw [get_cons, get_cons, ih]
      by_cases h2 : k' = k
      · subst h2; simp [h]
      · simp [h2]

theorem get_put (m : AMap κ ν) (k : κ) (v : ν) (k' : κ) :
    get (put m k v) k' = if k' = k then some v else get m k' := by
  rw [put, get_cons, get_erase]
  by_cases h : k = k'
  · simp [h]
  · have : ¬ k' = k := fun h' => h h'.symm
    simp [h, this]

@[simp] theorem get_put_self (m : AMap κ ν) (k : κ) (v : ν) : get (put m k v) k = some v := by
  rw [get_put]; simp

theorem get_put_ne (m : AMap κ ν) {k k' : κ} (v : ν) (h : k' ≠ k) :
    get (put m k v) k' = get m k' := by rw [get_put]; simp [h]

theorem mem_of_get {m : AMap κ ν} {k : κ} {v : ν} (h : get m k = some v) : (k, v) ∈ m := by
  induction m with
  | nil => cases h
  | cons e m ih =>
    obtain ⟨a, b⟩ := e
    rw [get_cons] at h
    by_cases hk : a = k
    · simp only [hk, if_true, Option.some.injEq] at h; simp [hk, h]
    · simp only [hk, if_false] at h; exact List.mem_cons_of_mem _ (ih h)

theorem get_eq_none_iff {m : AMap κ ν} {k : κ} : get m k = none ↔ k ∉ keys m := by
  induction m with
  | nil => simp [keys]
  | cons e m ih =>
    obtain ⟨a, b⟩ := e
    rw [get_cons]
    simp only [keys, List.map_cons, List.mem_cons, not_or] at ih ⊢
    by_cases hk : a = k
    · simp [hk]
    · have : ¬ k = a := fun h => hk h.symm
      simp [hk, this, ih]

theorem get_isSome_iff {m : AMap κ ν} {k : κ} : (get m k).isSome ↔ k ∈ keys m := by
  rw [← not_iff_not, ← get_eq_none_iff]; simp

theorem get_of_mem {m : AMap κ ν} (hn : (keys m).Nodup) {k : κ} {v : ν} (h : (k, v) ∈ m) :
    get m k = some v := by
  induction m with
  | nil => cases h
  | cons e m ih =>
    obtain ⟨a, b⟩ := e
    rw [get_cons]
    simp only [keys, List.map_cons, List.nodup_cons] at hn
    rcases List.mem_cons.mp h with h | h
    · cases h; simp
    · have hk : a ≠ k := by
        rintro rfl
        exact hn.1 (List.mem_map.mpr ⟨_, h, rfl⟩)
      simp only [hk, if_false]
      exact ih hn.2 h

theorem mem_erase {m : AMap κ ν} {k : κ} {e : κ × ν} : e ∈ erase m k ↔ e ∈ m ∧ e.1 ≠ k := by
  simp [erase]

theorem keys_erase_sublist (m : AMap κ ν) (k : κ) : (keys (erase m k)).Sublist (keys m) := by
  simp only [keys, erase]
  exact List.Sublist.map _ List.filter_sublist

theorem nodup_erase {m : AMap κ ν} (hn : (keys m).Nodup) (k : κ) : (keys (erase m k)).Nodup :=
  hn.sublist (keys_erase_sublist m k)

theorem not_mem_keys_erase (m : AMap κ ν) (k : κ) : k ∉ keys (erase m k) := by
  simp [keys, erase]

theorem nodup_put {m : AMap κ ν} (hn : (keys m).Nodup) (k : κ) (v : ν) :
    (keys (put m k v)).Nodup := by
  simp only [put, keys, List.map_cons, List.nodup_cons]
  exact ⟨not_mem_keys_erase m k, nodup_erase hn k⟩

theorem erase_of_get_none {m : AMap κ ν} {k : κ} (h : get m k = none) : erase m k = m := by
  rw [get_eq_none_iff] at h
  simp only [erase, List.filter_eq_self]
  intro e he
  simp only [ne_eq, decide_eq_true_eq]
  rintro rfl
  exact h (List.mem_map.mpr ⟨e, he, rfl⟩)

theorem mem_put {m : AMap κ ν} {k : κ} {v : ν} {e : κ × ν} :
    e ∈ put m k v ↔ e = (k, v) ∨ (e ∈ m ∧ e.1 ≠ k) := by
  simp [put, mem_erase]

theorem mem_keys_put {m : AMap κ ν} {k k' : κ} {v : ν} :
    k' ∈ keys (put m k v) ↔ k' = k ∨ k' ∈ keys m := by
  rw [← get_isSome_iff, get_put]
  by_cases h : k' = k
  · simp [h]
  · simp [h, get_isSome_iff]

theorem mem_keys_erase {m : AMap κ ν} {k k' : κ} :
    k' ∈ keys (erase m k) ↔ k' ≠ k ∧ k' ∈ keys m := by
  rw [← get_isSome_iff, get_erase]
  by_cases h : k' = k
  · simp [h]
  · simp [h, get_isSome_iff]

omit [DecidableEq κ] in
theorem mem_keys_iff {m : AMap κ ν} {k : κ} : k ∈ keys m ↔ ∃ v, (k, v) ∈ m := by
  simp [keys]

end Verif.AMap
