import Verif.Model.Transfer
import Verif.Spec.Pieces
import Verif.Proofs.AMap
import Mathlib.Data.List.Perm.Subperm
import Mathlib.Tactic.ByContra

namespace Verif.Transfer
open Verif.Spec

/-! ## Joining -/

theorem combine_mono (parts : AMap Nat Bytes) (total : Nat) :
    ∀ (f g pos : Nat) (buf : Bytes), f ≤ g → combine parts total f pos buf ≠ .hang →
      combine parts total g pos buf = combine parts total f pos buf := by
  intro f
  induction f with
  | zero => intro g pos buf _ h; exact absurd rfl h
  | succ f ih =>
    intro g pos buf hg h
    cases g with
    | zero => omega
    | succ g =>
      simp only [combine] at h ⊢
      split
      · rename_i hp
        simp only [hp, if_true] at h
        cases hget : parts.get pos with
        | none => rfl
        | some d =>
          simp only [hget] at h ⊢
          exact ih g _ _ (by omega) h
      · rfl

/-- Either the budget is enough or no budget is. -/
theorem combine_dichotomy (parts : AMap Nat Bytes) (total : Nat) :
    ∀ (n pos : Nat) (buf : Bytes), total - pos ≤ n →
      combine parts total (total - pos + 1) pos buf ≠ .hang ∨
      ∀ f, combine parts total f pos buf = .hang := by
  intro n
  induction n using Nat.strongRecOn with
  | ind n ih =>
    intro pos buf hn
    by_cases hp : pos < total
    · cases hget : parts.get pos with
      | none => left; simp [combine, hp, hget]
      | some d =>
        by_cases hd : d.length = 0
        · right
          intro f
          induction f generalizing buf with
          | zero => rfl
          | succ f ihf =>
            simp only [combine, hp, if_true, hget, hd, Nat.add_zero]
            exact ihf _
        · have hlt : total - (pos + d.length) < n := by omega
          rcases ih _ hlt (pos + d.length) (buf ++ d) (Nat.le_refl _) with h | h
          · left
            simp only [combine, hp, if_true, hget]
            rw [combine_mono _ _ _ _ _ _ (by omega) h]
            exact h
          · right
            intro f
            cases f with
            | zero => rfl
            | succ f => simp only [combine, hp, if_true, hget]; exact h f
    · left
      simp [combine, hp]

/-- If the budget used by `finish` is not enough, the loop really never ends. -/
theorem combine_hang_forever (parts : AMap Nat Bytes) (total : Nat)
    (h : combine parts total (total + 1) 0 [] = .hang) :
    ∀ f, combine parts total f 0 [] = .hang := by
  rcases combine_dichotomy parts total total 0 [] (by omega) with h1 | h1
  · exact absurd h h1
  · exact h1

/-- If no stored part is empty the loop ends. -/
theorem combine_terminates (parts : AMap Nat Bytes) (total : Nat)
    (hne : ∀ e ∈ parts, e.2 ≠ []) :
    ∀ (n pos : Nat) (buf : Bytes), total - pos ≤ n →
      combine parts total (total - pos + 1) pos buf ≠ .hang := by
  intro n
  induction n using Nat.strongRecOn with
  | ind n ih =>
    intro pos buf hn
    by_cases hp : pos < total
    · cases hget : parts.get pos with
      | none => simp [combine, hp, hget]
      | some d =>
        have hd : d ≠ [] := hne _ (AMap.mem_of_get hget)
        have hd' : d.length ≠ 0 := by simpa using hd
        have h := ih _ (show total - (pos + d.length) < n by omega) (pos + d.length) (buf ++ d)
          (Nat.le_refl _)
        simp only [combine, hp, if_true, hget]
        rw [combine_mono _ _ _ _ _ _ (by omega) h]
        exact h
    · simp [combine, hp]

/-! ## Cuts -/

theorem layout_ge (o : Nat) (bs : List Bytes) : ∀ e ∈ layout o bs, o ≤ e.1 := by
  induction bs generalizing o with
  | nil => simp [layout]
  | cons b bs ih =>
    intro e he
    simp only [layout, List.mem_cons] at he
    rcases he with rfl | he
    · exact Nat.le_refl _
    · have := ih _ e he; omega

theorem layout_keys_nodup (o : Nat) (bs : List Bytes) (hne : ∀ b ∈ bs, b ≠ []) :
    ((layout o bs).map (·.1)).Nodup := by
  induction bs generalizing o with
  | nil => simp [layout]
  | cons b bs ih =>
    simp only [layout, List.map_cons, List.nodup_cons]
    refine ⟨?_, ih _ (fun b hb => hne b (List.mem_cons_of_mem _ hb))⟩
    intro hmem
    obtain ⟨e, he, h⟩ := List.mem_map.mp hmem
    have := layout_ge _ _ e he
    have hb : b.length ≠ 0 := by simpa using hne b (by simp)
    omega

theorem layout_nonempty (o : Nat) (bs : List Bytes) (hne : ∀ b ∈ bs, b ≠ []) :
    ∀ e ∈ layout o bs, e.2 ≠ [] := by
  induction bs generalizing o with
  | nil => simp [layout]
  | cons b bs ih =>
    intro e he
    simp only [layout, List.mem_cons] at he
    rcases he with rfl | he
    · exact hne _ (by simp)
    · exact ih _ (fun b hb => hne b (List.mem_cons_of_mem _ hb)) e he

/-- Sum of piece lengths. -/
def sumLen (m : List (Nat × Bytes)) : Nat := (m.map (fun e => e.2.length)).sum

theorem sumLen_cons (e : Nat × Bytes) (m) : sumLen (e :: m) = e.2.length + sumLen m := by
  simp [sumLen]

theorem sumLen_perm {a b : List (Nat × Bytes)} (h : a.Perm b) : sumLen a = sumLen b := by
  simp only [sumLen]; exact (h.map _).sum_nat

theorem sumLen_sublist {a b : List (Nat × Bytes)} (h : a.Sublist b) : sumLen a ≤ sumLen b := by
  induction h with
  | slnil => exact Nat.le_refl _
  | cons e _ ih => rw [sumLen_cons]; omega
  | cons_cons e _ ih => rw [sumLen_cons, sumLen_cons]; omega

theorem sumLen_subset {a b : List (Nat × Bytes)} (hn : a.Nodup) (h : a ⊆ b) :
    sumLen a ≤ sumLen b := by
  obtain ⟨l, hp, hs⟩ := List.subperm_of_subset hn h
  rw [← sumLen_perm hp]; exact sumLen_sublist hs

theorem sumLen_layout (o : Nat) (bs : List Bytes) : sumLen (layout o bs) = bs.flatten.length := by
  induction bs generalizing o with
  | nil => simp [layout, sumLen]
  | cons b bs ih => simp [layout, sumLen_cons, ih]

theorem nodup_of_keys {m : List (Nat × Bytes)} (h : (AMap.keys m).Nodup) : m.Nodup :=
  List.Nodup.of_map _ h

theorem combine_layout (parts : AMap Nat Bytes) :
    ∀ (bs : List Bytes) (o fuel total : Nat) (buf : Bytes), (∀ b ∈ bs, b ≠ []) →
      (∀ e ∈ layout o bs, parts.get e.1 = some e.2) → total = o + bs.flatten.length →
      bs.length < fuel →
      combine parts total fuel o buf = .done (buf ++ bs.flatten) := by
  intro bs
  induction bs with
  | nil =>
    intro o fuel total buf _ _ ht hf
    cases fuel with
    | zero => omega
    | succ f =>
      have : ¬ o < total := by simp at ht; omega
      simp [combine, this]
  | cons b bs ih =>
    intro o fuel total buf hne hget ht hf
    cases fuel with
    | zero => omega
    | succ f =>
      have hb : b.length ≠ 0 := by simpa using hne b (by simp)
      have h1 : o < total := by rw [ht]; simp; omega
      have h2 : parts.get o = some b := hget (o, b) (by simp [layout])
      simp only [combine, h1, if_true, h2]
      rw [ih (o + b.length) f total (buf ++ b) (fun x hx => hne x (List.mem_cons_of_mem _ hx))
        (fun e he => hget e (by simp [layout, he])) (by rw [ht]; simp; omega)
        (by simp at hf; omega)]
      simp

theorem length_le_flatten (bs : List Bytes) (hne : ∀ b ∈ bs, b ≠ []) :
    bs.length ≤ bs.flatten.length := by
  induction bs with
  | nil => simp
  | cons b bs ih =>
    have hb : b.length ≠ 0 := by simpa using hne b (by simp)
    have := ih (fun x hx => hne x (List.mem_cons_of_mem _ hx))
    rw [List.flatten_cons, List.length_append, List.length_cons]; omega

/-! ## A transfer fed with pieces of one cut -/

/-- The transfer has received exactly the pieces `got` (a subset of the cut `ps`). -/
structure Feeding (ps : List (Nat × Bytes)) (total : Nat) (t : Transfer) : Prop where
  tot : t.total = total
  keys : (AMap.keys t.parts).Nodup
  sub : t.parts ⊆ ps
  recv : t.received = sumLen t.parts

theorem feeding_new (ps : List (Nat × Bytes)) (total : Nat) : Feeding ps total (Transfer.new total) :=
  ⟨rfl, by simp [Transfer.new, AMap.keys], by simp [Transfer.new], by simp [Transfer.new, sumLen]⟩

theorem get_of_cut {ps : List (Nat × Bytes)} (hn : (ps.map (·.1)).Nodup) {t : Transfer} {total}
    (hf : Feeding ps total t) {e : Nat × Bytes} (he : e ∈ ps) :
    (t.parts.get e.1).isSome ↔ e ∈ t.parts := by
  constructor
  · intro h
    obtain ⟨v, hv⟩ := Option.isSome_iff_exists.mp h
    have hm := AMap.mem_of_get hv
    have h2 := hf.sub hm
    have : v = e.2 := by
      have h3 := AMap.get_of_mem (m := ps) hn h2
      have h4 := AMap.get_of_mem (m := ps) hn (k := e.1) (v := e.2) he
      rw [h3] at h4; exact Option.some.inj h4
    rw [this] at hm; exact hm
  · intro h
    rw [AMap.get_of_mem hf.keys (k := e.1) (v := e.2) h]; rfl

theorem put_same {m : AMap Nat Bytes} (hn : (AMap.keys m).Nodup) (e : Nat × Bytes) (he : e ∈ m) :
    (AMap.put m e.1 e.2).Perm m := by
  rw [List.perm_ext_iff_of_nodup (nodup_of_keys (AMap.nodup_put hn _ _)) (nodup_of_keys hn)]
  intro x
  rw [AMap.mem_put]
  constructor
  · rintro (rfl | h)
    · exact he
    · exact h.1
  · intro hx
    by_cases h : x.1 = e.1
    · left
      have h1 := AMap.get_of_mem hn (k := x.1) (v := x.2) hx
      have h2 := AMap.get_of_mem hn (k := e.1) (v := e.2) he
      rw [h, h2] at h1
      ext1
      · exact h
      · exact (Option.some.inj h1).symm
    · exact .inr ⟨hx, h⟩

/-- What one part of the cut does to a transfer that is not complete yet. -/
theorem addPart_feeding (sha : Bytes → Bytes) (data : Bytes) (ps : List (Nat × Bytes))
    (hcut : IsCut data ps) (t : Transfer) (hf : Feeding ps data.length t)
    (e : Nat × Bytes) (he : e ∈ ps) :
    let r := addPart sha t e.1 e.2 (sha data)
    (e ∈ t.parts → r.2 = .none ∧ Feeding ps data.length r.1 ∧ ∀ x, x ∈ r.1.parts ↔ x ∈ t.parts) ∧
    (e ∉ t.parts → (∀ x ∈ ps, x = e ∨ x ∈ t.parts) → r.2 = .some data) ∧
    (e ∉ t.parts → (¬ ∀ x ∈ ps, x = e ∨ x ∈ t.parts) →
      r.2 = .none ∧ Feeding ps data.length r.1 ∧ ∀ x, x ∈ r.1.parts ↔ x = e ∨ x ∈ t.parts) := by
  obtain ⟨bs, hne, hflat, rfl⟩ := hcut
  have hkeys := layout_keys_nodup 0 bs hne
  have hget := get_of_cut hkeys hf he
  have hsum : sumLen (layout 0 bs) = data.length := by rw [sumLen_layout, hflat]
  intro r
  refine ⟨?_, ?_, ?_⟩
  · intro hmem
    have h1 : (t.parts.get e.1).isSome := hget.mpr hmem
    have hr : r = ({ t with parts := t.parts.put e.1 e.2 }, .none) := by
      simp only [r, addPart, h1, if_true]
    have hperm := put_same hf.keys e hmem
    rw [hr]
    refine ⟨rfl, ⟨hf.tot, AMap.nodup_put hf.keys _ _, ?_, ?_⟩, ?_⟩
    · intro x hx; exact hf.sub (hperm.subset hx)
    · show t.received = _
      rw [hf.recv]; exact (sumLen_perm hperm).symm
    · intro x; exact hperm.mem_iff
  · intro hnm hall
    have h1 : (t.parts.get e.1).isSome = false := by
      cases h : (t.parts.get e.1).isSome
      · rfl
      · exact absurd (hget.mp h) hnm
    have hnone : t.parts.get e.1 = none := by simpa using h1
    have hput : t.parts.put e.1 e.2 = e :: t.parts := by
      rw [AMap.put, AMap.erase_of_get_none hnone]
    have hperm : (e :: t.parts).Perm (layout 0 bs) := by
      rw [List.perm_ext_iff_of_nodup _ (List.Nodup.of_map _ hkeys)]
      · intro x
        constructor
        · intro hx
          rcases List.mem_cons.mp hx with rfl | hx
          · exact he
          · exact hf.sub hx
        · intro hx
          rcases hall x hx with rfl | h
          · simp
          · exact List.mem_cons_of_mem _ h
      · exact List.nodup_cons.mpr ⟨hnm, nodup_of_keys hf.keys⟩
    have hrecv : t.received + e.2.length = t.total := by
      rw [hf.recv, hf.tot, ← hsum, ← sumLen_perm hperm, sumLen_cons]; omega
    have hr : r.2 = finish sha (t.parts.put e.1 e.2) t.total (sha data) := by
      simp only [r, addPart, h1, hrecv, Bool.false_eq_true, if_false, if_true]
    rw [hr, hf.tot]
    have hcomb : combine (t.parts.put e.1 e.2) data.length (data.length + 1) 0 [] = .done data := by
      rw [combine_layout _ bs 0 _ _ [] hne _ (by rw [hflat]; omega)
        (by have := length_le_flatten bs hne; rw [hflat] at this; omega)]
      · simp [hflat]
      · intro x hx
        apply AMap.get_of_mem (AMap.nodup_put hf.keys _ _)
        rw [hput]
        exact hperm.mem_iff.mpr hx
    simp [finish, hcomb]
  · intro hnm hnall
    have h1 : (t.parts.get e.1).isSome = false := by
      cases h : (t.parts.get e.1).isSome
      · rfl
      · exact absurd (hget.mp h) hnm
    have hnone : t.parts.get e.1 = none := by simpa using h1
    have hput : t.parts.put e.1 e.2 = e :: t.parts := by
      rw [AMap.put, AMap.erase_of_get_none hnone]
    have hlt : t.received + e.2.length < t.total := by
      push Not at hnall
      obtain ⟨x, hx, hxe, hxn⟩ := hnall
      have hnd : (x :: e :: t.parts).Nodup := by
        refine List.nodup_cons.mpr ⟨?_, List.nodup_cons.mpr ⟨hnm, nodup_of_keys hf.keys⟩⟩
        simp [hxe, hxn]
      have hss : (x :: e :: t.parts) ⊆ layout 0 bs := by
        intro y hy
        rcases List.mem_cons.mp hy with rfl | hy
        · exact hx
        · rcases List.mem_cons.mp hy with rfl | hy
          · exact he
          · exact hf.sub hy
      have h2 := sumLen_subset hnd hss
      have h3 : x.2.length ≠ 0 := by simpa using layout_nonempty 0 bs hne x hx
      rw [sumLen_cons, sumLen_cons, hsum] at h2
      rw [hf.recv, hf.tot]; omega
    have hr : r = (⟨t.parts.put e.1 e.2, t.received + e.2.length, t.total⟩, .none) := by
      have h4 : ¬ (t.received + e.2.length = t.total) := by omega
      have h5 : ¬ (t.received + e.2.length > t.total) := by omega
      simp only [r, addPart, h1, h4, h5, Bool.false_eq_true, if_false]
    rw [hr]
    refine ⟨rfl, ⟨hf.tot, AMap.nodup_put hf.keys _ _, ?_, ?_⟩, ?_⟩
    · show t.parts.put e.1 e.2 ⊆ _
      rw [hput]
      intro y hy
      rcases List.mem_cons.mp hy with rfl | hy
      · exact he
      · exact hf.sub hy
    · show t.received + e.2.length = sumLen (t.parts.put e.1 e.2)
      rw [hput, sumLen_cons, hf.recv]; omega
    · intro x
      show x ∈ t.parts.put e.1 e.2 ↔ _
      rw [hput, List.mem_cons]

end Verif.Transfer
