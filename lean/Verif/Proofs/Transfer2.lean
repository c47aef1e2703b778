import Verif.Proofs.Transfer
import Verif.Model.TransferConc

namespace Verif.Transfer
open Verif.Spec

/-! ## The table of transfers fed with pieces of one cut, other traffic interleaved -/

/-- The entry of transfer `h` has received exactly the pieces satisfying `got`. -/
def Holds (ps : List (Nat × Bytes)) (total : Nat) (h : Bytes) (tbl : Table)
    (got : Nat × Bytes → Prop) : Prop :=
  match tbl.get h with
  | none => ∀ x, ¬ got x
  | some t => Feeding ps total t ∧ ∀ x, x ∈ t.parts ↔ got x

theorem recvPart_other (sha : Bytes → Bytes) (tbl : Table) (p : Part) (h : Bytes) (hne : h ≠ p.hash) :
    (recvPart sha tbl p).1.get h = tbl.get h := by
  unfold recvPart
  simp only []
  split
  · rw [AMap.get_put_ne _ _ hne]
  · rw [AMap.get_put_ne _ _ hne]
  · rw [AMap.get_erase]; simp [hne]

theorem recvPart_holds (sha : Bytes → Bytes) (data : Bytes) (ps : List (Nat × Bytes))
    (hcut : IsCut data ps) (tbl : Table) (got : Nat × Bytes → Prop)
    (hh : Holds ps data.length (sha data) tbl got) (p : Part) (hp : p.hash = sha data)
    (ht : p.total = data.length) (he : (p.offset, p.data) ∈ ps) :
    (got (p.offset, p.data) → (recvPart sha tbl p).2 = .none ∧
      Holds ps data.length (sha data) (recvPart sha tbl p).1 got) ∧
    (¬ got (p.offset, p.data) → (∀ x ∈ ps, x = (p.offset, p.data) ∨ got x) →
      (recvPart sha tbl p).2 = .some data) ∧
    (¬ got (p.offset, p.data) → (¬ ∀ x ∈ ps, x = (p.offset, p.data) ∨ got x) →
      (recvPart sha tbl p).2 = .none ∧
      Holds ps data.length (sha data) (recvPart sha tbl p).1
        (fun x => x = (p.offset, p.data) ∨ got x)) := by
  -- the transfer used
  obtain ⟨t, htdef, hft, hgt⟩ : ∃ t, (tbl.get p.hash).getD (Transfer.new p.total) = t ∧ Feeding ps data.length t ∧ ∀ x, x ∈ t.parts ↔ got x := by
    unfold Holds at hh
    rw [hp]
    cases hg : tbl.get (sha data) with
    | none =>
      rw [hg] at hh
      refine ⟨_, rfl, ?_, ?_⟩
      · rw [ht]; exact feeding_new ps _
      · intro x; simp only [Transfer.new]
        constructor
        · intro h; cases h
        · intro h; exact absurd h (hh x)
    | some t =>
      rw [hg] at hh
      exact ⟨t, rfl, hh⟩
  obtain ⟨f1, f2, f3⟩ := addPart_feeding sha data ps hcut t hft (p.offset, p.data) he
  have hrec : recvPart sha tbl p =
      (match (addPart sha t p.offset p.data (sha data)).2 with
      | .none => (tbl.put p.hash (addPart sha t p.offset p.data (sha data)).1, .none)
      | .hang => (tbl.put p.hash (addPart sha t p.offset p.data (sha data)).1, .hang)
      | x => (tbl.erase p.hash, x)) := by
    unfold recvPart
    simp only [htdef]
    rw [hp]
    cases (addPart sha t p.offset p.data (sha data)).2 <;> rfl
  refine ⟨?_, ?_, ?_⟩
  · intro hg
    obtain ⟨r1, r2, r3⟩ := f1 ((hgt _).mpr hg)
    simp only at r1
    rw [hrec, r1]
    refine ⟨rfl, ?_⟩
    simp only [Holds, hp, AMap.get_put_self]
    exact ⟨r2, fun x => (r3 x).trans (hgt x)⟩
  · intro hg hall
    have r1 := f2 (fun h => hg ((hgt _).mp h))
      (fun x hx => (hall x hx).imp id (fun h => (hgt x).mpr h))
    simp only at r1
    rw [hrec, r1]
  · intro hg hall
    obtain ⟨r1, r2, r3⟩ := f3 (fun h => hg ((hgt _).mp h))
      (fun hc => hall (fun x hx => (hc x hx).imp id (fun h => (hgt x).mp h)))
    simp only at r1
    rw [hrec, r1]
    refine ⟨rfl, ?_⟩
    simp only [Holds, hp, AMap.get_put_self]
    exact ⟨r2, fun x => (r3 x).trans (or_congr Iff.rfl (hgt x))⟩

theorem recvParts_append (sha : Bytes → Bytes) (tbl : Table) (a b : List Part) :
    recvParts sha tbl (a ++ b) =
      ((recvParts sha (recvParts sha tbl a).1 b).1,
        (recvParts sha tbl a).2 ++ (recvParts sha (recvParts sha tbl a).1 b).2) := by
  induction a generalizing tbl with
  | nil => simp [recvParts]
  | cons p a ih => simp only [List.cons_append, recvParts, ih]

/-- Feeding a list of parts that does not complete the cut yields only `none` for this transfer. -/
theorem recvParts_holds (sha : Bytes → Bytes) (data : Bytes) (ps : List (Nat × Bytes))
    (hcut : IsCut data ps) :
    ∀ (pre : List Part) (tbl : Table) (got : Nat × Bytes → Prop),
      Holds ps data.length (sha data) tbl got →
      (∀ q ∈ pre, q.hash = sha data → q.total = data.length ∧ (q.offset, q.data) ∈ ps) →
      (∃ x ∈ ps, ¬ got x ∧ ∀ q ∈ pre, q.hash = sha data → (q.offset, q.data) ≠ x) →
      (∀ e ∈ pre.zip (recvParts sha tbl pre).2, e.1.hash = sha data → e.2 = .none) ∧
      Holds ps data.length (sha data) (recvParts sha tbl pre).1
        (fun x => got x ∨ ∃ q ∈ pre, q.hash = sha data ∧ (q.offset, q.data) = x) := by
  intro pre
  induction pre with
  | nil =>
    intro tbl got hh _ _
    refine ⟨by simp [recvParts], ?_⟩
    simpa [recvParts] using hh
  | cons p pre ih =>
    intro tbl got hh hpre hmiss
    obtain ⟨x, hx, hgx, hqx⟩ := hmiss
    by_cases hp : p.hash = sha data
    · obtain ⟨hpt, hpe⟩ := hpre p (by simp) hp
      obtain ⟨g1, g2, g3⟩ := recvPart_holds sha data ps hcut tbl got hh p hp hpt hpe
      have hpx : (p.offset, p.data) ≠ x := hqx p (by simp) hp
      have hstep : (recvPart sha tbl p).2 = .none ∧
          Holds ps data.length (sha data) (recvPart sha tbl p).1
            (fun x => x = (p.offset, p.data) ∨ got x) := by
        by_cases hg : got (p.offset, p.data)
        · obtain ⟨a, b⟩ := g1 hg
          refine ⟨a, ?_⟩
          have : (fun x => x = (p.offset, p.data) ∨ got x) = got := by
            funext y
            simp only [eq_iff_iff, or_iff_right_iff_imp]
            rintro rfl; exact hg
          rw [this]; exact b
        · apply g3 hg
          intro hall
          rcases hall x hx with h | h
          · exact hpx h.symm
          · exact hgx h
      have := ih (recvPart sha tbl p).1 _ hstep.2 (fun q hq => hpre q (List.mem_cons_of_mem _ hq))
        ⟨x, hx, by
          rintro (h | h)
          · exact hpx h.symm
          · exact hgx h, fun q hq => hqx q (List.mem_cons_of_mem _ hq)⟩
      obtain ⟨r1, r2⟩ := this
      refine ⟨?_, ?_⟩
      · intro e he hh2
        simp only [recvParts, List.zip_cons_cons, List.mem_cons] at he
        rcases he with rfl | he
        · exact hstep.1
        · exact r1 e he hh2
      · simp only [recvParts]
        refine (iff_of_eq ?_).mp r2
        congr 1
        funext y
        simp only [List.mem_cons, exists_eq_or_imp, hp, true_and, eq_iff_iff]
        constructor
        · rintro ((rfl | h) | h)
          · exact .inr (.inl rfl)
          · exact .inl h
          · exact .inr (.inr h)
        · rintro (h | h | h)
          · exact .inl (.inr h)
          · exact .inl (.inl h.symm)
          · exact .inr h
    · have hh' : Holds ps data.length (sha data) (recvPart sha tbl p).1 got := by
        unfold Holds at hh ⊢
        rw [recvPart_other sha tbl p _ (fun h => hp h.symm)]
        exact hh
      obtain ⟨r1, r2⟩ := ih (recvPart sha tbl p).1 got hh'
        (fun q hq => hpre q (List.mem_cons_of_mem _ hq))
        ⟨x, hx, hgx, fun q hq => hqx q (List.mem_cons_of_mem _ hq)⟩
      refine ⟨?_, ?_⟩
      · intro e he hh2
        simp only [recvParts, List.zip_cons_cons, List.mem_cons] at he
        rcases he with rfl | he
        · exact absurd hh2 hp
        · exact r1 e he hh2
      · simp only [recvParts]
        refine (iff_of_eq ?_).mp r2
        congr 1
        funext y
        simp only [List.mem_cons, exists_eq_or_imp, hp, false_and, false_or]

/-! ## What the sender emits -/

theorem splitLoop_done (data hash : Bytes) (o : Nat) (h : data.length ≤ o) :
    splitLoop data hash o = [] := by
  rw [splitLoop]; simp [Nat.not_lt.mpr h]

theorem slice_to_end (d : Bytes) (a : Nat) : slice d a d.length = d.drop a := by
  simp only [slice]
  exact List.take_of_length_le (by simp)

theorem splitLoop_last (data hash : Bytes) (o : Nat) (h : o < data.length)
    (h2 : data.length ≤ o + 1024) :
    splitLoop data hash o =
      [⟨hash, data.length % 2 ^ 32, o % 2 ^ 32, data.drop o⟩] := by
  rw [splitLoop]
  have hm : min data.length (o + 1024) = data.length := by omega
  simp only [h, if_true, buildPart, hm, slice_to_end]
  rw [splitLoop_done _ _ _ (by omega)]

/-- The first piece has at most `f` bytes, the second the rest. -/
def cutAt (data : Bytes) (f : Nat) : List Bytes :=
  if data.length ≤ f then [data] else [data.take f, data.drop f]

theorem cutAt_isCut (data : Bytes) (f : Nat) (hf : 0 < f) (hd : data ≠ []) :
    IsCut data (layout 0 (cutAt data f)) := by
  refine ⟨cutAt data f, ?_, ?_, rfl⟩
  · unfold cutAt
    split
    · simpa using hd
    · rename_i h
      intro b hb
      simp only [List.mem_cons, List.not_mem_nil, or_false] at hb
      rcases hb with rfl | rfl
      · intro h0
        have := congrArg List.length h0
        rw [List.length_take, List.length_nil] at this
        omega
      · intro h0
        have := congrArg List.length h0
        rw [List.length_drop, List.length_nil] at this; omega
  · unfold cutAt
    split <;> simp

/-- The parts of a message of at most `first + 1024` bytes are its cut in one or two pieces. -/
theorem split_short (data hash : Bytes) (hd : data ≠ []) (add : Option Nat) (f : Nat)
    (hf : f = match add with | some a => 984 - a | none => 1024) (hpos : 0 < f) (hle : f ≤ 1024)
    (hlen : data.length ≤ f + 1024) :
    split data hash add =
      (layout 0 (cutAt data f)).map (fun e => ⟨hash, data.length, e.1, e.2⟩) := by
  have hn : 0 < data.length := by
    cases data with
    | nil => exact absurd rfl hd
    | cons => simp
  have m1 : data.length % 2 ^ 32 = data.length := Nat.mod_eq_of_lt (by omega)
  cases add with
  | none =>
    simp only at hf
    subst hf
    simp only [split, cutAt]
    by_cases h : data.length ≤ 1024
    · simp only [h, if_true, layout, List.map_cons, List.map_nil]
      rw [splitLoop_last data hash 0 hn (by omega), m1]
      simp
    · simp only [h, if_false, layout, List.map_cons, List.map_nil]
      rw [splitLoop]
      have hm : min data.length (0 + 1024) = 1024 := by omega
      simp only [hn, if_true, buildPart, hm]
      rw [splitLoop_last data hash _ (by omega) (by omega), m1]
      simp [slice, Nat.min_eq_left (show 1024 ≤ data.length by omega)]
  | some a =>
    simp only at hf
    simp only [split, cutAt]
    have he : 1024 - 40 - a = f := by omega
    by_cases h : data.length ≤ f
    · have hm : min data.length (0 + f) = data.length := by omega
      simp only [h, if_true, layout, List.map_cons, List.map_nil, buildPart, he, hm, hn]
      rw [splitLoop_done _ _ _ (by omega), slice_to_end, m1]
      simp
    · have hm : min data.length (0 + f) = f := by omega
      simp only [h, if_false, layout, List.map_cons, List.map_nil, buildPart, he, hm, hpos, if_true]
      have m2 : f % 2 ^ 32 = f := Nat.mod_eq_of_lt (by omega)
      rw [splitLoop_last data hash _ (by omega) (by omega), m1]
      simp only [Nat.zero_add, List.length_take, Nat.min_eq_left (show f ≤ data.length by omega), m2]
      simp [slice]

/-- pairs (offset, data) of the parts -/
def pairs (ps : List Part) : List (Nat × Bytes) := ps.map (fun p => (p.offset, p.data))

theorem splitLoop_facts (data hash : Bytes) (hlt : data.length < 2 ^ 32) :
    ∀ (n o : Nat), data.length - o ≤ n →
      (∀ p ∈ splitLoop data hash o, p.hash = hash ∧ p.total = data.length ∧ o ≤ p.offset) ∧
      ((pairs (splitLoop data hash o)).map (·.1)).Nodup ∧
      sumLen (pairs (splitLoop data hash o)) ≤ data.length - o := by
  intro n
  induction n with
  | zero =>
    intro o h
    rw [splitLoop_done _ _ _ (by omega)]
    simp [pairs, sumLen]
  | succ n ih =>
    intro o h
    by_cases ho : o < data.length
    · rw [splitLoop]
      simp only [ho, if_true]
      set len := min data.length (o + 1024) with hlen
      have hb : (buildPart data hash 1024 o).2 = o + len := rfl
      rw [hb]
      obtain ⟨i1, i2, i3⟩ := ih (o + len) (by omega)
      have hofs : (buildPart data hash 1024 o).1.offset = o := by
        simp only [buildPart]; exact Nat.mod_eq_of_lt (by omega)
      refine ⟨?_, ?_, ?_⟩
      · intro p hp
        rcases List.mem_cons.mp hp with rfl | hp
        · exact ⟨rfl, Nat.mod_eq_of_lt hlt, by omega⟩
        · obtain ⟨a, b, c⟩ := i1 p hp
          exact ⟨a, b, by omega⟩
      · simp only [pairs, List.map_cons, List.nodup_cons]
        refine ⟨?_, by simpa [pairs] using i2⟩
        rw [hofs]
        intro hmem
        simp only [List.map_map, List.mem_map, Function.comp] at hmem
        obtain ⟨p, hp, h2⟩ := hmem
        have := (i1 p hp).2.2
        omega
      · simp only [pairs, List.map_cons]
        rw [sumLen_cons]
        have : (buildPart data hash 1024 o).1.data.length = len - o := by
          simp only [buildPart, ← hlen]
          have : o < len := by omega
          simp only [this, if_true, slice, List.length_take, List.length_drop]; omega
        simp only [this]
        have i3' : sumLen (List.map (fun p : Part => (p.offset, p.data)) (splitLoop data hash (o + len)))
          ≤ data.length - (o + len) := i3
        omega
    · rw [splitLoop_done _ _ _ (by omega)]
      simp [pairs, sumLen]

/-- A message longer than `first + 1024` bytes: the emitted parts do not cover it. -/
theorem split_long (data hash : Bytes) (hlt : data.length < 2 ^ 32) (add : Option Nat) (f : Nat)
    (hf : f = match add with | some a => 984 - a | none => 1024) (hpos : 0 < f) (hle : f ≤ 1024)
    (hlen : f + 1024 < data.length) :
    (∀ p ∈ split data hash add, p.hash = hash ∧ p.total = data.length) ∧
    ((pairs (split data hash add)).map (·.1)).Nodup ∧
    sumLen (pairs (split data hash add)) < data.length := by
  -- both cases: first part of `f` bytes then the loop from `f`
  have key : split data hash add =
      ⟨hash, data.length, 0, data.take f⟩ :: splitLoop data hash f := by
    have m1 : data.length % 2 ^ 32 = data.length := Nat.mod_eq_of_lt hlt
    cases add with
    | none =>
      simp only at hf; subst hf
      simp only [split]
      rw [splitLoop]
      have hm : min data.length (0 + 1024) = 1024 := by omega
      have h0 : 0 < data.length := by omega
      simp only [h0, if_true, buildPart, hm, m1]
      simp [slice]
    | some a =>
      simp only at hf
      have he : 1024 - 40 - a = f := by omega
      have hm : min data.length (0 + f) = f := by omega
      simp only [split, buildPart, he, hm, m1, hpos, if_true]
      simp [slice]
  have hstep : splitLoop data hash f =
      (buildPart data hash 1024 f).1 :: splitLoop data hash (f + (f + 1024)) := by
    rw [splitLoop]
    have h0 : f < data.length := by omega
    have hm : min data.length (f + 1024) = f + 1024 := by omega
    simp only [h0, if_true]
    congr 1
    simp only [buildPart, hm]
  obtain ⟨a1, a2, _⟩ := splitLoop_facts data hash hlt (data.length - f) f (Nat.le_refl _)
  obtain ⟨b1, b2, b3⟩ := splitLoop_facts data hash hlt (data.length - (f + (f + 1024)))
    (f + (f + 1024)) (Nat.le_refl _)
  rw [key]
  refine ⟨?_, ?_, ?_⟩
  · intro p hp
    rcases List.mem_cons.mp hp with rfl | hp
    · exact ⟨rfl, rfl⟩
    · exact ⟨(a1 p hp).1, (a1 p hp).2.1⟩
  · simp only [pairs, List.map_cons, List.nodup_cons]
    refine ⟨?_, by simpa [pairs] using a2⟩
    intro hmem
    simp only [List.map_map, List.mem_map, Function.comp] at hmem
    obtain ⟨p, hp, h2⟩ := hmem
    have := (a1 p hp).2.2
    omega
  · have hl : (buildPart data hash 1024 f).1.data.length = 1024 := by
      have hm : min data.length (f + 1024) = f + 1024 := by omega
      simp only [buildPart, hm]
      have : f < f + 1024 := by omega
      simp only [this, if_true, slice, List.length_take, List.length_drop]; omega
    rw [hstep]
    simp only [pairs, List.map_cons]
    rw [sumLen_cons, sumLen_cons]
    have b3' : sumLen (List.map (fun p : Part => (p.offset, p.data))
      (splitLoop data hash (f + (f + 1024)))) ≤ data.length - (f + (f + 1024)) := b3
    simp only [hl, List.length_take, Nat.min_eq_left (show f ≤ data.length by omega)]
    omega

/-- A transfer fed only with pieces that together are too short never completes. -/
theorem addPart_short (sha : Bytes → Bytes) (id : Bytes) (ps : List (Nat × Bytes)) (total : Nat)
    (hkeys : (ps.map (·.1)).Nodup) (hshort : sumLen ps < total)
    (t : Transfer) (hf : Feeding ps total t) (e : Nat × Bytes) (he : e ∈ ps) :
    (addPart sha t e.1 e.2 id).2 = .none ∧ Feeding ps total (addPart sha t e.1 e.2 id).1 := by
  have hget := get_of_cut hkeys hf he
  by_cases hmem : e ∈ t.parts
  · have h1 : (t.parts.get e.1).isSome := hget.mpr hmem
    have hperm := put_same hf.keys e hmem
    simp only [addPart, h1, if_true]
    refine ⟨trivial, hf.tot, AMap.nodup_put hf.keys _ _, ?_, ?_⟩
    · intro x hx; exact hf.sub (hperm.subset hx)
    · show t.received = _
      rw [hf.recv]; exact (sumLen_perm hperm).symm
  · have h1 : (t.parts.get e.1).isSome = false := by
      cases h : (t.parts.get e.1).isSome
      · rfl
      · exact absurd (hget.mp h) hmem
    have hnone : t.parts.get e.1 = none := by simpa using h1
    have hput : t.parts.put e.1 e.2 = e :: t.parts := by
      rw [AMap.put, AMap.erase_of_get_none hnone]
    have hss : (e :: t.parts) ⊆ ps := by
      intro y hy
      rcases List.mem_cons.mp hy with rfl | hy
      · exact he
      · exact hf.sub hy
    have hle : sumLen (e :: t.parts) ≤ sumLen ps :=
      sumLen_subset (List.nodup_cons.mpr ⟨hmem, nodup_of_keys hf.keys⟩) hss
    rw [sumLen_cons] at hle
    have h4 : ¬ (t.received + e.2.length = t.total) := by rw [hf.recv, hf.tot]; omega
    have h5 : ¬ (t.received + e.2.length > t.total) := by rw [hf.recv, hf.tot]; omega
    simp only [addPart, h1, h4, h5, Bool.false_eq_true, if_false]
    refine ⟨trivial, hf.tot, AMap.nodup_put hf.keys _ _, ?_, ?_⟩
    · rw [hput]; exact hss
    · show t.received + e.2.length = _
      rw [hput, sumLen_cons, hf.recv]; omega

theorem recvParts_short (sha : Bytes → Bytes) (h : Bytes) (ps : List (Nat × Bytes)) (total : Nat)
    (hkeys : (ps.map (·.1)).Nodup) (hshort : sumLen ps < total) :
    ∀ (arr : List Part) (tbl : Table),
      (∀ t, tbl.get h = some t → Feeding ps total t) →
      (∀ q ∈ arr, q.hash = h → q.total = total ∧ (q.offset, q.data) ∈ ps) →
      ∀ e ∈ arr.zip (recvParts sha tbl arr).2, e.1.hash = h → e.2 = .none := by
  intro arr
  induction arr with
  | nil => intro tbl _ _ e he; simp at he
  | cons p arr ih =>
    intro tbl hft harr e he hh
    have hstep : (p.hash = h → (recvPart sha tbl p).2 = .none) ∧
        ∀ t, (recvPart sha tbl p).1.get h = some t → Feeding ps total t := by
      by_cases hp : p.hash = h
      · obtain ⟨h1, h2⟩ := harr p (by simp) hp
        obtain ⟨t, htd, htf⟩ : ∃ t, (tbl.get p.hash).getD (Transfer.new p.total) = t ∧ Feeding ps total t := by
          rw [hp]
          cases hg : tbl.get h with
          | none => exact ⟨_, rfl, by rw [h1]; exact feeding_new ps total⟩
          | some t => exact ⟨t, rfl, hft t hg⟩
        obtain ⟨a, b⟩ := addPart_short sha p.hash ps total hkeys hshort t htf (p.offset, p.data) h2
        simp only at a b
        have hrec : recvPart sha tbl p =
            (tbl.put p.hash (addPart sha t p.offset p.data p.hash).1, .none) := by
          unfold recvPart
          simp only [htd, a]
        rw [hrec]
        refine ⟨fun _ => rfl, ?_⟩
        intro t' ht'
        rw [← hp, AMap.get_put_self] at ht'
        cases ht'; exact b
      · refine ⟨fun hc => absurd hc hp, ?_⟩
        rw [recvPart_other sha tbl p _ (fun hc => hp hc.symm)]
        exact hft
    simp only [recvParts, List.zip_cons_cons, List.mem_cons] at he
    rcases he with rfl | he
    · exact hstep.1 hh
    · exact ih _ hstep.2 (fun q hq => harr q (List.mem_cons_of_mem _ hq)) e he hh

/-! ## Arbitrary parts, one transfer -/

/-- Sequence of `add_part` calls on one transfer. -/
def feed (sha : Bytes → Bytes) (id : Bytes) (t : Transfer) : List (Nat × Bytes) → Transfer × List Res
  | [] => (t, [])
  | e :: es =>
    let r := addPart sha t e.1 e.2 id
    let rs := feed sha id r.1 es
    (rs.1, r.2 :: rs.2)

/-- The result means that the received length was found equal to the total. -/
def Res.isFinal : Res → Bool
  | .none | .tooMuch => false
  | _ => true

theorem finish_final (sha : Bytes → Bytes) (parts : AMap Nat Bytes) (total : Nat) (id : Bytes) :
    (finish sha parts total id).isFinal = true := by
  unfold finish
  cases combine parts total (total + 1) 0 [] with
  | done buf => simp only; split <;> rfl
  | missing => rfl
  | hang => rfl

theorem addPart_total (sha : Bytes → Bytes) (t : Transfer) (o : Nat) (d id : Bytes) :
    (addPart sha t o d id).1.total = t.total := by
  unfold addPart
  simp only []
  split
  · rfl
  · split
    · rfl
    · split <;> rfl

theorem addPart_over (sha : Bytes → Bytes) (t : Transfer) (o : Nat) (d id : Bytes)
    (h : t.total < t.received) :
    (addPart sha t o d id).2.isFinal = false ∧
      (addPart sha t o d id).1.total < (addPart sha t o d id).1.received := by
  unfold addPart
  simp only []
  split
  · exact ⟨rfl, h⟩
  · split
    · omega
    · split
      · exact ⟨rfl, by simp only; omega⟩
      · omega

theorem addPart_final (sha : Bytes → Bytes) (t : Transfer) (o : Nat) (d id : Bytes)
    (h0 : 0 < t.total) (h : (addPart sha t o d id).2.isFinal = true) :
    (addPart sha t o d id).1.total < (addPart sha t o d id).1.received := by
  unfold addPart at h ⊢
  simp only [] at h ⊢
  split at h
  · simp [Res.isFinal] at h
  · rename_i hs
    simp only [hs, if_false]
    split at h
    · rename_i h2
      simp only [h2, if_true, Bool.false_eq_true, if_false]; omega
    · split at h <;> simp [Res.isFinal] at h

theorem feed_over (sha : Bytes → Bytes) (id : Bytes) :
    ∀ (es : List (Nat × Bytes)) (t : Transfer), t.total < t.received →
      ((feed sha id t es).2.filter Res.isFinal).length = 0 := by
  intro es
  induction es with
  | nil => intro t _; simp [feed]
  | cons e es ih =>
    intro t h
    obtain ⟨h1, h2⟩ := addPart_over sha t e.1 e.2 id h
    simp only [feed, List.filter_cons, h1, Bool.false_eq_true, if_false]
    exact ih _ h2

theorem feed_at_most_one (sha : Bytes → Bytes) (id : Bytes) :
    ∀ (es : List (Nat × Bytes)) (t : Transfer), 0 < t.total →
      ((feed sha id t es).2.filter Res.isFinal).length ≤ 1 := by
  intro es
  induction es with
  | nil => intro t _; simp [feed]
  | cons e es ih =>
    intro t h
    simp only [feed, List.filter_cons]
    cases hf : (addPart sha t e.1 e.2 id).2.isFinal with
    | false =>
      simp only [Bool.false_eq_true, if_false]
      exact ih _ (by rw [addPart_total]; exact h)
    | true =>
      simp only [if_true, List.length_cons]
      rw [feed_over sha id es _ (addPart_final sha t e.1 e.2 id h hf)]
      omega

theorem combine_length (parts : AMap Nat Bytes) (total : Nat) :
    ∀ (fuel pos : Nat) (buf out : Bytes), combine parts total fuel pos buf = .done out →
      pos ≤ buf.length → total ≤ out.length := by
  intro fuel
  induction fuel with
  | zero => intro pos buf out h; simp [combine] at h
  | succ f ih =>
    intro pos buf out h hp
    simp only [combine] at h
    split at h
    · cases hg : parts.get pos with
      | none => simp [hg] at h
      | some d =>
        simp only [hg] at h
        exact ih _ _ _ h (by simp; omega)
    · cases h; omega

theorem addPart_some (sha : Bytes → Bytes) (t : Transfer) (o : Nat) (d id buf : Bytes)
    (h : (addPart sha t o d id).2 = .some buf) : sha buf = id ∧ t.total ≤ buf.length := by
  unfold addPart at h
  simp only [] at h
  split at h
  · cases h
  · split at h
    · unfold finish at h
      cases hc : combine (t.parts.put o d) t.total (t.total + 1) 0 [] with
      | done b =>
        simp only [hc] at h
        split at h
        · cases h
          exact ⟨by assumption, combine_length _ _ _ _ _ _ hc (by simp)⟩
        · cases h
      | missing => simp only [hc] at h; cases h
      | hang => simp only [hc] at h; cases h
    · split at h <;> cases h

theorem addPart_no_hang (sha : Bytes → Bytes) (t : Transfer) (o : Nat) (d id : Bytes)
    (hne : ∀ e ∈ t.parts, e.2 ≠ []) (hd : d ≠ []) :
    (addPart sha t o d id).2 ≠ .hang ∧ ∀ e ∈ (addPart sha t o d id).1.parts, e.2 ≠ [] := by
  have hp : ∀ e ∈ t.parts.put o d, e.2 ≠ [] := by
    intro e he
    rcases AMap.mem_put.mp he with rfl | h
    · exact hd
    · exact hne e h.1
  unfold addPart
  simp only []
  split
  · exact ⟨by simp, hp⟩
  · split
    · refine ⟨?_, hp⟩
      unfold finish
      have := combine_terminates (t.parts.put o d) t.total hp t.total 0 [] (by omega)
      simp only [Nat.sub_zero] at this
      cases hc : combine (t.parts.put o d) t.total (t.total + 1) 0 [] with
      | done b => simp only; split <;> simp
      | missing => simp
      | hang => exact absurd hc this
    · split
      · exact ⟨by simp, hp⟩
      · exact ⟨by simp, hp⟩

theorem feed_no_hang (sha : Bytes → Bytes) (id : Bytes) :
    ∀ (es : List (Nat × Bytes)) (t : Transfer), (∀ e ∈ t.parts, e.2 ≠ []) → (∀ e ∈ es, e.2 ≠ []) →
      Res.hang ∉ (feed sha id t es).2 := by
  intro es
  induction es with
  | nil => intro t _ _; simp [feed]
  | cons e es ih =>
    intro t h1 h2
    obtain ⟨a, b⟩ := addPart_no_hang sha t e.1 e.2 id h1 (h2 e (by simp))
    simp only [feed, List.mem_cons, not_or]
    exact ⟨fun h => a h.symm, ih _ b (fun x hx => h2 x (List.mem_cons_of_mem _ hx))⟩

/-! ## Concurrent calls -/

/-- The caller won the compare-exchange. -/
def TPC.fired : TPC → Bool
  | .join _ _ => true
  | .ret r => r.isFinal
  | _ => false

structure TInv (sha : Bytes → Bytes) (total : Nat) (id : Bytes) (σ : TSys) : Prop where
  uniq : ∀ i j, (σ.pc i).fired = true → (σ.pc j).fired = true → i = j
  over : ∀ i, (σ.pc i).fired = true → total < σ.received
  good : ∀ i buf, σ.pc i = .ret (.some buf) → sha buf = id ∧ total ≤ buf.length
  pos : ∀ i p buf, σ.pc i = .join p buf → p ≤ buf.length

theorem tinit_inv (sha : Bytes → Bytes) (total : Nat) (id : Bytes) :
    TInv sha total id TSys.init := by
  refine ⟨?_, ?_, ?_, ?_⟩ <;> intros <;> simp_all [TSys.init, TPC.fired]

theorem tinv_update (sha : Bytes → Bytes) (total : Nat) (id : Bytes) (σ : TSys)
    (hi : TInv sha total id σ) (i : Nat) (p : TPC) (parts : AMap Nat Bytes) (rec : Nat)
    (hrec : total < σ.received → total < rec)
    (hfire : p.fired = true → (σ.pc i).fired = true ∨ ((∀ j, (σ.pc j).fired = false) ∧ total < rec))
    (hgood : ∀ buf, p = .ret (.some buf) → sha buf = id ∧ total ≤ buf.length)
    (hpos : ∀ q buf, p = .join q buf → q ≤ buf.length) :
    TInv sha total id ⟨parts, rec, fun j => if j = i then p else σ.pc j⟩ := by
  refine ⟨?_, ?_, ?_, ?_⟩
  · intro a b ha hb
    simp only at ha hb
    by_cases h1 : a = i <;> by_cases h2 : b = i
    · omega
    · simp only [h1, if_true] at ha
      simp only [h2, if_false] at hb
      rcases hfire ha with h | h
      · rw [h1]; exact hi.uniq i b h hb
      · rw [h.1 b] at hb; cases hb
    · simp only [h1, if_false] at ha
      simp only [h2, if_true] at hb
      rcases hfire hb with h | h
      · rw [h2]; exact hi.uniq a i ha h
      · rw [h.1 a] at ha; cases ha
    · simp only [h1, h2, if_false] at ha hb
      exact hi.uniq a b ha hb
  · intro a ha
    simp only at ha
    by_cases h1 : a = i
    · simp only [h1, if_true] at ha
      rcases hfire ha with h | h
      · exact hrec (hi.over i h)
      · exact h.2
    · simp only [h1, if_false] at ha
      exact hrec (hi.over a ha)
  · intro a buf ha
    simp only at ha
    by_cases h1 : a = i
    · simp only [h1, if_true] at ha; exact hgood buf ha
    · simp only [h1, if_false] at ha; exact hi.good a buf ha
  · intro a q buf ha
    simp only at ha
    by_cases h1 : a = i
    · simp only [h1, if_true] at ha; exact hpos q buf ha
    · simp only [h1, if_false] at ha; exact hi.pos a q buf ha

theorem tstep_inv (sha : Bytes → Bytes) (total : Nat) (h0 : 0 < total) (id : Bytes)
    (args : Nat → Nat × Bytes) (σ : TSys) (hi : TInv sha total id σ) (i : Nat) :
    TInv sha total id (σ.step sha total id args i) := by
  unfold TSys.step
  cases hpc : σ.pc i with
  | insert =>
    simp only
    apply tinv_update sha total id σ hi
    · exact fun h => h
    · split <;> simp [TPC.fired, Res.isFinal]
    · intro buf; split <;> simp
    · intro q buf; split <;> simp
  | add =>
    simp only
    apply tinv_update sha total id σ hi
    · intro h; omega
    · simp [TPC.fired]
    · simp
    · simp
  | cas =>
    simp only
    split
    · rename_i heq
      apply tinv_update sha total id σ hi
      · intro h; omega
      · intro _
        refine .inr ⟨?_, by omega⟩
        intro j
        cases h : (σ.pc j).fired
        · rfl
        · have := hi.over j h; omega
      · simp
      · intro q buf h; cases h; simp
    · split
      · apply tinv_update sha total id σ hi
        · exact fun h => h
        · simp [TPC.fired, Res.isFinal]
        · simp
        · simp
      · apply tinv_update sha total id σ hi
        · exact fun h => h
        · simp [TPC.fired, Res.isFinal]
        · simp
        · simp
  | join pos buf =>
    have hf : (σ.pc i).fired = true := by rw [hpc]; rfl
    have hp := hi.pos i pos buf hpc
    simp only
    split
    · cases hg : σ.parts.get pos with
      | none =>
        simp only
        apply tinv_update sha total id σ hi
        · exact fun h => h
        · intro _; exact .inl hf
        · simp
        · simp
      | some d =>
        simp only
        apply tinv_update sha total id σ hi
        · exact fun h => h
        · intro _; exact .inl hf
        · simp
        · intro q b h; cases h; simp; omega
    · apply tinv_update sha total id σ hi
      · exact fun h => h
      · intro _; exact .inl hf
      · intro b hb
        split at hb
        · cases hb; exact ⟨by assumption, by omega⟩
        · cases hb
      · intro q b h; cases h
  | ret r => simpa using hi

theorem trun_inv (sha : Bytes → Bytes) (total : Nat) (h0 : 0 < total) (id : Bytes)
    (args : Nat → Nat × Bytes) (σ : TSys) (hi : TInv sha total id σ) (sched : List Nat) :
    TInv sha total id (σ.run sha total id args sched) := by
  induction sched generalizing σ with
  | nil => exact hi
  | cons t ts ih => exact ih _ (tstep_inv sha total h0 id args σ hi t)

/-- Once the bytes received exceed the total every part at a new position is refused. -/
theorem feed_excess (sha : Bytes → Bytes) (id : Bytes) (es : List (Nat × Bytes)) :
    ∀ (t : Transfer) (seen : List Nat) (n : Nat) (o : Nat) (d : Bytes),
      (∀ x, (t.parts.get x).isSome ↔ x ∈ seen) → (t.received = n ∨ t.total < t.received) →
      o ∉ seen → (∀ e ∈ es, e.1 ≠ o) → t.total < n + Spec.newBytes seen es + d.length →
      (addPart sha (feed sha id t es).1 o d id).2 = .tooMuch := by
  induction es with
  | nil =>
    intro t seen n o d hs hr ho _ hgt
    have hn : (t.parts.get o).isSome = false := by
      cases h : (t.parts.get o).isSome with
      | false => rfl
      | true => exact absurd ((hs o).mp h) ho
    simp only [Spec.newBytes, Nat.add_zero] at hgt
    unfold feed addPart
    simp only [hn, Bool.false_eq_true, if_false]
    rw [if_neg (by omega), if_pos (by omega)]
  | cons e es ih =>
    intro t seen n o d hs hr ho hes hgt
    have he : e.1 ≠ o := hes e List.mem_cons_self
    simp only [feed]
    simp only [Spec.newBytes] at hgt
    have hseen : ∀ x, ((t.parts.put e.1 e.2).get x).isSome ↔ x ∈ e.1 :: seen := by
      intro x
      rw [AMap.get_put, List.mem_cons]
      by_cases hx : x = e.1
      · simp [hx]
      · simp only [hx, if_false, false_or]; exact hs x
    have ho' : o ∉ e.1 :: seen := by
      rw [List.mem_cons]; rintro (h | h)
      · exact he h.symm
      · exact ho h
    have hes' : ∀ x ∈ es, x.1 ≠ o := fun x hx => hes x (List.mem_cons_of_mem _ hx)
    by_cases hold : e.1 ∈ seen
    · have h1 : (addPart sha t e.1 e.2 id).1 = { t with parts := t.parts.put e.1 e.2 } := by
        unfold addPart; simp [(hs e.1).mpr hold]
      rw [h1]
      rw [if_pos hold] at hgt
      exact ih _ (e.1 :: seen) n o d hseen hr ho' hes' (by simpa using hgt)
    · rw [if_neg hold] at hgt
      have hn : (t.parts.get e.1).isSome = false := by
        cases h : (t.parts.get e.1).isSome with
        | false => rfl
        | true => exact absurd ((hs e.1).mp h) hold
      by_cases heq : t.received + e.2.length = t.total
      · have h1 : (addPart sha t e.1 e.2 id).1 = ⟨t.parts.put e.1 e.2, t.total * 2, t.total⟩ := by
          unfold addPart; simp [hn, heq]
        rw [h1]
        refine ih _ (e.1 :: seen) (n + e.2.length) o d hseen ?_ ho' hes' ?_
        · show t.total * 2 = _ ∨ t.total < t.total * 2
          omega
        · show t.total < _
          omega
      · have h1 : (addPart sha t e.1 e.2 id).1 =
            ⟨t.parts.put e.1 e.2, t.received + e.2.length, t.total⟩ := by
          unfold addPart; simp only [hn, Bool.false_eq_true, if_false, heq]
          split <;> rfl
        rw [h1]
        refine ih _ (e.1 :: seen) (n + e.2.length) o d hseen ?_ ho' hes' ?_
        · show t.received + e.2.length = _ ∨ t.total < t.received + e.2.length
          omega
        · show t.total < _
          omega

end Verif.Transfer
