import Verif.Proofs.Transfer2
import Verif.Proofs.Sender

namespace Verif.Transfer
open Verif.Spec

/-! ## Pieces of one message, cut in any way -/

/-- `d` is the non-empty piece of `data` at `o`. -/
def Piece (data : Bytes) (o : Nat) (d : Bytes) : Prop :=
  d ≠ [] ∧ o + d.length ≤ data.length ∧ d = (data.drop o).take d.length

theorem slice_piece (data : Bytes) (a b : Nat) (h : a < b) (hb : b ≤ data.length) : Piece data a (slice data a b) := by
  have hl : (slice data a b).length = b - a := by
    unfold slice; rw [List.length_take, List.length_drop]; omega
  refine ⟨?_, by omega, ?_⟩
  · intro h0; rw [h0] at hl; simp only [List.length_nil] at hl; omega
  · rw [hl]; rfl

theorem buildPart_piece (data hash : Bytes) (n o : Nat) (hlt : data.length < 2 ^ 32) (ho : o < data.length) (hn : 0 < n) :
    (buildPart data hash n o).1.hash = hash ∧ (buildPart data hash n o).1.total = data.length ∧
      (buildPart data hash n o).1.offset = o ∧
      Piece data (buildPart data hash n o).1.offset (buildPart data hash n o).1.data := by
  have h1 : o < min data.length (o + n) := by omega
  have h2 : o % 2 ^ 32 = o := Nat.mod_eq_of_lt (by omega)
  refine ⟨rfl, Nat.mod_eq_of_lt hlt, h2, ?_⟩
  simp only [buildPart, if_pos h1, h2]
  exact slice_piece data o _ h1 (Nat.min_le_left _ _)

theorem splitLoop_pieces (data hash : Bytes) (hlt : data.length < 2 ^ 32) (o : Nat) :
    ∀ q ∈ splitLoop data hash o, q.hash = hash ∧ q.total = data.length ∧ Piece data q.offset q.data := by
  induction o using splitLoop.induct (data := data) (hash := hash) with
  | case1 o h ih =>
    intro q hq
    rw [splitLoop, if_pos h] at hq
    rcases List.mem_cons.mp hq with rfl | hq
    · obtain ⟨a, b, -, d⟩ := buildPart_piece data hash 1024 o hlt h (by decide)
      exact ⟨a, b, d⟩
    · exact ih q hq
  | case2 o h =>
    intro q hq
    rw [splitLoop, if_neg h] at hq
    cases hq

theorem split_pieces (data hash : Bytes) (hlt : data.length < 2 ^ 32) (hd : data ≠ []) (add : Option Nat)
    (hadd : ∀ a, add = some a → a < 984) :
    ∀ q ∈ split data hash add, q.hash = hash ∧ q.total = data.length ∧ Piece data q.offset q.data := by
  intro q hq
  cases add with
  | none => exact splitLoop_pieces data hash hlt 0 q hq
  | some a =>
    have := hadd a rfl
    simp only [split] at hq
    rcases List.mem_cons.mp hq with rfl | hq
    · obtain ⟨x, y, -, z⟩ := buildPart_piece data hash (1024 - 40 - a) 0 hlt
        (List.length_pos_iff.mpr hd) (by omega)
      exact ⟨x, y, z⟩
    · exact splitLoop_pieces data hash hlt _ q hq

theorem splitLoop_count (data hash : Bytes) (o : Nat) : (splitLoop data hash o).length ≤ data.length - o := by
  induction o using splitLoop.induct (data := data) (hash := hash) with
  | case1 o h ih =>
    rw [splitLoop, if_pos h, List.length_cons]
    have : o + 1 ≤ (buildPart data hash 1024 o).2 := by simp only [buildPart]; omega
    omega
  | case2 o h => rw [splitLoop, if_neg h]; simp

theorem split_count (data hash : Bytes) (add : Option Nat) : (split data hash add).length ≤ data.length + 1 := by
  cases add with
  | none => have := splitLoop_count data hash 0; simp only [split]; omega
  | some a =>
    have := splitLoop_count data hash (buildPart data hash (1024 - 40 - a) 0).2
    simp only [split, List.length_cons]; omega

theorem split_ne_nil (data hash : Bytes) (add : Option Nat) (hd : data ≠ []) : split data hash add ≠ [] := by
  cases add with
  | none =>
    simp only [split]
    rw [splitLoop, if_pos (List.length_pos_iff.mpr hd)]
    simp
  | some a => simp [split]

/-- An entry holding pieces of `data`. -/
structure Filled (data : Bytes) (t : Transfer) : Prop where
  tot : t.total = data.length
  keys : (AMap.keys t.parts).Nodup
  piece : ∀ e ∈ t.parts, Piece data e.1 e.2
  some : t.parts ≠ []

theorem combine_pieces (data : Bytes) (parts : AMap Nat Bytes) (hp : ∀ e ∈ parts, Piece data e.1 e.2) :
    ∀ (fuel pos : Nat) (buf out : Bytes), combine parts data.length fuel pos buf = .done out →
      pos ≤ data.length → buf = data.take pos → out = data := by
  intro fuel
  induction fuel with
  | zero => intro pos buf out h; simp [combine] at h
  | succ f ih =>
    intro pos buf out h hle hb
    simp only [combine] at h
    split at h
    · cases hg : parts.get pos with
      | none => simp [hg] at h
      | some d =>
        simp only [hg] at h
        obtain ⟨-, h1, h2⟩ := hp (pos, d) (AMap.mem_of_get hg)
        simp only at h1 h2
        refine ih _ _ _ h h1 ?_
        rw [hb, List.take_add, ← h2]
    · cases h
      rw [hb]
      exact List.take_of_length_le (by omega)

/-- What a piece does to the entry of its message. -/
theorem recv_piece (sha : Bytes → Bytes) (data : Bytes) (tbl : Table)
    (hT : ∀ t, tbl.get (sha data) = some t → Filled data t) (o : Nat) (d : Bytes) (hp : Piece data o d) :
    ((recvPart sha tbl ⟨sha data, data.length, o, d⟩).2 = .none ∧
      ∃ t', (recvPart sha tbl ⟨sha data, data.length, o, d⟩).1.get (sha data) = some t' ∧ Filled data t' ∧
        (∀ e ∈ t'.parts, e = (o, d) ∨ ∃ t, tbl.get (sha data) = some t ∧ e ∈ t.parts) ∧
        ((∀ t, tbl.get (sha data) = some t → t.received = sumLen t.parts ∧ ∀ e ∈ t.parts, e.1 = o → e.2 = d) →
          t'.received = sumLen t'.parts)) ∨
    ((recvPart sha tbl ⟨sha data, data.length, o, d⟩).2 = .some data ∧
      (recvPart sha tbl ⟨sha data, data.length, o, d⟩).1.get (sha data) = none) ∨
    (((recvPart sha tbl ⟨sha data, data.length, o, d⟩).2 = .tooMuch ∨
        (recvPart sha tbl ⟨sha data, data.length, o, d⟩).2 = .partMissing) ∧
      (recvPart sha tbl ⟨sha data, data.length, o, d⟩).1.get (sha data) = none) := by
  obtain ⟨t, htd, h1, h2, h3, h4⟩ : ∃ t, (tbl.get (sha data)).getD (Transfer.new data.length) = t ∧
      t.total = data.length ∧ (AMap.keys t.parts).Nodup ∧ (∀ e ∈ t.parts, Piece data e.1 e.2) ∧
      (tbl.get (sha data) = some t ∨ (tbl.get (sha data) = none ∧ t = Transfer.new data.length)) := by
    cases hg : tbl.get (sha data) with
    | none => exact ⟨_, rfl, rfl, by simp [Transfer.new, AMap.keys], by simp [Transfer.new], .inr ⟨rfl, rfl⟩⟩
    | some t => exact ⟨t, rfl, (hT t hg).tot, (hT t hg).keys, (hT t hg).piece, .inl rfl⟩
  have hpieces : ∀ e ∈ t.parts.put o d, Piece data e.1 e.2 := by
    intro e he
    rcases AMap.mem_put.mp he with rfl | he
    · exact hp
    · exact h3 e he.1
  have hne : t.parts.put o d ≠ [] := by simp [AMap.put]
  have hkeys := AMap.nodup_put h2 o d
  have hold : ∀ e ∈ t.parts.put o d, e = (o, d) ∨ ∃ t0, tbl.get (sha data) = some t0 ∧ e ∈ t0.parts := by
    intro e he
    rcases AMap.mem_put.mp he with rfl | he
    · exact .inl rfl
    · rcases h4 with h4 | ⟨-, rfl⟩
      · exact .inr ⟨t, h4, he.1⟩
      · cases he.1
  have hcnt : (∀ t, tbl.get (sha data) = some t → t.received = sumLen t.parts ∧ ∀ e ∈ t.parts, e.1 = o → e.2 = d) →
      t.received = sumLen t.parts ∧ ∀ e ∈ t.parts, e.1 = o → e.2 = d := by
    intro h
    rcases h4 with h4 | ⟨-, rfl⟩
    · exact h t h4
    · exact ⟨rfl, by simp [Transfer.new]⟩
  have hrec : recvPart sha tbl ⟨sha data, data.length, o, d⟩ =
      (match (addPart sha t o d (sha data)).2 with
      | .none => (tbl.put (sha data) (addPart sha t o d (sha data)).1, .none)
      | .hang => (tbl.put (sha data) (addPart sha t o d (sha data)).1, .hang)
      | x => (tbl.erase (sha data), x)) := by
    unfold recvPart
    simp only [htd]
    cases (addPart sha t o d (sha data)).2 <;> rfl
  have hnone : ∀ t', addPart sha t o d (sha data) = (t', .none) → t'.total = data.length →
      t'.parts = t.parts.put o d →
      ((t.received = sumLen t.parts ∧ ∀ e ∈ t.parts, e.1 = o → e.2 = d) → t'.received = sumLen t'.parts) →
      ((recvPart sha tbl ⟨sha data, data.length, o, d⟩).2 = .none ∧
      ∃ t', (recvPart sha tbl ⟨sha data, data.length, o, d⟩).1.get (sha data) = some t' ∧ Filled data t' ∧
        (∀ e ∈ t'.parts, e = (o, d) ∨ ∃ t, tbl.get (sha data) = some t ∧ e ∈ t.parts) ∧
        ((∀ t, tbl.get (sha data) = some t → t.received = sumLen t.parts ∧ ∀ e ∈ t.parts, e.1 = o → e.2 = d) →
          t'.received = sumLen t'.parts)) := by
    intro t' e1 e2 e3 e4
    rw [hrec, e1]
    refine ⟨rfl, t', ?_, ⟨e2, by rw [e3]; exact hkeys, by rw [e3]; exact hpieces, by rw [e3]; exact hne⟩,
      by rw [e3]; exact hold, fun h => e4 (hcnt h)⟩
    show AMap.get (AMap.put tbl (sha data) t') (sha data) = some t'
    rw [AMap.get_put_self]
  cases hsome : (t.parts.get o).isSome with
  | true =>
    refine .inl (hnone { t with parts := t.parts.put o d } ?_ h1 rfl ?_)
    · simp only [addPart, hsome, if_true]
    · rintro ⟨e1, e2⟩
      obtain ⟨d0, hd0⟩ := Option.isSome_iff_exists.mp hsome
      have hm := AMap.mem_of_get hd0
      have : d0 = d := e2 _ hm rfl
      subst this
      show t.received = _
      rw [e1]
      exact (sumLen_perm (put_same h2 (o, d0) hm)).symm
  | false =>
    by_cases heq : t.received + d.length = t.total
    · have hadd : addPart sha t o d (sha data) =
          (⟨t.parts.put o d, t.total * 2, t.total⟩, finish sha (t.parts.put o d) t.total (sha data)) := by
        simp only [addPart, hsome, heq, Bool.false_eq_true, if_false, if_true]
      have hnh : finish sha (t.parts.put o d) t.total (sha data) ≠ .hang := by
        have := (addPart_no_hang sha t o d (sha data) (fun e he => (h3 e he).1) hp.1).1
        rwa [hadd] at this
      have hfin : finish sha (t.parts.put o d) t.total (sha data) = .some data ∨
          finish sha (t.parts.put o d) t.total (sha data) = .partMissing := by
        unfold finish at hnh ⊢
        cases hcb : combine (t.parts.put o d) t.total (t.total + 1) 0 [] with
        | hang => rw [hcb] at hnh; exact absurd rfl hnh
        | missing => exact .inr rfl
        | done buf =>
          rw [h1] at hcb
          have := combine_pieces data _ hpieces _ _ _ _ hcb (Nat.zero_le _) (by simp)
          subst this
          exact .inl (by simp)
      rcases hfin with hfin | hfin
      · refine .inr (.inl ?_)
        rw [hrec, hadd, hfin]
        exact ⟨rfl, by show AMap.get (AMap.erase tbl _) _ = _; rw [AMap.get_erase, if_pos rfl]⟩
      · refine .inr (.inr ?_)
        rw [hrec, hadd, hfin]
        exact ⟨.inr rfl, by show AMap.get (AMap.erase tbl _) _ = _; rw [AMap.get_erase, if_pos rfl]⟩
    · by_cases hgt : t.received + d.length > t.total
      · have hadd : (addPart sha t o d (sha data)).2 = .tooMuch := by
          simp only [addPart, hsome, heq, hgt, Bool.false_eq_true, if_false, if_true]
        refine .inr (.inr ?_)
        rw [hrec, hadd]
        exact ⟨.inl rfl, by show AMap.get (AMap.erase tbl _) _ = _; rw [AMap.get_erase, if_pos rfl]⟩
      · refine .inl (hnone ⟨t.parts.put o d, t.received + d.length, t.total⟩ ?_ h1 rfl ?_)
        · simp only [addPart, hsome, heq, hgt, Bool.false_eq_true, if_false]
        · rintro ⟨e1, -⟩
          have : t.parts.put o d = (o, d) :: t.parts := by
            rw [AMap.put, AMap.erase_of_get_none (by simpa using hsome)]
          show t.received + d.length = sumLen (t.parts.put o d)
          rw [this, sumLen_cons, e1]; exact Nat.add_comm _ _

end Verif.Transfer
