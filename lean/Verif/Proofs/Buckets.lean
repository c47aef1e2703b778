import Verif.Model.Buckets
import Verif.Spec.Xor
import Verif.Proofs.AMap

/-!
# Bits, affinity and the visited buckets
-/
namespace Verif.Xor

theorem bits8_length (x : UInt8) : (bits8 x).length = 8 := rfl

theorem bits_cons (x : UInt8) (k : Bytes) : bits (x :: k) = bits8 x ++ bits k := by simp [bits]

theorem bits_length (k : Bytes) : (bits k).length = 8 * k.length := by
  induction k with
  | nil => rfl
  | cons x k ih => rw [bits_cons, List.length_append, ih, bits8_length, List.length_cons]; omega

theorem bits8_xor (x y : UInt8) : List.zipWith xor (bits8 x) (bits8 y) = bits8 (x ^^^ y) := by
  simp only [bits8, UInt8.toNat_xor, Nat.testBit_xor, List.zipWith_cons_cons, List.zipWith_nil_left]

theorem value_bits8 : ∀ x : UInt8, value (bits8 x) = x.toNat := by
  intro x
  have : ∀ n : Fin 256, value (bits8 (UInt8.ofNat n.val)) = n.val := by decide +kernel
  have h := this ⟨x.toNat, x.toNat_lt⟩
  simpa using h

theorem bits8_inj {x y : UInt8} (h : bits8 x = bits8 y) : x = y := by
  apply UInt8.toNat_inj.mp
  rw [← value_bits8 x, ← value_bits8 y, h]

theorem bits_inj {a b : Bytes} (hl : a.length = b.length) (h : bits a = bits b) : a = b := by
  induction a generalizing b with
  | nil => cases b with
    | nil => rfl
    | cons => cases hl
  | cons x a ih =>
    cases b with
    | nil => cases hl
    | cons y b =>
      rw [bits_cons, bits_cons] at h
      have h1 := List.append_inj h (by simp [bits8_length])
      rw [bits8_inj h1.1, ih (by simpa using hl) h1.2]

theorem value_lt (l : List Bool) : value l < 2 ^ l.length := by
  induction l with
  | nil => simp [value]
  | cons b l ih =>
    simp only [value, List.length_cons, Nat.pow_succ]
    split <;> omega

theorem value_append_lt {p x y : List Bool} (hl : x.length = y.length) (h : value x < value y) :
    value (p ++ x) < value (p ++ y) := by
  induction p with
  | nil => exact h
  | cons b p ih =>
    simp only [List.cons_append, value, List.length_append, hl]
    omega

/-- The first difference decides. -/
theorem value_split_lt {p x y : List Bool} (hl : x.length = y.length) :
    value (p ++ false :: x) < value (p ++ true :: y) := by
  apply value_append_lt (by simp [hl])
  have := value_lt x
  simp only [value, hl] at this ⊢
  simp
  omega

theorem commonPrefix_comm (a b : List Bool) : commonPrefix a b = commonPrefix b a := by
  induction a generalizing b with
  | nil => cases b <;> rfl
  | cons x a ih =>
    cases b with
    | nil => rfl
    | cons y b =>
      simp only [commonPrefix]
      by_cases h : x = y
      · simp [h, ih]
      · simp [h, Ne.symm h]

theorem commonPrefix_self (a : List Bool) : commonPrefix a a = a.length := by
  induction a with
  | nil => rfl
  | cons x a ih => simp [commonPrefix, ih]

/-- Two strings of the same length that differ: the common prefix, then different bits. -/
theorem commonPrefix_split {a b : List Bool} (hl : a.length = b.length) (hne : a ≠ b) :
    ∃ p x s s', a = p ++ x :: s ∧ b = p ++ (!x) :: s' ∧ p.length = commonPrefix a b := by
  induction a generalizing b with
  | nil => cases b with
    | nil => exact absurd rfl hne
    | cons => cases hl
  | cons x a ih =>
    cases b with
    | nil => cases hl
    | cons y b =>
      by_cases h : x = y
      · subst h
        obtain ⟨p, z, s, s', h1, h2, h3⟩ := ih (b := b) (by simpa using hl) (by
          intro e; exact hne (by rw [e]))
        exact ⟨x :: p, z, s, s', by rw [h1]; rfl, by rw [h2]; rfl, by simp [commonPrefix, h3]⟩
      · refine ⟨[], x, a, b, rfl, ?_, by simp [commonPrefix, h]⟩
        have : y = !x := by cases x <;> cases y <;> simp_all
        rw [this]; rfl

theorem commonPrefix_of_split (p : List Bool) (x : Bool) (s s' : List Bool) :
    commonPrefix (p ++ x :: s) (p ++ (!x) :: s') = p.length := by
  induction p with
  | nil => cases x <;> simp [commonPrefix]
  | cons b p ih => simp [commonPrefix, ih]

/-- Equal up to position `n`, then any bit. -/
theorem commonPrefix_ge {a b : List Bool} {n : Nat} (h : n ≤ commonPrefix a b) :
    a.take n = b.take n := by
  induction a generalizing b n with
  | nil =>
    cases b <;> (simp only [commonPrefix] at h; have : n = 0 := by omega
                 subst this; simp)
  | cons x a ih =>
    cases b with
    | nil => simp only [commonPrefix] at h; have : n = 0 := by omega
             subst this; simp
    | cons y b =>
      cases n with
      | zero => simp
      | succ n =>
        simp only [commonPrefix] at h
        by_cases e : x = y
        · rw [if_pos e] at h
          simp only [List.take_succ_cons]
          rw [e, ih (b := b) (by omega)]
        · rw [if_neg e] at h; omega

/-- Positions of the set bits, counted from `i`. -/
def positions (i : Nat) : List Bool → List Nat
  | [] => []
  | b :: bs => if b then i :: positions (i + 1) bs else positions (i + 1) bs

theorem positions_append (i : Nat) (a b : List Bool) :
    positions i (a ++ b) = positions i a ++ positions (i + a.length) b := by
  induction a generalizing i with
  | nil => rfl
  | cons x a ih =>
    simp only [List.cons_append, positions, ih, List.length_cons]
    rw [show i + 1 + a.length = i + (a.length + 1) by omega]
    split <;> simp

theorem mem_positions {i j : Nat} {l : List Bool} :
    j ∈ positions i l ↔ i ≤ j ∧ l[j - i]? = some true := by
  induction l generalizing i with
  | nil => simp [positions]
  | cons b l ih =>
    have h1 : ∀ j, i + 1 ≤ j → j - i = (j - (i + 1)) + 1 := by omega
    simp only [positions]
    by_cases hj : j = i
    · subst hj
      cases b
      · simp only [Bool.false_eq_true, if_false, ih]
        simp
        omega
      · simp
    · have : i ≤ j ↔ i + 1 ≤ j := by omega
      cases b
      · simp only [Bool.false_eq_true, if_false, ih, this]
        constructor
        · rintro ⟨a1, a2⟩; exact ⟨a1, by rw [h1 j a1]; simpa using a2⟩
        · rintro ⟨a1, a2⟩; exact ⟨a1, by rw [h1 j a1] at a2; simpa using a2⟩
      · simp only [if_true, List.mem_cons, hj, false_or, ih, this]
        constructor
        · rintro ⟨a1, a2⟩; exact ⟨a1, by rw [h1 j a1]; simpa using a2⟩
        · rintro ⟨a1, a2⟩; exact ⟨a1, by rw [h1 j a1] at a2; simpa using a2⟩

theorem positions_sorted (i : Nat) (l : List Bool) : (positions i l).Pairwise (· < ·) := by
  induction l generalizing i with
  | nil => exact List.Pairwise.nil
  | cons b l ih =>
    simp only [positions]
    split
    · refine List.Pairwise.cons ?_ (ih _)
      intro j hj
      have := (mem_positions.mp hj).1
      omega
    · exact ih _

end Verif.Xor

namespace Verif.Buckets
open Verif.Xor

/-- Statements about all bytes follow from the 256 cases. -/
theorem forall_byte {P : UInt8 → Prop} (h : ∀ n : Fin 256, P (UInt8.ofNat n.val)) (x : UInt8) : P x := by
  have := h ⟨x.toNat, x.toNat_lt⟩
  simpa using this

theorem lz8_lt {x : UInt8} (h : x ≠ 0) : lz8 x < 8 := by
  have := forall_byte (P := fun x => x ≠ 0 → lz8 x < 8) (by decide +kernel) x
  exact this h

theorem commonPrefix_bits8 {x y : UInt8} (h : x ^^^ y ≠ 0) (s s' : List Bool) :
    commonPrefix (bits8 x ++ s) (bits8 y ++ s') = lz8 (x ^^^ y) := by
  have hx := bits8_xor x y
  have key : ∀ d : UInt8, d ≠ 0 → ∀ a b : List Bool, a.length = 8 → b.length = 8 →
      List.zipWith xor a b = bits8 d → commonPrefix a b = lz8 d := by
    intro d hd a b ha hb hz
    have hc : commonPrefix a b = commonPrefix (List.zipWith xor a b) (List.replicate 8 false) := by
      clear hz
      have gen : ∀ (n : Nat) (a b : List Bool), a.length = n → b.length = n →
          commonPrefix a b = commonPrefix (List.zipWith xor a b) (List.replicate n false) := by
        intro n
        induction n with
        | zero => intro a b ha hb; simp [List.length_eq_zero_iff.mp ha, commonPrefix]
        | succ n ih =>
          intro a b ha hb
          cases a with
          | nil => cases ha
          | cons x a =>
            cases b with
            | nil => cases hb
            | cons y b =>
              simp only [List.zipWith_cons_cons, List.replicate_succ, commonPrefix]
              rw [ih a b (by simpa using ha) (by simpa using hb)]
              cases x <;> cases y <;> simp
      exact gen 8 a b ha hb
    rw [hc, hz]
    have := forall_byte (P := fun d => d ≠ 0 →
      commonPrefix (bits8 d) (List.replicate 8 false) = lz8 d) (by decide +kernel) d
    exact this hd
  have h8 := key _ h _ _ (bits8_length x) (bits8_length y) hx
  have hlt := lz8_lt h
  -- the common prefix ends inside the first byte
  have gen : ∀ (a b : List Bool), a.length = b.length → commonPrefix a b < a.length →
      commonPrefix (a ++ s) (b ++ s') = commonPrefix a b := by
    intro a
    induction a with
    | nil => intro b _ h; simp [commonPrefix] at h
    | cons x a ih =>
      intro b hl hlt
      cases b with
      | nil => cases hl
      | cons y b =>
        simp only [List.cons_append, commonPrefix] at hlt ⊢
        by_cases e : x = y
        · rw [if_pos e] at hlt
          rw [if_pos e, if_pos e, ih b (by simpa using hl) (by simpa using hlt)]
        · rw [if_neg e, if_neg e]
  rw [gen _ _ (by simp [bits8_length]) (by rw [h8, bits8_length]; exact hlt), h8]

theorem commonPrefix_bits8_eq (x : UInt8) (s s' : List Bool) :
    commonPrefix (bits8 x ++ s) (bits8 x ++ s') = 8 + commonPrefix s s' := by
  simp [bits8, commonPrefix]
  omega

theorem xor_eq_zero {x y : UInt8} (h : x ^^^ y = 0) : x = y := by
  have h1 := congrArg UInt8.toNat h
  rw [UInt8.toNat_xor] at h1
  apply UInt8.toNat_inj.mp
  apply Nat.eq_of_testBit_eq
  intro i
  have h2 := congrArg (fun n => n.testBit i) h1
  simp only [Nat.testBit_xor, UInt8.toNat_zero, Nat.zero_testBit] at h2
  cases h3 : x.toNat.testBit i <;> cases h4 : y.toNat.testBit i <;> simp_all

theorem affinityFrom_eq (i : Nat) (a b : Bytes) (hl : a.length = b.length) (hne : a ≠ b) :
    affinityFrom i a b = i * 8 + commonPrefix (bits a) (bits b) := by
  induction a generalizing b i with
  | nil => cases b with
    | nil => exact absurd rfl hne
    | cons => cases hl
  | cons x a ih =>
    cases b with
    | nil => cases hl
    | cons y b =>
      rw [bits_cons, bits_cons]
      simp only [affinityFrom]
      by_cases h : x ^^^ y = 0
      · have e := xor_eq_zero h
        subst e
        rw [if_neg (by simp), ih (i + 1) b (by simpa using hl) (by intro e; exact hne (by rw [e])),
          commonPrefix_bits8_eq]
        omega
      · rw [if_pos h, commonPrefix_bits8 h]

theorem affinityFrom_self (i : Nat) (a : Bytes) : affinityFrom i a a = 255 := by
  induction a generalizing i with
  | nil => rfl
  | cons x a ih => simp [affinityFrom, ih]

theorem visitByte_eq (x : UInt8) (i : Nat) (hi : i < 32) :
    visitByte 9 x (i * 8) = positions (i * 8) (bits8 x) := by
  have := forall_byte (P := fun x => ∀ i : Fin 32,
    visitByte 9 x (i.val * 8) = positions (i.val * 8) (bits8 x)) (by decide +kernel) x
  exact this ⟨i, hi⟩

theorem zipWith_bits (a b : Bytes) (hl : a.length = b.length) :
    List.zipWith xor (bits a) (bits b) = bits (List.zipWith (· ^^^ ·) a b) := by
  induction a generalizing b with
  | nil => cases b with
    | nil => rfl
    | cons => cases hl
  | cons x a ih =>
    cases b with
    | nil => cases hl
    | cons y b =>
      rw [bits_cons, bits_cons, List.zipWith_cons_cons, bits_cons, ← ih b (by simpa using hl),
        ← bits8_xor, List.zipWith_append (by simp [bits8_length])]

theorem visitFrom_eq (i : Nat) (a b : Bytes) (hl : a.length = b.length) (hi : i + a.length ≤ 32) :
    visitFrom i a b = positions (i * 8) (List.zipWith xor (bits a) (bits b)) := by
  induction a generalizing b i with
  | nil => cases b with
    | nil => rfl
    | cons => cases hl
  | cons x a ih =>
    cases b with
    | nil => cases hl
    | cons y b =>
      simp only [List.length_cons] at hi
      rw [bits_cons, bits_cons, List.zipWith_append (by simp [bits8_length]), positions_append,
        bits8_xor]
      simp only [visitFrom]
      rw [visitByte_eq _ _ (by omega), ih (i + 1) b (by simpa using hl) (by omega), bits8_length]
      rw [show i * 8 + 8 = (i + 1) * 8 by omega]

theorem pushBucket_eq {α : Type} (k : Nat) (nodes vs : List α) (h : nodes.length < max k 1) :
    pushBucket k nodes vs =
      (if nodes.length + vs.length < max k 1 then (nodes ++ vs, false)
       else ((nodes ++ vs).take (max k 1), true)) ∨
    (vs = [] ∧ pushBucket k nodes vs = (nodes, false)) := by
  induction vs generalizing nodes with
  | nil => exact .inr ⟨rfl, rfl⟩
  | cons v vs ih =>
    left
    simp only [pushBucket, List.length_append, List.length_cons, List.length_nil]
    by_cases hk : k ≤ nodes.length + 1
    · rw [if_pos (by omega), if_neg (by omega)]
      have : max k 1 = nodes.length + 1 := by omega
      rw [this]
      rw [show nodes ++ v :: vs = (nodes ++ [v]) ++ vs by simp,
        List.take_append_of_le_length (by simp), List.take_of_length_le (by simp)]
    · rw [if_neg (by omega)]
      rcases ih (nodes ++ [v]) (by simp; omega) with e | ⟨rfl, e⟩
      · rw [e]
        simp only [List.length_append, List.length_cons, List.length_nil, List.append_assoc,
          List.cons_append, List.nil_append]
        rw [show nodes.length + (0 + 1) + vs.length = nodes.length + (vs.length + 1) by omega]
      · rw [e, if_pos (by simp; omega)]

theorem pushAll_eq {α : Type} (k : Nat) (bucket : Nat → List α) (nodes : List α) (ds : List Nat)
    (h : nodes.length < max k 1) :
    pushAll k bucket nodes ds = (nodes ++ ds.flatMap bucket).take (max k 1) := by
  induction ds generalizing nodes with
  | nil =>
    simp only [pushAll, List.flatMap_nil, List.append_nil]
    rw [List.take_of_length_le (by omega)]
  | cons d ds ih =>
    simp only [pushAll, List.flatMap_cons]
    rcases pushBucket_eq k nodes (bucket d) h with e | ⟨e1, e2⟩
    · rw [e]
      by_cases hlt : nodes.length + (bucket d).length < max k 1
      · rw [if_pos hlt]
        simp only
        rw [ih _ (by simpa using hlt), List.append_assoc]
      · rw [if_neg hlt]
        simp only
        rw [← List.append_assoc,
          List.take_append_of_le_length (l₁ := nodes ++ bucket d) (by rw [List.length_append]; omega)]
    · rw [e2, e1]
      simp only [List.nil_append]
      exact ih nodes h

end Verif.Buckets
