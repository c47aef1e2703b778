import Verif.Model.Display

/-!
# C135: printed ids are text, and different ids are printed differently
-/
namespace Verif.Display

/-- A digit of a lower-case hexadecimal number. -/
def IsHex (b : UInt8) : Prop := (48 ≤ b.toNat ∧ b.toNat ≤ 57) ∨ (97 ≤ b.toNat ∧ b.toNat ≤ 102)

instance (b : UInt8) : Decidable (IsHex b) := inferInstanceAs (Decidable (_ ∨ _))

/-- UTF-8 (The Unicode Standard, table 3-7): sequences of one to four bytes, without overlong forms,
surrogates and values above U+10FFFF. -/
def isUtf8 : List Nat → Bool
  | [] => true
  | a :: rest =>
    if a < 0x80 then isUtf8 rest
    else match rest with
    | [] => false
    | b :: rest =>
      if 0xc2 ≤ a ∧ a ≤ 0xdf ∧ 0x80 ≤ b ∧ b ≤ 0xbf then isUtf8 rest
      else match rest with
      | [] => false
      | c :: rest =>
        if 0x80 ≤ c ∧ c ≤ 0xbf ∧ ((a = 0xe0 ∧ 0xa0 ≤ b ∧ b ≤ 0xbf) ∨
            (((0xe1 ≤ a ∧ a ≤ 0xec) ∨ a = 0xee ∨ a = 0xef) ∧ 0x80 ≤ b ∧ b ≤ 0xbf) ∨
            (a = 0xed ∧ 0x80 ≤ b ∧ b ≤ 0x9f)) then isUtf8 rest
        else match rest with
        | [] => false
        | d :: rest =>
          if 0x80 ≤ c ∧ c ≤ 0xbf ∧ 0x80 ≤ d ∧ d ≤ 0xbf ∧ ((a = 0xf0 ∧ 0x90 ≤ b ∧ b ≤ 0xbf) ∨
              ((0xf1 ≤ a ∧ a ≤ 0xf3) ∧ 0x80 ≤ b ∧ b ≤ 0xbf) ∨
              (a = 0xf4 ∧ 0x80 ≤ b ∧ b ≤ 0x8f)) then isUtf8 rest
          else false

/-- The value of a hexadecimal digit. -/
def digitValue (b : UInt8) : Nat := if b.toNat ≤ 57 then b.toNat - 48 else b.toNat - 87

/-- Reading a printed id. -/
def parse : Bytes → Bytes
  | a :: b :: rest => UInt8.ofNat (digitValue a * 16 + digitValue b) :: parse rest
  | _ => []

theorem toNat_hexDigit (n : Nat) (h : n < 16) :
    (hexDigit n).toNat = if n < 10 then 48 + n else 87 + n := by
  unfold hexDigit
  split <;> simp [UInt8.toNat_ofNat'] <;> omega

theorem isHex_hexDigit (n : Nat) (h : n < 16) : IsHex (hexDigit n) := by
  unfold IsHex
  rw [toNat_hexDigit n h]
  split <;> omega

theorem digitValue_hexDigit (n : Nat) (h : n < 16) : digitValue (hexDigit n) = n := by
  unfold digitValue
  rw [toNat_hexDigit n h]
  split <;> split <;> omega

theorem hexOf_isHex (id : Bytes) : ∀ b ∈ hexOf id, IsHex b := by
  induction id with
  | nil => intro b hb; simp [hexOf] at hb
  | cons x xs ih =>
    intro b hb
    have hx := x.toNat_lt
    simp only [hexOf, List.mem_cons] at hb
    rcases hb with rfl | rfl | hb
    · exact isHex_hexDigit _ (by omega)
    · exact isHex_hexDigit _ (by omega)
    · exact ih b hb

theorem hexOf_length (id : Bytes) : (hexOf id).length = 2 * id.length := by
  induction id with
  | nil => rfl
  | cons x xs ih => simp [hexOf, ih]; omega

theorem parse_hexOf (id : Bytes) : parse (hexOf id) = id := by
  induction id with
  | nil => rfl
  | cons x xs ih =>
    have hx := x.toNat_lt
    simp only [hexOf, parse, ih]
    rw [digitValue_hexDigit _ (by omega), digitValue_hexDigit _ (by omega),
      show x.toNat / 16 * 16 + x.toNat % 16 = x.toNat by omega]
    simp

theorem isUtf8_of_ascii : ∀ (l : List Nat), (∀ a ∈ l, a < 0x80) → isUtf8 l = true := by
  intro l
  induction l with
  | nil => intro _; rfl
  | cons a l ih =>
    intro h
    unfold isUtf8
    simp only [h a List.mem_cons_self, if_true]
    exact ih (fun b hb => h b (List.mem_cons_of_mem _ hb))

/-- **C135** What is given to `from_utf8_unchecked` is UTF-8, whatever the length of the id: the unchecked
conversion is never undefined. -/
theorem C135_text (id : Bytes) : isUtf8 ((shown id).map UInt8.toNat) = true := by
  apply isUtf8_of_ascii
  intro a ha
  obtain ⟨b, hb, rfl⟩ := List.mem_map.mp ha
  unfold shown encodeToSlice at hb
  split at hb
  · have := hexOf_isHex id b hb
    unfold IsHex at this
    omega
  · rw [List.eq_of_mem_replicate hb]; decide

/-- **C135** An id of 32 bytes is printed as 64 lower-case hexadecimal digits, the same way everywhere, and
can be read back. -/
theorem C135_printed (id : Bytes) (h : id.length = 32) :
    (shown id).length = 64 ∧ (∀ b ∈ shown id, IsHex b) ∧ parse (shown id) = id ∧
    shown id = shownOverlay id := by
  have e : shown id = hexOf id := by simp [shown, encodeToSlice, h]
  rw [e]
  exact ⟨by rw [hexOf_length, h], hexOf_isHex id, parse_hexOf id, rfl⟩

/-- **C135** Different ids are printed differently. -/
theorem C135_distinct (id id' : Bytes) (h : id.length = 32) (h' : id'.length = 32)
    (he : shown id = shown id') : id = id' := by
  rw [← (C135_printed id h).2.2.1, he, (C135_printed id' h').2.2.1]

/-- Non-vacuity: the id 00 01 … 1f. -/
example : parse (shown ((List.range 32).map UInt8.ofNat)) = (List.range 32).map UInt8.ofNat :=
  (C135_printed _ (by decide)).2.2.1

/-- The bytes of an id itself are in general not UTF-8, so the claim is not empty. -/
example : isUtf8 ([0xff, 0x41] : List Nat) = false := by decide

/-- "é" and "€" are UTF-8, a lone continuation byte and a surrogate are not. -/
example : isUtf8 [0xc3, 0xa9, 0xe2, 0x82, 0xac] = true ∧ isUtf8 [0x80] = false ∧
    isUtf8 [0xed, 0xa0, 0x80] = false := by decide

/-- Non-vacuity of `C135_distinct`: ids that differ in one byte. -/
example : shown (List.replicate 31 1 ++ [2]) ≠ shown (List.replicate 31 1 ++ [3]) := fun e =>
  absurd (C135_distinct _ _ (by decide) (by decide) e) (by decide)

end Verif.Display
