import Verif.Model.Num

namespace Verif

@[simp] theorem leBytes_length (k n : Nat) : (leBytes k n).length = k := by
  induction k generalizing n with
  | zero => rfl
  | succ k ih => simp [leBytes, ih]

theorem toNat_ofNat_mod (n : Nat) : (UInt8.ofNat (n % 256)).toNat = n % 256 := by
  simp

theorem ofLE_leBytes (k n : Nat) : ofLE (leBytes k n) = n % 256 ^ k := by
  induction k generalizing n with
  | zero => simp [leBytes, ofLE, Nat.mod_one]
  | succ k ih =>
    simp only [leBytes, ofLE, ih, toNat_ofNat_mod]
    rw [Nat.pow_succ, Nat.mul_comm (256 ^ k) 256, Nat.mod_mul]

theorem ofLE_leBytes_of_lt {k n : Nat} (h : n < 256 ^ k) : ofLE (leBytes k n) = n := by
  rw [ofLE_leBytes, Nat.mod_eq_of_lt h]

theorem ofLE_lt (b : Bytes) : ofLE b < 256 ^ b.length := by
  induction b with
  | nil => simp [ofLE]
  | cons x xs ih =>
    simp only [ofLE, List.length_cons, Nat.pow_succ]
    have := x.toNat_lt
    omega

theorem leBytes_ofLE (b : Bytes) : leBytes b.length (ofLE b) = b := by
  induction b with
  | nil => rfl
  | cons x xs ih =>
    simp only [List.length_cons, leBytes, ofLE]
    have hx := x.toNat_lt
    have h1 : (x.toNat + 256 * ofLE xs) % 256 = x.toNat := by omega
    have h2 : (x.toNat + 256 * ofLE xs) / 256 = ofLE xs := by omega
    rw [h1, h2, ih]
    simp

@[simp] theorem beBytes_length (k n : Nat) : (beBytes k n).length = k := by simp [beBytes]

theorem ofBE_beBytes (k n : Nat) : ofBE (beBytes k n) = n % 256 ^ k := by
  simp [ofBE, beBytes, ofLE_leBytes]

theorem beBytes_ofBE (b : Bytes) : beBytes b.length (ofBE b) = b := by
  have := leBytes_ofLE b.reverse
  rw [List.length_reverse] at this
  simp [beBytes, ofBE, this]

theorem ofBE_lt (b : Bytes) : ofBE b < 256 ^ b.length := by
  have := ofLE_lt b.reverse
  rwa [List.length_reverse] at this

theorem addU32_eq (m : Build) {a b : Nat} (h : a + b < 2 ^ 32) : addU32 m a b = some (a + b) := by
  unfold addU32; rw [if_pos h]

end Verif
