import Verif.Model.Bytes

/-!
# Machine integers and little-endian bytes
-/
namespace Verif

/-- Overflow behaviour of `+`/`-` on machine integers: debug builds panic, release builds wrap. -/
inductive Build where
  | debug | release
deriving DecidableEq, Repr

/-- `a + b` on `u32`; `none` is a panic. -/
def addU32 (m : Build) (a b : Nat) : Option Nat :=
  if a + b < 2 ^ 32 then some (a + b)
  else match m with
    | .debug => none
    | .release => some ((a + b) % 2 ^ 32)

/-- `a - b` on `u32`; `none` is a panic. -/
def subU32 (m : Build) (a b : Nat) : Option Nat :=
  if b ≤ a then some (a - b)
  else match m with
    | .debug => none
    | .release => some (2 ^ 32 + a - b)

/-- `k` little-endian bytes of `n` (`to_le_bytes`). -/
def leBytes : Nat → Nat → Bytes
  | 0, _ => []
  | k + 1, n => UInt8.ofNat (n % 256) :: leBytes k (n / 256)

/-- Value of little-endian bytes (`from_le_bytes`). -/
def ofLE : Bytes → Nat
  | [] => 0
  | b :: bs => b.toNat + 256 * ofLE bs

/-- `k` big-endian bytes of `n` (`to_be_bytes`). -/
def beBytes (k n : Nat) : Bytes := (leBytes k n).reverse

/-- Value of big-endian bytes (`from_be_bytes`). -/
def ofBE (b : Bytes) : Nat := ofLE b.reverse

end Verif
