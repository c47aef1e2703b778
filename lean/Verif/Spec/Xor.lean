import Verif.Model.Bytes

/-!
# Specification: keys as bit strings and the XOR distance
-/
namespace Verif.Xor

/-- The bits of a byte, most significant first. -/
def bits8 (x : UInt8) : List Bool :=
  [x.toNat.testBit 7, x.toNat.testBit 6, x.toNat.testBit 5, x.toNat.testBit 4,
   x.toNat.testBit 3, x.toNat.testBit 2, x.toNat.testBit 1, x.toNat.testBit 0]

/-- The bits of a key. -/
def bits (k : Bytes) : List Bool := k.flatMap bits8

/-- Length of the longest common prefix. -/
def commonPrefix : List Bool → List Bool → Nat
  | a :: as, b :: bs => if a = b then commonPrefix as bs + 1 else 0
  | _, _ => 0

/-- The number with the given bits, most significant first. -/
def value : List Bool → Nat
  | [] => 0
  | b :: bs => (if b then 2 ^ bs.length else 0) + value bs

/-- XOR distance of two keys, as a number. -/
def dist (a b : Bytes) : Nat := value (List.zipWith xor (bits a) (bits b))

end Verif.Xor
