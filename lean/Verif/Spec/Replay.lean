/-!
# What replay protection means (independent of the implementation)
-/
namespace Verif.Spec

/-- The numbers that the implemented filter really remembers after a history: those below 256
that were delivered after the last number `≥ 256` of the history. (Oldest number first.) -/
def remembered : List Nat → List Nat
  | [] => []
  | xs => (xs.reverse.takeWhile (· < 256))

end Verif.Spec
