import Verif.Model.Bytes

/-!
# Cutting a message into consecutive pieces
-/
namespace Verif.Spec

/-- Attach to each piece the position where it starts, the first one at `o`. -/
def layout (o : Nat) : List Bytes → List (Nat × Bytes)
  | [] => []
  | b :: bs => (o, b) :: layout (o + b.length) bs

/-- `ps` are the consecutive, non-empty pieces of `data` with their positions. -/
def IsCut (data : Bytes) (ps : List (Nat × Bytes)) : Prop :=
  ∃ bs : List Bytes, (∀ b ∈ bs, b ≠ []) ∧ bs.flatten = data ∧ ps = layout 0 bs

/-- Number of bytes in the pieces whose position is neither in `seen` nor that of an earlier piece. -/
def newBytes (seen : List Nat) : List (Nat × Bytes) → Nat
  | [] => 0
  | e :: es => (if e.1 ∈ seen then 0 else e.2.length) + newBytes (e.1 :: seen) es

end Verif.Spec
