/-!
# Byte strings
-/
namespace Verif

/-- `Vec<u8>` / `&[u8]`. -/
abbrev Bytes := List UInt8

/-- `&data[a..b]` for `a ≤ b ≤ len` (the only way it is used in the model; every use states why
the bounds hold or models the panic explicitly). -/
def slice (d : Bytes) (a b : Nat) : Bytes := (d.drop a).take (b - a)

end Verif
