import Verif.Model.Num

/-!
# TL wire primitives (crate `tl_proto` 0.4, outside the repository)

The wire format is the standard TL one and is assumed: integers little endian; `bytes` as a one byte
length (below 254) or the byte 254 and a three byte length, then the data, then zero padding to a
multiple of four; a boxed value starts with its four byte constructor id; a bare vector is a count
followed by the items. Padding bytes are skipped without a check when reading, and a length byte
255 is read as the length 255.

A reader takes the unread bytes and gives a value and the bytes left; `none` is any `TlError`.
The offset the code keeps is the number of bytes already consumed (`measured`).
-/
namespace Verif.Tl

def Reader (α : Type) := Bytes → Option (α × Bytes)

instance : Monad Reader where
  pure x := fun b => some (x, b)
  bind m f := fun b =>
    match m b with
    | none => none
    | some (x, r) => f x r

/-- Every read error. -/
def fail {α : Type} : Reader α := fun _ => none

/-- The next `n` bytes; `[u8; n]` and the payload of `bytes`. -/
def readRaw (n : Nat) : Reader Bytes := fun b =>
  if b.length < n then none else some (b.take n, b.drop n)

def readU32 : Reader Nat := do
  let d ← readRaw 4
  pure (ofLE d)

def readU64 : Reader Nat := do
  let d ← readRaw 8
  pure (ofLE d)

def readHash : Reader Bytes := readRaw 32

/-- Bytes needed after `n` bytes to reach a multiple of four. -/
def padding (n : Nat) : Nat := (4 - n % 4) % 4

/-- `&[u8]::read_from`. -/
def readBytes : Reader Bytes := do
  let h ← readRaw 1
  if ofLE h = 254 then do
    let l ← readRaw 3
    let d ← readRaw (ofLE l)
    let _ ← readRaw (padding (ofLE l))
    pure d
  else do
    let d ← readRaw (ofLE h)
    let _ ← readRaw (padding (1 + ofLE h))
    pure d

/-- `count` items. -/
def readN {α : Type} (rd : Reader α) : Nat → Reader (List α)
  | 0 => pure []
  | n + 1 => do
    let x ← rd
    let xs ← readN rd n
    pure (x :: xs)

/-- Bare vector: `Vec<T>` / `SmallVec<T>`. -/
def readVec {α : Type} (rd : Reader α) : Reader (List α) := do
  let n ← readU32
  readN rd n

/-- The value together with the number of bytes consumed. -/
def measured {α : Type} (rd : Reader α) : Reader (α × Nat) := fun b =>
  match rd b with
  | none => none
  | some (x, r) => some ((x, b.length - r.length), r)

/-- `read_optional` (proto/adnl.rs:136-149). -/
def readOpt {α : Type} (flags bit : Nat) (rd : Reader α) : Reader (Option α) :=
  if flags.testBit bit then do
    let x ← rd
    pure (some x)
  else pure none

def writeU32 (n : Nat) : Bytes := leBytes 4 n
def writeU64 (n : Nat) : Bytes := leBytes 8 n

/-- `<[u8] as TlWrite>::write_to`, for data shorter than 2^24. -/
def writeBytes (d : Bytes) : Bytes :=
  if d.length < 254 then
    leBytes 1 d.length ++ (d ++ List.replicate (padding (1 + d.length)) 0)
  else
    leBytes 1 254 ++ (leBytes 3 d.length ++ (d ++ List.replicate (padding d.length) 0))

/-- `Option<T>::write_to`: nothing for `None`. -/
def writeOpt {α : Type} (w : α → Bytes) : Option α → Bytes
  | some x => w x
  | none => []

def writeVec {α : Type} (w : α → Bytes) (xs : List α) : Bytes :=
  writeU32 xs.length ++ (xs.map w).flatten

end Verif.Tl
