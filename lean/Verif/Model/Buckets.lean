import Verif.Model.AMap
import Verif.Model.DhtProto

/-!
# `src/dht/buckets.rs`
-/
namespace Verif.Buckets

/-- `u8::leading_zeros`. -/
def lz8 (x : UInt8) : Nat :=
  if x ≥ 128 then 0 else if x ≥ 64 then 1 else if x ≥ 32 then 2 else if x ≥ 16 then 3
  else if x ≥ 8 then 4 else if x ≥ 4 then 5 else if x ≥ 2 then 6 else if x ≥ 1 then 7 else 8

/-- `get_affinity` (buckets.rs:101-109) from byte `i` on. The cast to `u8` never truncates
(`i * 8 + leading_zeros ≤ 255`). -/
def affinityFrom (i : Nat) : Bytes → Bytes → Nat
  | a :: as, b :: bs => if a ^^^ b ≠ 0 then i * 8 + lz8 (a ^^^ b) else affinityFrom (i + 1) as bs
  | _, _ => 255

def affinity (a b : Bytes) : Nat := affinityFrom 0 a b

/-- A DHT node as stored in the table (`NodeOwned`). -/
abbrev Node := DhtProto.DNode

/-- `Buckets` (buckets.rs:8-11): the local id and the tables. -/
structure Table where
  localId : Bytes
  bucket : Nat → AMap Bytes Node

/-- `Buckets::new` (buckets.rs:14-19). -/
def new (localId : Bytes) : Table := ⟨localId, fun _ => []⟩

/-- Insertion into one bucket (buckets.rs:31-40). -/
def insertInto (m : AMap Bytes Node) (id : Bytes) (n : Node) : AMap Bytes Node :=
  match m.get id with
  | some old => if old.version < n.version then m.put id n else m
  | none => m.put id n

/-- `insert` (buckets.rs:27-41). -/
def insert (t : Table) (id : Bytes) (n : Node) : Table :=
  let a := affinity t.localId id
  { t with bucket := fun j => if j = a then insertInto (t.bucket a) id n else t.bucket j }

/-- The `while diff != 0` loop for one byte (buckets.rs:58-81): the buckets visited, starting from
`distance`. Every turn clears the highest bit, so nine turns are enough. -/
def visitByte : Nat → UInt8 → Nat → List Nat
  | 0, _, _ => []
  | fuel + 1, diff, distance =>
    if diff = 0 then []
    else
      let equal := lz8 diff
      let d := distance + equal
      d :: (if equal < 7 then visitByte fuel (diff <<< UInt8.ofNat (equal + 1)) (min 255 (d + 1)) else [])

/-- The outer loop (buckets.rs:53-83), from byte `i` on. -/
def visitFrom (i : Nat) : Bytes → Bytes → List Nat
  | a :: as, b :: bs => visitByte 9 (a ^^^ b) (i * 8) ++ visitFrom (i + 1) as bs
  | _, _ => []

/-- Adding the nodes of a bucket (buckets.rs:65-71); the flag tells that `k` is reached. -/
def pushBucket {α : Type} (k : Nat) (nodes : List α) : List α → List α × Bool
  | [] => (nodes, false)
  | v :: vs =>
    if (nodes ++ [v]).length ≥ k then (nodes ++ [v], true) else pushBucket k (nodes ++ [v]) vs

/-- Adding bucket after bucket until `k` is reached. -/
def pushAll {α : Type} (k : Nat) (bucket : Nat → List α) (nodes : List α) : List Nat → List α
  | [] => nodes
  | d :: ds =>
    match pushBucket k nodes (bucket d) with
    | (n, true) => n
    | (n, false) => pushAll k bucket n ds

/-- `find` (buckets.rs:44-88). The entries (id and node) are returned; the code returns the nodes, which
contain their ids. The order inside a bucket is that of the map iteration. -/
def find (t : Table) (target : Bytes) (k : Nat) : List (Bytes × Node) :=
  pushAll k t.bucket [] (visitFrom 0 t.localId target)

end Verif.Buckets
