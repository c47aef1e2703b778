/-!
# Finite maps (`DashMap` / `HashMap` in the code) as association lists

`FastDashMap`, `FastHashMap` (src/util/mod.rs) are only used through keyed operations; the model
uses an association list. Iteration order is never relied on: where the code iterates over a map
the model takes the order as an argument or the theorem is insensitive to it.
-/
namespace Verif

abbrev AMap (κ ν : Type) := List (κ × ν)

namespace AMap
variable {κ ν : Type} [DecidableEq κ]

/-- `map.get(&k)` -/
def get : AMap κ ν → κ → Option ν
  | [], _ => none
  | (k', v) :: m, k => if k' = k then some v else get m k

/-- `map.remove(&k)` -/
def erase (m : AMap κ ν) (k : κ) : AMap κ ν := m.filter (fun e => e.1 ≠ k)

/-- `map.insert(k, v)` (overwrites) -/
def put (m : AMap κ ν) (k : κ) (v : ν) : AMap κ ν := (k, v) :: erase m k

/-- the keys -/
def keys (m : AMap κ ν) : List κ := m.map (·.1)

end AMap
end Verif
