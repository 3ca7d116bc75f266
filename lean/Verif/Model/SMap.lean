import Mathlib.Order.Defs.LinearOrder
/-
`std::map` as an association list sorted by key: the containers `fields`, `state_fields` and
`nb_sub_pts` of a field collection (`/repo/src/libmugrid/field_collection.hh` 848-865), which are
searched, written through `operator[]`, erased from and iterated in key order.
-/
namespace Verif

/-- A `std::map<K, V>`, by its entries in iteration order (field_collection.hh 848-865). -/
abbrev SMap (κ β : Type) := List (κ × β)

namespace SMap
variable {κ β : Type} [LinearOrder κ]

/-- `map.find(k)` / `map.at(k)`, e.g. field_collection.cc 266, 294-305. -/
def find (m : SMap κ β) (k : κ) : Option β :=
  match m with
  | [] => none
  | (k', v) :: m => if k' = k then some v else find m k

/-- `map[k] = v`, e.g. field_collection.cc 295, 326. -/
def insert (m : SMap κ β) (k : κ) (v : β) : SMap κ β :=
  match m with
  | [] => [(k, v)]
  | (k', v') :: m =>
      if k < k' then (k, v) :: (k', v') :: m
      else if k = k' then (k, v) :: m
      else (k', v') :: insert m k v

/-- `map.insert({k, v})`, which keeps an existing entry, field_collection_local.cc 60-61. -/
def emplace (m : SMap κ β) (k : κ) (v : β) : SMap κ β :=
  match m.find k with
  | some _ => m
  | none => m.insert k v

/-- `map.erase(k)`, e.g. field_collection.cc 425. -/
def erase (m : SMap κ β) (k : κ) : SMap κ β :=
  match m with
  | [] => []
  | (k', v) :: m => if k' = k then m else (k', v) :: erase m k

/-- The keys in iteration order, e.g. `list_fields`, field_collection.cc 441-447. -/
def keys (m : SMap κ β) : List κ := m.map (·.1)

/-- The invariant of `std::map`: entries strictly sorted by key.  Used for field_collection.hh 99, 856 and 858. -/
def Sorted (m : SMap κ β) : Prop := m.Pairwise (fun a b => a.1 < b.1)

end SMap
end Verif
