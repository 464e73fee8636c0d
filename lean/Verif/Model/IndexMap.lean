/-
`indexmap::IndexMap` as used by the repository: an association list in insertion order.
Only the operations that /repo calls are modelled.
-/
namespace Verif

/-- `IndexMap<K, V>`: entries in iteration order. (External crate; used throughout
`packages/istanbul-oxide/src/types.rs:65-70`.) That keys are distinct is an invariant
(`IndexMap.NodupKeys`), preserved by the operations below. -/
abbrev IndexMap (K V : Type) := List (K × V)

namespace IndexMap

variable {K V : Type} [DecidableEq K]

/-- `IndexMap::get`. -/
def get : IndexMap K V → K → Option V
  | [], _ => none
  | (k', v) :: m, k => if k' = k then some v else get m k

/-- `IndexMap::insert`: replaces the value in place when the key exists, otherwise appends. -/
def insert : IndexMap K V → K → V → IndexMap K V
  | [], k, v => [(k, v)]
  | (k', v') :: m, k, v => if k' = k then (k', v) :: m else (k', v') :: insert m k v

/-- `entry(k).and_modify(f).or_insert(v)`: modifies in place when present, otherwise appends `v`. -/
def upsert : IndexMap K V → K → (V → V) → V → IndexMap K V
  | [], k, _, v => [(k, v)]
  | (k', v') :: m, k, f, v => if k' = k then (k', f v') :: m else (k', v') :: upsert m k f v

/-- `if let Some(x) = get_mut(k) { *x = f(x) }`. -/
def modify : IndexMap K V → K → (V → V) → IndexMap K V
  | [], _, _ => []
  | (k', v') :: m, k, f => if k' = k then (k', f v') :: m else (k', v') :: modify m k f

/-- `IndexMap::keys`. -/
def keys (m : IndexMap K V) : List K := m.map (·.1)

/-- `IndexMap::values`. -/
def values (m : IndexMap K V) : List V := m.map (·.2)

/-- Position of a key. -/
def indexOf? : IndexMap K V → K → Option Nat
  | [], _ => none
  | (k', _) :: m, k => if k' = k then some 0 else (indexOf? m k).map (· + 1)

/-- `IndexMap::swap_remove_entry`: removes the entry and puts the last entry in its place
(nothing happens when the key is absent). -/
def swapRemove (m : IndexMap K V) (k : K) : IndexMap K V :=
  match indexOf? m k with
  | none => m
  | some i =>
    match m.getLast? with
    | none => m
    | some last =>
      let init := m.dropLast
      if i < init.length then init.set i last else init

/-- No key occurs twice. -/
def NodupKeys (m : IndexMap K V) : Prop := (keys m).Nodup

instance (m : IndexMap K V) : Decidable (NodupKeys m) := inferInstanceAs (Decidable (List.Nodup _))

end IndexMap
end Verif
