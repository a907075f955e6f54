/-!
# Finite maps

`FMap` models the hash maps and `SlotMap` the slot maps used by cv-sfm.

* `FMap α` stands for `HashMap<Key, α>` (`hashbrown`, used in
  /repo/cv-sfm/src/lib.rs lines 103-106 for `Landmark::observations`).  Iteration order is
  the order of `entries`.
* `SlotMap α` stands for `slotmap::DenseSlotMap<Key, α>` (lines 133-140 and 197-208).
  A key is a number handed out by a counter.  Simplification: real keys are an
  (index, version) pair; a removed key never resolves again because the version differs.
  We do not model the wrap-around of versions.
-/

namespace Verif

/-- An association list with keys in `Nat`; see the file comment. -/
structure FMap (α : Type) where
  entries : List (Nat × α)
deriving Repr

namespace FMap
variable {α : Type}

/-- `HashMap::get` / slot-map lookup. -/
def get (m : FMap α) (k : Nat) : Option α := m.entries.lookup k

/-- `keys()`, in iteration order. -/
def keys (m : FMap α) : List Nat := m.entries.map Prod.fst

/-- `len()`. -/
def size (m : FMap α) : Nat := m.entries.length

/-- the empty map. -/
def empty : FMap α := ⟨[]⟩

/-- `remove(&k)` (the removed value is read with `get` beforehand). -/
def erase (m : FMap α) (k : Nat) : FMap α := ⟨m.entries.filter (fun p => p.1 != k)⟩

/-- `map[k]` used as a mutable place: apply `f` to the value stored at `k`. -/
def modify (m : FMap α) (k : Nat) (f : α → α) : FMap α :=
  ⟨m.entries.map (fun p => if p.1 = k then (p.1, f p.2) else p)⟩

/-- Add a key known to be absent. -/
def push (m : FMap α) (k : Nat) (v : α) : FMap α := ⟨m.entries ++ [(k, v)]⟩

/-- `HashMap::insert(k, v)`: overwrite if present, else add. -/
def put (m : FMap α) (k : Nat) (v : α) : FMap α :=
  if (m.get k).isSome then m.modify k (fun _ => v) else m.push k v

/-- `hashmap! { k => v }`. -/
def single (k : Nat) (v : α) : FMap α := ⟨[(k, v)]⟩

/-- No key occurs twice (the representation invariant of a map). -/
def WF (m : FMap α) : Prop := m.keys.Nodup

end FMap

/-- See the file comment. -/
structure SlotMap (α : Type) where
  map : FMap α
  next : Nat
deriving Repr

namespace SlotMap
variable {α : Type}

/-- `DenseSlotMap::default()`. -/
def empty : SlotMap α := ⟨FMap.empty, 0⟩
/-- `DenseSlotMap::get`; indexing `s[k]` panics exactly when this is `none`. -/
def get (s : SlotMap α) (k : Nat) : Option α := s.map.get k
/-- `DenseSlotMap::keys`. -/
def keys (s : SlotMap α) : List Nat := s.map.keys
/-- `DenseSlotMap::len`. -/
def size (s : SlotMap α) : Nat := s.map.size
/-- `DenseSlotMap::insert`; the key returned is `s.next`. -/
def insert (s : SlotMap α) (v : α) : SlotMap α := ⟨s.map.push s.next v, s.next + 1⟩
/-- `DenseSlotMap::remove`. -/
def erase (s : SlotMap α) (k : Nat) : SlotMap α := ⟨s.map.erase k, s.next⟩
/-- `s[k]` as a mutable place. -/
def modify (s : SlotMap α) (k : Nat) (f : α → α) : SlotMap α := ⟨s.map.modify k f, s.next⟩
/-- `DenseSlotMap::retain` on values. -/
def retain (s : SlotMap α) (p : α → Bool) : SlotMap α :=
  ⟨⟨s.map.entries.filter (fun e => p e.2)⟩, s.next⟩
/-- `DenseSlotMap::clear`. -/
def clear (s : SlotMap α) : SlotMap α := ⟨FMap.empty, s.next⟩

/-- Keys are distinct and were all handed out before. -/
structure WF (s : SlotMap α) : Prop where
  nodup : s.map.WF
  fresh : ∀ k v, s.get k = some v → k < s.next

end SlotMap
end Verif
