import Verif.Model.Rust
import Verif.Model.HashMap
/-! # `src/array_set.rs` -/

namespace RSM

/-- `/repo/src/array_set.rs` 3-7. -/
structure ArraySet where
  array : List String
  set : HMap String Nat
deriving DecidableEq, Repr

namespace ArraySet

/-- `/repo/src/array_set.rs` 18-20, `new`. -/
def new : ArraySet := ⟨[], HMap.empty⟩

/-- `/repo/src/array_set.rs` 78-80, `has`. -/
def has (a : ArraySet) (data : String) : Bool := a.set.contains data

/-- `/repo/src/array_set.rs` 59-69, `add`. -/
def add (a : ArraySet) (data : String) (allowDuplicates : Bool) : ArraySet :=
  let isDuplicate := a.has data
  let idx := a.array.length
  let array := if !isDuplicate || allowDuplicates then a.array ++ [data] else a.array
  let set := if !isDuplicate then a.set.insert data idx else a.set
  ⟨array, set⟩

/-- `/repo/src/array_set.rs` 30-36, `from_array`. -/
def fromArray (arr : List String) (allowDuplicates : Bool) : ArraySet :=
  arr.foldl (fun s i => s.add i allowDuplicates) new

/-- `/repo/src/array_set.rs` 46-48, `size`. -/
def size (a : ArraySet) : Nat := a.set.len

/-- `/repo/src/array_set.rs` 89-91, `index_of`. -/
def indexOf (a : ArraySet) (data : String) : Option Nat := a.set.get? data

/-- `/repo/src/array_set.rs` 100-106, `at`. `self.array.len() as i32` truncates. -/
def atIdx (a : ArraySet) (idx : Int) : Option String :=
  if idx ≥ 0 ∧ idx < wrap32 a.array.length then a.array[idx.toNat]? else none

/-- `/repo/src/array_set.rs` 119-121, `to_vec`. -/
def toVec (a : ArraySet) : List String := a.array

end ArraySet

end RSM
