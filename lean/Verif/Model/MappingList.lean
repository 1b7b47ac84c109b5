import Verif.Model.Mapping
/-! # `src/mapping_list.rs` -/

namespace RSM

/-- `/repo/src/mapping_list.rs` 5-13, `generated_position_after` (with the short-circuit of `||`). -/
def generatedPositionAfter (cfg : Cfg) (a b : Mapping) : Res Bool :=
  let lineA := a.generated.line
  let lineB := b.generated.line
  let columnA := a.generated.column
  let columnB := b.generated.column
  if lineB > lineA ∨ (lineB = lineA ∧ columnB ≥ columnA) then .ok true
  else do
    let c ← compareByGeneratedPosInflated cfg a b
    pure (decide (c ≤ 0))

/-- `/repo/src/mapping_list.rs` 14-18, `MappingList`. -/
structure MappingList where
  array : List Mapping
  sorted : Bool
  last : Option Mapping
deriving DecidableEq, Repr

namespace MappingList

/-- `/repo/src/mapping_list.rs` 20-33, `default` and `new`. -/
def new : MappingList := ⟨[], true, none⟩

/-- `/repo/src/mapping_list.rs` 35-43, `unsorted_for_each`: the arguments of the calls of the callback, in order. -/
def unsortedForEach (l : MappingList) : List (Mapping × Nat) := l.array.zipIdx

/-- `/repo/src/mapping_list.rs` 47-56: the mapping used when nothing is recorded in `last`. -/
def beforeAll : Mapping := { generated := ⟨-1, -1⟩ }

/-- `/repo/src/mapping_list.rs` 45-65, `add`. -/
def add (cfg : Cfg) (l : MappingList) (mapping : Mapping) : Res MappingList := do
  let after ← generatedPositionAfter cfg (l.last.getD beforeAll) mapping
  if after then pure { l with last := some mapping, array := l.array ++ [mapping] }
  else pure { l with sorted := false, array := l.array ++ [mapping] }

/-- The comparator of `/repo/src/mapping_list.rs` 69-76 as "not greater": the closure maps a
positive result to `Greater`, zero to `Equal` and the rest to `Less`. -/
def sortLE (cfg : Cfg) (a b : Mapping) : Bool :=
  match compareByGeneratedPosInflated cfg a b with
  | .ok c => decide (c ≤ 0)
  | .error _ => true

/-- No comparison of two elements panics, and the comparator is a total preorder of the elements. -/
def consistent (cfg : Cfg) (array : List Mapping) : Bool :=
  array.all fun a => array.all fun b => (compareByGeneratedPosInflated cfg a b).isOk &&
    (sortLE cfg a b || sortLE cfg b a) &&
    array.all fun c => !(sortLE cfg a b && sortLE cfg b c) || sortLE cfg a c

/-- What `slice::sort_by` does when the comparator is no total order or some comparison panics (overflow). The standard
library leaves it unspecified: it panics, or the slice is some permutation of itself afterwards. Nothing else is known of
this function. -/
opaque unspecifiedSort (cfg : Cfg) (array : List Mapping) :
    { r : Res (List Mapping) // ∀ out, r = .ok out → out.Perm array } :=
  ⟨.ok array, fun out h => by cases h; exact List.Perm.refl _⟩

/-- `slice::sort_by` as used at `/repo/src/mapping_list.rs` 69-76: a stable sort, if the comparator is a total order of
the elements. -/
def sortBy (cfg : Cfg) (array : List Mapping) : Res (List Mapping) :=
  if consistent cfg array then .ok (array.mergeSort (sortLE cfg)) else (unspecifiedSort cfg array).1

/-- `/repo/src/mapping_list.rs` 67-81, `to_array`. -/
def toArray (cfg : Cfg) (l : MappingList) : Res (List Mapping × MappingList) :=
  if !l.sorted then do
    let array ← sortBy cfg l.array
    pure (array, { l with array := array, sorted := true })
  else .ok (l.array, l)

end MappingList

end RSM
