import Verif.Spec.Mappings
/-! # Specification of the numbers written into a `mappings` string -/

namespace RSM.Spec

/-- The numbers written for a segment, the last generated column of its line being `base`: the differences with the
values before. -/
def fieldsOf (base : Nat) (d : DState) (r : RawMapping) : List Int :=
  ((r.column : Int) - base) :: match r.original with
    | none => []
    | some o => (o.source - d.source : Int) :: (o.line - d.line : Int) :: (o.column - d.column : Int) ::
        (o.name.map fun n => (n : Int) - d.name).toList

/-- The values after a segment. -/
def afterSegment (d : DState) (r : RawMapping) : DState :=
  match r.original with
  | none => d
  | some o => ⟨o.source, o.line, o.column, o.name.getD d.name⟩

/-- The numbers written for a list of segments after a segment at `line` and `col`. -/
def writtenFrom : Nat → Nat → DState → List RawMapping → List Int
  | _, _, _, [] => []
  | line, col, d, r :: rs =>
    fieldsOf (if r.line = line then col else 0) d r ++ writtenFrom r.line r.column (afterSegment d r) rs

/-- The numbers written for a list of segments in generated order. -/
def written (rs : List RawMapping) : List Int := writtenFrom 0 0 ⟨0, 0, 0, 0⟩ rs

/-- The fields of `A,CAAC,IACIA;;EACA`. -/
example : written [⟨0, 0, none⟩, ⟨0, 1, some ⟨0, 0, 1, none⟩⟩, ⟨0, 5, some ⟨0, 1, 5, some 0⟩⟩,
      ⟨2, 2, some ⟨0, 2, 5, none⟩⟩] = [0, 1, 0, 0, 1, 4, 0, 1, 4, 0, 2, 0, 1, 0] := by decide

end RSM.Spec
