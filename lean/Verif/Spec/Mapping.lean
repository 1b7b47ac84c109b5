import Verif.Model.Mapping
/-! # Specification vocabulary for mappings -/

namespace RSM

/-- A mapping whose coordinates are non-negative `i32`s and that has an original position exactly
when it has a source (as `validate_mapping`, `/repo/src/generator.rs` 80-99, asks for). -/
structure Mapping.Valid (m : Mapping) : Prop where
  gl : 0 ≤ m.generated.line ∧ m.generated.line ≤ 2147483647
  gc : 0 ≤ m.generated.column ∧ m.generated.column ≤ 2147483647
  orig : m.original.isSome = m.source.isSome
  range : ∀ p, m.original = some p →
    0 ≤ p.line ∧ p.line ≤ 2147483647 ∧ 0 ≤ p.column ∧ p.column ≤ 2147483647

/-- `a` is generated at or before `b`. -/
def posLE (a b : Mapping) : Prop :=
  a.generated.line < b.generated.line ∨
  (a.generated.line = b.generated.line ∧ a.generated.column ≤ b.generated.column)

instance (a b : Mapping) : Decidable (posLE a b) := by unfold posLE; infer_instance

/-- Both mappings agree on everything the comparison looks at. -/
def SameKey (a b : Mapping) : Prop :=
  a.generated = b.generated ∧ a.source = b.source ∧ a.original = b.original ∧ a.name = b.name

end RSM
