import Verif.Model.Url
import Verif.Spec.Mappings
/-! # The `source-map-mappings` crate as used by `src/consumer.rs`

`/repo/Cargo.toml`: `source-map-mappings = "0.5.0"`. The crate is a dependency and is not modelled:
its operations are parameters. What the proofs assume about them is stated separately
(`Verif/Dep/Mappings.lean`), together with a concrete instance.
-/

namespace RSM

/-- `source_map_mappings::Bias`. -/
inductive Bias where
  | glb
  | lub
deriving DecidableEq, Repr

/-- `source_map_mappings::Mapping`; all numbers are `u32`, lines 0-based. -/
structure LibMapping where
  generatedLine : Nat
  generatedColumn : Nat
  lastGeneratedColumn : Option Nat
  original : Option Spec.RawOriginal
deriving DecidableEq, Repr

/-- A mapping of the library without its computed column span. -/
def LibMapping.raw (m : LibMapping) : Spec.RawMapping := ⟨m.generatedLine, m.generatedColumn, m.original⟩

/-- The operations of `source_map_mappings::Mappings` that `/repo/src/consumer.rs` uses. Operations
on `&mut self` return the new state; an operation may panic. `parse` returns `none` for `Err`. -/
structure MapLib where
  M : Type
  parse : Text → Option M
  byGenerated : M → List LibMapping
  computeColumnSpans : M → Res M
  originalLocationFor : M → Nat → Nat → Bias → Res (Option LibMapping × M)
  generatedLocationFor : M → Nat → Nat → Nat → Bias → Res (Option LibMapping × M)
  allGeneratedLocationsFor : M → Nat → Nat → Option Nat → Res (List LibMapping × M)
  byOriginal : M → Res (List LibMapping × M)

end RSM
