import Verif.Model.SourceMapJson
import Verif.Model.Rust
/-! # Records as Rust values, and how deep their JSON nests -/

namespace RSM

/-- The integers of a record are `i32`s, as their Rust types say. -/
inductive SourceMapJson.I32 : SourceMapJson → Prop
  | mk (m : SourceMapJson) (hv : IsI32 m.version)
      (hl : ∀ l, m.sections = some l → ∀ s ∈ l, IsI32 s.offset.line)
      (hc : ∀ l, m.sections = some l → ∀ s ∈ l, IsI32 s.offset.column)
      (hs : ∀ l, m.sections = some l → ∀ s ∈ l, SourceMapJson.I32 s.map) : SourceMapJson.I32 m

mutual

/-- How many arrays and objects the JSON of a record nests: the record itself; its arrays of
strings; its array of sections, each of which has an offset object and a map. -/
def SourceMapJson.nesting : SourceMapJson → Nat
  | ⟨_, sources, names, _, _, _, sourcesContent, sections⟩ =>
    1 + max (if sources.isSome || names.isSome || sourcesContent.isSome then 1 else 0)
      (optNesting sections)

/-- The optional array of sections. -/
def optNesting : Option (List (JsonSection SourceMapJson)) → Nat
  | none => 0
  | some l => 1 + sectionsNesting l

/-- The deepest section. -/
def sectionsNesting : List (JsonSection SourceMapJson) → Nat
  | [] => 0
  | s :: ss => max (sectionNesting s) (sectionsNesting ss)

/-- A section: an object with an offset object and a map. -/
def sectionNesting : JsonSection SourceMapJson → Nat
  | ⟨_, map, _⟩ => 1 + max 1 map.nesting

end

end RSM
