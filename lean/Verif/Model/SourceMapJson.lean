import Verif.Model.Mapping
/-! # `src/source_map.rs` -/

namespace RSM

/-- `/repo/src/source_map.rs` 23-30, `Section`, over the type of maps. -/
structure JsonSection (M : Type) where
  offset : Position
  map : M
  url : Option String
deriving Repr

/-- `/repo/src/source_map.rs` 3-21, `SourceMapJson`. -/
structure SourceMapJson where
  version : Int
  sources : Option (List String) := none
  names : Option (List String) := none
  mappings : Option String := none
  file : Option String := none
  sourceRoot : Option String := none
  sourcesContent : Option (List String) := none
  sections : Option (List (JsonSection SourceMapJson)) := none

end RSM
