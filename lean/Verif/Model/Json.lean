import Verif.Model.SourceMapJson
import Verif.Model.Rust
import Verif.Model.Url
/-!
# The derived `Serialize`/`Deserialize` of `src/source_map.rs` and `serde_json`

Reading and writing JSON text is a parameter (`JsonLib`, contract in `Verif/Dep/Json.lean`). What
the `serde` derives do with JSON values is modelled, with `serde_json`'s limit on nesting.
-/

namespace RSM

/-- A JSON value. Objects keep the order and duplicates of their keys. A number is an integer
literal, or something else kept as text. -/
inductive JVal where
  | null
  | bool (b : Bool)
  | int (n : Int)
  | float (text : String)
  | str (s : String)
  | arr (l : List JVal)
  | obj (l : List (String × JVal))

/-- `serde_json`'s text level: the writer of `to_string` and the syntax read by `from_str`. -/
structure JsonLib where
  print : JVal → Text
  parse : Text → Option JVal

/-- A field with `skip_serializing_if = "Option::is_none"`. -/
def optField (k : String) : Option JVal → List (String × JVal)
  | none => []
  | some v => [(k, v)]

/-- An optional field without that attribute. -/
def optNull : Option JVal → JVal
  | none => .null
  | some v => v

/-- `Vec<String>`. -/
def strsToVal (l : List String) : JVal := .arr (l.map .str)

/-- `/repo/src/source_map.rs` 32-36, derived `Serialize` of `Position`. -/
def Position.toVal (p : Position) : JVal := .obj [("line", .int p.line), ("column", .int p.column)]

mutual

/-- `/repo/src/source_map.rs` 3-21, derived `Serialize` of `SourceMapJson`. -/
def SourceMapJson.toVal : SourceMapJson → JVal
  | ⟨version, sources, names, mappings, file, sourceRoot, sourcesContent, sections⟩ =>
    .obj ([("version", .int version)] ++
      optField "sources" (sources.map strsToVal) ++
      optField "names" (names.map strsToVal) ++
      optField "mappings" (mappings.map .str) ++
      [("file", optNull (file.map .str))] ++
      optField "sourceRoot" (sourceRoot.map .str) ++
      optField "sourcesContent" (sourcesContent.map strsToVal) ++
      (match sections with
        | none => []
        | some l => [("sections", .arr (sectionsToVal l))]))

/-- `/repo/src/source_map.rs` 20, `Vec<Section>`. -/
def sectionsToVal : List (JsonSection SourceMapJson) → List JVal
  | [] => []
  | s :: ss => sectionToVal s :: sectionsToVal ss

/-- `/repo/src/source_map.rs` 23-30, derived `Serialize` of `Section`. -/
def sectionToVal : JsonSection SourceMapJson → JVal
  | ⟨offset, map, url⟩ =>
    .obj [("offset", offset.toVal), ("map", map.toVal), ("url", optNull (url.map .str))]

end

/-- `serde_json`'s recursion limit: entering an array or object that is looked into takes one unit,
and it is an error to be left with none. -/
def enter (depth : Nat) : Option Nat := if depth ≤ 1 then none else some (depth - 1)

/-- The value of a field that must not occur twice. -/
def single : List (String × JVal) → Option (Option JVal)
  | [] => some none
  | [e] => some (some e.2)
  | _ => none

/-- The value of a field in an object; occurring twice is an error. -/
def fieldOf (l : List (String × JVal)) (k : String) : Option (Option JVal) :=
  single (l.filter (fun e => e.1 == k))

/-- The values of the named fields of a derived struct: from an object (unknown fields are ignored)
or from an array of exactly that length. -/
def structFields (names : List String) : JVal → Option (List (Option JVal))
  | .obj l => names.mapM (fieldOf l)
  | .arr l => if l.length = names.length then some (l.map some) else none
  | _ => none

/-- A required field. -/
def required {α : Type} (f : JVal → Option α) : Option JVal → Option α
  | none => none
  | some v => f v

/-- An `Option` field: absent and `null` are `None`. -/
def optional {α : Type} (f : JVal → Option α) : Option JVal → Option (Option α)
  | none => some none
  | some .null => some none
  | some v => (f v).map some

/-- `i32`. -/
def decodeI32 : JVal → Option Int
  | .int n => if IsI32 n then some n else none
  | _ => none

/-- `String`. -/
def decodeStr : JVal → Option String
  | .str s => some s
  | _ => none

/-- `Vec<T>`. -/
def decodeVec {α : Type} (f : Nat → JVal → Option α) (depth : Nat) : JVal → Option (List α)
  | .arr l => do
    let d ← enter depth
    l.mapM (f d)
  | _ => none

/-- `/repo/src/source_map.rs` 32-36, derived `Deserialize` of `Position`. -/
def decodePosition (depth : Nat) (v : JVal) : Option Position := do
  let _ ← enter depth
  match ← structFields ["line", "column"] v with
  | [line, column] =>
    let line ← required decodeI32 line
    let column ← required decodeI32 column
    some ⟨line, column⟩
  | _ => none

/-- `/repo/src/source_map.rs` 23-30, derived `Deserialize` of `Section`; `rec` reads the map. -/
def decodeSection (rec : JVal → Option SourceMapJson) (depth : Nat) (v : JVal) :
    Option (JsonSection SourceMapJson) := do
  let d ← enter depth
  match ← structFields ["offset", "map", "url"] v with
  | [offset, map, url] =>
    let offset ← required (decodePosition d) offset
    let map ← required rec map
    let url ← optional decodeStr url
    some ⟨offset, map, url⟩
  | _ => none

/-- `/repo/src/source_map.rs` 3-21, derived `Deserialize` of `SourceMapJson`; `rec` reads the maps
of the sections. -/
def decodeMap (rec : JVal → Option SourceMapJson) (depth : Nat) (v : JVal) : Option SourceMapJson := do
  let d ← enter depth
  match ← structFields ["version", "sources", "names", "mappings", "file", "sourceRoot",
      "sourcesContent", "sections"] v with
  | [version, sources, names, mappings, file, sourceRoot, sourcesContent, sections] =>
    let version ← required decodeI32 version
    let sources ← optional (decodeVec (fun _ => decodeStr) d) sources
    let names ← optional (decodeVec (fun _ => decodeStr) d) names
    let mappings ← optional decodeStr mappings
    let file ← optional decodeStr file
    let sourceRoot ← optional decodeStr sourceRoot
    let sourcesContent ← optional (decodeVec (fun _ => decodeStr) d) sourcesContent
    let sections ← optional (decodeVec (decodeSection rec) d) sections
    some ⟨version, sources, names, mappings, file, sourceRoot, sourcesContent, sections⟩
  | _ => none

/-- Reading a map with the given remaining depth. A map inside a section is three levels down. -/
def fromVal : Nat → JVal → Option SourceMapJson
  | k + 4, v => decodeMap (fromVal (k + 1)) (k + 4) v
  | d, v => decodeMap (fun _ => none) d v

/-- `serde_json::from_str::<SourceMapJson>`; `none` is `Err`. -/
def fromStr (J : JsonLib) (text : Text) : Option SourceMapJson := do
  let v ← J.parse text
  fromVal 128 v

/-- `serde_json::to_string(&SourceMapJson)`, which cannot fail on these types. -/
def toStr (J : JsonLib) (m : SourceMapJson) : Text := J.print m.toVal

end RSM
