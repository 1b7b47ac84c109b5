import Verif.Model.ArraySet
import Verif.Model.MappingList
import Verif.Model.Vlq
import Verif.Model.Util
import Verif.Model.SourceMapJson
/-! # `src/generator.rs` -/

namespace RSM

/-- `/repo/src/generator.rs` 12-21, `SourceMapGenerator`. -/
structure Generator where
  file : Option String
  sourceRoot : Option String
  skipValidation : Bool
  sources : ArraySet
  names : ArraySet
  mappings : MappingList
  sourceContents : HMap String String

/-- `util::relative` on strings. -/
def relativeString (U : UrlLib) (root target : String) : Res String := do
  let r ← relative U root.toList target.toList
  pure (String.ofList r)

/-- The running values of `/repo/src/generator.rs` 102-107. -/
structure SerState where
  generatedColumn : Int
  generatedLine : Int
  originalColumn : Int
  originalLine : Int
  name : Int
  source : Int
deriving DecidableEq, Repr

/-- `/repo/src/generator.rs` 102-107: their initial values. -/
def SerState.init : SerState := ⟨0, 1, 0, 0, 0, 0⟩

/-- The loop of `/repo/src/generator.rs` 121-124: one `;` per increment of the previous line until
it equals `line`. `fuel` bounds the number of rounds; C25 shows that it suffices. -/
def advanceLoop (cfg : Cfg) (line : Int) : Nat → Int → Res Text
  | 0, prev => if line = prev then .ok [] else .error (.explicit "loop does not end")
  | fuel + 1, prev =>
    if line = prev then .ok []
    else do
      let p ← cfg.arith (prev + 1)
      let r ← advanceLoop cfg line fuel p
      pure (';' :: r)

/-- The same loop with the number of rounds it needs: the distance modulo `2^32`. -/
def advanceLine (cfg : Cfg) (prev line : Int) : Res Text :=
  advanceLoop cfg line ((line - prev) % 4294967296).toNat prev

/-- `/repo/src/generator.rs` 151-155: the name field. -/
def nameField (cfg : Cfg) (names : ArraySet) (st : SerState) (m : Mapping) : Res (Text × SerState) :=
  match m.name with
  | some n => do
    let i ← unwrap (names.indexOf n)
    let d ← cfg.arith (wrap32 i - st.name)
    let t ← base64vlqEncode cfg d
    pure (t, { st with name := wrap32 i })
  | none => pure ([], st)

/-- `/repo/src/generator.rs` 135-156: the fields describing the original position. -/
def originalFields (cfg : Cfg) (sources names : ArraySet) (st : SerState) (m : Mapping) :
    Res (Text × SerState) :=
  match m.source with
  | some s => do
    let i ← unwrap (sources.indexOf s)
    let d ← cfg.arith (wrap32 i - st.source)
    let t1 ← base64vlqEncode cfg d
    let o ← unwrap m.original
    let l ← cfg.arith (o.line - 1)
    let d ← cfg.arith (l - st.originalLine)
    let t2 ← base64vlqEncode cfg d
    let d ← cfg.arith (o.column - st.originalColumn)
    let t3 ← base64vlqEncode cfg d
    let st := { st with source := wrap32 i, originalLine := l, originalColumn := o.column }
    let (t4, st) ← nameField cfg names st m
    pure (t1 ++ t2 ++ t3 ++ t4, st)
  | none => pure ([], st)

/-- `/repo/src/generator.rs` 132-156: one segment. -/
def segmentText (cfg : Cfg) (sources names : ArraySet) (st : SerState) (m : Mapping) :
    Res (Text × SerState) := do
  let d ← cfg.arith (m.generated.column - st.generatedColumn)
  let t ← base64vlqEncode cfg d
  let st := { st with generatedColumn := m.generated.column }
  let (t', st) ← originalFields cfg sources names st m
  pure (t ++ t', st)

/-- `/repo/src/generator.rs` 116-157: one round of the loop. `prev` is `mappings[i - 1]`, absent
for `i = 0`. -/
def serializeStep (cfg : Cfg) (sources names : ArraySet) (st : SerState) (prev : Option Mapping)
    (m : Mapping) : Res (Text × SerState) := do
  if m.generated.line ≠ st.generatedLine then do
    let semis ← advanceLine cfg st.generatedLine m.generated.line
    let st := { st with generatedColumn := 0, generatedLine := m.generated.line }
    let (t, st) ← segmentText cfg sources names st m
    pure (semis ++ t, st)
  else match prev with
    | some p => do
      let c ← compareByGeneratedPosInflated cfg m p
      if c = 0 then pure ([], st)
      else do
        let (t, st) ← segmentText cfg sources names st m
        pure (',' :: t, st)
    | none => segmentText cfg sources names st m

/-- `/repo/src/generator.rs` 115-158: the loop over the mappings. -/
def serializeLoop (cfg : Cfg) (sources names : ArraySet) :
    SerState → Option Mapping → List Mapping → Res Text
  | _, _, [] => pure []
  | st, prev, m :: ms => do
    let (t, st) ← serializeStep cfg sources names st prev m
    let rest ← serializeLoop cfg sources names st (some m) ms
    pure (t ++ rest)

namespace Generator

/-- `/repo/src/generator.rs` 24-34, `new`. -/
def new (file sourceRoot : Option String) (skipValidation : Bool) : Generator :=
  ⟨file, sourceRoot, skipValidation, ArraySet.new, ArraySet.new, MappingList.new, HMap.empty⟩

/-- `if !set.has(s) { set.add(s, false) }`, for an optional string. -/
def addIfNew (a : ArraySet) : Option String → ArraySet
  | some s => if !a.has s then a.add s false else a
  | none => a

/-- `/repo/src/generator.rs` 40-60, `add_mapping`. -/
def addMapping (cfg : Cfg) (g : Generator) (m : Mapping) : Res Generator := do
  let sources := addIfNew g.sources m.source
  let names := addIfNew g.names m.name
  let mappings ← g.mappings.add cfg m
  pure { g with sources := sources, names := names, mappings := mappings }

/-- `/repo/src/generator.rs` 64-67 and 172-174: the key under which the content of a source is kept. -/
def contentKey (U : UrlLib) (sourceRoot : Option String) (source : String) : Res String :=
  match sourceRoot with
  | some r => relativeString U r source
  | none => .ok source

/-- `/repo/src/generator.rs` 62-74, `set_source_content`. -/
def setSourceContent (U : UrlLib) (g : Generator) (sourceFile : String)
    (content : Option String) : Res Generator := do
  let source ← contentKey U g.sourceRoot sourceFile
  match content with
  | some c => pure { g with sourceContents := g.sourceContents.insert source c }
  | none => pure { g with sourceContents := g.sourceContents.remove source }

/-- `/repo/src/generator.rs` 80-99, `validate_mapping` (`true` for `Ok`). -/
def validateMapping (m : Mapping) : Bool :=
  (m.generated.column ≥ 0 && m.generated.line > 0 && m.original.isNone && m.source.isNone &&
    m.name.isNone) ||
  (match m.original with
    | some o => m.generated.line > 0 && m.generated.column ≥ 0 && o.line > 0 && o.column ≥ 0 &&
        m.source.isSome
    | none => false)

/-- `/repo/src/generator.rs` 101-161, `serialize_mappings`; `to_array` may sort the list in place. -/
def serializeMappings (cfg : Cfg) (g : Generator) : Res (Text × Generator) := do
  let (mappings, l) ← g.mappings.toArray cfg
  let t ← serializeLoop cfg g.sources g.names SerState.init none mappings
  pure (t, { g with mappings := l })

/-- `/repo/src/generator.rs` 170-180: the content recorded for one source. -/
def contentOf (U : UrlLib) (g : Generator) (sourceRoot : Option String) (source : String) :
    Res (Option String) := do
  let source ← contentKey U sourceRoot source
  pure (g.sourceContents.get? source)

/-- `/repo/src/generator.rs` 163-182, `generate_sources_contents`. -/
def generateSourcesContents (U : UrlLib) (g : Generator) (sourceRoot : Option String) :
    List String → Res (List (Option String))
  | [] => pure []
  | s :: ss => do
    let c ← contentOf U g sourceRoot s
    let rest ← generateSourcesContents U g sourceRoot ss
    pure (c :: rest)

/-- `/repo/src/generator.rs` 186-194: the `sources_content` field. `flatten` drops the missing
contents. -/
def sourcesContent (U : UrlLib) (g : Generator) : Res (Option (List String)) :=
  if !g.sourceContents.isEmpty then do
    let cs ← generateSourcesContents U g g.sourceRoot g.sources.toVec
    pure (some (cs.filterMap id))
  else pure none

/-- `/repo/src/generator.rs` 184-205, `as_json`. -/
def asJson (U : UrlLib) (cfg : Cfg) (g : Generator) : Res (SourceMapJson × Generator) := do
  let sourcesContent ← sourcesContent U g
  let (mappings, g') ← serializeMappings cfg g
  pure ({ version := 3, sources := some g.sources.toVec, names := some g.names.toVec,
          mappings := some (String.ofList mappings), file := g.file, sourceRoot := g.sourceRoot,
          sourcesContent := sourcesContent, sections := none }, g')

end Generator

end RSM
