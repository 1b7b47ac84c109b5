import Verif.Model.ArraySet
import Verif.Model.Generator
import Verif.Model.Json
import Verif.Model.MapLib
import Verif.Model.Util
/-! # `src/consumer.rs` 1-470: `create_consumer`'s basic half and `BasicConsumer`

A method on `&mut self` returns its result together with the new consumer. After a panic no state
is returned; what a caught panic leaves behind is modelled in `Model/Caught.lean`.
-/

namespace RSM

/-- Build configuration and dependencies. -/
structure Env where
  cfg : Cfg
  url : UrlLib
  maps : MapLib
  json : JsonLib

/-- `x as u32` for an `i32`. -/
def asU32 (x : Int) : Nat := (x % 4294967296).toNat

/-- `x + 1` on `u32`. -/
def Cfg.succU32 (cfg : Cfg) (x : Nat) : Res Nat :=
  if x + 1 < 4294967296 then .ok (x + 1)
  else if cfg.overflowChecks then .error .overflow
  else .ok ((x + 1) % 4294967296)

/-- `util::compute_source_url` on strings. -/
def sourceUrl (E : Env) (root : Option String) (source : String) (mapUrl : Option String) : Res String := do
  let t ← computeSourceUrl E.url (root.map String.toList) source.toList (mapUrl.map String.toList)
  pure (String.ofList t)

/-- `/repo/src/consumer.rs` 115-122, `BasicConsumer`. -/
structure BasicConsumer (E : Env) where
  sourceMap : SourceMapJson
  cache : HMap String Int
  absoluteSources : ArraySet
  sourceMapUrl : Option String
  mappings : Option E.maps.M
  computedColumnSpans : Bool

variable {E : Env}

namespace BasicConsumer

/-- The common part of `/repo/src/consumer.rs` 126-148 and 152-174; `stored` is the `source_map_url`
kept in the struct. -/
def build (m : SourceMapJson) (mapUrl stored : Option String) : Res (BasicConsumer E) := do
  let sources ← unwrap m.sources
  let urls ← sources.mapM (fun s => sourceUrl E m.sourceRoot s mapUrl)
  pure { sourceMap := m, cache := HMap.empty, absoluteSources := ArraySet.fromArray urls true,
         sourceMapUrl := stored, mappings := none, computedColumnSpans := false }

/-- `/repo/src/consumer.rs` 124-149, `new`. -/
def new (raw : Text) (mapUrl : Option String) : Res (BasicConsumer E) := do
  let m ← unwrap (fromStr E.json raw)
  build m mapUrl mapUrl

/-- `/repo/src/consumer.rs` 151-175, `from_source_map_json`. -/
def fromSourceMapJson (m : SourceMapJson) (mapUrl : Option String) : Res (BasicConsumer E) :=
  build m mapUrl none

/-- `/repo/src/consumer.rs` 184-224, `find_source_index`. -/
def findSourceIndex (c : BasicConsumer E) (source : String) : Res (Option Int × BasicConsumer E) :=
  match c.cache.get? source with
  | some index => .ok (some index, c)
  | none => do
    let rel ← sourceUrl E none source c.sourceMapUrl
    match c.absoluteSources.indexOf rel with
    | some index => .ok (some (wrap32 index), { c with cache := c.cache.insert source (wrap32 index) })
    | none => do
      let rooted ← sourceUrl E c.sourceMap.sourceRoot source c.sourceMapUrl
      match c.absoluteSources.indexOf rooted with
      | some index =>
        .ok (some (wrap32 index), { c with cache := c.cache.insert source (wrap32 index) })
      | none => .ok (none, c)

/-- `/repo/src/consumer.rs` 226-228, `get_sources`. -/
def getSources (c : BasicConsumer E) : List String := c.absoluteSources.toVec

/-- `/repo/src/consumer.rs` 230-234, `parse_mappings`. -/
def parseMappings (c : BasicConsumer E) : Res (Option E.maps.M) := do
  let t ← unwrap c.sourceMap.mappings
  pure (E.maps.parse t.toList)

/-- `/repo/src/consumer.rs` 262-266, 283-287, 309-313 and 397-401: parse the mappings on first use
and unwrap them. -/
def ensureMappings (c : BasicConsumer E) : Res E.maps.M :=
  match c.mappings with
  | some m => .ok m
  | none => do
    let p ← c.parseMappings
    unwrap p

/-- The panics of `/repo/src/consumer.rs` 254-260, 299-305 and 387-393. -/
def checkPosition (line column : Int) : Res Unit :=
  if line < 1 then .error (.explicit "Line numbers must be >= 1")
  else if column < 0 then .error (.explicit "Column numbers must be >= 0")
  else .ok ()

/-- `/repo/src/consumer.rs` 236-276, `all_generated_position_for`. -/
def allGeneratedPositionFor (c : BasicConsumer E) (source : String) (line : Int) (column : Option Int) :
    Res (List LibMapping × BasicConsumer E) := do
  let column := column.getD 0
  let (src, c) ← c.findSourceIndex source
  match src with
  | none => pure ([], c)
  | some src =>
    if src < 0 then pure ([], c)
    else do
      checkPosition line column
      let m ← c.ensureMappings
      let (l, m) ← E.maps.allGeneratedLocationsFor m (asU32 src) (asU32 line) (some (asU32 column))
      pure (l, { c with mappings := some m })

/-- `/repo/src/consumer.rs` 278-290, `compute_column_spans`. -/
def computeColumnSpans (c : BasicConsumer E) : Res (BasicConsumer E) :=
  if c.computedColumnSpans then .ok c
  else do
    let m ← c.ensureMappings
    let m ← E.maps.computeColumnSpans m
    pure { c with mappings := some m, computedColumnSpans := true }

/-- `names.as_ref().unwrap()[i]`. -/
def nameAt (c : BasicConsumer E) (i : Nat) : Res String := do
  let names ← unwrap c.sourceMap.names
  index names i

/-- `/repo/src/consumer.rs` 323-325, the optional name. -/
def optName (c : BasicConsumer E) : Option Nat → Res (Option String)
  | none => .ok none
  | some i => do
    let n ← c.nameAt i
    pure (some n)

/-- `/repo/src/consumer.rs` 319-342: what is reported for the mapping found. -/
def reportOriginal (c : BasicConsumer E) (line : Int) : Option LibMapping → Res (Option Mapping)
  | none => .ok none
  | some m =>
    if wrap32 m.generatedLine = line then
      match m.original with
      | none => .ok none
      | some o => do
        let name ← c.optName o.name
        let oline ← E.cfg.succU32 o.line
        let gline ← E.cfg.succU32 m.generatedLine
        pure (some { name := name
                     source := c.absoluteSources.atIdx (wrap32 o.source)
                     original := some ⟨wrap32 oline, wrap32 o.column⟩
                     generated := ⟨wrap32 gline, wrap32 m.generatedColumn⟩
                     lastGeneratedColumn := m.lastGeneratedColumn.map fun x => wrap32 (x : Int) })
    else .ok none

/-- `/repo/src/consumer.rs` 292-343, `original_position_for`. -/
def originalPositionFor (c : BasicConsumer E) (generated : Position) (bias : Option Bias) :
    Res (Option Mapping × BasicConsumer E) := do
  checkPosition generated.line generated.column
  let m ← c.ensureMappings
  let line ← E.cfg.arith (generated.line - 1)
  let (r, m) ← E.maps.originalLocationFor m (asU32 line) (asU32 generated.column) (bias.getD .glb)
  let r ← c.reportOriginal generated.line r
  pure (r, { c with mappings := some m })

/-- `/repo/src/consumer.rs` 345-350, `has_contents_of_all_sources`. -/
def hasContentsOfAllSources (c : BasicConsumer E) : Res Bool :=
  match c.sourceMap.sourcesContent with
  | some s => do
    let sources ← unwrap c.sourceMap.sources
    pure (decide (s.length ≥ sources.length))
  | none => .ok false

/-- `/repo/src/consumer.rs` 352-373, `source_content_for`. -/
def sourceContentFor (c : BasicConsumer E) (source : String) (panicOnMissing : Option Bool) :
    Res (Option String × BasicConsumer E) :=
  match c.sourceMap.sourcesContent with
  | none => .ok (none, c)
  | some contents => do
    let (i, c) ← c.findSourceIndex source
    match i with
    | some i => do
      let s ← index contents (E.cfg.asUsize i)
      pure (some s, c)
    | none =>
      if panicOnMissing.getD true then .error (.explicit "is not in the SourceMap.")
      else pure (none, c)

/-- `/repo/src/consumer.rs` 412-446: what is reported for the mapping found. -/
def reportGenerated (c : BasicConsumer E) (src : Int) : Option LibMapping → Res (Option Mapping)
  | none => .ok none
  | some m => do
    let o ← unwrap m.original
    if wrap32 o.source = src then do
      let gline ← E.cfg.succU32 m.generatedLine
      let name ← c.nameAt o.source
      pure (some { generated := ⟨wrap32 gline, wrap32 m.generatedColumn⟩
                   original := some ⟨wrap32 o.line, wrap32 o.column⟩
                   source := c.absoluteSources.atIdx (wrap32 o.source)
                   name := some name
                   lastGeneratedColumn :=
                     if c.computedColumnSpans && m.lastGeneratedColumn.isNone then some (-1)
                     else m.lastGeneratedColumn.map fun x => wrap32 (x : Int) })
    else .ok none

/-- `/repo/src/consumer.rs` 375-447, `generated_position_for`. -/
def generatedPositionFor (c : BasicConsumer E) (source : String) (line column : Int)
    (bias : Option Bias) : Res (Option Mapping × BasicConsumer E) := do
  let (src, c) ← c.findSourceIndex source
  match src with
  | none => pure (none, c)
  | some src => do
    checkPosition line column
    let m ← c.ensureMappings
    let line ← E.cfg.arith (line - 1)
    let (r, m) ← E.maps.generatedLocationFor m (asU32 src) (asU32 line) (asU32 column) (bias.getD .glb)
    let r ← c.reportGenerated src r
    pure (r, { c with mappings := some m })

/-- `/repo/src/consumer.rs` 104-108, `IterOrd`. -/
inductive IterOrd where
  | generated
  | original
deriving DecidableEq, Repr

/-- `/repo/src/consumer.rs` 463-468: the mappings in the order asked for. -/
def iterate (m : E.maps.M) : IterOrd → Res (List LibMapping × E.maps.M)
  | .original => E.maps.byOriginal m
  | .generated => .ok (E.maps.byGenerated m, m)

/-- `/repo/src/consumer.rs` 456-469, `each_mapping`: the sequence of mappings the callback is called
with. Simplification: the callback does not panic (one that may is modelled in `Model/Caught.lean`); what it does
cannot affect the consumer, which is mutably borrowed during the call. -/
def eachMapping (c : BasicConsumer E) (ord : IterOrd) : Res (List LibMapping × BasicConsumer E) :=
  match c.mappings with
  | some m => do
    let (l, m) ← iterate m ord
    pure (l, { c with mappings := some m })
  | none => do
    let p ← c.parseMappings
    match p with
    | none => pure ([], c)
    | some m => do
      let (l, m) ← iterate m ord
      pure (l, { c with mappings := some m })

/-- `/repo/src/generator.rs` 207-209, `as_string`. That writing JSON returns is part of the contract of the
library: `toStr` is total. -/
def _root_.RSM.Generator.asString (E : Env) (g : Generator) : Res (Text × Generator) := do
  let (m, g) ← Generator.asJson E.url E.cfg g
  pure (toStr E.json m, g)

/-- `/repo/src/consumer.rs` 177-182, `from_source_map`; the generator is changed by `as_string`. -/
def fromSourceMap (g : Generator) (mapUrl : Option String) : Res (BasicConsumer E × Generator) := do
  let (text, g) ← Generator.asString E g
  let c ← new text mapUrl
  pure (c, g)

/-- `/repo/src/consumer.rs` 451-454, `consume`. The callback may panic; what else it does is its result. -/
def consume (raw : Text) (mapUrl : String) (f : BasicConsumer E → Res α) : Res α := do
  let c ← new raw (some mapUrl)
  f c

end BasicConsumer

end RSM
