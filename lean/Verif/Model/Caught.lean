import Verif.Model.Indexed
/-! # What a call leaves behind, whether it returns or panics

`Model/Consumer.lean`, `Model/Indexed.lean` and `Model/Generator.lean` give no state after a panic. A caller may catch
the panic (`std::panic::catch_unwind`) and go on using the object. Here the methods on `&mut self` are modelled once more,
assignment by assignment, with the object they leave in either case. Guards of `RefCell` are dropped while the stack is
unwound, so the cell is free again. Simplification: what an operation of `source-map-mappings` leaves behind if it
panics itself is not described (the state is kept as it was); the theorems assume that these operations return.
-/

namespace RSM

/-- A call on a `&mut S`: its outcome, and the object afterwards. -/
def Left (S α : Type) := S → Res α × S

namespace Left

variable {S T α : Type}

instance : Monad (Left S) where
  pure a := fun s => (.ok a, s)
  bind x f := fun s =>
    match x s with
    | (.ok a, s') => f a s'
    | (.error e, s') => (.error e, s')

/-- The object. -/
def get : Left S S := fun s => (.ok s, s)

/-- An assignment. -/
def set (s : S) : Left S Unit := fun _ => (.ok (), s)

/-- A computation that assigns nothing. -/
def lift (r : Res α) : Left S α := fun s => (r, s)

/-- A panic. -/
def panic (e : Panic) : Left S α := fun s => (.error e, s)

/-- A call on a part of the object. -/
def within (part : S → T) (put : S → T → S) (x : Left T α) : Left S α := fun s =>
  ((x (part s)).1, put s (x (part s)).2)

end Left

variable {E : Env}

namespace BasicConsumer

/-- `/repo/src/consumer.rs` 184-224, `find_source_index`. -/
def findSourceIndexL (source : String) : Left (BasicConsumer E) (Option Int) := do
  let c ← Left.get
  match c.cache.get? source with
  | some index => pure (some index)
  | none => do
    let rel ← Left.lift (sourceUrl E none source c.sourceMapUrl)
    match c.absoluteSources.indexOf rel with
    | some index => do
      Left.set { c with cache := c.cache.insert source (wrap32 index) }
      pure (some (wrap32 index))
    | none => do
      let rooted ← Left.lift (sourceUrl E c.sourceMap.sourceRoot source c.sourceMapUrl)
      match c.absoluteSources.indexOf rooted with
      | some index => do
        Left.set { c with cache := c.cache.insert source (wrap32 index) }
        pure (some (wrap32 index))
      | none => pure none

/-- `/repo/src/consumer.rs` 262-266, 283-287, 309-313 and 397-401: the field is assigned before it is unwrapped. -/
def ensureMappingsL : Left (BasicConsumer E) E.maps.M := do
  let c ← Left.get
  match c.mappings with
  | some m => pure m
  | none => do
    let p ← Left.lift c.parseMappings
    Left.set { c with mappings := p }
    Left.lift (unwrap p)

/-- A call of an operation of the library on the field `mappings`. -/
def onMappings {α : Type} (m : E.maps.M) (f : E.maps.M → Res (α × E.maps.M)) : Left (BasicConsumer E) α := do
  let r ← Left.lift (f m)
  let c ← Left.get
  Left.set { c with mappings := some r.2 }
  pure r.1

/-- `/repo/src/consumer.rs` 236-276, `all_generated_position_for`. -/
def allGeneratedPositionForL (source : String) (line : Int) (column : Option Int) :
    Left (BasicConsumer E) (List LibMapping) := do
  let src ← findSourceIndexL source
  match src with
  | none => pure []
  | some src =>
    if src < 0 then pure []
    else do
      Left.lift (checkPosition line (column.getD 0))
      let m ← ensureMappingsL
      onMappings m fun m =>
        E.maps.allGeneratedLocationsFor m (asU32 src) (asU32 line) (some (asU32 (column.getD 0)))

/-- `/repo/src/consumer.rs` 278-290, `compute_column_spans`. -/
def computeColumnSpansL : Left (BasicConsumer E) Unit := do
  let c ← Left.get
  if c.computedColumnSpans then pure ()
  else do
    let m ← ensureMappingsL
    onMappings m fun m => do let m ← E.maps.computeColumnSpans m; pure ((), m)
    let c ← Left.get
    Left.set { c with computedColumnSpans := true }

/-- `/repo/src/consumer.rs` 292-343, `original_position_for`. -/
def originalPositionForL (generated : Position) (bias : Option Bias) : Left (BasicConsumer E) (Option Mapping) := do
  Left.lift (checkPosition generated.line generated.column)
  let m ← ensureMappingsL
  let line ← Left.lift (E.cfg.arith (generated.line - 1))
  let r ← onMappings m fun m =>
    E.maps.originalLocationFor m (asU32 line) (asU32 generated.column) (bias.getD .glb)
  let c ← Left.get
  Left.lift (c.reportOriginal generated.line r)

/-- `/repo/src/consumer.rs` 352-373, `source_content_for`. -/
def sourceContentForL (source : String) (panicOnMissing : Option Bool) :
    Left (BasicConsumer E) (Option String) := do
  let c ← Left.get
  match c.sourceMap.sourcesContent with
  | none => pure none
  | some contents => do
    let i ← findSourceIndexL source
    match i with
    | some i => do
      let s ← Left.lift (index contents (E.cfg.asUsize i))
      pure (some s)
    | none =>
      if panicOnMissing.getD true then Left.panic (.explicit "is not in the SourceMap.")
      else pure none

/-- `/repo/src/consumer.rs` 375-447, `generated_position_for`. -/
def generatedPositionForL (source : String) (line column : Int) (bias : Option Bias) :
    Left (BasicConsumer E) (Option Mapping) := do
  let src ← findSourceIndexL source
  match src with
  | none => pure none
  | some src => do
    Left.lift (checkPosition line column)
    let m ← ensureMappingsL
    let line ← Left.lift (E.cfg.arith (line - 1))
    let r ← onMappings m fun m =>
      E.maps.generatedLocationFor m (asU32 src) (asU32 line) (asU32 column) (bias.getD .glb)
    let c ← Left.get
    Left.lift (c.reportGenerated src r)

/-- A callback: given the mappings it has been called with, the last one included, it returns or panics. -/
abbrev Callback := List LibMapping → Option Panic

/-- The calls of a callback that has seen `seen`, on the elements of a list in turn: what it has seen in the end, and the
panic, if any. -/
def callAll (f : Callback) (seen : List LibMapping) : List LibMapping → Res Unit × List LibMapping
  | [] => (.ok (), seen)
  | m :: ms =>
    match f (seen ++ [m]) with
    | some e => (.error e, seen ++ [m])
    | none => callAll f (seen ++ [m]) ms

/-- `/repo/src/consumer.rs` 456-469, `each_mapping`: the outcome, with what the callback has been called with. The
callback cannot reach the consumer, which is mutably borrowed. Simplification: an iteration that the callback cuts short
leaves the field `mappings` as a complete one does. -/
def eachMappingL (f : Callback) (ord : IterOrd) : Left (BasicConsumer E × List LibMapping) Unit := fun (c, seen) =>
  let visit (c : BasicConsumer E) (m : E.maps.M) : Res Unit × (BasicConsumer E × List LibMapping) :=
    match iterate m ord with
    | .error e => (.error e, (c, seen))
    | .ok (l, m) => ((callAll f seen l).1, ({ c with mappings := some m }, (callAll f seen l).2))
  match c.mappings with
  | some m => visit c m
  | none =>
    match c.parseMappings with
    | .error e => (.error e, (c, seen))
    | .ok none => (.ok (), (c, seen))
    | .ok (some m) => visit { c with mappings := some m } m

end BasicConsumer

namespace IndexedConsumer

/-- A call on the consumer of a section. -/
def inSection {α : Type} (x : Left (BasicConsumer E) α) : Left (IdxSection E) α :=
  Left.within (·.consumer) (fun s c => { s with consumer := c }) x

/-- A call on the section at an index that is in range. -/
def atSection {α : Type} (i : Nat) (s : IdxSection E) (x : Left (IdxSection E) α) : Left (IndexedConsumer E) α :=
  Left.within (fun _ => s) (fun c s => { c with sections := c.sections.set i s }) x

/-- `/repo/src/consumer.rs` 603-648, `original_position_for`. -/
def originalPositionForL (needle : Position) (bias : Option Bias) : Left (IndexedConsumer E) (Option Mapping) := do
  let c ← Left.get
  let i ← Left.lift (c.sectionIndex needle)
  match c.sections[E.cfg.asUsize i]? with
  | none => pure none
  | some s => atSection (E.cfg.asUsize i) s do
    let shift ← Left.lift (E.cfg.arith (s.generatedOffset.line - 1))
    let line ← Left.lift (E.cfg.arith (needle.line - shift))
    let cshift ← Left.lift (sectionColumnShift s needle)
    let column ← Left.lift (E.cfg.arith (needle.column - cshift))
    inSection (BasicConsumer.originalPositionForL ⟨line, column⟩ bias)

/-- A loop over the sections that stops when a round returns something or panics; the sections are changed in place. -/
def overSections {α : Type} (x : Left (IdxSection E) (Option α)) : Left (List (IdxSection E)) (Option α)
  | [] => (.ok none, [])
  | s :: ss =>
    match x s with
    | (.error e, s') => (.error e, s' :: ss)
    | (.ok (some a), s') => (.ok (some a), s' :: ss)
    | (.ok none, s') => ((overSections x ss).1, s' :: (overSections x ss).2)

/-- The sections of the consumer. -/
def onSections {α : Type} (x : Left (List (IdxSection E)) α) : Left (IndexedConsumer E) α :=
  Left.within (·.sections) (fun c l => { c with sections := l }) x

/-- `/repo/src/consumer.rs` 662-682, `source_content_for`. -/
def sourceContentForL (source : String) (panicOnMissing : Option Bool) :
    Left (IndexedConsumer E) (Option String) := do
  let r ← onSections (overSections (inSection (BasicConsumer.sourceContentForL source panicOnMissing)))
  match r with
  | some t => pure (some t)
  | none =>
    if panicOnMissing.getD true then Left.panic (.explicit "is not in the SourceMap.")
    else pure none

/-- `/repo/src/consumer.rs` 684-693, `find_source_index`. -/
def findSourceIndexL (source : String) : Left (IndexedConsumer E) (Option Int) := do
  let flag ← Left.lift BorrowFlag.free.borrow
  onSections (overSections do
    let _ ← Left.lift flag.borrowMut
    inSection (BasicConsumer.findSourceIndexL source))

/-- `/repo/src/consumer.rs` 700-751, `generated_position_for`. -/
def generatedPositionForL (source : String) (line column : Int) (bias : Option Bias) :
    Left (IndexedConsumer E) (Option Position) := do
  let r ← findSourceIndexL source
  match r with
  | none => pure none
  | some i => do
    let flag ← Left.lift BorrowFlag.free.borrowMut
    let c ← Left.get
    match c.sections[E.cfg.asUsize i]? with
    | none => pure none
    | some s => do
      let g ← atSection (E.cfg.asUsize i) s (inSection (BasicConsumer.generatedPositionForL source line column bias))
      Left.lift (shiftGenerated flag c.sections[E.cfg.asUsize i + 1]? g)

/-- `/repo/src/consumer.rs` 753-805, `all_generated_position_for`. -/
def allGeneratedPositionForL (source : String) (line : Int) (column : Option Int) :
    Left (IndexedConsumer E) (List LibMapping) := do
  let r ← findSourceIndexL source
  match r with
  | none => pure []
  | some i => do
    let flag ← Left.lift BorrowFlag.free.borrowMut
    let c ← Left.get
    match c.sections[E.cfg.asUsize i]? with
    | none => pure []
    | some s => do
      let g ← atSection (E.cfg.asUsize i) s (inSection (BasicConsumer.allGeneratedPositionForL source line column))
      Left.lift (g.mapM (shiftOne flag c.sections[E.cfg.asUsize i + 1]?))

/-- `/repo/src/consumer.rs` 807-811, `computed_column_spans`. -/
def computedColumnSpansL : Left (IndexedConsumer E) Unit := do
  let _ ← onSections (overSections (α := Unit) do
    inSection BasicConsumer.computeColumnSpansL
    pure none)
  pure ()

/-- `/repo/src/consumer.rs` 839-867: the callback given to the consumer of a section, which shifts the mapping and calls
`f`. It is given what it has itself been called with in this section, and `before` is what `f` was called with in the
sections before. -/
def shifted (f : BasicConsumer.Callback) (next : Option (IdxSection E)) (lineShift columnShift : Int)
    (before : List LibMapping) : BasicConsumer.Callback := fun l =>
  match l.mapM (shiftEach next lineShift columnShift) with
  | .error e => some e
  | .ok l => f (before ++ l)

/-- `/repo/src/consumer.rs` 829-869: the loop over the sections; `seen` is what `f` has been called with. If a mapping
cannot be shifted, `f` is not called with it. -/
def eachLoopL (flag : BorrowFlag) (f : BasicConsumer.Callback) (ord : BasicConsumer.IterOrd) (seen : List LibMapping) :
    List (IdxSection E) → Res Unit × (List (IdxSection E) × List LibMapping)
  | [] => (.ok (), ([], seen))
  | s :: ss =>
    match (do
      let a ← E.cfg.arith (s.generatedOffset.line - 1)
      let b ← E.cfg.arith (s.generatedOffset.column - 1)
      let _ ← flag.borrow
      pure (a, b) : Res (Int × Int)) with
    | .error e => (.error e, (s :: ss, seen))
    | .ok (a, b) =>
      let shift := shiftEach (E := E) ss.head? a b
      let r := BasicConsumer.eachMappingL (shifted f ss.head? a b seen) ord (s.consumer, [])
      let seen := seen ++ r.2.2.filterMap fun m => (shift m).toOption
      match r.1 with
      | .error e => (.error e, ({ s with consumer := r.2.1 } :: ss, seen))
      | .ok () =>
        let q := eachLoopL flag f ord seen ss
        (q.1, ({ s with consumer := r.2.1 } :: q.2.1, q.2.2))

/-- `/repo/src/consumer.rs` 820-871, `each_mapping`. -/
def eachMappingL (f : BasicConsumer.Callback) (ord : BasicConsumer.IterOrd) :
    Left (IndexedConsumer E × List LibMapping) Unit := fun (c, seen) =>
  match BorrowFlag.free.borrowMut with
  | .error e => (.error e, (c, seen))
  | .ok flag =>
    let r := eachLoopL flag f ord seen c.sections
    (r.1, ({ c with sections := r.2.1 }, r.2.2))

end IndexedConsumer

namespace MappingList

/-- The slice after `sort_by` has panicked: by the documentation of the standard library it holds the same elements, in
an order left unspecified. Nothing else is known of this function. -/
opaque leftBySort (cfg : Cfg) (array : List Mapping) : { l : List Mapping // l.Perm array } := ⟨array, List.Perm.refl _⟩

/-- `/repo/src/mapping_list.rs` 45-65, `add`: nothing is assigned before the comparison has returned. -/
def addL (cfg : Cfg) (mapping : Mapping) : Left MappingList Unit := do
  let l ← Left.get
  let after ← Left.lift (generatedPositionAfter cfg (l.last.getD beforeAll) mapping)
  if after then Left.set { l with last := some mapping, array := l.array ++ [mapping] }
  else Left.set { l with sorted := false, array := l.array ++ [mapping] }

/-- `/repo/src/mapping_list.rs` 67-81, `to_array`: the slice is sorted in place, then the flag is set. -/
def toArrayL (cfg : Cfg) : Left MappingList (List Mapping) := do
  let l ← Left.get
  if !l.sorted then
    match sortBy cfg l.array with
    | .error e => do
      Left.set { l with array := (leftBySort cfg l.array).1 }
      Left.panic e
    | .ok array => do
      Left.set { l with array := array, sorted := true }
      pure array
  else pure l.array

end MappingList

namespace Generator

/-- The field `mappings`. -/
def onList {α : Type} (x : Left MappingList α) : Left Generator α :=
  Left.within (·.mappings) (fun g l => { g with mappings := l }) x

/-- `/repo/src/generator.rs` 40-60, `add_mapping`: the tables are extended first. -/
def addMappingL (cfg : Cfg) (m : Mapping) : Left Generator Unit := do
  let g ← Left.get
  Left.set { g with sources := addIfNew g.sources m.source }
  let g ← Left.get
  Left.set { g with names := addIfNew g.names m.name }
  onList (MappingList.addL cfg m)

/-- `/repo/src/generator.rs` 62-74, `set_source_content`. -/
def setSourceContentL (U : UrlLib) (sourceFile : String) (content : Option String) : Left Generator Unit := do
  let g ← Left.get
  let source ← Left.lift (contentKey U g.sourceRoot sourceFile)
  match content with
  | some c => Left.set { g with sourceContents := g.sourceContents.insert source c }
  | none => Left.set { g with sourceContents := g.sourceContents.remove source }

/-- `/repo/src/generator.rs` 101-161, `serialize_mappings`. -/
def serializeMappingsL (cfg : Cfg) : Left Generator Text := do
  let mappings ← onList (MappingList.toArrayL cfg)
  let g ← Left.get
  Left.lift (serializeLoop cfg g.sources g.names SerState.init none mappings)

/-- `/repo/src/generator.rs` 184-205, `as_json`. -/
def asJsonL (U : UrlLib) (cfg : Cfg) : Left Generator SourceMapJson := do
  let g ← Left.get
  let sourcesContent ← Left.lift (sourcesContent U g)
  let mappings ← serializeMappingsL cfg
  pure { version := 3, sources := some g.sources.toVec, names := some g.names.toVec,
         mappings := some (String.ofList mappings), file := g.file, sourceRoot := g.sourceRoot,
         sourcesContent := sourcesContent, sections := none }

end Generator

end RSM
