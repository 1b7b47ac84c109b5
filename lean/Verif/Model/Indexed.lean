import Verif.Model.Consumer
import Verif.Model.BinarySearch
/-! # `src/consumer.rs` 472-872 (`IndexedConsumer`) and 14-102 (`create_consumer`, `Consumer`) -/

namespace RSM

/-- The state of a `RefCell`'s borrow flag. Every method starts with the cell unborrowed. -/
inductive BorrowFlag where
  | free
  | shared (n : Nat)
  | excl
deriving DecidableEq, Repr

/-- `RefCell::borrow`. -/
def BorrowFlag.borrow : BorrowFlag → Res BorrowFlag
  | .free => .ok (.shared 1)
  | .shared n => .ok (.shared (n + 1))
  | .excl => .error .borrow

/-- `RefCell::borrow_mut`. -/
def BorrowFlag.borrowMut : BorrowFlag → Res BorrowFlag
  | .free => .ok .excl
  | _ => .error .borrow

variable {E : Env}

/-- `/repo/src/consumer.rs` 472-475, `Section`. -/
structure IdxSection (E : Env) where
  generatedOffset : Position
  consumer : BasicConsumer E

/-- `/repo/src/consumer.rs` 477-485, `IndexedConsumer`. -/
structure IndexedConsumer (E : Env) where
  sourceMap : SourceMapJson
  sections : List (IdxSection E)

/-- `/repo/src/consumer.rs` 487. -/
def supportedSourceMapVersion : Int := 3

namespace IndexedConsumer

/-- `/repo/src/consumer.rs` 538-568, the closure run for each section; `last` is the content of the
mutex. The guard lives to the end of the closure, so closures do not interleave after the lock; the
`url` check before it does not touch shared state. A panic while the guard is held poisons the mutex,
so that the other closures panic as well: in every case the whole construction panics. `Model/Workers.lean`
has the closures step by step, and C93 proves that they may be run in one go like this. -/
def buildSection (mapUrl : Option String) (last : Position) (s : JsonSection SourceMapJson) :
    Res (IdxSection E × Position) := do
  if s.url.isSome then .error (.explicit "Section with url is not supported.")
  else if s.offset.line < last.line ∨ (s.offset.line = last.line ∧ s.offset.column < last.column) then
    .error (.explicit "Section offsets must be ordered and non-overlapping.")
  else do
    let line ← E.cfg.arith (s.offset.line + 1)
    let column ← E.cfg.arith (s.offset.column + 1)
    let c ← BasicConsumer.fromSourceMapJson s.map mapUrl
    pure (⟨⟨line, column⟩, c⟩, s.offset)

/-- `/repo/src/consumer.rs` 534-569: the closures run in the order `schedule`; the results by
index. -/
def runSchedule (mapUrl : Option String) (secs : List (JsonSection SourceMapJson)) :
    List Nat → Position → HMap Nat (IdxSection E) → Res (HMap Nat (IdxSection E))
  | [], _, acc => .ok acc
  | i :: is, last, acc => do
    let s ← index secs i
    let r ← buildSection mapUrl last s
    runSchedule mapUrl secs is r.2 (acc.insert i r.1)

/-- `/repo/src/consumer.rs` 534-570: `par_iter().map(..).collect()` under a schedule. -/
def collectSections (mapUrl : Option String) (secs : List (JsonSection SourceMapJson))
    (schedule : List Nat) : Res (List (IdxSection E)) := do
  let acc ← runSchedule mapUrl secs schedule ⟨-1, 0⟩ HMap.empty
  (List.range secs.length).mapM fun i => unwrap (acc.get? i)

/-- `/repo/src/consumer.rs` 495-573, `from_source_map_json`. `schedule` is the order in which the
parallel workers get the lock, some permutation of the section indices. -/
def fromSourceMapJson (schedule : List Nat) (m : SourceMapJson) (mapUrl : Option String) :
    Res (IndexedConsumer E) :=
  if m.version ≠ supportedSourceMapVersion then .error (.explicit "Unsupported version")
  else do
    let secs ← unwrap m.sections
    let l ← collectSections mapUrl secs schedule
    pure ⟨m, l⟩

/-- `/repo/src/consumer.rs` 490-493, `new`. -/
def new (schedule : List Nat) (raw : Text) (mapUrl : Option String) : Res (IndexedConsumer E) := do
  let m ← unwrap (fromStr E.json raw)
  fromSourceMapJson schedule m mapUrl

/-- `/repo/src/consumer.rs` 815-818, `consume`. -/
def consume (schedule : List Nat) (raw : Text) (mapUrl : String) (f : IndexedConsumer E → Res α) : Res α := do
  let c ← new schedule raw (some mapUrl)
  f c

/-- `/repo/src/consumer.rs` 576-601, `get_sources`. All borrows are shared. -/
def getSources (c : IndexedConsumer E) : Res (List String) := do
  let ls ← c.sections.mapM fun s => unwrap s.consumer.sourceMap.sources
  pure ls.flatten

/-- `/repo/src/consumer.rs` 613-619, the comparison of the needle with a section. -/
def needleCmp (cfg : Cfg) (a b : Position) : Res Int := do
  let d ← cfg.arith (a.line - b.line)
  if d ≠ 0 then cfg.arith (a.line - b.line) else cfg.arith (a.column - b.column)

/-- `/repo/src/consumer.rs` 637-641: what is subtracted from the column. -/
def sectionColumnShift (s : IdxSection E) (needle : Position) : Res Int :=
  if s.generatedOffset.line = needle.line then E.cfg.arith (s.generatedOffset.column - 1) else .ok 0

/-- `/repo/src/consumer.rs` 630-647, with the section found. -/
def originalInSection (s : IdxSection E) (needle : Position) (bias : Option Bias) :
    Res (Option Mapping × IdxSection E) := do
  let shift ← E.cfg.arith (s.generatedOffset.line - 1)
  let line ← E.cfg.arith (needle.line - shift)
  let cshift ← sectionColumnShift s needle
  let column ← E.cfg.arith (needle.column - cshift)
  let r ← s.consumer.originalPositionFor ⟨line, column⟩ bias
  pure (r.1, { s with consumer := r.2 })

/-- `/repo/src/consumer.rs` 610-628: the index of the section to ask. The comparison of two sections
(620-626) is the same as that of the needle with a section. -/
def sectionIndex (c : IndexedConsumer E) (needle : Position) : Res Int :=
  search E.cfg needle c.sections (fun a b => needleCmp E.cfg a b.generatedOffset)
    (fun a b => needleCmp E.cfg a.generatedOffset b.generatedOffset) none

/-- `/repo/src/consumer.rs` 603-648, `original_position_for`. The shared borrow of the search is over
when the mutable one is taken. -/
def originalPositionFor (c : IndexedConsumer E) (needle : Position) (bias : Option Bias) :
    Res (Option Mapping × IndexedConsumer E) := do
  let i ← c.sectionIndex needle
  match c.sections[E.cfg.asUsize i]? with
  | none => pure (none, c)
  | some s => do
    let r ← originalInSection s needle bias
    pure (r.1, { c with sections := c.sections.set (E.cfg.asUsize i) r.2 })

/-- `/repo/src/consumer.rs` 652-657: `all`, which stops at the first `false`. -/
def allHaveContents : List (IdxSection E) → Res Bool
  | [] => .ok true
  | s :: ss => do
    let b ← s.consumer.hasContentsOfAllSources
    if b then allHaveContents ss else pure false

/-- `/repo/src/consumer.rs` 652-657, `has_contents_of_all_sources`. -/
def hasContentsOfAllSources (c : IndexedConsumer E) : Res Bool := allHaveContents c.sections

/-- `/repo/src/consumer.rs` 667-674: the loop over the sections. -/
def contentLoop (source : String) (panicOnMissing : Option Bool) :
    List (IdxSection E) → Res (Option String × List (IdxSection E))
  | [] => .ok (none, [])
  | s :: ss => do
    let r ← s.consumer.sourceContentFor source panicOnMissing
    match r.1 with
    | some t => pure (some t, { s with consumer := r.2 } :: ss)
    | none => do
      let q ← contentLoop source panicOnMissing ss
      pure (q.1, { s with consumer := r.2 } :: q.2)

/-- `/repo/src/consumer.rs` 662-682, `source_content_for`. -/
def sourceContentFor (c : IndexedConsumer E) (source : String) (panicOnMissing : Option Bool) :
    Res (Option String × IndexedConsumer E) := do
  let r ← contentLoop source panicOnMissing c.sections
  match r.1 with
  | some t => pure (some t, { c with sections := r.2 })
  | none =>
    if panicOnMissing.getD true then .error (.explicit "is not in the SourceMap.")
    else pure (none, { c with sections := r.2 })

/-- `/repo/src/consumer.rs` 685-690: the loop; `flag` is the state of the cell while it runs. -/
def findLoop (flag : BorrowFlag) (source : String) :
    List (IdxSection E) → Res (Option Int × List (IdxSection E))
  | [] => .ok (none, [])
  | s :: ss => do
    let _ ← flag.borrowMut
    let r ← s.consumer.findSourceIndex source
    match r.1 with
    | some i => pure (some i, { s with consumer := r.2 } :: ss)
    | none => do
      let q ← findLoop flag source ss
      pure (q.1, { s with consumer := r.2 } :: q.2)

/-- `/repo/src/consumer.rs` 684-693, `find_source_index`. The guard made in the head of the `for`
loop is a temporary of the iterated expression and lives as long as the loop. -/
def findSourceIndex (c : IndexedConsumer E) (source : String) :
    Res (Option Int × IndexedConsumer E) := do
  let flag ← BorrowFlag.free.borrow
  let r ← findLoop flag source c.sections
  pure (r.1, { c with sections := r.2 })

/-- `/repo/src/consumer.rs` 716-746: the answer of the section, shifted; `flag` is the state of the
cell, `next` the following section. -/
def shiftGenerated (flag : BorrowFlag) (next : Option (IdxSection E)) :
    Option Mapping → Res (Option Position)
  | none => .ok none
  | some g => do
    let lineShift ← E.cfg.arith (g.generated.line - 1)
    let columnShift ← E.cfg.arith (g.generated.column - 1)
    let column ← if g.generated.line = 1 then E.cfg.arith (g.generated.column + columnShift)
      else .ok g.generated.column
    let last ← match g.lastGeneratedColumn with
      | none => .ok none
      | some x =>
        if g.generated.line = 1 then do
          let y ← E.cfg.arith (x + columnShift)
          pure (some y)
        else .ok (some x)
    let _ ← flag.borrow
    match last, next with
    | some last, some next => do
      let _ ← if last = -1 ∧ g.generated.line = next.generatedOffset.line then
          E.cfg.arith (next.generatedOffset.column - 2)
        else .ok 0
      let line ← E.cfg.arith (g.generated.line + lineShift)
      pure (some ⟨line, column⟩)
    | _, _ => pure none

/-- `/repo/src/consumer.rs` 700-751, `generated_position_for`. -/
def generatedPositionFor (c : IndexedConsumer E) (source : String) (line column : Int)
    (bias : Option Bias) : Res (Option Position × IndexedConsumer E) := do
  let r ← c.findSourceIndex source
  match r.1 with
  | none => pure (none, r.2)
  | some i => do
    let flag ← BorrowFlag.free.borrowMut
    match r.2.sections[E.cfg.asUsize i]? with
    | none => pure (none, r.2)
    | some s => do
      let g ← s.consumer.generatedPositionFor source line column bias
      let p ← shiftGenerated flag r.2.sections[E.cfg.asUsize i + 1]? g.1
      pure (p, { r.2 with sections := r.2.sections.set (E.cfg.asUsize i) { s with consumer := g.2 } })

/-- Subtraction and addition on `u32`. -/
def u32Arith (cfg : Cfg) (x : Int) : Res Nat :=
  if 0 ≤ x ∧ x < 4294967296 then .ok x.toNat
  else if cfg.overflowChecks then .error .overflow
  else .ok (asU32 x)

/-- `/repo/src/consumer.rs` 766-797: one mapping, shifted. -/
def shiftOne (flag : BorrowFlag) (next : Option (IdxSection E)) (m : LibMapping) : Res LibMapping := do
  let lineShift ← u32Arith E.cfg ((m.generatedLine : Int) - 1)
  let columnShift ← u32Arith E.cfg ((m.generatedColumn : Int) - 1)
  let column ← if m.generatedLine = 1 then u32Arith E.cfg ((m.generatedColumn : Int) + columnShift)
    else .ok m.generatedColumn
  match m.lastGeneratedColumn with
  | none => pure { m with generatedColumn := column }
  | some x => do
    let last ← if m.generatedLine = 1 then u32Arith E.cfg ((x : Int) + columnShift) else .ok x
    let _ ← flag.borrow
    let last ← match next with
      | none => .ok last
      | some next =>
        if m.generatedLine = asU32 next.generatedOffset.line then do
          let y ← E.cfg.arith (next.generatedOffset.column - 2)
          pure (asU32 y)
        else .ok last
    let line ← u32Arith E.cfg ((m.generatedLine : Int) + lineShift)
    pure { m with generatedLine := line, generatedColumn := column, lastGeneratedColumn := some last }

/-- `/repo/src/consumer.rs` 753-805, `all_generated_position_for`. -/
def allGeneratedPositionFor (c : IndexedConsumer E) (source : String) (line : Int)
    (column : Option Int) : Res (List LibMapping × IndexedConsumer E) := do
  let r ← c.findSourceIndex source
  match r.1 with
  | none => pure ([], r.2)
  | some i => do
    let flag ← BorrowFlag.free.borrowMut
    match r.2.sections[E.cfg.asUsize i]? with
    | none => pure ([], r.2)
    | some s => do
      let g ← s.consumer.allGeneratedPositionFor source line column
      let l ← g.1.mapM (shiftOne flag r.2.sections[E.cfg.asUsize i + 1]?)
      pure (l, { r.2 with sections := r.2.sections.set (E.cfg.asUsize i) { s with consumer := g.2 } })

/-- `/repo/src/consumer.rs` 807-811, `computed_column_spans`. -/
def computedColumnSpans (c : IndexedConsumer E) : Res (IndexedConsumer E) := do
  let l ← c.sections.mapM fun s => do
    let k ← s.consumer.computeColumnSpans
    pure { s with consumer := k }
  pure { c with sections := l }

/-- `/repo/src/consumer.rs` 843-865: the mapping the callback gets; `as u32` on the shifts. -/
def shiftEach (next : Option (IdxSection E)) (lineShift columnShift : Int)
    (m : LibMapping) : Res LibMapping := do
  let column ← if m.generatedLine = 1 then u32Arith E.cfg ((m.generatedColumn : Int) + asU32 columnShift)
    else .ok m.generatedColumn
  let last ← match m.lastGeneratedColumn with
    | none => .ok none
    | some x =>
      if m.generatedLine = 1 then do
        let y ← u32Arith E.cfg ((x : Int) + asU32 columnShift)
        pure (some y)
      else .ok (some x)
  let last ← match next with
    | none => .ok last
    | some n =>
      if m.generatedLine = asU32 n.generatedOffset.line then do
        let y ← u32Arith E.cfg ((asU32 n.generatedOffset.column : Int) - 2)
        pure (some y)
      else .ok last
  let line ← u32Arith E.cfg ((m.generatedLine : Int) + asU32 lineShift)
  pure { m with generatedLine := line, generatedColumn := column, lastGeneratedColumn := last }

/-- `/repo/src/consumer.rs` 829-869: the loop over the sections from index `i`; `flag` is the state
of the cell while it runs. -/
def eachLoop (flag : BorrowFlag) (ord : BasicConsumer.IterOrd) :
    List (IdxSection E) → Res (List LibMapping × List (IdxSection E))
  | [] => .ok ([], [])
  | s :: ss => do
    let lineShift ← E.cfg.arith (s.generatedOffset.line - 1)
    let columnShift ← E.cfg.arith (s.generatedOffset.column - 1)
    let _ ← flag.borrow
    let r ← s.consumer.eachMapping ord
    let l ← r.1.mapM (shiftEach ss.head? lineShift columnShift)
    let q ← eachLoop flag ord ss
    pure (l ++ q.1, { s with consumer := r.2 } :: q.2)

/-- `/repo/src/consumer.rs` 820-871, `each_mapping`: the mappings the callback is called with. The
guard of `borrow_mut()` is a temporary that lives to the end of the statement. -/
def eachMapping (c : IndexedConsumer E) (ord : BasicConsumer.IterOrd) :
    Res (List LibMapping × IndexedConsumer E) := do
  let flag ← BorrowFlag.free.borrowMut
  let r ← eachLoop flag ord c.sections
  pure (r.1, { c with sections := r.2 })

end IndexedConsumer

/-- `/repo/src/consumer.rs` 33-36, `Consumer`. -/
inductive Consumer (E : Env) where
  | basic (c : BasicConsumer E)
  | indexed (c : IndexedConsumer E)

/-- `/repo/src/consumer.rs` 17-31, `create_consumer`. The inner `Option` is `Result`, `none` for
`Err`. -/
def createConsumer (schedule : List Nat) (raw : Text) (mapUrl : Option String) :
    Res (Option (Consumer E)) :=
  match fromStr E.json raw with
  | none => .ok none
  | some m =>
    if m.sections.isSome then do
      let c ← IndexedConsumer.fromSourceMapJson schedule m mapUrl
      pure (some (.indexed c))
    else do
      let c ← BasicConsumer.fromSourceMapJson m mapUrl
      pure (some (.basic c))

namespace Consumer

/-- The message of the accessors. -/
def notBasic : Panic := .explicit "The consumer is not a basic consumer"

/-- `/repo/src/consumer.rs` 39-45 and 55-61, `as_basic_consumer(_mut)`. -/
def asBasic : Consumer E → Res (BasicConsumer E)
  | .basic c => .ok c
  | .indexed _ => .error notBasic

/-- `/repo/src/consumer.rs` 47-53 and 63-69, `as_indexed_consumer(_mut)`. -/
def asIndexed : Consumer E → Res (IndexedConsumer E)
  | .indexed c => .ok c
  | .basic _ => .error notBasic

/-- `/repo/src/consumer.rs` 71-77 and 87-93, `try_as_basic_consumer(_mut)`. -/
def tryAsBasic : Consumer E → Option (BasicConsumer E)
  | .basic c => some c
  | .indexed _ => none

/-- `/repo/src/consumer.rs` 79-85 and 95-101, `try_as_indexed_consumer(_mut)`. -/
def tryAsIndexed : Consumer E → Option (IndexedConsumer E)
  | .indexed c => some c
  | .basic _ => none

end Consumer

end RSM
