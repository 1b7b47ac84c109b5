import Verif.Model.Indexed
import Verif.Spec.Consumer
/-! # What is asked of an `IndexedConsumer` -/

namespace RSM

variable {E : Env}

/-- `a` is at or before `b`. -/
def Position.Le (a b : Position) : Prop := a.line < b.line ∨ (a.line = b.line ∧ a.column ≤ b.column)

/-- `a` is before `b`. -/
def Position.Lt (a b : Position) : Prop := a.line < b.line ∨ (a.line = b.line ∧ a.column < b.column)

/-- A possible order of the parallel workers: every section once. -/
def IsSchedule (n : Nat) (schedule : List Nat) : Prop := schedule.Perm (List.range n)

/-- The offsets in the order in which the workers run. -/
def offsetsAlong {M : Type} (secs : List (JsonSection M)) (schedule : List Nat) : List Position :=
  (schedule.filterMap fun i => secs[i]?).map (·.offset)

/-- A section that is fine by itself: no `url`, an offset that can be shifted, and a map a consumer
can be made of. -/
def SectionOk (E : Env) (u : Option String) (s : JsonSection SourceMapJson) : Prop :=
  s.url = none ∧ IsI32 (s.offset.line + 1) ∧ IsI32 (s.offset.column + 1) ∧
    ∃ c : BasicConsumer E, BasicConsumer.fromSourceMapJson s.map u = .ok c

namespace BasicConsumer

/-- The map has the content of the source. -/
def HasContent (c : BasicConsumer E) (s t : String) : Prop :=
  ∃ contents n, c.sourceMap.sourcesContent = some contents ∧ c.Knows s n ∧ contents[n]? = some t

/-- The map has no contents or does not know the source. -/
def LacksContent (c : BasicConsumer E) (s : String) : Prop :=
  c.sourceMap.sourcesContent = none ∨ c.Unknown s

end BasicConsumer

end RSM
