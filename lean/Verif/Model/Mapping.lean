import Verif.Model.Rust
/-! # `src/source_map.rs` (positions), `src/mapping.rs` and the comparisons of `src/util.rs` -/

namespace RSM

/-- `/repo/src/source_map.rs` 32-36, `Position`. -/
structure Position where
  line : Int
  column : Int
deriving DecidableEq, Repr

/-- `/repo/src/mapping.rs` 3-10, `Mapping`. -/
structure Mapping where
  generated : Position
  original : Option Position := none
  source : Option String := none
  name : Option String := none
  lastGeneratedColumn : Option Int := none
deriving DecidableEq, Repr

/-- `/repo/src/util.rs` 10-28, `strcmp`. Rust compares strings by their UTF-8 bytes, which is the
order by code points that Lean's `String` uses. -/
def strcmp : Option String → Option String → Int
  | a, b =>
    if a = b then 0
    else match a, b with
      | none, _ => 1
      | _, none => -1
      | some a, some b => if b < a then 1 else -1

/-- `/repo/src/util.rs` 45-57, the tail of the comparison: original positions (only if both are
present), then names. -/
def compareOriginalThenName (cfg : Cfg) (a b : Mapping) : Res Int :=
  match a.original, b.original with
  | some ao, some bo => do
    let cmp ← cfg.arith (ao.line - bo.line)
    if cmp ≠ 0 then pure cmp
    else
      let cmp ← cfg.arith (ao.column - bo.column)
      if cmp ≠ 0 then pure cmp
      else pure (strcmp a.name b.name)
  | _, _ => pure (strcmp a.name b.name)

/-- `/repo/src/util.rs` 30-58, `compare_by_generated_pos_inflated`. -/
def compareByGeneratedPosInflated (cfg : Cfg) (a b : Mapping) : Res Int := do
  let cmp ← cfg.arith (a.generated.line - b.generated.line)
  if cmp ≠ 0 then pure cmp
  else
    let cmp ← cfg.arith (a.generated.column - b.generated.column)
    if cmp ≠ 0 then pure cmp
    else
      let cmp := strcmp a.source b.source
      if cmp ≠ 0 then pure cmp
      else compareOriginalThenName cfg a b

end RSM
