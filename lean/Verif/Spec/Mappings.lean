import Verif.Spec.Vlq
import Verif.Spec.Mapping
/-!
# Specification of the `mappings` string

Written from the Source Map v3 description: lines separated by `;`, segments within a line by `,`,
each segment 1, 4 or 5 base64 VLQ fields. The generated column is relative to the previous segment
of the same line, the other fields to their previous occurrence anywhere. Every absolute value is
a 32-bit unsigned number.
-/

namespace RSM.Spec

/-- The original position of a segment: indices into `sources` and `names`, 0-based line. -/
structure RawOriginal where
  source : Nat
  line : Nat
  column : Nat
  name : Option Nat
deriving DecidableEq, Repr

/-- A decoded segment: 0-based generated line and column. -/
structure RawMapping where
  line : Nat
  column : Nat
  original : Option RawOriginal
deriving DecidableEq, Repr

/-- The running values of source, original line, original column and name. -/
structure DState where
  source : Nat
  line : Nat
  column : Nat
  name : Nat
deriving DecidableEq, Repr

/-- The pieces of a text between the occurrences of a separator. -/
def splitOn (sep : Char) : List Char → List (List Char)
  | [] => [[]]
  | c :: cs =>
    if c = sep then [] :: splitOn sep cs
    else match splitOn sep cs with
      | [] => [[c]]
      | p :: ps => (c :: p) :: ps

/-- The fields of a segment; no field has more than 12 digits (60 bits). -/
def decodeFields (cs : List Char) : Option (List Int) :=
  match cs with
  | [] => some []
  | c :: cs' =>
    match decodeVlq (c :: cs') with
    | none => none
    | some (v, rest) =>
      if _h : rest.length < (c :: cs').length ∧ (c :: cs').length ≤ rest.length + 12 then
        match decodeFields rest with
        | none => none
        | some vs => some (v :: vs)
      else none
termination_by cs.length
decreasing_by exact _h.1

/-- The absolute value reached from `base` by `delta`, if it is a 32-bit unsigned number. -/
def offset (base : Nat) (delta : Int) : Option Nat :=
  if 0 ≤ (base : Int) + delta ∧ (base : Int) + delta < 4294967296 then some ((base : Int) + delta).toNat
  else none

/-- One segment on line `line`, the previous generated column of that line being `col`. -/
def decodeSegment (line col : Nat) (d : DState) (cs : List Char) : Option (RawMapping × DState) :=
  match decodeFields cs with
  | some [a] => do
    let c ← offset col a
    some (⟨line, c, none⟩, d)
  | some [a, s, l, k] => do
    let c ← offset col a
    let s ← offset d.source s
    let l ← offset d.line l
    let k ← offset d.column k
    some (⟨line, c, some ⟨s, l, k, none⟩⟩, { d with source := s, line := l, column := k })
  | some [a, s, l, k, n] => do
    let c ← offset col a
    let s ← offset d.source s
    let l ← offset d.line l
    let k ← offset d.column k
    let n ← offset d.name n
    some (⟨line, c, some ⟨s, l, k, some n⟩⟩, ⟨s, l, k, n⟩)
  | _ => none

/-- The segments of one line. -/
def decodeSegments (line : Nat) : Nat → DState → List (List Char) → Option (List RawMapping × DState)
  | _, d, [] => some ([], d)
  | col, d, s :: ss => do
    let (m, d) ← decodeSegment line col d s
    let (ms, d) ← decodeSegments line m.column d ss
    some (m :: ms, d)

/-- The lines from number `line` on; an empty line has no segments. -/
def decodeLines : Nat → DState → List (List Char) → Option (List RawMapping)
  | _, _, [] => some []
  | line, d, l :: ls => do
    let (ms, d) ← if l = [] then some ([], d) else decodeSegments line 0 d (splitOn ',' l)
    let rest ← decodeLines (line + 1) d ls
    some (ms ++ rest)

/-- The segments encoded by a `mappings` string, in order. -/
def decodeMappings (text : List Char) : Option (List RawMapping) :=
  decodeLines 0 ⟨0, 0, 0, 0⟩ (splitOn ';' text)

/-- A small map with all kinds of segments. -/
example : decodeMappings "A,CAAC,IACIA;;EACA".toList =
    some [⟨0, 0, none⟩, ⟨0, 1, some ⟨0, 0, 1, none⟩⟩, ⟨0, 5, some ⟨0, 1, 5, some 0⟩⟩,
      ⟨2, 2, some ⟨0, 2, 5, none⟩⟩] := by decide +kernel

end RSM.Spec

namespace RSM

/-- A mapping the generator can encode: what `validate_mapping` (`/repo/src/generator.rs` 80-99)
accepts, with columns and original lines in the range in which VLQ encoding is right. -/
structure Mapping.Encodable (m : Mapping) (cfg : Cfg) : Prop where
  line : 1 ≤ m.generated.line ∧ m.generated.line ≤ 2147483647
  column : 0 ≤ m.generated.column ∧ m.generated.column < cfg.vlqLimit
  orig : m.original.isSome = m.source.isSome
  range : ∀ p, m.original = some p →
    1 ≤ p.line ∧ p.line ≤ 2147483647 ∧ p.line ≤ cfg.vlqLimit ∧ 0 ≤ p.column ∧ p.column < cfg.vlqLimit
  name : m.source = none → m.name = none

/-- A mapping for which a segment can be written, whether or not validation would accept it: a mapping with a source has
an original position in range; nothing is asked of the original position and the name of a mapping without a source. -/
structure Mapping.Writable (m : Mapping) (cfg : Cfg) : Prop where
  line : 1 ≤ m.generated.line ∧ m.generated.line ≤ 2147483647
  column : 0 ≤ m.generated.column ∧ m.generated.column < cfg.vlqLimit
  orig : ∀ s, m.source = some s → ∃ p, m.original = some p ∧
    1 ≤ p.line ∧ p.line ≤ 2147483647 ∧ p.line ≤ cfg.vlqLimit ∧ 0 ≤ p.column ∧ p.column < cfg.vlqLimit

/-- The decoded segment `r` says, through the `sources` and `names` arrays, what mapping `m` says
(apart from `last_generated_column`, which is not part of the format). -/
def Denotes (sources names : List String) (r : Spec.RawMapping) (m : Mapping) : Prop :=
  m.generated = ⟨(r.line : Int) + 1, r.column⟩ ∧
  match r.original with
  | none => m.original = none ∧ m.source = none ∧ m.name = none
  | some o =>
    m.original = some ⟨(o.line : Int) + 1, o.column⟩ ∧
    (∃ s, sources[o.source]? = some s ∧ m.source = some s) ∧
    match o.name with
    | none => m.name = none
    | some n => ∃ t, names[n]? = some t ∧ m.name = some t

/-- Original position of a mapping that has one. -/
def Mapping.origPos (m : Mapping) : Nat × Nat :=
  match m.original with
  | some p => (p.line.toNat, p.column.toNat)
  | none => (0, 0)

end RSM
