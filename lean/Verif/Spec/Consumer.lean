import Verif.Model.Consumer
import Verif.Dep.Mappings
/-! # What is asked of a `BasicConsumer` -/

namespace RSM

variable {E : Env}

/-- `i` is the index of the first occurrence of `t` in `l`. -/
def IsFirst (l : List String) (t : String) (i : Nat) : Prop :=
  l[i]? = some t ∧ ∀ j, j < i → l[j]? ≠ some t

/-- The segments of the map: its `mappings` field is well-formed and encodes `raws`. -/
def SourceMapJson.Segments (m : SourceMapJson) (raws : List Spec.RawMapping) : Prop :=
  ∃ t, m.mappings = some t ∧ Spec.decodeMappings t.toList = some raws ∧ ∀ r ∈ raws, r.U32

namespace BasicConsumer

/-- `c` has just been built from the map `m` with the map URL `u`, by either constructor. -/
def Built (m : SourceMapJson) (u : Option String) (c : BasicConsumer E) : Prop :=
  (∃ raw, fromStr E.json raw = some m ∧ new raw u = .ok c) ∨ fromSourceMapJson m u = .ok c

/-- The source named `s` is the `i`-th one: `s`, resolved without `sourceRoot`, occurs first at
`i` among the sources; or it does not occur and `s` resolved with `sourceRoot` occurs first at `i`. -/
def Knows (c : BasicConsumer E) (s : String) (i : Nat) : Prop :=
  (∃ t, sourceUrl E none s c.sourceMapUrl = .ok t ∧ IsFirst c.getSources t i) ∨
  (∃ t t', sourceUrl E none s c.sourceMapUrl = .ok t ∧ t ∉ c.getSources ∧
    sourceUrl E c.sourceMap.sourceRoot s c.sourceMapUrl = .ok t' ∧ IsFirst c.getSources t' i)

/-- The source named `s` resolves, both ways, to something that is not among the sources. -/
def Unknown (c : BasicConsumer E) (s : String) : Prop :=
  ∃ t t', sourceUrl E none s c.sourceMapUrl = .ok t ∧ t ∉ c.getSources ∧
    sourceUrl E c.sourceMap.sourceRoot s c.sourceMapUrl = .ok t' ∧ t' ∉ c.getSources

end BasicConsumer

end RSM
