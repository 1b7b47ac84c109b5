import Verif.Lemmas.Caught
import Verif.Lemmas.GenOutput
/-! # What calls leave behind: generators -/

namespace RSM

namespace MappingList

theorem add_left (cfg : Cfg) (m : Mapping) (l : MappingList) : addL cfg m l =
    match l.add cfg m with
    | .ok l' => (.ok (), l')
    | .error e => (.error e, l) := by
  simp only [addL, add, Left.bind_apply, Left.get, Left.lift]
  cases generatedPositionAfter cfg (l.last.getD beforeAll) m with
  | error e => rfl
  | ok b => cases b <;> rfl

theorem toArray_left (cfg : Cfg) (l : MappingList) :
    (∃ e q, l.toArray cfg = .error e ∧ toArrayL cfg l = (.error e, { l with array := q }) ∧ q.Perm l.array) ∨
    ∃ out l', l.toArray cfg = .ok (out, l') ∧ toArrayL cfg l = (.ok out, l') := by
  simp only [toArrayL, toArray, Left.bind_apply, Left.get]
  by_cases hs : (!l.sorted) = true
  · rw [if_pos hs, if_pos hs]
    cases sortBy cfg l.array with
    | error e => exact .inl ⟨e, _, rfl, rfl, (leftBySort cfg l.array).2⟩
    | ok q => exact .inr ⟨_, _, rfl, rfl⟩
  · rw [if_neg hs, if_neg hs]
    exact .inr ⟨_, _, rfl, rfl⟩

end MappingList

namespace Generator

theorem add_left (cfg : Cfg) (m : Mapping) (g : Generator) : addMappingL cfg m g =
    match g.addMapping cfg m with
    | .ok g' => (.ok (), g')
    | .error e => (.error e, { g with sources := addIfNew g.sources m.source, names := addIfNew g.names m.name }) := by
  simp only [addMappingL, addMapping, Left.bind_apply, Left.get, Left.set, onList, Left.within, MappingList.add_left]
  cases g.mappings.add cfg m <;> rfl

theorem setContent_left (U : UrlLib) (s : String) (v : Option String) (g : Generator) : setSourceContentL U s v g =
    match g.setSourceContent U s v with
    | .ok g' => (.ok (), g')
    | .error e => (.error e, g) := by
  simp only [setSourceContentL, setSourceContent, Left.bind_apply, Left.get, Left.lift]
  cases contentKey U g.sourceRoot s with
  | error e => rfl
  | ok k => cases v <;> rfl

theorem asJson_left (U : UrlLib) (cfg : Cfg) (g : Generator) :
    (∃ j g', g.asJson U cfg = .ok (j, g') ∧ asJsonL U cfg g = (.ok j, g')) ∨
    (∃ e, g.sourcesContent U = .error e ∧ g.asJson U cfg = .error e ∧ asJsonL U cfg g = (.error e, g)) ∨
    ∃ sc e l, g.sourcesContent U = .ok sc ∧ g.asJson U cfg = .error e ∧
      asJsonL U cfg g = (.error e, { g with mappings := l }) ∧
      ((∃ q, g.mappings.toArray cfg = .error e ∧ q.Perm g.mappings.array ∧ l = { g.mappings with array := q }) ∨
        ∃ out, g.mappings.toArray cfg = .ok (out, l) ∧
          serializeLoop cfg g.sources g.names SerState.init none out = .error e) := by
  simp only [asJsonL, asJson, serializeMappingsL, serializeMappings, Left.bind_apply, Left.get, Left.lift, onList,
    Left.within]
  cases hs : g.sourcesContent U with
  | error e => exact .inr (.inl ⟨e, rfl, rfl, rfl⟩)
  | ok sc =>
    simp only [Res.ok_bind]
    rcases MappingList.toArray_left cfg g.mappings with ⟨e, q, h1, h2, h3⟩ | ⟨out, l, h1, h2⟩ <;>
      simp only [h1, h2, Res.error_bind, Res.ok_bind]
    · exact .inr (.inr ⟨sc, e, _, rfl, rfl, rfl, .inl ⟨q, rfl, h3, rfl⟩⟩)
    · cases ht : serializeLoop cfg g.sources g.names SerState.init none out with
      | error e => exact .inr (.inr ⟨sc, e, l, rfl, rfl, rfl, .inr ⟨out, rfl, ht⟩⟩)
      | ok t => exact .inl ⟨_, _, rfl, rfl⟩

/-- One call: whether it returns, and the generator afterwards. -/
def stepL (U : UrlLib) (cfg : Cfg) (g : Generator) : GOp → Res Unit × Generator
  | .add m => addMappingL cfg m g
  | .setContent s v => setSourceContentL U s v g
  | .asJson => ((asJsonL U cfg g).1.map fun _ => (), (asJsonL U cfg g).2)

/-- A history of calls in which every panic is caught. -/
def survive (U : UrlLib) (cfg : Cfg) (g : Generator) : List GOp → Generator
  | [] => g
  | op :: ops => survive U cfg (g.stepL U cfg op).2 ops

/-- The calls of such a history that return. -/
def returned (U : UrlLib) (cfg : Cfg) (g : Generator) : List GOp → List GOp
  | [] => []
  | op :: ops =>
    match (g.stepL U cfg op).1 with
    | .ok _ => op :: returned U cfg (g.stepL U cfg op).2 ops
    | .error _ => returned U cfg (g.stepL U cfg op).2 ops

theorem step_left {U : UrlLib} {cfg : Cfg} {g : Generator} {op : GOp} : (∃ g', g.step U cfg op = .ok g' ∧
    g.stepL U cfg op = (.ok (), g')) ∨ ∃ e g', g.step U cfg op = .error e ∧ g.stepL U cfg op = (.error e, g') := by
  cases op with
  | add m =>
    simp only [step, stepL, add_left]
    cases g.addMapping cfg m with
    | error e => exact .inr ⟨e, _, rfl, rfl⟩
    | ok g' => exact .inl ⟨g', rfl, rfl⟩
  | setContent s v =>
    simp only [step, stepL, setContent_left]
    cases g.setSourceContent U s v with
    | error e => exact .inr ⟨e, _, rfl, rfl⟩
    | ok g' => exact .inl ⟨g', rfl, rfl⟩
  | asJson =>
    simp only [step, stepL]
    rcases asJson_left U cfg g with ⟨j, g', h1, h2⟩ | ⟨e, _, h1, h2⟩ | ⟨_, e, l, _, h1, h2, _⟩ <;>
      simp only [h1, h2]
    · exact .inl ⟨g', rfl, rfl⟩
    · exact .inr ⟨e, _, rfl, rfl⟩
    · exact .inr ⟨e, _, rfl, rfl⟩

theorem addMapping_perm {cfg : Cfg} {g g' : Generator} {m : Mapping} (h : g.addMapping cfg m = .ok g') :
    g'.mappings.array = g.mappings.array ++ [m] := by
  obtain ⟨l, h1, rfl⟩ := addMapping_ok h
  exact add_array cfg h1

end Generator

end RSM
