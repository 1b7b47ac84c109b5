import Mathlib.Data.List.Forall2
import Verif.Props.Output
/-! # Property C89: `last_generated_column` of an added mapping has no influence on the output -/

namespace RSM

open Spec

/-- The two calls are the same, except perhaps for the `last_generated_column` of the mapping added. -/
inductive SameCall : GOp → GOp → Prop where
  | add {m n : Mapping} : SameKey m n → SameCall (.add m) (.add n)
  | setContent (s : String) (c : Option String) : SameCall (.setContent s c) (.setContent s c)
  | asJson : SameCall .asJson .asJson

/-- A mapping without `last_generated_column`. -/
def Mapping.bare (m : Mapping) : Mapping := { m with lastGeneratedColumn := none }

/-- A list of mappings without `last_generated_column`. -/
def MappingList.bare (l : MappingList) : MappingList :=
  ⟨l.array.map Mapping.bare, l.sorted, l.last.map Mapping.bare⟩

/-- A generator whose mappings have no `last_generated_column`. -/
def Generator.bare (g : Generator) : Generator := { g with mappings := g.mappings.bare }

theorem compare_bare (cfg : Cfg) (a b : Mapping) :
    compareByGeneratedPosInflated cfg a.bare b.bare = compareByGeneratedPosInflated cfg a b := rfl

theorem add_bare (cfg : Cfg) (l : MappingList) (m : Mapping) :
    l.bare.add cfg m.bare = (l.add cfg m).map MappingList.bare := by
  have h : generatedPositionAfter cfg (l.bare.last.getD MappingList.beforeAll) m.bare =
      generatedPositionAfter cfg (l.last.getD MappingList.beforeAll) m := by
    cases h : l.last <;> simp only [MappingList.bare, h] <;> rfl
  simp only [MappingList.add, h]
  cases generatedPositionAfter cfg (l.last.getD MappingList.beforeAll) m with
  | error e => rfl
  | ok b => cases b <;> simp [MappingList.bare, Except.map, pure, Except.pure, bind, Except.bind]

theorem addMapping_bare (cfg : Cfg) (g : Generator) (m : Mapping) :
    g.bare.addMapping cfg m.bare = (g.addMapping cfg m).map Generator.bare := by
  simp only [Generator.addMapping, Generator.bare, add_bare]
  cases g.mappings.add cfg m <;> rfl

theorem setSourceContent_bare (U : UrlLib) (g : Generator) (s : String) (c : Option String) :
    g.bare.setSourceContent U s c = (g.setSourceContent U s c).map Generator.bare := by
  simp only [Generator.setSourceContent, Generator.bare]
  cases Generator.contentKey U g.sourceRoot s with
  | error e => rfl
  | ok k => cases c <;> rfl

theorem sourcesContent_bare (U : UrlLib) (g : Generator) : g.bare.sourcesContent U = g.sourcesContent U := by
  have hgen : ∀ l : List String, Generator.generateSourcesContents U g.bare g.sourceRoot l =
      Generator.generateSourcesContents U g g.sourceRoot l := by
    intro l
    induction l with
    | nil => rfl
    | cons s l ih => simp only [Generator.generateSourcesContents, ih]; rfl
  have h := hgen g.sources.toVec
  simp only [Generator.sourcesContent]
  rw [show g.bare.sourceRoot = g.sourceRoot from rfl, show g.bare.sources = g.sources from rfl, h]
  rfl

theorem nameField_bare (cfg : Cfg) (N : ArraySet) (st : SerState) (m : Mapping) :
    nameField cfg N st m.bare = nameField cfg N st m := rfl

theorem originalFields_bare (cfg : Cfg) (S N : ArraySet) (st : SerState) (m : Mapping) :
    originalFields cfg S N st m.bare = originalFields cfg S N st m := rfl

theorem segmentText_bare (cfg : Cfg) (S N : ArraySet) (st : SerState) (m : Mapping) :
    segmentText cfg S N st m.bare = segmentText cfg S N st m := rfl

theorem serializeStep_bare (cfg : Cfg) (S N : ArraySet) (st : SerState) (p : Option Mapping) (m : Mapping) :
    serializeStep cfg S N st (p.map Mapping.bare) m.bare = serializeStep cfg S N st p m := by
  cases p <;> rfl

theorem serializeLoop_bare (cfg : Cfg) (S N : ArraySet) : ∀ (ms : List Mapping) (st : SerState) (p : Option Mapping),
    serializeLoop cfg S N st (p.map Mapping.bare) (ms.map Mapping.bare) = serializeLoop cfg S N st p ms := by
  intro ms
  induction ms with
  | nil => intros; rfl
  | cons m ms ih =>
    intro st p
    simp only [List.map_cons, serializeLoop, serializeStep_bare]
    cases serializeStep cfg S N st p m with
    | error e => rfl
    | ok r =>
      simp only [Res.ok_bind]
      rw [← ih r.2 (some m)]
      rfl

theorem bare_valid {m : Mapping} (h : m.Valid) : m.bare.Valid := ⟨h.gl, h.gc, h.orig, h.range⟩

theorem toArray_bare (cfg : Cfg) (l : MappingList) (hv : ∀ m ∈ l.array, m.Valid) :
    l.bare.toArray cfg = (l.toArray cfg).map fun r => (r.1.map Mapping.bare, r.2.bare) := by
  unfold MappingList.toArray
  rw [show l.bare.sorted = l.sorted from rfl]
  split
  · have h : MappingList.sortBy cfg l.bare.array = (MappingList.sortBy cfg l.array).map (List.map Mapping.bare) := by
      rw [sortBy_valid cfg hv, sortBy_valid cfg (l := l.bare.array)]
      · simp only [Except.map, Except.ok.injEq, MappingList.bare]
        symm
        apply List.map_mergeSort
        intros; rfl
      · intro m hm
        obtain ⟨a, ha, rfl⟩ := List.mem_map.1 hm
        exact bare_valid (hv a ha)
    rw [h]
    cases MappingList.sortBy cfg l.array <;> rfl
  · rfl

theorem asJson_bare (U : UrlLib) (cfg : Cfg) (g : Generator) (hv : ∀ m ∈ g.mappings.array, m.Valid) :
    g.bare.asJson U cfg = (g.asJson U cfg).map fun r => (r.1, r.2.bare) := by
  simp only [Generator.asJson, sourcesContent_bare]
  cases g.sourcesContent U with
  | error e => rfl
  | ok x =>
    have hl := toArray_bare cfg g.mappings hv
    simp only [Res.ok_bind, Generator.serializeMappings]
    rw [show g.bare.mappings = g.mappings.bare from rfl, hl]
    cases g.mappings.toArray cfg with
    | error e => rfl
    | ok y =>
      have hs := serializeLoop_bare cfg g.sources g.names y.1 SerState.init none
      rw [Option.map_none] at hs
      simp only [Except.map, Res.ok_bind]
      rw [show g.bare.sources = g.sources from rfl, show g.bare.names = g.names from rfl, hs]
      cases serializeLoop cfg g.sources g.names SerState.init none y.1 <;> rfl

/-- The call without `last_generated_column`. -/
def GOp.bare : GOp → GOp
  | .add m => .add m.bare
  | op => op

theorem run_bare (U : UrlLib) (cfg : Cfg) : ∀ (ops : List GOp) (g : Generator),
    (∀ m ∈ g.mappings.array, m.Valid) → (∀ m ∈ gAdded ops, m.Valid) →
    (g.bare.run U cfg (ops.map GOp.bare) >>= fun g => g.asJson U cfg).map Prod.fst =
      (g.run U cfg ops >>= fun g => g.asJson U cfg).map Prod.fst := by
  intro ops
  induction ops with
  | nil =>
    intro g hg _
    have : ∀ g : Generator, ((Generator.run U cfg g []) >>= fun g => g.asJson U cfg) = g.asJson U cfg := fun _ => rfl
    rw [List.map_nil, this, this, asJson_bare U cfg g hg]
    cases g.asJson U cfg <;> rfl
  | cons op ops ih =>
    intro g hg ha
    have hstep : g.bare.step U cfg op.bare = (g.step U cfg op).map Generator.bare := by
      cases op with
      | add m => exact addMapping_bare cfg g m
      | setContent s c => exact setSourceContent_bare U g s c
      | asJson =>
        simp only [Generator.step, GOp.bare, asJson_bare U cfg g hg]
        cases g.asJson U cfg <;> rfl
    simp only [List.map_cons, Generator.run, hstep]
    cases hs : g.step U cfg op with
    | error e => rfl
    | ok g1 =>
      refine ih g1 ?_ ?_
      · cases op with
        | add m =>
          simp only [Generator.step, Generator.addMapping] at hs
          cases hm : g.mappings.add cfg m with
          | error e => rw [hm] at hs; simp at hs
          | ok l =>
            rw [hm] at hs
            simp only [Res.ok_bind, Res.pure_eq, Except.ok.injEq] at hs
            subst hs
            have hl : l.array = g.mappings.array ++ [m] := by
              unfold MappingList.add at hm
              cases hga : generatedPositionAfter cfg (g.mappings.last.getD MappingList.beforeAll) m with
              | error e => rw [hga] at hm; simp at hm
              | ok b =>
                rw [hga] at hm
                cases b <;> simp at hm <;> rw [← hm]
            intro x hx
            rw [show ({ g with sources := Generator.addIfNew g.sources m.source,
                               names := Generator.addIfNew g.names m.name, mappings := l } : Generator).mappings = l from rfl,
              hl, List.mem_append, List.mem_singleton] at hx
            rcases hx with hx | rfl
            · exact hg x hx
            · exact ha x (by simp [gAdded])
        | setContent s c =>
          simp only [Generator.step, Generator.setSourceContent] at hs
          cases hk : Generator.contentKey U g.sourceRoot s with
          | error e => rw [hk] at hs; simp at hs
          | ok k =>
            rw [hk] at hs
            cases c <;> simp at hs <;> subst hs <;> exact hg
        | asJson =>
          simp only [Generator.step] at hs
          cases hj : g.asJson U cfg with
          | error e => rw [hj] at hs; simp at hs
          | ok r =>
            rw [hj] at hs
            simp only [Res.ok_bind, Res.pure_eq, Except.ok.injEq] at hs
            subst hs
            simp only [Generator.asJson, Generator.serializeMappings] at hj
            cases hc : g.sourcesContent U with
            | error e => rw [hc] at hj; simp at hj
            | ok x =>
              rw [hc] at hj
              cases ht : g.mappings.toArray cfg with
              | error e => rw [ht] at hj; simp at hj
              | ok y =>
                obtain ⟨out, l⟩ := y
                have hp := toArray_perm cfg ht
                rw [ht] at hj
                simp only [Res.ok_bind] at hj
                cases hser : serializeLoop cfg g.sources g.names SerState.init none out with
                | error e => rw [hser] at hj; simp at hj
                | ok t =>
                  rw [hser] at hj
                  simp only [Res.ok_bind, Res.pure_eq, Except.ok.injEq] at hj
                  subst hj
                  intro m hm
                  apply hg
                  rw [← hp.1.mem_iff, ← hp.2]
                  exact hm
      · cases op with
        | add m => exact fun x hx => ha x (by simp [gAdded, hx])
        | setContent s c => exact ha
        | asJson => exact ha

theorem map_bare_eq {ops₁ ops₂ : List GOp} (h : List.Forall₂ SameCall ops₁ ops₂) :
    ops₁.map GOp.bare = ops₂.map GOp.bare := by
  induction h with
  | nil => rfl
  | cons h _ ih =>
    simp only [List.map_cons, ih]
    congr 1
    cases h with
    | @add m n h => obtain ⟨h1, h2, h3, h4⟩ := h; cases m; cases n; simp_all [GOp.bare, Mapping.bare]
    | setContent s c => rfl
    | asJson => rfl

/-- C89: the `last_generated_column` of the mappings added has no influence on what a generator gives in the end, nor on
whether some call panics: two histories that differ in nothing else end alike. -/
theorem C89_last_column_ignored (U : UrlLib) (cfg : Cfg) (file root : Option String) (skip : Bool) {ops₁ ops₂ : List GOp}
    (h : List.Forall₂ SameCall ops₁ ops₂) (hv : ∀ m ∈ gAdded ops₁, m.Valid) :
    ((Generator.new file root skip).run U cfg ops₁ >>= fun g => g.asJson U cfg).map Prod.fst =
    ((Generator.new file root skip).run U cfg ops₂ >>= fun g => g.asJson U cfg).map Prod.fst := by
  have hv2 : ∀ m ∈ gAdded ops₂, m.Valid := by
    clear file root skip
    induction h with
    | nil => intro m hm; cases hm
    | cons h _ ih =>
      cases h with
      | @add m n h =>
        obtain ⟨h1, h2, h3, h4⟩ := h
        intro x hx
        simp only [gAdded, List.mem_cons] at hx
        rcases hx with rfl | hx
        · have := hv m (by simp [gAdded])
          cases m; cases x
          simp only at h1 h2 h3 h4
          subst h1 h2 h3 h4
          exact ⟨this.gl, this.gc, this.orig, this.range⟩
        · exact ih (fun m hm => hv m (by simp [gAdded, hm])) x hx
      | setContent s c => exact ih hv
      | asJson => exact ih hv
  have hn : (Generator.new file root skip).bare = Generator.new file root skip := rfl
  rw [← run_bare U cfg ops₁ _ (by intro m hm; cases hm) hv, ← run_bare U cfg ops₂ _ (by intro m hm; cases hm) hv2,
    map_bare_eq h]

/-- Two mappings out of order, with different last columns in the two histories. -/
example (U : UrlLib) (cfg : Cfg) : ((Generator.new none none false).run U cfg
      [.add { generated := ⟨2, 0⟩, lastGeneratedColumn := some 7 }, .add { generated := ⟨1, 4⟩ }, .asJson]
      >>= fun g => g.asJson U cfg).map Prod.fst =
    ((Generator.new none none false).run U cfg
      [.add { generated := ⟨2, 0⟩ }, .add { generated := ⟨1, 4⟩, lastGeneratedColumn := some (-3) }, .asJson]
      >>= fun g => g.asJson U cfg).map Prod.fst := by
  refine C89_last_column_ignored _ _ none none false ?_ ?_
  · exact .cons (.add ⟨rfl, rfl, rfl, rfl⟩) (.cons (.add ⟨rfl, rfl, rfl, rfl⟩) (.cons .asJson .nil))
  · intro m hm
    simp only [gAdded, List.mem_cons, List.not_mem_nil, or_false] at hm
    rcases hm with rfl | rfl <;> exact ⟨by decide, by decide, rfl, by simp⟩

end RSM
