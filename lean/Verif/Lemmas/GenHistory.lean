import Verif.Lemmas.Generator
/-! # Histories of generator calls -/

namespace RSM

open Spec

/-- A call on a generator. `asJson` stands for a serialisation (`as_json` or `as_string`). -/
inductive GOp where
  | add (m : Mapping)
  | setContent (source : String) (content : Option String)
  | asJson

namespace Generator

/-- The effect of one call on the generator. -/
def step (U : UrlLib) (cfg : Cfg) (g : Generator) : GOp → Res Generator
  | .add m => g.addMapping cfg m
  | .setContent s c => g.setSourceContent U s c
  | .asJson => do
    let r ← g.asJson U cfg
    pure r.2

/-- A history of calls, stopping at the first panic. -/
def run (U : UrlLib) (cfg : Cfg) (g : Generator) : List GOp → Res Generator
  | [] => .ok g
  | op :: ops => do
    let g ← g.step U cfg op
    run U cfg g ops

end Generator

/-- The mappings added by a history, in order. -/
def gAdded : List GOp → List Mapping
  | [] => []
  | .add m :: ops => m :: gAdded ops
  | .setContent _ _ :: ops => gAdded ops
  | .asJson :: ops => gAdded ops

/-- The calls that are not serialisations. -/
def withoutJson : List GOp → List GOp
  | [] => []
  | .asJson :: ops => withoutJson ops
  | op :: ops => op :: withoutJson ops

/-- What a history asks of the list of mappings. -/
def mlOps : List GOp → List MLOp
  | [] => []
  | .add m :: ops => .add m :: mlOps ops
  | .setContent _ _ :: ops => mlOps ops
  | .asJson :: ops => .toArray :: mlOps ops

theorem added_mlOps (ops : List GOp) : added (mlOps ops) = gAdded ops := by
  induction ops with
  | nil => rfl
  | cons op ops ih => cases op <;> simp [mlOps, added, gAdded, ih]

theorem gAdded_withoutJson (ops : List GOp) : gAdded (withoutJson ops) = gAdded ops := by
  induction ops with
  | nil => rfl
  | cons op ops ih => cases op <;> simp [withoutJson, gAdded, ih]

theorem Generator.addIfNew_none (a : ArraySet) : Generator.addIfNew a none = a := rfl

theorem addIfNew_some (a : ArraySet) (s : String) : Generator.addIfNew a (some s) = a.add s false := by
  unfold Generator.addIfNew ArraySet.add
  cases hs : a.has s <;> simp [hs]

/-- The table after a history, given the strings it uses. -/
def tableOf (l : List String) : ArraySet := ArraySet.fromArray l false

theorem tableOf_inv (l : List String) : (tableOf l).Inv := by
  have := ArraySet.inv_new.run (l.map fun s => (s, false))
  unfold ArraySet.run at this
  rw [List.foldl_map] at this
  exact this

theorem tableOf_array (l : List String) : (tableOf l).array = firstOccurrences l := by
  suffices h : ∀ (a : ArraySet) (l₀ : List String), a.Inv → a.array = firstOccurrences l₀ →
      (l.foldl (fun s i => s.add i false) a).array = firstOccurrences (l₀ ++ l) by
    simpa [tableOf, ArraySet.fromArray] using h ArraySet.new [] ArraySet.inv_new rfl
  induction l with
  | nil => intro a l₀ _ h; simpa using h
  | cons s l ih =>
    intro a l₀ hinv h
    have := ih (a.add s false) (l₀ ++ [s]) (hinv.add s false) (by
      rw [ArraySet.toVec_add hinv, h, firstOccurrences_snoc]; simp [mem_firstOccurrences])
    simpa using this

theorem addMapping_ok {cfg : Cfg} {g g' : Generator} {m : Mapping} (h : g.addMapping cfg m = .ok g') :
    ∃ l, g.mappings.add cfg m = .ok l ∧
      g' = { g with sources := Generator.addIfNew g.sources m.source,
                    names := Generator.addIfNew g.names m.name, mappings := l } := by
  unfold Generator.addMapping at h
  rw [Res.bind_eq_ok] at h
  obtain ⟨l, h1, h2⟩ := h
  simp only [Res.pure_eq, Except.ok.injEq] at h2
  exact ⟨l, h1, h2.symm⟩

/-- The contents map after `set_source_content`. -/
def setContents (c : HMap String String) (key : String) : Option String → HMap String String
  | some v => c.insert key v
  | none => c.remove key

theorem setSourceContent_ok {U : UrlLib} {g g' : Generator} {s : String} {c : Option String}
    (h : g.setSourceContent U s c = .ok g') :
    ∃ k, Generator.contentKey U g.sourceRoot s = .ok k ∧
      g' = { g with sourceContents := setContents g.sourceContents k c } := by
  unfold Generator.setSourceContent at h
  rw [Res.bind_eq_ok] at h
  obtain ⟨k, h1, h2⟩ := h
  refine ⟨k, h1, ?_⟩
  cases c with
  | none => simp only [Res.pure_eq, Except.ok.injEq] at h2; exact h2.symm
  | some v => simp only [Res.pure_eq, Except.ok.injEq] at h2; exact h2.symm

/-- What `as_json` computes when it returns. -/
theorem asJson_ok {U : UrlLib} {cfg : Cfg} {g g' : Generator} {j : SourceMapJson}
    (h : g.asJson U cfg = .ok (j, g')) :
    ∃ sc out l t,
      g.sourcesContent U = .ok sc ∧
      g.mappings.toArray cfg = .ok (out, l) ∧
      serializeLoop cfg g.sources g.names SerState.init none out = .ok t ∧
      g' = { g with mappings := l } ∧
      j = { version := 3, sources := some g.sources.toVec, names := some g.names.toVec,
            mappings := some (String.ofList t), file := g.file, sourceRoot := g.sourceRoot,
            sourcesContent := sc, sections := none } := by
  unfold Generator.asJson at h
  rw [Res.bind_eq_ok] at h
  obtain ⟨sc, h1, h2⟩ := h
  rw [Res.bind_eq_ok] at h2
  obtain ⟨⟨t, g1⟩, h3, h4⟩ := h2
  unfold Generator.serializeMappings at h3
  rw [Res.bind_eq_ok] at h3
  obtain ⟨⟨out, l⟩, h5, h6⟩ := h3
  rw [Res.bind_eq_ok] at h6
  obtain ⟨t', h7, h8⟩ := h6
  simp only [Res.pure_eq, Except.ok.injEq, Prod.mk.injEq] at h8 h4
  obtain ⟨rfl, rfl⟩ := h8
  exact ⟨sc, out, l, t', h1, h5, h7, h4.2.symm, h4.1.symm⟩

/-- The other direction. -/
theorem asJson_intro {U : UrlLib} {cfg : Cfg} {g : Generator} {sc : Option (List String)}
    {out : List Mapping} {l : MappingList} {t : Text}
    (h1 : g.sourcesContent U = .ok sc)
    (h2 : g.mappings.toArray cfg = .ok (out, l))
    (h3 : serializeLoop cfg g.sources g.names SerState.init none out = .ok t) :
    g.asJson U cfg = .ok
      ({ version := 3, sources := some g.sources.toVec, names := some g.names.toVec,
         mappings := some (String.ofList t), file := g.file, sourceRoot := g.sourceRoot,
         sourcesContent := sc, sections := none }, { g with mappings := l }) := by
  unfold Generator.asJson
  rw [h1, Res.ok_bind]
  unfold Generator.serializeMappings
  rw [h2, Res.ok_bind]
  simp only [h3, Res.ok_bind, Res.pure_eq]

/-- The contents map after a history, by its keys. -/
def contentsRun (U : UrlLib) (root : Option String) (c : HMap String String) :
    List GOp → Res (HMap String String)
  | [] => .ok c
  | .setContent s v :: ops => do
    let k ← Generator.contentKey U root s
    contentsRun U root (setContents c k v) ops
  | .add _ :: ops => contentsRun U root c ops
  | .asJson :: ops => contentsRun U root c ops

theorem contentsRun_withoutJson (U : UrlLib) (root : Option String) (ops : List GOp) :
    ∀ c, contentsRun U root c (withoutJson ops) = contentsRun U root c ops := by
  induction ops with
  | nil => intro c; rfl
  | cons op ops ih =>
    intro c
    cases op with
    | add m => simp only [withoutJson, contentsRun, ih]
    | setContent s v => simp only [withoutJson, contentsRun, ih]
    | asJson => simp only [withoutJson, contentsRun, ih]

/-- Everything about the state after a history that returned. -/
theorem gRun_ok {U : UrlLib} {cfg : Cfg} : ∀ (ops : List GOp) (g g' : Generator),
    g.run U cfg ops = .ok g' →
    g'.file = g.file ∧ g'.sourceRoot = g.sourceRoot ∧ g'.skipValidation = g.skipValidation ∧
    g.mappings.run cfg (mlOps ops) = .ok g'.mappings ∧
    g'.sources = ((gAdded ops).filterMap Mapping.source).foldl (fun a s => a.add s false) g.sources ∧
    g'.names = ((gAdded ops).filterMap Mapping.name).foldl (fun a s => a.add s false) g.names ∧
    contentsRun U g.sourceRoot g.sourceContents ops = .ok g'.sourceContents := by
  intro ops
  induction ops with
  | nil =>
    intro g g' h
    cases h
    exact ⟨rfl, rfl, rfl, rfl, rfl, rfl, rfl⟩
  | cons op ops ih =>
    intro g g' h
    simp only [Generator.run] at h
    rw [Res.bind_eq_ok] at h
    obtain ⟨g1, h1, h2⟩ := h
    obtain ⟨i1, i2, i3, i4, i5, i6, i7⟩ := ih g1 g' h2
    cases op with
    | add m =>
      obtain ⟨l, hl, rfl⟩ := addMapping_ok h1
      refine ⟨i1, i2, i3, ?_, ?_, ?_, i7⟩
      · simp only [mlOps, MappingList.run, MappingList.step, hl, Res.ok_bind]; exact i4
      · rw [i5]
        simp only [gAdded]
        cases hs : m.source <;> simp [hs, Generator.addIfNew_none, addIfNew_some]
      · rw [i6]
        simp only [gAdded]
        cases hs : m.name <;> simp [hs, Generator.addIfNew_none, addIfNew_some]
    | setContent s c =>
      obtain ⟨k, hk, rfl⟩ := setSourceContent_ok h1
      refine ⟨i1, i2, i3, i4, i5, i6, ?_⟩
      simp only [contentsRun, hk, Res.ok_bind]; exact i7
    | asJson =>
      simp only [Generator.step] at h1
      rw [Res.bind_eq_ok] at h1
      obtain ⟨⟨j, g2⟩, h3, h4⟩ := h1
      simp only [Res.pure_eq, Except.ok.injEq] at h4
      subst h4
      obtain ⟨sc, out, l, t, _, h5, _, rfl, _⟩ := asJson_ok h3
      refine ⟨i1, i2, i3, ?_, i5, i6, i7⟩
      simp only [mlOps, MappingList.run, MappingList.step, h5, Res.ok_bind, Res.pure_eq]; exact i4

theorem gRun_new {U : UrlLib} {cfg : Cfg} {file root : Option String} {skip : Bool} {ops : List GOp}
    {g : Generator} (h : (Generator.new file root skip).run U cfg ops = .ok g) :
    g.file = file ∧ g.sourceRoot = root ∧ MappingList.new.run cfg (mlOps ops) = .ok g.mappings ∧
    g.sources = tableOf ((gAdded ops).filterMap Mapping.source) ∧
    g.names = tableOf ((gAdded ops).filterMap Mapping.name) ∧
    contentsRun U root HMap.empty ops = .ok g.sourceContents := by
  obtain ⟨h1, h2, _, h4, h5, h6, h7⟩ := gRun_ok ops _ _ h
  exact ⟨h1, h2, h4, h5, h6, h7⟩

end RSM
