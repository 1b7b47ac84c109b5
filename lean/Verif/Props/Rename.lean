import Verif.Props.LastColumn
/-! # Property C100: of the texts naming sources and names only their order counts -/

namespace RSM

open Spec

/-- The renaming keeps the order of texts. -/
def OrderPreserving (f : String → String) : Prop := ∀ a b, f a < f b ↔ a < b

theorem OrderPreserving.eq {f : String → String} (h : OrderPreserving f) {a b : String} : f a = f b ↔ a = b := by
  refine ⟨fun e => ?_, congrArg f⟩
  have h1 : ¬ a < b := fun hab => by have := (h a b).2 hab; rw [e] at this; exact String.lt_irrefl _ this
  have h2 : ¬ b < a := fun hab => by have := (h b a).2 hab; rw [e] at this; exact String.lt_irrefl _ this
  exact String.le_antisymm (String.not_lt.1 h2) (String.not_lt.1 h1)

/-- The mapping with its source renamed by `f` and its name by `h`. -/
def Mapping.rename (f h : String → String) (m : Mapping) : Mapping :=
  { m with source := m.source.map f, name := m.name.map h }

/-- The call with sources renamed by `f` and names by `h`. -/
def GOp.rename (f h : String → String) : GOp → GOp
  | .add m => .add (m.rename f h)
  | .setContent s c => .setContent (f s) c
  | .asJson => .asJson

/-- The map with sources renamed by `f` and names by `h`, and nothing else changed. -/
def SourceMapJson.rename (f h : String → String) (j : SourceMapJson) : SourceMapJson :=
  { j with sources := j.sources.map (List.map f), names := j.names.map (List.map h) }

/-! ## The state of the generator -/

def HMap.rename {β : Type} (f : String → String) (m : HMap String β) : HMap String β :=
  ⟨m.entries.map fun e => (f e.1, e.2)⟩

theorem HMap.rename_get? {β : Type} {f : String → String} (hf : OrderPreserving f) (m : HMap String β) (k : String) :
    (m.rename f).get? (f k) = m.get? k := by
  obtain ⟨l⟩ := m
  simp only [HMap.rename, HMap.get?]
  induction l with
  | nil => rfl
  | cons e l ih =>
    obtain ⟨a, b⟩ := e
    have : (f k == f a) = (k == a) := by
      rw [Bool.eq_iff_iff, beq_iff_eq, beq_iff_eq, hf.eq]
    simp only [List.map_cons, List.lookup_cons, ih, this]

theorem HMap.rename_remove {β : Type} {f : String → String} (hf : OrderPreserving f) (m : HMap String β) (k : String) :
    (m.rename f).remove (f k) = (m.remove k).rename f := by
  obtain ⟨l⟩ := m
  simp only [HMap.rename, HMap.remove, HMap.mk.injEq]
  rw [List.filter_map]
  congr 1
  apply List.filter_congr
  intro e _
  simp only [Function.comp, hf.eq, ne_eq]

theorem HMap.rename_insert {β : Type} {f : String → String} (hf : OrderPreserving f) (m : HMap String β) (k : String)
    (v : β) : (m.rename f).insert (f k) v = (m.insert k v).rename f := by
  have := HMap.rename_remove hf m k
  simp only [HMap.insert, this]
  rfl

def ArraySet.rename (f : String → String) (a : ArraySet) : ArraySet := ⟨a.array.map f, a.set.rename f⟩

theorem ArraySet.rename_has {f : String → String} (hf : OrderPreserving f) (a : ArraySet) (s : String) :
    (a.rename f).has (f s) = a.has s := by
  simp only [ArraySet.has, HMap.contains, ArraySet.rename, HMap.rename_get? hf]

theorem ArraySet.rename_add {f : String → String} (hf : OrderPreserving f) (a : ArraySet) (s : String) (d : Bool) :
    (a.rename f).add (f s) d = (a.add s d).rename f := by
  simp only [ArraySet.add, ArraySet.rename_has hf]
  simp only [ArraySet.rename, List.length_map]
  cases a.has s <;> cases d <;> simp [HMap.rename_insert hf]

theorem addIfNew_rename {f : String → String} (hf : OrderPreserving f) (a : ArraySet) (s : Option String) :
    Generator.addIfNew (a.rename f) (s.map f) = (Generator.addIfNew a s).rename f := by
  cases s with
  | none => rfl
  | some s =>
    simp only [Generator.addIfNew, Option.map_some, ArraySet.rename_has hf]
    split
    · exact ArraySet.rename_add hf a s false
    · rfl

def MappingList.rename (f h : String → String) (l : MappingList) : MappingList :=
  ⟨l.array.map (Mapping.rename f h), l.sorted, l.last.map (Mapping.rename f h)⟩

def Generator.rename (f h : String → String) (g : Generator) : Generator :=
  { g with sources := g.sources.rename f, names := g.names.rename h, mappings := g.mappings.rename f h
           sourceContents := g.sourceContents.rename f }

/-! ## The methods -/

theorem strcmp_rename {f : String → String} (hf : OrderPreserving f) (a b : Option String) :
    strcmp (a.map f) (b.map f) = strcmp a b := by
  cases a with
  | none => cases b <;> simp [strcmp]
  | some a =>
    cases b with
    | none => simp [strcmp]
    | some b => simp only [strcmp, Option.map_some, Option.some.injEq, hf.eq, hf b a]

theorem compare_rename {f h : String → String} (hf : OrderPreserving f) (hh : OrderPreserving h) (cfg : Cfg)
    (a b : Mapping) :
    compareByGeneratedPosInflated cfg (a.rename f h) (b.rename f h) = compareByGeneratedPosInflated cfg a b := by
  have h1 := strcmp_rename hf a.source b.source
  have h2 := strcmp_rename hh a.name b.name
  simp only [compareByGeneratedPosInflated, compareOriginalThenName, Mapping.rename, h1, h2]

section
variable {f h : String → String} (hf : OrderPreserving f) (hh : OrderPreserving h)
include hf hh

theorem add_rename (cfg : Cfg) (l : MappingList) (m : Mapping) :
    (l.rename f h).add cfg (m.rename f h) = (l.add cfg m).map (MappingList.rename f h) := by
  have key : generatedPositionAfter cfg ((l.rename f h).last.getD MappingList.beforeAll) (m.rename f h) =
      generatedPositionAfter cfg (l.last.getD MappingList.beforeAll) m := by
    cases hl : l.last with
    | none =>
      have : MappingList.beforeAll = MappingList.beforeAll.rename f h := rfl
      simp only [MappingList.rename, hl, Option.map_none, Option.getD_none]
      rw [this]
      simp only [generatedPositionAfter, compare_rename hf hh]
      rfl
    | some x =>
      simp only [MappingList.rename, hl, Option.map_some, Option.getD_some, generatedPositionAfter,
        compare_rename hf hh]
      rfl
  simp only [MappingList.add, key]
  cases generatedPositionAfter cfg (l.last.getD MappingList.beforeAll) m with
  | error e => rfl
  | ok b => cases b <;> simp [MappingList.rename, Except.map, pure, Except.pure, bind, Except.bind]

theorem addMapping_rename (cfg : Cfg) (g : Generator) (m : Mapping) :
    (g.rename f h).addMapping cfg (m.rename f h) = (g.addMapping cfg m).map (Generator.rename f h) := by
  have h1 : (g.rename f h).mappings = g.mappings.rename f h := rfl
  have h2 := addIfNew_rename hf g.sources m.source
  have h3 := addIfNew_rename hh g.names m.name
  simp only [Generator.addMapping]
  rw [h1, add_rename hf hh]
  cases g.mappings.add cfg m with
  | error e => rfl
  | ok l =>
    simp only [Except.map, Res.ok_bind, Res.pure_eq, Except.ok.injEq]
    simp only [Generator.rename, Generator.mk.injEq, and_true, true_and]
    exact ⟨h2, h3⟩

omit hh in
theorem setSourceContent_rename (U : UrlLib) (g : Generator) (hr : g.sourceRoot = none) (s : String)
    (c : Option String) :
    (g.rename f h).setSourceContent U (f s) c = (g.setSourceContent U s c).map (Generator.rename f h) := by
  simp only [Generator.setSourceContent]
  rw [show (g.rename f h).sourceRoot = none from hr, hr]
  cases c with
  | none =>
    simp only [Generator.contentKey, Res.ok_bind, Res.pure_eq, Except.map, Except.ok.injEq]
    simp only [Generator.rename, HMap.rename_remove hf]
  | some c =>
    simp only [Generator.contentKey, Res.ok_bind, Res.pure_eq, Except.map, Except.ok.injEq]
    simp only [Generator.rename, HMap.rename_insert hf]

omit hh in
theorem sourcesContent_rename (U : UrlLib) (g : Generator)
    (hr : g.sourceRoot = none ∨ g.sourceContents = HMap.empty) :
    (g.rename f h).sourcesContent U = g.sourcesContent U := by
  simp only [Generator.sourcesContent]
  have he : (g.rename f h).sourceContents.isEmpty = g.sourceContents.isEmpty := by
    simp only [Generator.rename, HMap.rename, HMap.isEmpty]
    cases g.sourceContents.entries <;> rfl
  rw [he]
  rcases hr with hr | hr
  · have hgen : ∀ l : List String, Generator.generateSourcesContents U (g.rename f h) none (l.map f) =
        Generator.generateSourcesContents U g none l := by
      intro l
      induction l with
      | nil => rfl
      | cons s l ih =>
        simp only [List.map_cons, Generator.generateSourcesContents, ih, Generator.contentOf, Generator.contentKey,
          Res.ok_bind]
        rw [show (g.rename f h).sourceContents = g.sourceContents.rename f from rfl, HMap.rename_get? hf]
    rw [show (g.rename f h).sourceRoot = none from hr, hr,
      show (g.rename f h).sources.toVec = g.sources.toVec.map f from rfl, hgen]
  · rw [hr]; rfl

theorem segmentText_rename (cfg : Cfg) (S N : ArraySet) (st : SerState) (m : Mapping) :
    segmentText cfg (S.rename f) (N.rename h) st (m.rename f h) = segmentText cfg S N st m := by
  have hS : ∀ s, (S.rename f).indexOf (f s) = S.indexOf s := HMap.rename_get? hf S.set
  have hN : ∀ s, (N.rename h).indexOf (h s) = N.indexOf s := HMap.rename_get? hh N.set
  have h1 : ∀ st, nameField cfg (N.rename h) st (m.rename f h) = nameField cfg N st m := by
    intro st
    cases hm : m.name with
    | none => simp only [nameField, Mapping.rename, hm, Option.map_none]
    | some n => simp only [nameField, Mapping.rename, hm, Option.map_some, hN]
  have h2 : ∀ st, originalFields cfg (S.rename f) (N.rename h) st (m.rename f h) = originalFields cfg S N st m := by
    intro st
    simp only [originalFields, h1]
    cases hm : m.source with
    | none => simp only [Mapping.rename, hm, Option.map_none]
    | some s => simp only [Mapping.rename, hm, Option.map_some, hS]
  simp only [segmentText, h2]
  rfl

theorem serializeStep_rename (cfg : Cfg) (S N : ArraySet) (st : SerState) (p : Option Mapping) (m : Mapping) :
    serializeStep cfg (S.rename f) (N.rename h) st (p.map (Mapping.rename f h)) (m.rename f h) =
      serializeStep cfg S N st p m := by
  have hg : (m.rename f h).generated = m.generated := rfl
  simp only [serializeStep, segmentText_rename hf hh, hg]
  cases p with
  | none => simp only [Option.map_none]
  | some p => simp only [Option.map_some, compare_rename hf hh]

theorem serializeLoop_rename (cfg : Cfg) (S N : ArraySet) : ∀ (ms : List Mapping) (st : SerState) (p : Option Mapping),
    serializeLoop cfg (S.rename f) (N.rename h) st (p.map (Mapping.rename f h)) (ms.map (Mapping.rename f h)) =
      serializeLoop cfg S N st p ms := by
  intro ms
  induction ms with
  | nil => intros; rfl
  | cons m ms ih =>
    intro st p
    simp only [List.map_cons, serializeLoop, serializeStep_rename hf hh]
    cases serializeStep cfg S N st p m with
    | error e => simp only [Res.error_bind]
    | ok r =>
      have := ih r.2 (some m)
      rw [Option.map_some] at this
      simp only [Res.ok_bind, this]

omit hf hh in
theorem rename_valid {m : Mapping} (hm : m.Valid) : (m.rename f h).Valid :=
  ⟨hm.gl, hm.gc, by rw [show (m.rename f h).source = m.source.map f from rfl, Option.isSome_map]; exact hm.orig, hm.range⟩

theorem toArray_rename (cfg : Cfg) (l : MappingList) (hv : ∀ m ∈ l.array, m.Valid) :
    (l.rename f h).toArray cfg =
      (l.toArray cfg).map fun r => (r.1.map (Mapping.rename f h), r.2.rename f h) := by
  unfold MappingList.toArray
  rw [show (l.rename f h).sorted = l.sorted from rfl]
  split
  · have hs : MappingList.sortBy cfg (l.rename f h).array =
        (MappingList.sortBy cfg l.array).map (List.map (Mapping.rename f h)) := by
      rw [sortBy_valid cfg hv, sortBy_valid cfg (l := (l.rename f h).array)]
      · simp only [Except.map, Except.ok.injEq, MappingList.rename]
        symm
        apply List.map_mergeSort
        intro a ha b hb
        have h1 := compare_rename hf hh cfg a b
        rw [compare_eq_cmpVal cfg (hv a ha) (hv b hb),
          compare_eq_cmpVal cfg (rename_valid (hv a ha)) (rename_valid (hv b hb)), Except.ok.injEq] at h1
        simp only [cmpLE, h1]
      · intro m hm
        obtain ⟨a, ha, rfl⟩ := List.mem_map.1 hm
        exact rename_valid (hv a ha)
    rw [hs]
    cases MappingList.sortBy cfg l.array <;> rfl
  · rfl

theorem asJson_rename (U : UrlLib) (cfg : Cfg) (g : Generator) (hv : ∀ m ∈ g.mappings.array, m.Valid)
    (hr : g.sourceRoot = none ∨ g.sourceContents = HMap.empty) :
    (g.rename f h).asJson U cfg = (g.asJson U cfg).map fun r => (r.1.rename f h, r.2.rename f h) := by
  have hc := sourcesContent_rename (h := h) hf U g hr
  simp only [Generator.asJson, hc]
  cases g.sourcesContent U with
  | error e => rfl
  | ok x =>
    have hl := toArray_rename hf hh cfg g.mappings hv
    simp only [Res.ok_bind, Generator.serializeMappings]
    rw [show (g.rename f h).mappings = g.mappings.rename f h from rfl, hl]
    cases g.mappings.toArray cfg with
    | error e => rfl
    | ok y =>
      have hs := serializeLoop_rename hf hh cfg g.sources g.names y.1 SerState.init none
      rw [Option.map_none] at hs
      simp only [Except.map, Res.ok_bind]
      rw [show (g.rename f h).sources = g.sources.rename f from rfl,
        show (g.rename f h).names = g.names.rename h from rfl, hs]
      cases serializeLoop cfg g.sources g.names SerState.init none y.1 <;> rfl

omit hf hh in
/-- The stored mappings are those added, whatever holds of these; the root stays, and the contents do if none is set. -/
theorem step_keeps {P : Mapping → Prop} {U : UrlLib} {cfg : Cfg} {g g1 : Generator} {op : GOp}
    (hs : g.step U cfg op = .ok g1) (hg : ∀ m ∈ g.mappings.array, P m) (ha : ∀ m ∈ gAdded [op], P m) :
    (∀ m ∈ g1.mappings.array, P m) ∧ g1.sourceRoot = g.sourceRoot ∧
    ((∀ s c, op ≠ .setContent s c) → g1.sourceContents = g.sourceContents) := by
  cases op with
  | add m =>
    simp only [Generator.step, Generator.addMapping] at hs
    cases hm : g.mappings.add cfg m with
    | error e => rw [hm] at hs; simp at hs
    | ok l =>
      rw [hm] at hs
      simp only [Res.ok_bind, Res.pure_eq, Except.ok.injEq] at hs
      subst hs
      have hl : l.array = g.mappings.array ++ [m] := by
        unfold MappingList.add at hm
        cases hga : generatedPositionAfter cfg (g.mappings.last.getD MappingList.beforeAll) m with
        | error e => rw [hga] at hm; simp at hm
        | ok b =>
          rw [hga] at hm
          cases b <;> simp at hm <;> rw [← hm]
      refine ⟨?_, rfl, fun _ => rfl⟩
      intro x hx
      rw [show ({ g with sources := Generator.addIfNew g.sources m.source,
                         names := Generator.addIfNew g.names m.name, mappings := l } : Generator).mappings = l from rfl,
        hl, List.mem_append, List.mem_singleton] at hx
      rcases hx with hx | rfl
      · exact hg x hx
      · exact ha x (by simp [gAdded])
  | setContent s c =>
    simp only [Generator.step, Generator.setSourceContent] at hs
    cases hk : Generator.contentKey U g.sourceRoot s with
    | error e => rw [hk] at hs; simp at hs
    | ok k =>
      rw [hk] at hs
      cases c <;> simp at hs <;> subst hs <;> exact ⟨hg, rfl, fun hn => absurd rfl (hn _ _)⟩
  | asJson =>
    simp only [Generator.step] at hs
    cases hj : g.asJson U cfg with
    | error e => rw [hj] at hs; simp at hs
    | ok r =>
      rw [hj] at hs
      simp only [Res.ok_bind, Res.pure_eq, Except.ok.injEq] at hs
      subst hs
      simp only [Generator.asJson, Generator.serializeMappings] at hj
      cases hc : g.sourcesContent U with
      | error e => rw [hc] at hj; simp at hj
      | ok x =>
        rw [hc] at hj
        cases ht : g.mappings.toArray cfg with
        | error e => rw [ht] at hj; simp at hj
        | ok y =>
          obtain ⟨out, l⟩ := y
          have hp := toArray_perm cfg ht
          rw [ht] at hj
          simp only [Res.ok_bind] at hj
          cases hser : serializeLoop cfg g.sources g.names SerState.init none out with
          | error e => rw [hser] at hj; simp at hj
          | ok t =>
            rw [hser] at hj
            simp only [Res.ok_bind, Res.pure_eq, Except.ok.injEq] at hj
            subst hj
            refine ⟨?_, rfl, fun _ => rfl⟩
            intro m hm
            apply hg
            rw [← hp.1.mem_iff, ← hp.2]
            exact hm

theorem run_rename (U : UrlLib) (cfg : Cfg) : ∀ (ops : List GOp) (g : Generator),
    (∀ m ∈ g.mappings.array, m.Valid) → (∀ m ∈ gAdded ops, m.Valid) →
    (g.sourceRoot = none ∨ g.sourceContents = HMap.empty ∧ ∀ s c, GOp.setContent s c ∉ ops) →
    ((g.rename f h).run U cfg (ops.map (GOp.rename f h)) >>= fun g => g.asJson U cfg).map Prod.fst =
      (g.run U cfg ops >>= fun g => g.asJson U cfg).map fun r => r.1.rename f h := by
  intro ops
  induction ops with
  | nil =>
    intro g hg _ hr
    have : ∀ g : Generator, ((Generator.run U cfg g []) >>= fun g => g.asJson U cfg) = g.asJson U cfg := fun _ => rfl
    rw [List.map_nil, this, this, asJson_rename hf hh U cfg g hg (hr.imp id And.left)]
    cases g.asJson U cfg <;> rfl
  | cons op ops ih =>
    intro g hg ha hr
    have hstep : (g.rename f h).step U cfg (op.rename f h) = (g.step U cfg op).map (Generator.rename f h) := by
      cases op with
      | add m => exact addMapping_rename hf hh cfg g m
      | setContent s c =>
        rcases hr with hr | ⟨_, hr⟩
        · exact setSourceContent_rename hf U g hr s c
        · exact absurd (by simp) (hr s c)
      | asJson =>
        simp only [Generator.step, GOp.rename, asJson_rename hf hh U cfg g hg (hr.imp id And.left)]
        cases g.asJson U cfg <;> rfl
    simp only [List.map_cons, Generator.run, hstep]
    cases hs : g.step U cfg op with
    | error e => rfl
    | ok g1 =>
      have hsplit : ∀ m, m ∈ gAdded [op] ∨ m ∈ gAdded ops → m ∈ gAdded (op :: ops) := by
        intro m hm
        cases op <;> simp_all [gAdded]
      obtain ⟨k1, k2, k3⟩ := step_keeps hs hg (fun m hm => ha m (hsplit m (.inl hm)))
      refine ih g1 k1 (fun m hm => ha m (hsplit m (.inr hm))) ?_
      rcases hr with hr | ⟨hr1, hr2⟩
      · exact .inl (k2.trans hr)
      · exact .inr ⟨(k3 (fun s c e => hr2 s c (by simp [e]))).trans hr1, fun s c hm => hr2 s c (by simp [hm])⟩

/-- C100: if the sources and names in a history of calls are renamed in a way that keeps their order, the map that comes out
has them renamed and is otherwise the same, to the letter; or both histories panic alike. Under a source root only
histories that set no contents are meant: contents are kept by relative URLs. -/
theorem C100_renaming (U : UrlLib) (cfg : Cfg) (file root : Option String) (skip : Bool) (ops : List GOp)
    (hv : ∀ m ∈ gAdded ops, m.Valid) (hr : root = none ∨ ∀ s c, GOp.setContent s c ∉ ops) :
    ((Generator.new file root skip).run U cfg (ops.map (GOp.rename f h)) >>= fun g => g.asJson U cfg).map Prod.fst =
      ((Generator.new file root skip).run U cfg ops >>= fun g => g.asJson U cfg).map fun r => r.1.rename f h :=
  run_rename hf hh U cfg ops (Generator.new file root skip) (by simp [Generator.new, MappingList.new]) hv
    (hr.imp id fun h => ⟨rfl, h⟩)

end

/-! ## Cases -/

/-- Moving all sources below a directory keeps their order. -/
theorem prefix_orderPreserving (d : String) : OrderPreserving (d ++ ·) := by
  intro a b
  show (d ++ a).toList < (d ++ b).toList ↔ a.toList < b.toList
  simp only [String.toList_append]
  induction d.toList with
  | nil => rfl
  | cons c l ih => simpa [List.cons_lt_cons_iff] using ih

/-- The calls `C100_renaming` is tried on: at one place `b.js`, then `a.js`, after a mapping further down. -/
def renameCase : List GOp :=
  [.add { generated := ⟨2, 0⟩ },
   .add { generated := ⟨1, 5⟩, original := some ⟨1, 0⟩, source := some "b.js" },
   .add { generated := ⟨1, 5⟩, original := some ⟨1, 0⟩, source := some "a.js" },
   .setContent "a.js" (some "let x"), .asJson]

theorem renameCase_valid : ∀ m ∈ gAdded renameCase, m.Valid := by
  intro m hm
  simp only [gAdded, renameCase, List.mem_cons, List.not_mem_nil, or_false] at hm
  rcases hm with rfl | rfl | rfl <;> exact ⟨by decide, by decide, rfl, by simp⟩

example (U : UrlLib) (cfg : Cfg) : ((Generator.new none none false).run U cfg
      (renameCase.map (GOp.rename ("lib/" ++ ·) id)) >>= fun g => g.asJson U cfg).map Prod.fst =
    ((Generator.new none none false).run U cfg renameCase >>= fun g => g.asJson U cfg).map
      fun r => r.1.rename ("lib/" ++ ·) id :=
  C100_renaming (prefix_orderPreserving "lib/") (fun _ _ => Iff.rfl) U cfg none none false renameCase renameCase_valid
    (.inl rfl)

/-- `a.js` and `b.js` change places. -/
def swapAB (s : String) : String := if s = "a.js" then "b.js" else if s = "b.js" then "a.js" else s

def swapCase : List GOp := renameCase.take 3

theorem asJson_text {U : UrlLib} {cfg : Cfg} {g : Generator} {out : List Mapping} {l : MappingList} {t : Text}
    (hc : g.sourcesContent U = .ok none) (ht : g.mappings.toArray cfg = .ok (out, l))
    (hs : serializeLoop cfg g.sources g.names SerState.init none out = .ok t) :
    ∃ r, g.asJson U cfg = .ok r ∧ r.1.mappings = some (String.ofList t) := by
  simp only [Generator.asJson, hc, Generator.serializeMappings, ht, hs, Res.ok_bind, Res.pure_eq, Except.ok.injEq]
  exact ⟨_, rfl, rfl⟩

/-- The order does count: a renaming that only keeps different sources apart changes the text of the mappings. -/
theorem C100_order_needed (U : UrlLib) (cfg : Cfg) :
    (∀ a b, swapAB a = swapAB b ↔ a = b) ∧
    ∃ g g' r r', (Generator.new none none false).run U cfg swapCase = .ok g ∧ g.asJson U cfg = .ok r ∧
      (Generator.new none none false).run U cfg (swapCase.map (GOp.rename swapAB id)) = .ok g' ∧
      g'.asJson U cfg = .ok r' ∧ r.1.mappings = "KCAA,ADAA;A" ∧ r'.1.mappings = "KAAA,ACAA;A" := by
  have inv : ∀ a, swapAB (swapAB a) = a := by
    intro a
    unfold swapAB
    split
    · simp_all
    · split
      · simp_all
      · simp_all
  refine ⟨fun a b => ⟨fun e => by rw [← inv a, e, inv], congrArg _⟩, ?_⟩
  have hv : ∀ m ∈ gAdded swapCase, m.Valid := fun m hm => renameCase_valid m hm
  have hv' : ∀ m ∈ gAdded (swapCase.map (GOp.rename swapAB id)), m.Valid := by
    intro m hm
    have : gAdded (swapCase.map (GOp.rename swapAB id)) = (gAdded swapCase).map (Mapping.rename swapAB id) := rfl
    rw [this] at hm
    obtain ⟨a, ha, rfl⟩ := List.mem_map.1 hm
    exact rename_valid (hv a ha)
  have h1 : (gAdded swapCase).mergeSort cmpLE =
      [{ generated := ⟨1, 5⟩, original := some ⟨1, 0⟩, source := some "a.js" },
       { generated := ⟨1, 5⟩, original := some ⟨1, 0⟩, source := some "b.js" }, { generated := ⟨2, 0⟩ }] :=
    mergeSort_eq (by decide) (by decide) (by decide)
  have h2 : (gAdded (swapCase.map (GOp.rename swapAB id))).mergeSort cmpLE =
      [{ generated := ⟨1, 5⟩, original := some ⟨1, 0⟩, source := some "a.js" },
       { generated := ⟨1, 5⟩, original := some ⟨1, 0⟩, source := some "b.js" }, { generated := ⟨2, 0⟩ }] :=
    mergeSort_eq (by decide) (by decide) (by decide)
  have j1 : ∃ r, Generator.asJson U cfg ⟨none, none, false, ⟨["b.js", "a.js"], ⟨[("a.js", 1), ("b.js", 0)]⟩⟩,
      ArraySet.new, ⟨gAdded swapCase, false, some { generated := ⟨2, 0⟩ }⟩, HMap.empty⟩ = .ok r ∧
      r.1.mappings = "KCAA,ADAA;A" := by
    apply asJson_text rfl (t := "KCAA,ADAA;A".toList)
    · simp only [MappingList.toArray, Bool.not_false, if_true, sortBy_valid cfg hv, Res.ok_bind, h1]
      rfl
    · obtain ⟨_ | _, _ | _⟩ := cfg <;> decide +kernel
  have j2 : ∃ r, Generator.asJson U cfg ⟨none, none, false, ⟨["a.js", "b.js"], ⟨[("b.js", 1), ("a.js", 0)]⟩⟩,
      ArraySet.new, ⟨gAdded (swapCase.map (GOp.rename swapAB id)), false, some { generated := ⟨2, 0⟩ }⟩,
      HMap.empty⟩ = .ok r ∧ r.1.mappings = "KAAA,ACAA;A" := by
    apply asJson_text rfl (t := "KAAA,ACAA;A".toList)
    · simp only [MappingList.toArray, Bool.not_false, if_true, sortBy_valid cfg hv', Res.ok_bind, h2]
      rfl
    · obtain ⟨_ | _, _ | _⟩ := cfg <;> decide +kernel
  obtain ⟨r, r1, r2⟩ := j1
  obtain ⟨r', r1', r2'⟩ := j2
  exact ⟨_, _, r, r', rfl, r1, rfl, r1', r2, r2'⟩

end RSM
