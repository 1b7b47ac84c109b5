import Verif.Props.EndToEnd
import Verif.Props.Order
/-! # Property C99: a map can be copied mapping by mapping

`SourceMapGenerator::from_source_map` is not implemented. What it would do, a caller can do: visit the mappings of a
consumer, name their sources and names, and add them to a new generator. -/

namespace RSM

open Spec BasicConsumer

variable {E : Env}

/-- A visited segment as the mapping to add: sources and names by their texts, lines from one. -/
def named (sources names : List String) (x : RawMapping) : Mapping :=
  { generated := ⟨(x.line : Int) + 1, x.column⟩
    original := x.original.map fun o => ⟨(o.line : Int) + 1, o.column⟩
    source := x.original.bind fun o => sources[o.source]?
    name := x.original.bind fun o => o.name.bind fun n => names[n]? }

/-- The segment is about existing sources and names, and its numbers are below `limit`. -/
def Fits (sources names : List String) (limit : Nat) (x : RawMapping) : Prop :=
  x.line < 2147483647 ∧ x.column < limit ∧ ∀ o ∈ x.original,
    o.source < sources.length ∧ o.line < 2147483647 ∧ o.line < limit ∧ o.column < limit ∧
    ∀ n ∈ o.name, n < names.length

instance (S N : List String) (k : Nat) (x : RawMapping) : Decidable (Fits S N k x) := by unfold Fits; infer_instance

theorem named_denotes {S N : List String} {k : Nat} {x : RawMapping} (h : Fits S N k x) :
    Denotes S N x (named S N x) := by
  obtain ⟨_, _, h3⟩ := h
  refine ⟨rfl, ?_⟩
  cases ho : x.original with
  | none => simp [named, ho]
  | some o =>
    obtain ⟨h4, _, _, _, h5⟩ := h3 o ho
    refine ⟨by simp [named, ho], ⟨S[o.source], by simp [h4], by simp [named, ho, h4]⟩, ?_⟩
    cases hn : o.name with
    | none => simp [named, ho, hn]
    | some n => exact ⟨N[n]'(h5 n hn), by simp [h5 n hn], by simp [named, ho, hn, h5 n hn]⟩

theorem denotes_named {S N : List String} {x : RawMapping} {m : Mapping} (h : Denotes S N x m)
    (hl : m.lastGeneratedColumn = none) : m = named S N x := by
  obtain ⟨h1, h2⟩ := h
  obtain ⟨g, o, s, n, lg⟩ := m
  simp only at h1 h2 hl
  subst h1 hl
  cases ho : x.original with
  | none =>
    rw [ho] at h2
    obtain ⟨rfl, rfl, rfl⟩ := h2
    simp [named, ho]
  | some q =>
    rw [ho] at h2
    obtain ⟨rfl, ⟨s', hs, rfl⟩, h3⟩ := h2
    cases hn : q.name with
    | none =>
      rw [hn] at h3
      subst h3
      simp [named, ho, hn, hs]
    | some i =>
      rw [hn] at h3
      obtain ⟨t, ht, rfl⟩ := h3
      simp [named, ho, hn, hs, ht]

theorem named_encodable {S N : List String} {cfg : Cfg} {x : RawMapping} (h : Fits S N cfg.vlqLimit x) :
    (named S N x).Encodable cfg := by
  obtain ⟨h1, h2, h3⟩ := h
  refine ⟨?_, ?_, ?_, ?_, ?_⟩
  · simp only [named]; omega
  · simp only [named]; omega
  · cases ho : x.original with
    | none => simp [named, ho]
    | some o => obtain ⟨h4, _⟩ := h3 o ho; simp [named, ho, h4]
  · intro p hp
    cases ho : x.original with
    | none => simp [named, ho] at hp
    | some o =>
      obtain ⟨_, h5, h6, h7, _⟩ := h3 o ho
      simp only [named, ho, Option.map_some, Option.some.injEq] at hp
      subst hp
      simp only
      omega
  · intro hs
    cases ho : x.original with
    | none => simp [named, ho]
    | some o => obtain ⟨h4, _⟩ := h3 o ho; simp [named, ho, h4] at hs

/-- The calls of `add_mapping` for a list. -/
def adds (ms : List Mapping) : List GOp := ms.map .add

theorem gAdded_adds (ms : List Mapping) : gAdded (adds ms) = ms := by
  induction ms with
  | nil => rfl
  | cons m ms ih => simp only [adds, List.map_cons, gAdded] at *; rw [ih]

theorem firstOccurrences_length (l : List String) : (firstOccurrences l).length ≤ l.length := by
  induction l with
  | nil => simp [firstOccurrences]
  | cons a l ih =>
    simp only [firstOccurrences, List.length_cons]
    have := List.length_filter_le (fun t => decide (t ≠ a)) (firstOccurrences l)
    omega

theorem vlqLimit_le (cfg : Cfg) : cfg.vlqLimit ≤ 2147483648 := by
  unfold Cfg.vlqLimit; split <;> omega

/-- C99: the visited mappings of any map, named and added to a new generator, are emitted as a map whose segments,
named through its own sources and names, are exactly the visited ones in the order visited; only repetitions of the
same mapping in a row are left out. -/
theorem C99_copy (hL : E.maps.Laws) {m : SourceMapJson} {u : Option String} {c₀ c c' : BasicConsumer E}
    (hb : Built m u c₀) {ops : List Op} (hrun : c₀.run ops = .ok c) {raws : List RawMapping}
    (hseg : m.Segments raws) {l : List LibMapping} (hl : c.eachMapping .generated = .ok (l, c')) (N : List String)
    (hfit : ∀ x ∈ raws, Fits c.getSources N E.cfg.vlqLimit x) (hlen : raws.length < E.cfg.vlqLimit)
    (file : Option String) (skip : Bool) :
    ∃ g j g' S' N' raws',
      (Generator.new file none skip).run E.url E.cfg (adds (l.map fun x => named c.getSources N x.raw)) = .ok g ∧
      g.asJson E.url E.cfg = .ok (j, g') ∧ j.sources = some S' ∧ j.names = some N' ∧ j.Segments raws' ∧
      raws'.map (named S' N') = withoutRepeats (l.map fun x => named c.getSources N x.raw) := by
  obtain ⟨l', c'', h1, h2, h3⟩ := C36_each_generated hL hb hrun hseg
  rw [hl] at h1
  simp only [Except.ok.injEq, Prod.mk.injEq] at h1
  obtain ⟨rfl, rfl⟩ := h1
  have hin : ∀ x ∈ l, Fits c.getSources N E.cfg.vlqLimit x.raw := fun x hx =>
    hfit _ (h2.mem_iff.1 (List.mem_map.2 ⟨x, hx, rfl⟩))
  have hll : l.length = raws.length := by rw [← h2.length_eq, List.length_map]
  generalize hms : (l.map fun x => named c.getSources N x.raw) = ms at *
  have henc : ∀ a ∈ ms, a.Encodable E.cfg := by
    intro a ha
    rw [← hms] at ha
    obtain ⟨x, hx, rfl⟩ := List.mem_map.1 ha
    exact named_encodable (hin x hx)
  have hml : ms.length = raws.length := by rw [← hms, List.length_map, hll]
  have hlim := vlqLimit_le E.cfg
  have hS : (firstOccurrences ((gAdded (adds ms)).filterMap Mapping.source)).length < E.cfg.vlqLimit := by
    rw [gAdded_adds]
    have := firstOccurrences_length (ms.filterMap Mapping.source)
    have := List.length_filterMap_le Mapping.source ms
    omega
  have hN : (firstOccurrences ((gAdded (adds ms)).filterMap Mapping.name)).length < E.cfg.vlqLimit := by
    rw [gAdded_adds]
    have := firstOccurrences_length (ms.filterMap Mapping.name)
    have := List.length_filterMap_le Mapping.name ms
    omega
  obtain ⟨g, j, g', hg, hj⟩ := C24_serialize_total E.url E.cfg file skip (adds ms)
    (fun a ha => by rw [gAdded_adds] at ha; exact ⟨(henc a ha).valid, (henc a ha).line.1⟩) (by omega) (by omega)
  have hord : (gAdded (adds ms)).Pairwise posLE := by
    rw [gAdded_adds, ← hms, List.pairwise_map]
    rw [List.pairwise_map] at h3
    refine h3.imp ?_
    intro a b hab
    simp only [posLE, named]
    omega
  obtain ⟨S', N', text, raws', j1, j2, j3, j4, j5⟩ := C74_in_order E.url E.cfg file none skip (adds ms) g g' j
    (fun a ha => by rw [gAdded_adds] at ha; exact henc a ha) hS hN hg hj hord
  rw [gAdded_adds] at j5
  have hseg' : j.Segments raws' := by
    obtain ⟨r, ⟨t, k1, k2, k3⟩, _⟩ := generator_segments E.url E.cfg file none skip (adds ms) g g' j
      (fun a ha => by rw [gAdded_adds] at ha; exact henc a ha) hS hN hg hj
    rw [j3] at k1; cases k1
    rw [j4] at k2; cases k2
    exact ⟨text, j3, j4, k3⟩
  refine ⟨g, j, g', S', N', raws', hg, hj, j1, j2, hseg', ?_⟩
  have hlg : ∀ a ∈ withoutRepeats ms, a.lastGeneratedColumn = none := by
    intro a ha
    have ha' : a ∈ ms := (List.destutter_sublist _ ms).subset ha
    rw [← hms] at ha'
    obtain ⟨x, _, rfl⟩ := List.mem_map.1 ha'
    rfl
  clear hms hseg' j4
  generalize withoutRepeats ms = out at *
  induction j5 with
  | nil => rfl
  | cons hd _ ih =>
    rw [List.map_cons, ih (fun a ha => hlg a (by simp [ha])), denotes_named hd (hlg _ (by simp))]

/-- C99, through a consumer of the copy: if no two mappings are generated at the same position, the copy is visited as
the original was, mapping by mapping with the same sources and names, by every consumer that lists the sources of the copy
as they are written. -/
theorem C99_faithful (hL : E.maps.Laws) {m : SourceMapJson} {u : Option String} {c₀ c c' : BasicConsumer E}
    (hb : Built m u c₀) {ops : List Op} (hrun : c₀.run ops = .ok c) {raws : List RawMapping}
    (hseg : m.Segments raws) {l : List LibMapping} (hl : c.eachMapping .generated = .ok (l, c')) (N : List String)
    (hfit : ∀ x ∈ raws, Fits c.getSources N E.cfg.vlqLimit x) (hlen : raws.length < E.cfg.vlqLimit)
    (hdist : raws.Pairwise fun a b => ¬ (a.line = b.line ∧ a.column = b.column))
    (file : Option String) (skip : Bool) {g g' : Generator} {j : SourceMapJson}
    (hg : (Generator.new file none skip).run E.url E.cfg (adds (l.map fun x => named c.getSources N x.raw)) = .ok g)
    (hj : g.asJson E.url E.cfg = .ok (j, g')) {u₁ : Option String} {d₀ d : BasicConsumer E} (hb₁ : Built j u₁ d₀)
    {ops₁ : List Op} (hrun₁ : d₀.run ops₁ = .ok d) (hsrc : j.sources = some d.getSources) :
    ∃ l₁ d' N', j.names = some N' ∧ d.eachMapping .generated = .ok (l₁, d') ∧
      (l₁.map fun x => named d.getSources N' x.raw) = l.map fun x => named c.getSources N x.raw := by
  obtain ⟨g₁, j₁, g₁', S', N', raws', e1, e2, j1, j2, j3, j5⟩ :=
    C99_copy hL hb hrun hseg hl N hfit hlen file skip
  rw [hg] at e1; cases e1
  rw [hj] at e2; cases e2
  rw [j1] at hsrc; cases hsrc
  obtain ⟨l', c'', h1, h2, h3⟩ := C36_each_generated hL hb hrun hseg
  rw [hl] at h1
  simp only [Except.ok.injEq, Prod.mk.injEq] at h1
  obtain ⟨rfl, rfl⟩ := h1
  have hdl : (l.map LibMapping.raw).Pairwise fun a b => ¬ (a.line = b.line ∧ a.column = b.column) :=
    (h2.pairwise_iff (fun {a b} h => fun k => h ⟨k.1.symm, k.2.symm⟩)).2 hdist
  have hms : (l.map fun x => named c.getSources N x.raw) = (l.map LibMapping.raw).map (named c.getSources N) := by
    rw [List.map_map]; rfl
  have hstrict : (l.map LibMapping.raw).Pairwise fun a b => a.line < b.line ∨ (a.line = b.line ∧ a.column < b.column) := by
    refine (h3.and hdl).imp ?_
    intro a b h
    omega
  have hno : withoutRepeats (l.map fun x => named c.getSources N x.raw) = l.map fun x => named c.getSources N x.raw := by
    unfold withoutRepeats
    refine List.destutter_of_isChain _ _ (List.Pairwise.isChain ?_)
    rw [hms, List.pairwise_map]
    refine hdl.imp ?_
    intro a b h hk
    have := hk.1
    simp only [named, Position.mk.injEq] at this
    exact h ⟨by omega, by omega⟩
  rw [hno] at j5
  have hs' : raws'.Pairwise fun a b => a.line < b.line ∨ (a.line = b.line ∧ a.column < b.column) := by
    have : (raws'.map (named d.getSources N')).Pairwise fun a b => a.generated.line < b.generated.line ∨
        (a.generated.line = b.generated.line ∧ a.generated.column < b.generated.column) := by
      rw [j5, hms, List.pairwise_map]
      refine hstrict.imp ?_
      intro a b h
      simp only [named]
      omega
    rw [List.pairwise_map] at this
    refine this.imp ?_
    intro a b h
    simp only [named] at h
    omega
  obtain ⟨l₁, d', k1, k2, k3⟩ := C36_each_generated hL hb₁ hrun₁ j3
  have heq : l₁.map LibMapping.raw = raws' := by
    have hle : raws'.Pairwise fun a b => a.line < b.line ∨ (a.line = b.line ∧ a.column ≤ b.column) :=
      hs'.imp (fun h => by omega)
    refine k2.eq_of_pairwise ?_ k3 hle
    intro a b ha hb hab hba
    have hline : a.line = b.line ∧ a.column = b.column := by omega
    have ha' := k2.mem_iff.1 ha
    by_contra hne
    have hsym : raws'.Pairwise fun a b => ¬ (a.line = b.line ∧ a.column = b.column) := hs'.imp (fun h => by omega)
    have : Std.Symm fun a b : RawMapping => ¬ (a.line = b.line ∧ a.column = b.column) :=
      ⟨fun _ _ h k => h ⟨k.1.symm, k.2.symm⟩⟩
    exact hsym.forall ha' hb hne hline
  refine ⟨l₁, d', N', j2, k1, ?_⟩
  rw [← j5, ← heq, List.map_map]
  rfl

/-- C99: copying the copy gives the copy once more, the same map in all its fields. -/
theorem C99_again (hL : E.maps.Laws) {m : SourceMapJson} {u : Option String} {c₀ c c' : BasicConsumer E}
    (hb : Built m u c₀) {ops : List Op} (hrun : c₀.run ops = .ok c) {raws : List RawMapping}
    (hseg : m.Segments raws) {l : List LibMapping} (hl : c.eachMapping .generated = .ok (l, c')) (N : List String)
    (hfit : ∀ x ∈ raws, Fits c.getSources N E.cfg.vlqLimit x) (hlen : raws.length < E.cfg.vlqLimit)
    (hdist : raws.Pairwise fun a b => ¬ (a.line = b.line ∧ a.column = b.column))
    (file : Option String) (skip : Bool) {g g' : Generator} {j : SourceMapJson}
    (hg : (Generator.new file none skip).run E.url E.cfg (adds (l.map fun x => named c.getSources N x.raw)) = .ok g)
    (hj : g.asJson E.url E.cfg = .ok (j, g')) {u₁ : Option String} {d₀ d : BasicConsumer E} (hb₁ : Built j u₁ d₀)
    {ops₁ : List Op} (hrun₁ : d₀.run ops₁ = .ok d) (hsrc : j.sources = some d.getSources) :
    ∃ l₁ d' N' g₁ g₁', j.names = some N' ∧ d.eachMapping .generated = .ok (l₁, d') ∧
      (Generator.new file none skip).run E.url E.cfg (adds (l₁.map fun x => named d.getSources N' x.raw)) = .ok g₁ ∧
      g₁.asJson E.url E.cfg = .ok (j, g₁') := by
  obtain ⟨l₁, d', N', h1, h2, h3⟩ :=
    C99_faithful hL hb hrun hseg hl N hfit hlen hdist file skip hg hj hb₁ hrun₁ hsrc
  exact ⟨l₁, d', N', g, g', h1, h2, by rw [h3]; exact hg, hj⟩

/-! The map of the crate's tests under its source root: it meets the hypotheses, and its copy has the located sources and
the same mappings. -/

example : ∀ raws, decodeMappings (demoRooted.mappings.getD "").toList = some raws →
    (∀ x ∈ raws, Fits ["/the/root/one.js", "/the/root/two.js"] ["bar", "baz", "n"] 1073741824 x) ∧
    raws.Pairwise fun a b => ¬ (a.line = b.line ∧ a.column = b.column) := by
  have : ((decodeMappings (demoRooted.mappings.getD "").toList).all fun raws => decide
      ((∀ x ∈ raws, Fits ["/the/root/one.js", "/the/root/two.js"] ["bar", "baz", "n"] 1073741824 x) ∧
        raws.Pairwise fun (a b : RawMapping) => ¬ (a.line = b.line ∧ a.column = b.column))) = true := by
    decide +kernel
  intro raws h
  rw [h] at this
  simpa using this

/-- Sources, names and mappings of the copy. -/
def copyOf (m : SourceMapJson) : Res (Option (List String) × Option (List String) × Option String) := do
  let c ← demoConsumer m
  let r ← c.eachMapping .generated
  let g ← (Generator.new none none false).run demoEnv.url demoEnv.cfg
    (adds (r.1.map fun x => named c.getSources (m.names.getD []) x.raw))
  let j ← g.asJson demoEnv.url demoEnv.cfg
  pure (j.1.sources, j.1.names, j.1.mappings)

example : copyOf demoRooted =
    .ok (some ["/the/root/one.js", "/the/root/two.js"], some ["bar", "baz", "n"], demoMap.mappings) := by decide +kernel

end RSM
