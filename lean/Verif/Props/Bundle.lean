import Verif.Props.Forward
import Verif.Props.IndexedContents
import Verif.Props.Output
/-! # Property C90: an indexed map put together from the maps of generators -/

namespace RSM

open Spec

/-- One part of a bundle: where it begins in the generated file, line and column counted from 0, and the generator
that wrote its map: without a source root, with this history. -/
structure Part where
  offset : Position
  file : Option String := none
  skip : Bool := false
  ops : List GOp

namespace Part

/-- The sources of the mappings of a part, in the order of first use. -/
def sources (p : Part) : List String := firstOccurrences ((gAdded p.ops).filterMap Mapping.source)

/-- The map of the part. -/
def Writes (E : Env) (p : Part) (j : SourceMapJson) : Prop :=
  ∃ g g', (Generator.new p.file none p.skip).run E.url E.cfg p.ops = .ok g ∧ g.asJson E.url E.cfg = .ok (j, g')

/-- Mappings that can be encoded, sources that are plain URLs without superfluous steps, an offset in range. -/
structure Good (E : Env) (p : Part) : Prop where
  enc : ∀ m ∈ gAdded p.ops, m.Encodable E.cfg
  few : p.sources.length < E.cfg.vlqLimit
  names : (firstOccurrences ((gAdded p.ops).filterMap Mapping.name)).length < E.cfg.vlqLimit
  plain : ∀ s ∈ p.sources, PlainUrl s.toList s.toList
  line : 0 ≤ p.offset.line ∧ p.offset.line < 2147483647
  column : 0 ≤ p.offset.column ∧ p.offset.column < 2147483647

/-- Every source of the part has a content. -/
def Complete (p : Part) : Prop := ∀ s ∈ p.sources, latestContent id s p.ops ≠ none

end Part

/-- The sections of a bundle. -/
def bundleSections (parts : List Part) (js : List SourceMapJson) : List (JsonSection SourceMapJson) :=
  List.zipWith (fun p j => ⟨p.offset, j, none⟩) parts js

/-- The indexed map of a bundle. -/
def bundle (file : Option String) (parts : List Part) (js : List SourceMapJson) : SourceMapJson :=
  { version := 3, file := file, sections := some (bundleSections parts js) }

variable {E : Env}

theorem mem_sources {p : Part} {s : String} : s ∈ p.sources ↔ ∃ m ∈ gAdded p.ops, m.source = some s := by
  rw [Part.sources, mem_firstOccurrences, List.mem_filterMap]

theorem plain_url (hU : E.url.Laws) {s : String} (h : PlainUrl s.toList s.toList) : sourceUrl E none s none = .ok s := by
  have := sourceUrl_plain (E := E) (h.normalize hU)
  rwa [String.ofList_toList] at this

/-- C90: the maps of the parts can be written. -/
theorem C90_writes (hJ : E.json.Laws) (hU : E.url.Laws) {parts : List Part} (hgood : ∀ p ∈ parts, p.Good E) :
    ∃ js, List.Forall₂ (Part.Writes E) parts js := by
  induction parts with
  | nil => exact ⟨[], .nil⟩
  | cons p parts ih =>
    obtain ⟨js, h⟩ := ih fun q hq => hgood q (by simp [hq])
    have hp := hgood p (by simp)
    obtain ⟨g, g', c, h1, h2, _⟩ := C59_returns (E := E) hJ hU p.file p.skip p.ops hp.enc hp.few hp.names
      (fun m hm s hs => ⟨_, hp.plain s (mem_sources.2 ⟨m, hm, hs⟩)⟩)
    obtain ⟨j, hj, _⟩ := generator_json hJ h2
    exact ⟨j :: js, .cons ⟨g, g', h1, hj⟩ h⟩

theorem mem_bundle {parts : List Part} {js : List SourceMapJson} (hw : List.Forall₂ (Part.Writes E) parts js)
    {x : JsonSection SourceMapJson} (hx : x ∈ bundleSections parts js) :
    ∃ p ∈ parts, Part.Writes E p x.map ∧ x.offset = p.offset ∧ x.url = none := by
  induction hw with
  | nil => cases hx
  | @cons p j parts js hp _ ih =>
    rcases List.mem_cons.1 hx with rfl | hx
    · exact ⟨p, by simp, hp, rfl, rfl⟩
    · obtain ⟨q, hq, h⟩ := ih hx
      exact ⟨q, by simp [hq], h⟩

/-- What is used of the map of a part. -/
theorem Part.Writes.spec (hU : E.url.Laws) {p : Part} (hp : p.Good E) {j : SourceMapJson} (h : Part.Writes E p j) :
    j.sections = none ∧ j.version = 3 ∧ j.sourceRoot = none ∧ j.sources = some p.sources ∧
    LocatedAs E j none p.sources ∧
    ((∃ s, latestContent id s p.ops ≠ none) → j.sourcesContent =
      some (p.sources.filterMap fun s => latestContent id s p.ops)) ∧
    ((∀ s, latestContent id s p.ops = none) → j.sourcesContent = none) := by
  obtain ⟨g, g', h1, h2⟩ := h
  obtain ⟨a1, a2, a3, a4⟩ := C61_fixed_fields E.url E.cfg p.file none p.skip p.ops g g' j h1 h2
  obtain ⟨b1, _⟩ := C16_generator_tables E.url E.cfg p.file none p.skip p.ops g g' j h1 h2
  obtain ⟨c1, c2⟩ := C22_latest_content E.url E.cfg p.file p.skip p.ops g g' j h1 h2
  refine ⟨a4, a1, a3, b1, ⟨_, b1, ?_⟩, c1, c2⟩
  rw [a3]
  refine List.forall₂_iff_get.2 ⟨rfl, fun i hi hi' => ?_⟩
  exact plain_url hU (hp.plain _ (List.get_mem _ _))

theorem bundle_i32 (hU : E.url.Laws) {parts : List Part} {js : List SourceMapJson} (hgood : ∀ p ∈ parts, p.Good E)
    (hw : List.Forall₂ (Part.Writes E) parts js) (file : Option String) :
    (bundle file parts js).I32 ∧ (bundle file parts js).nesting ≤ 127 := by
  have hsec : ∀ x ∈ bundleSections parts js, IsI32 x.offset.line ∧ IsI32 x.offset.column ∧ x.map.I32 ∧
      x.map.nesting ≤ 2 := by
    intro x hx
    obtain ⟨p, hp, h1, h2, _⟩ := mem_bundle hw hx
    obtain ⟨a1, a2, _⟩ := h1.spec hU (hgood p hp)
    have hl := (hgood p hp).line
    have hc := (hgood p hp).column
    rw [h2]
    refine ⟨by unfold IsI32; omega, by unfold IsI32; omega, ⟨_, by rw [a2]; decide, ?_, ?_, ?_⟩, ?_⟩
    · rw [a1]; intro l hl; cases hl
    · rw [a1]; intro l hl; cases hl
    · rw [a1]; intro l hl; cases hl
    · rw [nesting_eq, a1, optNesting]
      split <;> omega
  constructor
  · refine ⟨_, by show IsI32 3; decide, ?_, ?_, ?_⟩
    · rintro l hl x hx; cases hl; exact (hsec x hx).1
    · rintro l hl x hx; cases hl; exact (hsec x hx).2.1
    · rintro l hl x hx; cases hl; exact (hsec x hx).2.2.1
  · rw [nesting_eq]
    have : sectionsNesting (bundleSections parts js) ≤ 3 := sectionsNesting_le fun x hx => by
      have := (hsec x hx).2.2.2
      omega
    show 1 + max _ (optNesting (some (bundleSections parts js))) ≤ 127
    rw [optNesting]
    split <;> omega

theorem filterMap_all {α β : Type} {f : α → Option β} : ∀ {l : List α}, (∀ a ∈ l, f a ≠ none) → ∀ (n : Nat),
    (l.filterMap f)[n]? = l[n]?.bind f := by
  intro l
  induction l with
  | nil => intro _ n; rfl
  | cons a l ih =>
    intro h n
    cases hf : f a with
    | none => exact absurd hf (h a (by simp))
    | some b =>
      rw [List.filterMap_cons, hf]
      cases n with
      | zero => simp [hf]
      | succ n => simpa using ih (fun x hx => h x (by simp [hx])) n

/-- What a section of a bundle says of a source. -/
theorem Part.Writes.content (hU : E.url.Laws) {p : Part} (hp : p.Good E) {j : SourceMapJson} (h : Part.Writes E p j)
    (hall : p.Complete) {s : String} (hs : PlainUrl s.toList s.toList) :
    (s ∈ p.sources → ∃ t, latestContent id s p.ops = some t ∧ Holds E j none s t) ∧
    (s ∉ p.sources → NotASource E j none s) := by
  obtain ⟨_, _, a3, a4, a5, a6, _⟩ := h.spec hU hp
  have hu := plain_url (E := E) hU hs
  constructor
  · intro hm
    obtain ⟨i, hi⟩ := List.mem_iff_getElem?.1 hm
    obtain ⟨n, hn, hf⟩ := exists_first hi
    cases ht : latestContent id s p.ops with
    | none => exact absurd ht (hall s hm)
    | some t =>
      refine ⟨t, rfl, _, _, n, a5, a6 ⟨s, by rw [ht]; simp⟩, ⟨s, hu, .inl hf⟩, ?_⟩
      rw [filterMap_all hall, hf.1]
      exact ht
  · intro hm
    exact ⟨_, s, s, a5, hu, hm, by rw [a3]; exact hu, hm⟩

theorem length_filterMap_ge {f : String → Option String} : ∀ (S : List String), S.length ≤ (S.filterMap f).length ↔
    ∀ s ∈ S, f s ≠ none := by
  intro S
  induction S with
  | nil => simp
  | cons a S ih =>
    have hle := List.length_filterMap_le f S
    cases ha : f a with
    | none =>
      simp only [List.filterMap_cons, ha, List.length_cons, List.mem_cons]
      constructor
      · intro h; omega
      · intro h; exact absurd ha (h a (.inl rfl))
    | some v =>
      simp only [List.filterMap_cons, ha, List.length_cons, List.mem_cons, forall_eq_or_imp, Nat.add_le_add_iff_right]
      rw [ih]
      simp

theorem bundle_length {parts : List Part} {js : List SourceMapJson} (hw : List.Forall₂ (Part.Writes E) parts js) :
    (bundleSections parts js).length = parts.length := by
  rw [bundleSections, List.length_zipWith, hw.length_eq, Nat.min_self]

theorem bundle_offsets {parts : List Part} {js : List SourceMapJson} (hw : List.Forall₂ (Part.Writes E) parts js) :
    (bundleSections parts js).map (·.offset) = parts.map Part.offset := by
  induction hw with
  | nil => rfl
  | cons _ _ ih => simpa [bundleSections] using ih

theorem bundle_create (hJ : E.json.Laws) (hU : E.url.Laws) {parts : List Part} {js : List SourceMapJson}
    (hgood : ∀ p ∈ parts, p.Good E) (hw : List.Forall₂ (Part.Writes E) parts js) (file : Option String)
    (sch : List Nat) (c : IndexedConsumer E) :
    createConsumer sch (toStr E.json (bundle file parts js)) none = .ok (some (.indexed c)) ↔
      IndexedConsumer.fromSourceMapJson sch (bundle file parts js) none = .ok c := by
  obtain ⟨h1, h2⟩ := bundle_i32 hU hgood hw file
  unfold createConsumer
  rw [C26_roundtrip_partial E.json hJ _ h1 h2]
  show (IndexedConsumer.fromSourceMapJson sch (bundle file parts js) none >>= fun c =>
    pure (some (Consumer.indexed c))) = _ ↔ _
  cases IndexedConsumer.fromSourceMapJson (E := E) sch (bundle file parts js) none <;> simp [Res.pure_eq]

/-- C90: the text of the indexed map is accepted, if the workers run in order and the parts are in order. -/
theorem C90_accepted (hJ : E.json.Laws) (hU : E.url.Laws) {parts : List Part} {js : List SourceMapJson}
    (hgood : ∀ p ∈ parts, p.Good E) (hw : List.Forall₂ (Part.Writes E) parts js) (file : Option String)
    (hord : (parts.map Part.offset).Pairwise Position.Le) :
    ∃ c : IndexedConsumer E, createConsumer (List.range parts.length) (toStr E.json (bundle file parts js)) none =
      .ok (some (.indexed c)) := by
  have hok : ∀ x ∈ bundleSections parts js, SectionOk E none x := by
    intro x hx
    obtain ⟨p, hp, h1, h2, h3⟩ := mem_bundle hw hx
    obtain ⟨_, _, a3, a4, ⟨S, b1, b2⟩, _⟩ := h1.spec hU (hgood p hp)
    have hl := (hgood p hp).line
    have hc := (hgood p hp).column
    refine ⟨h3, by rw [h2]; unfold IsI32; omega, by rw [h2]; unfold IsI32; omega, ?_⟩
    simp only [BasicConsumer.fromSourceMapJson, BasicConsumer.build, b1, unwrap, forall₂_of_mapM.2 b2, Res.ok_bind,
      Res.pure_eq]
    exact ⟨_, rfl⟩
  have hpos : ∀ x ∈ bundleSections parts js, 0 ≤ x.offset.line := by
    intro x hx
    obtain ⟨p, hp, _, h2, _⟩ := mem_bundle hw hx
    rw [h2]; exact (hgood p hp).line.1
  obtain ⟨c, hc⟩ := (C40_sequential_partial (E := E) (bundle file parts js) none
    (secs := bundleSections parts js) rfl rfl hok hpos).2 (by rw [bundle_offsets hw]; exact hord)
  rw [bundle_length hw] at hc
  exact ⟨c, (bundle_create hJ hU hgood hw file _ c).2 hc⟩

theorem bundle_sources (hU : E.url.Laws) {parts : List Part} {js : List SourceMapJson}
    (hgood : ∀ p ∈ parts, p.Good E) (hw : List.Forall₂ (Part.Writes E) parts js) :
    ((bundleSections parts js).flatMap fun s => s.map.sources.getD []) = parts.flatMap Part.sources := by
  induction hw with
  | nil => rfl
  | @cons p j parts js hp _ ih =>
    have := ih fun q hq => hgood q (by simp [hq])
    obtain ⟨_, _, _, a4, _⟩ := hp.spec hU (hgood p (by simp))
    simp only [bundleSections, List.zipWith_cons_cons, List.flatMap_cons, a4, Option.getD_some] at this ⊢
    rw [this]

theorem bundle_mem_part {parts : List Part} {js : List SourceMapJson} (hw : List.Forall₂ (Part.Writes E) parts js)
    {p : Part} (hp : p ∈ parts) : ∃ x ∈ bundleSections parts js, Part.Writes E p x.map := by
  induction hw with
  | nil => cases hp
  | @cons q j parts js hq _ ih =>
    rcases List.mem_cons.1 hp with rfl | hp
    · exact ⟨_, by rw [bundleSections, List.zipWith_cons_cons]; exact .head _, hq⟩
    · obtain ⟨x, hx, h⟩ := ih hp
      exact ⟨x, by rw [bundleSections, List.zipWith_cons_cons]; exact .tail _ hx, h⟩

theorem bundle_split {pre post : List Part} {p : Part} {js : List SourceMapJson}
    (hw : List.Forall₂ (Part.Writes E) (pre ++ p :: post) js) : ∃ j₁ j j₂, js = j₁ ++ j :: j₂ ∧
      List.Forall₂ (Part.Writes E) pre j₁ ∧ Part.Writes E p j ∧
      bundleSections (pre ++ p :: post) js = bundleSections pre j₁ ++ ⟨p.offset, j, none⟩ :: bundleSections post j₂ := by
  induction pre generalizing js with
  | nil =>
    cases hw with
    | @cons _ j _ js h1 h2 => exact ⟨[], j, js, rfl, .nil, h1, rfl⟩
  | cons q pre ih =>
    cases hw with
    | @cons _ j _ js h1 h2 =>
      obtain ⟨j₁, j', j₂, rfl, a1, a2, a3⟩ := ih h2
      refine ⟨j :: j₁, j', j₂, rfl, .cons h1 a1, a2, ?_⟩
      simp only [bundleSections, List.cons_append, List.zipWith_cons_cons] at a3 ⊢
      rw [a3]

/-- C90: what the consumer of the indexed map answers, whatever the order in which the workers ran, and whatever was
called before. `get_sources` gives the sources of the parts, one part after the other.
`has_contents_of_all_sources` is true exactly if every part has some content, and a content for each of its sources.
If every part has a content for each of its sources, `source_content_for` gives the content last set in the first
part the source is a source of, and `None`, if asked not to panic, for what is a source of no part. -/
theorem C90_answers (hL : E.maps.Laws) (hJ : E.json.Laws) (hU : E.url.Laws) {parts : List Part}
    {js : List SourceMapJson} (hgood : ∀ p ∈ parts, p.Good E) (hw : List.Forall₂ (Part.Writes E) parts js)
    (file : Option String) {sch : List Nat} (hsch : IsSchedule parts.length sch)
    {c₀ c : IndexedConsumer E}
    (h : createConsumer sch (toStr E.json (bundle file parts js)) none = .ok (some (.indexed c₀)))
    {ops : List IndexedConsumer.Op} (hrun : c₀.run ops = .ok c) :
    c.getSources = .ok (parts.flatMap Part.sources) ∧
    (∃ b, c.hasContentsOfAllSources = .ok b ∧
      (b = true ↔ ∀ p ∈ parts, (∃ s, latestContent id s p.ops ≠ none) ∧ p.Complete)) ∧
    ((∀ p ∈ parts, p.Complete) → ∀ s : String, PlainUrl s.toList s.toList →
      (∀ pre p post, parts = pre ++ p :: post → (∀ q ∈ pre, s ∉ q.sources) → s ∈ p.sources →
        ∃ t c', latestContent id s p.ops = some t ∧ c.sourceContentFor s (some false) = .ok (some t, c')) ∧
      ((∀ p ∈ parts, s ∉ p.sources) → ∃ c', c.sourceContentFor s (some false) = .ok (none, c'))) := by
  have e1 := (bundle_create hJ hU hgood hw file sch c₀).1 h
  have hs : (bundle file parts js).sections = some (bundleSections parts js) := rfl
  have h1 : IsSchedule (bundleSections parts js).length sch := by rwa [bundle_length hw]
  refine ⟨?_, ?_, ?_⟩
  · rw [(C45_sources hL hs h1 e1 hrun).2, bundle_sources hU hgood hw]
  · obtain ⟨b, hb, hiff⟩ := C68_has_contents hL hs h1 e1 hrun
    refine ⟨b, hb, hiff.trans ⟨fun hx p hp => ?_, fun hx x hmem => ?_⟩⟩
    · obtain ⟨x, hmem, hwr⟩ := bundle_mem_part hw hp
      obtain ⟨srcs, contents, b1, b2, b3⟩ := hx x hmem
      obtain ⟨_, _, _, a4, _, a6, a7⟩ := hwr.spec hU (hgood p hp)
      have hsome : ∃ s, latestContent id s p.ops ≠ none := by
        by_contra hno
        rw [a7 fun s => Classical.not_not.1 fun hn => hno ⟨s, hn⟩] at b2
        cases b2
      refine ⟨hsome, ?_⟩
      rw [a6 hsome] at b2
      rw [a4] at b1
      cases b1
      cases b2
      exact (length_filterMap_ge _).1 b3
    · obtain ⟨p, hp, hwr, _⟩ := mem_bundle hw hmem
      obtain ⟨_, _, _, a4, _, a6, _⟩ := hwr.spec hU (hgood p hp)
      exact ⟨_, _, a4, a6 (hx p hp).1, (length_filterMap_ge _).2 (hx p hp).2⟩
  · intro hall s hsp
    have hfew : ∀ j ∈ bundleSections parts js, ∀ srcs, j.map.sources = some srcs → srcs.length < 2147483648 := by
      intro x hx srcs hsrcs
      obtain ⟨p, hp, hwr, _⟩ := mem_bundle hw hx
      obtain ⟨_, _, _, a4, _⟩ := hwr.spec hU (hgood p hp)
      rw [a4] at hsrcs
      cases hsrcs
      have h2 := (hgood p hp).few
      have h3 := E.cfg.vlqLimit_le
      omega
    obtain ⟨k1, k2⟩ := C46_exact hL hs h1 e1 hrun hfew s (some false)
    constructor
    · intro pre p post heq hpre hmem
      subst heq
      obtain ⟨j₁, j, j₂, _, g1, g2, g3⟩ := bundle_split hw
      obtain ⟨t, ht, hh⟩ := (g2.content hU (hgood p (by simp)) (hall p (by simp)) hsp).1 hmem
      have hno : ∀ y ∈ bundleSections pre j₁, y.map.sourcesContent = none ∨
          (some false = some false ∧ NotASource E y.map none s) := fun y hy => by
        obtain ⟨q, hq, hwr, _⟩ := mem_bundle g1 hy
        exact .inr ⟨rfl, (hwr.content hU (hgood q (by simp [hq])) (hall q (by simp [hq])) hsp).2 (hpre q hq)⟩
      obtain ⟨c', hc'⟩ := (k1 t).2 ⟨_, _, _, g3, hno, hh⟩
      exact ⟨t, c', ht, hc'⟩
    · intro hno
      refine k2.2 ⟨rfl, fun y hy => ?_⟩
      obtain ⟨q, hq, hwr, _⟩ := mem_bundle hw hy
      exact .inr ((hwr.content hU (hgood q hq) (hall q hq) hsp).2 (hno q hq))

/-- Two parts that have the source `a.js` in common, with different contents. -/
def demoParts : List Part :=
  [{ offset := ⟨0, 0⟩, ops := contentOps },
   { offset := ⟨4, 12⟩, file := some "second.js",
     ops := [.add { generated := ⟨1, 0⟩, original := some ⟨1, 0⟩, source := some "c.js", name := some "foo" },
       .add { generated := ⟨1, 9⟩, original := some ⟨1, 4⟩, source := some "a.js" },
       .setContent "c.js" (some "C"), .setContent "a.js" (some "another A")] }]

theorem demoParts_good : ∀ p ∈ demoParts, p.Good demoEnv := by
  have ha : PlainUrl "a.js".toList "a.js".toList :=
    PlainUrl.ref ⟨[], "a.js".toList⟩ ⟨by simp, by decide⟩ (by decide)
  have hb : PlainUrl "b.js".toList "b.js".toList :=
    PlainUrl.ref ⟨[], "b.js".toList⟩ ⟨by simp, by decide⟩ (by decide)
  have hc : PlainUrl "c.js".toList "c.js".toList :=
    PlainUrl.ref ⟨[], "c.js".toList⟩ ⟨by simp, by decide⟩ (by decide)
  have hpl : ∀ p ∈ demoParts, ∀ s ∈ p.sources, s = "a.js" ∨ s = "b.js" ∨ s = "c.js" := by decide
  have hcount : ∀ p ∈ demoParts, (gAdded p.ops).length < 1073741824 := by decide
  intro p hp
  obtain ⟨hS, hN⟩ := tables_small (cfg := demoEnv.cfg) (ops := p.ops) (hcount p hp)
  refine ⟨?_, hS, hN, fun s hs => ?_, ?_, ?_⟩
  · simp only [demoParts, List.mem_cons, List.not_mem_nil, or_false] at hp
    rcases hp with rfl | rfl
    · exact revOps_enc
    · intro m hm
      simp only [gAdded, List.mem_cons, List.not_mem_nil, or_false] at hm
      rcases hm with rfl | rfl
      · exact .small (by decide) (by decide) rfl (by intro p hp; cases hp; decide) (by intro h; cases h)
      · exact .small (by decide) (by decide) rfl (by intro p hp; cases hp; decide) (by intro h; cases h)
  · rcases hpl p hp s hs with rfl | rfl | rfl
    · exact ha
    · exact hb
    · exact hc
  · have : ∀ p ∈ demoParts, 0 ≤ p.offset.line ∧ p.offset.line < 2147483647 := by decide
    exact this p hp
  · have : ∀ p ∈ demoParts, 0 ≤ p.offset.column ∧ p.offset.column < 2147483647 := by decide
    exact this p hp

/-- The bundle of `demoParts` is accepted, and answers as said. -/
example : ∃ (js : List SourceMapJson) (c c₁ c₂ c₃ : IndexedConsumer demoEnv),
    List.Forall₂ (Part.Writes demoEnv) demoParts js ∧
    createConsumer [0, 1] (toStr demoEnv.json (bundle (some "all.js") demoParts js)) none = .ok (some (.indexed c)) ∧
    c.getSources = .ok ["b.js", "a.js", "c.js", "a.js"] ∧ c.hasContentsOfAllSources = .ok true ∧
    c.sourceContentFor "a.js" (some false) = .ok (some "A", c₁) ∧
    c.sourceContentFor "c.js" (some false) = .ok (some "C", c₂) ∧
    c.sourceContentFor "d.js" (some false) = .ok (none, c₃) := by
  obtain ⟨js, hw⟩ := C90_writes demo_json demo_url demoParts_good
  obtain ⟨c, hc⟩ := C90_accepted demo_json demo_url demoParts_good hw (some "all.js")
    (by simp [demoParts, Position.Le])
  obtain ⟨h1, ⟨b, h2, h3⟩, h4⟩ := C90_answers demo_maps demo_json demo_url demoParts_good hw (some "all.js")
    (List.Perm.refl _) hc (ops := []) rfl
  have hall : ∀ p ∈ demoParts, p.Complete := by unfold Part.Complete; decide
  have hb : b = true := h3.2 fun p hp => ⟨⟨"a.js", (by decide : ∀ p ∈ demoParts, latestContent id "a.js" p.ops ≠ none) p hp⟩,
    hall p hp⟩
  obtain ⟨t, c₁, k1, k2⟩ := (h4 hall "a.js" (PlainUrl.ref ⟨[], "a.js".toList⟩ ⟨by simp, by decide⟩ (by decide))).1 []
    _ _ rfl (by simp) (by decide)
  obtain ⟨t', c₂, l1, l2⟩ := (h4 hall "c.js" (PlainUrl.ref ⟨[], "c.js".toList⟩ ⟨by simp, by decide⟩ (by decide))).1 [_]
    _ _ rfl (by decide) (by decide)
  obtain ⟨c₃, m1⟩ := (h4 hall "d.js" (PlainUrl.ref ⟨[], "d.js".toList⟩ ⟨by simp, by decide⟩ (by decide))).2 (by decide)
  refine ⟨js, c, c₁, c₂, c₃, hw, hc, h1, hb ▸ h2, ?_, ?_, m1⟩
  · rw [k2]
    have : latestContent id "a.js" contentOps = some "A" := by decide
    rw [show t = "A" from Option.some.inj (k1.symm.trans this)]
  · rw [l2, show t' = "C" from Option.some.inj (l1.symm.trans (by decide))]

end RSM
