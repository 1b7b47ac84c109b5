import Verif.Props.IndexedSession
import Verif.Props.EndSession
import Verif.Props.Bundle
/-! # Property C126: which programs that ask an indexed map put together from generated maps end without a panic -/

namespace RSM
open Spec IndexedConsumer

variable {E : Env}

/-- Some content is held at the end of the calls of the part. -/
def Part.Held (p : Part) : Prop := ∃ s, latestContent id s p.ops ≠ none

open Classical in
/-- What `source_content_for` of an indexed map of these parts answers, `none` for a panic. The parts are asked one after the other;
those without contents pass. A part that has the source answers with the content under the number of the source, if there are as
many; one that has not ends the search with a panic, unless `panic_on_missing` is `Some(false)`. -/
noncomputable def bundleContent (s : String) (quiet : Option Bool) : List Part → Option (Option String)
  | [] => if quiet = some false then some none else none
  | p :: parts =>
    if ¬ p.Held then bundleContent s quiet parts
    else if s ∈ p.sources then ((p.sources.filterMap fun t => latestContent id t p.ops)[p.sources.idxOf s]?).map some
    else if quiet = some false then bundleContent s quiet parts
    else none

/-- What a call needs in order to return. -/
def BundleNeeds (parts : List Part) : IndexedConsumer.Op → Prop
  | .original _ _ => True
  | .spans => True
  | .content s q => bundleContent s q parts ≠ none
  | .generated _ _ _ _ => parts = []
  | .all _ _ _ => parts = []
  | .each _ => parts = []

theorem split_cons {α : Type} {P Q : α → Prop} {a : α} {l : List α} :
    (∃ pre x post, a :: l = pre ++ x :: post ∧ (∀ y ∈ pre, P y) ∧ Q x) ↔
      Q a ∨ (P a ∧ ∃ pre x post, l = pre ++ x :: post ∧ (∀ y ∈ pre, P y) ∧ Q x) := by
  constructor
  · rintro ⟨pre, x, post, e, h1, h2⟩
    cases pre with
    | nil => cases e; exact .inl h2
    | cons b pre =>
      cases e
      exact .inr ⟨h1 _ (by simp), pre, x, post, rfl, fun y hy => h1 y (by simp [hy]), h2⟩
  · rintro (h | ⟨h, pre, x, post, rfl, h1, h2⟩)
    · exact ⟨[], a, l, rfl, by simp, h⟩
    · exact ⟨a :: pre, x, post, rfl, by simpa using ⟨h, h1⟩, h2⟩

theorem LocatedAs.unique {j : SourceMapJson} {u : Option String} {L L' : List String} (h : LocatedAs E j u L)
    (h' : LocatedAs E j u L') : L' = L := by
  obtain ⟨s, a1, a2⟩ := h
  obtain ⟨s', b1, b2⟩ := h'
  rw [a1] at b1
  cases b1
  have e1 := forall₂_of_mapM.2 a2
  have e2 := forall₂_of_mapM.2 b2
  rw [e1] at e2
  cases e2
  rfl

/-- What the section of a part says of a source. -/
theorem Part.Writes.says (hU : E.url.Laws) {p : Part} (hp : p.Good E) {j : SourceMapJson} (h : Part.Writes E p j) {s : String}
    (hs : PlainUrl s.toList s.toList) : (j.sourcesContent = none ↔ ¬ p.Held) ∧ (NotASource E j none s ↔ s ∉ p.sources) ∧
    ∀ t, Holds E j none s t ↔ p.Held ∧ s ∈ p.sources ∧
      (p.sources.filterMap fun t => latestContent id t p.ops)[p.sources.idxOf s]? = some t := by
  obtain ⟨_, _, a3, a4, a5, a6, a7⟩ := h.spec hU hp
  have hu := plain_url (E := E) hU hs
  have hheld : ¬ p.Held → j.sourcesContent = none := fun hn => a7 fun t => Classical.byContradiction fun ht => hn ⟨t, ht⟩
  refine ⟨⟨fun e hh => ?_, hheld⟩, ⟨?_, fun hm => ⟨_, s, s, a5, hu, hm, by rw [a3]; exact hu, hm⟩⟩, fun t => ⟨?_, ?_⟩⟩
  · rw [a6 hh] at e; cases e
  · rintro ⟨L, t, t', b1, b2, b3, _⟩
    rw [hu] at b2
    cases b2
    rwa [a5.unique b1] at b3
  · rintro ⟨L, contents, n, b1, b2, b3, b4⟩
    obtain rfl := a5.unique b1
    have hh : p.Held := Classical.byContradiction fun hn => by rw [hheld hn] at b2; cases b2
    rw [a6 hh] at b2
    cases b2
    obtain ⟨t, c1, c2⟩ := b3
    rw [hu] at c1
    cases c1
    rw [a3, hu] at c2
    have hf : IsFirst p.sources s n := by
      rcases c2 with c2 | ⟨c2, t', c3, c4⟩
      · exact c2
      · cases c3; exact c4
    exact ⟨hh, List.mem_iff_getElem?.2 ⟨n, hf.1⟩, by rw [idxOf_first hf]; exact b4⟩
  · rintro ⟨hh, hm, ht⟩
    exact ⟨_, _, _, a5, a6 hh, ⟨s, hu, .inl (first_idxOf hm)⟩, ht⟩

theorem bundle_content_iff (hU : E.url.Laws) {s : String} (hs : PlainUrl s.toList s.toList) (q : Option Bool)
    {parts : List Part} {js : List SourceMapJson} (hgood : ∀ p ∈ parts, p.Good E)
    (hw : List.Forall₂ (Part.Writes E) parts js) :
    (∀ t, (∃ pre x post, bundleSections parts js = pre ++ x :: post ∧
      (∀ y ∈ pre, y.map.sourcesContent = none ∨ (q = some false ∧ NotASource E y.map none s)) ∧ Holds E x.map none s t) ↔
        bundleContent s q parts = some (some t)) ∧
    ((q = some false ∧ ∀ y ∈ bundleSections parts js, y.map.sourcesContent = none ∨ NotASource E y.map none s) ↔
      bundleContent s q parts = some none) := by
  induction hw with
  | nil =>
    constructor
    · intro t
      constructor
      · rintro ⟨pre, x, post, e, _⟩
        cases pre <;> cases e
      · simp [bundleContent]
    · by_cases h : q = some false <;> simp [bundleSections, bundleContent, h]
  | @cons p j parts js hpj _ ih =>
    obtain ⟨ih1, ih2⟩ := ih fun q hq => hgood q (by simp [hq])
    obtain ⟨c1, c2, c3⟩ := hpj.says hU (hgood p (by simp)) hs
    have hb : bundleSections (p :: parts) (j :: js) = ⟨p.offset, j, none⟩ :: bundleSections parts js := rfl
    constructor
    · intro t
      rw [hb, split_cons, ih1 t]
      simp only [c1, c2, c3, bundleContent]
      by_cases h1 : p.Held <;> by_cases h2 : s ∈ p.sources <;> by_cases h3 : q = some false <;> simp [h1, h2, h3]
    · rw [hb]
      simp only [List.mem_cons, forall_eq_or_imp, c1, c2, bundleContent]
      by_cases h1 : p.Held <;> by_cases h2 : s ∈ p.sources <;> by_cases h3 : q = some false <;>
        simp [h1, h2, h3] at ih2 ⊢ <;> exact ih2

theorem bundle_few (hU : E.url.Laws) {parts : List Part} {js : List SourceMapJson} (hgood : ∀ p ∈ parts, p.Good E)
    (hw : List.Forall₂ (Part.Writes E) parts js) :
    ∀ j ∈ bundleSections parts js, ∀ srcs, j.map.sources = some srcs → srcs.length < 2147483648 := by
  intro x hx srcs hsrcs
  obtain ⟨p, hp, hwr, _⟩ := mem_bundle hw hx
  obtain ⟨_, _, _, a4, _⟩ := hwr.spec hU (hgood p hp)
  rw [a4] at hsrcs
  cases hsrcs
  have h2 := (hgood p hp).few
  have h3 := E.cfg.vlqLimit_le
  omega

/-- C126, contents: what `source_content_for` of an indexed map of generated parts answers, and that it panics otherwise; after
any calls. -/
theorem C126_content (hL : E.maps.Laws) (hJ : E.json.Laws) (hU : E.url.Laws) {parts : List Part}
    {js : List SourceMapJson} (hgood : ∀ p ∈ parts, p.Good E) (hw : List.Forall₂ (Part.Writes E) parts js)
    (file : Option String) {sch : List Nat} (hsch : IsSchedule parts.length sch) {c₀ c : IndexedConsumer E}
    (h : createConsumer sch (toStr E.json (bundle file parts js)) none = .ok (some (.indexed c₀)))
    {ops : List IndexedConsumer.Op} (hrun : c₀.run ops = .ok c) {s : String} (hs : PlainUrl s.toList s.toList)
    (q : Option Bool) (r : Option String) :
    (∃ c', c.sourceContentFor s q = .ok (r, c')) ↔ bundleContent s q parts = some r := by
  have e1 := (bundle_create hJ hU hgood hw file sch c₀).1 h
  obtain ⟨k1, k2⟩ := C46_exact hL (secs := bundleSections parts js) rfl (by rwa [bundle_length hw]) e1 hrun
    (bundle_few hU hgood hw) s q
  obtain ⟨b1, b2⟩ := bundle_content_iff hU hs q hgood hw
  cases r with
  | some t => rw [← b1 t]; exact k1 t
  | none => rw [← b2]; exact k2

/-- C126: a session with the consumer of an indexed map of generated parts ends without a panic if and only if every call has
what it needs, in terms of what was added and set in the parts. -/
theorem C126_returns_iff (hL : E.maps.Laws) (hT : E.maps.Total) (hJ : E.json.Laws) (hU : E.url.Laws) {parts : List Part}
    {js : List SourceMapJson} (hlen : parts.length < 2147483647) (hgood : ∀ p ∈ parts, p.Good E)
    (hord : (parts.map Part.offset).Pairwise Position.Le) (hw : List.Forall₂ (Part.Writes E) parts js)
    (file : Option String) {sch : List Nat} (hsch : IsSchedule parts.length sch) {c : IndexedConsumer E}
    (h : createConsumer sch (toStr E.json (bundle file parts js)) none = .ok (some (.indexed c)))
    {ops : List IndexedConsumer.Op} (hop : ∀ op ∈ ops, IdxAskable op)
    (hplain : ∀ s q, IndexedConsumer.Op.content s q ∈ ops → PlainUrl s.toList s.toList) :
    (∃ c', c.run ops = .ok c') ↔ ∀ op ∈ ops, BundleNeeds parts op := by
  have e1 := (bundle_create hJ hU hgood hw file sch c).1 h
  have hlim := E.cfg.vlqLimit_le
  have hfit : SectionsFit (bundleSections parts js) := by
    refine ⟨by rwa [bundle_length hw], ?_, ?_, ?_⟩
    · intro x hx
      obtain ⟨p, hp, _, h2, _⟩ := mem_bundle hw hx
      have hl := (hgood p hp).line
      have hc := (hgood p hp).column
      rw [← h2] at hl hc
      exact ⟨hl.1, hc.1, by unfold IsI32; omega, by unfold IsI32; omega⟩
    · have := hord
      rw [← bundle_offsets hw, List.pairwise_map] at this
      exact this
    · intro x hx
      obtain ⟨p, hp, ⟨g, g', hg, hj⟩, _⟩ := mem_bundle hw hx
      obtain ⟨raws, d1, _, d2, d3, d4, _⟩ := generator_segments E.url E.cfg p.file none p.skip p.ops g g' x.map
        (hgood p hp).enc (hgood p hp).few (hgood p hp).names hg hj
      have hf := (hgood p hp).few
      refine ⟨raws, _, _, d1, d3, d2, by unfold Part.sources at hf; omega, fun r hr => ?_⟩
      obtain ⟨m, hm, hd⟩ := d4 r hr
      exact denotes_fits ((hgood p hp).enc m hm) hd rfl
  rw [C123_returns_iff hL hT (secs := bundleSections parts js) rfl (by rwa [bundle_length hw]) e1 hfit hop]
  refine forall₂_congr fun op hm => ?_
  have hnil : bundleSections parts js = [] ↔ parts = [] := by
    rw [← List.length_eq_zero_iff, bundle_length hw, List.length_eq_zero_iff]
  cases op with
  | original p b => exact Iff.rfl
  | spans => exact Iff.rfl
  | generated s l k b => exact hnil
  | all s l k => exact hnil
  | each o => exact hnil
  | content s q =>
    obtain ⟨b1, b2⟩ := bundle_content_iff hU (hplain s q hm) q hgood hw
    simp only [IdxNeeds, BundleNeeds]
    rw [b2]
    constructor
    · rintro (⟨t, ht⟩ | e)
      · rw [(b1 t).1 ht]; simp
      · rw [e]; simp
    · intro hn
      cases hb : bundleContent s q parts with
      | none => exact absurd hb hn
      | some r =>
        cases r with
        | none => exact .inr rfl
        | some t => exact .inl ⟨t, (b1 t).2 hb⟩

/-- Two parts: of the sources of the first only the second has a content. -/
def gapParts : List Part :=
  [{ offset := ⟨0, 0⟩, ops := endOps },
   { offset := ⟨4, 12⟩, ops := [.add { generated := ⟨1, 0⟩, original := some ⟨1, 0⟩, source := some "c.js", name := some "foo" },
       .setContent "c.js" (some "C")] }]

theorem gapParts_good : ∀ p ∈ gapParts, p.Good demoEnv := by
  have ha : PlainUrl "a.js".toList "a.js".toList :=
    PlainUrl.ref ⟨[], "a.js".toList⟩ ⟨by simp, by decide⟩ (by decide)
  have hb : PlainUrl "b.js".toList "b.js".toList :=
    PlainUrl.ref ⟨[], "b.js".toList⟩ ⟨by simp, by decide⟩ (by decide)
  have hc : PlainUrl "c.js".toList "c.js".toList :=
    PlainUrl.ref ⟨[], "c.js".toList⟩ ⟨by simp, by decide⟩ (by decide)
  have hpl : ∀ p ∈ gapParts, ∀ s ∈ p.sources, s = "a.js" ∨ s = "b.js" ∨ s = "c.js" := by decide
  have hcount : ∀ p ∈ gapParts, (gAdded p.ops).length < 1073741824 := by decide
  intro p hp
  obtain ⟨hS, hN⟩ := tables_small (cfg := demoEnv.cfg) (ops := p.ops) (hcount p hp)
  refine ⟨?_, hS, hN, fun s hs => ?_, ?_, ?_⟩
  · simp only [gapParts, List.mem_cons, List.not_mem_nil, or_false] at hp
    rcases hp with rfl | rfl
    · exact revOps_enc
    · intro m hm
      simp only [gAdded, List.mem_cons, List.not_mem_nil, or_false] at hm
      subst hm
      exact .small (by decide) (by decide) rfl (by intro p hp; cases hp; decide) (by intro h; cases h)
  · rcases hpl p hp s hs with rfl | rfl | rfl
    · exact ha
    · exact hb
    · exact hc
  · have : ∀ p ∈ gapParts, 0 ≤ p.offset.line ∧ p.offset.line < 2147483647 := by decide
    exact this p hp
  · have : ∀ p ∈ gapParts, 0 ≤ p.offset.column ∧ p.offset.column < 2147483647 := by decide
    exact this p hp

/-- The hypotheses hold together, and the condition tells calls apart: the content of the second part is found only if asked not to panic;
the first source of the first part gets the content of the second, which gets none. -/
theorem C126_case : (∃ (js : List SourceMapJson) (c : IndexedConsumer demoEnv), List.Forall₂ (Part.Writes demoEnv) gapParts js ∧
      createConsumer [0, 1] (toStr demoEnv.json (bundle none gapParts js)) none = .ok (some (.indexed c))) ∧
    (∀ p ∈ gapParts, p.Good demoEnv) ∧ (gapParts.map Part.offset).Pairwise Position.Le ∧ IsSchedule gapParts.length [0, 1] ∧
    bundleContent "c.js" (some false) gapParts = some (some "C") ∧ bundleContent "c.js" none gapParts = none ∧
    bundleContent "b.js" none gapParts = some (some "x") ∧ bundleContent "a.js" (some false) gapParts = none ∧
    bundleContent "no.js" (some false) gapParts = some none := by
  have h1 : Part.Held { offset := ⟨0, 0⟩, ops := endOps } := ⟨"a.js", by decide +kernel⟩
  have h2 : Part.Held { offset := ⟨4, 12⟩, ops := [.add { generated := ⟨1, 0⟩, original := some ⟨1, 0⟩, source := some "c.js", name := some "foo" },
       .setContent "c.js" (some "C")] } := ⟨"c.js", by decide +kernel⟩
  have e1 : Part.sources { offset := ⟨0, 0⟩, ops := endOps } = ["b.js", "a.js"] := by decide +kernel
  have e2 : Part.sources { offset := ⟨4, 12⟩, ops := [.add { generated := ⟨1, 0⟩, original := some ⟨1, 0⟩, source := some "c.js", name := some "foo" },
       .setContent "c.js" (some "C")] } = ["c.js"] := by decide +kernel
  refine ⟨?_, gapParts_good, by simp [gapParts, Position.Le], List.Perm.refl _, ?_⟩
  · obtain ⟨js, hw⟩ := C90_writes demo_json demo_url gapParts_good
    obtain ⟨c, hc⟩ := C90_accepted demo_json demo_url gapParts_good hw none (by simp [gapParts, Position.Le])
    exact ⟨js, c, hw, hc⟩
  · simp only [bundleContent, gapParts, h1, h2, e1, e2]
    decide +kernel

end RSM
