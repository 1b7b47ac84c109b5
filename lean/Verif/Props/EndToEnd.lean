import Verif.Props.Generator
import Verif.Props.Json
import Verif.Props.Sources
/-! # C59: from the generator to the consumer

For every JSON, mappings and (where needed) URL library satisfying its contract.
-/

namespace RSM
open Spec BasicConsumer

variable {E : Env}

/-- Segments that denote encodable mappings through small tables have 32-bit numbers. -/
theorem denotes_u32 {cfg : Cfg} {S N : List String} {r : RawMapping} {m : Mapping} (hm : m.Encodable cfg) (h : Denotes S N r m)
    (hS : S.length < cfg.vlqLimit) (hN : N.length < cfg.vlqLimit) : r.U32 := by
  obtain ⟨h1, h2⟩ := h
  have := cfg.vlqLimit_le
  have l1 := hm.line
  have c1 := hm.column
  rw [h1] at l1 c1
  refine ⟨by simp at l1; omega, by simp at c1; omega, ?_⟩
  intro o ho
  rw [ho] at h2
  obtain ⟨h3, ⟨s, hs, _⟩, h5⟩ := h2
  have hr := hm.range _ h3
  have hi := (List.getElem?_eq_some_iff.1 hs).1
  refine ⟨by omega, by simp at hr; omega, by simp at hr; omega, ?_⟩
  intro n hn
  rw [hn] at h5
  obtain ⟨t, ht, _⟩ := h5
  have := (List.getElem?_eq_some_iff.1 ht).1
  omega

/-- The segments of the map a generator serialises to denote the added mappings. -/
theorem generator_segments (U : UrlLib) (cfg : Cfg) (file root : Option String) (skip : Bool)
    (gops : List GOp) (g g' : Generator) (j : SourceMapJson) (henc : ∀ m ∈ gAdded gops, m.Encodable cfg)
    (hS : (firstOccurrences ((gAdded gops).filterMap Mapping.source)).length < cfg.vlqLimit)
    (hN : (firstOccurrences ((gAdded gops).filterMap Mapping.name)).length < cfg.vlqLimit)
    (hg : (Generator.new file root skip).run U cfg gops = .ok g) (hj : g.asJson U cfg = .ok (j, g')) :
    ∃ raws, j.Segments raws ∧ j.sourceRoot = root ∧
      j.sources = some (firstOccurrences ((gAdded gops).filterMap Mapping.source)) ∧
      j.names = some (firstOccurrences ((gAdded gops).filterMap Mapping.name)) ∧
      (∀ r ∈ raws, ∃ m ∈ gAdded gops, Denotes (firstOccurrences ((gAdded gops).filterMap Mapping.source))
        (firstOccurrences ((gAdded gops).filterMap Mapping.name)) r m) ∧
      (∀ m ∈ gAdded gops, ∃ r ∈ raws, Denotes (firstOccurrences ((gAdded gops).filterMap Mapping.source))
        (firstOccurrences ((gAdded gops).filterMap Mapping.name)) r m) ∧
      ((gAdded gops).Pairwise (fun a b => ¬ SameKey a b) → raws.length = (gAdded gops).length) := by
  obtain ⟨S, N, text, raws, j1, j2, j3, hd, hsort, hsound⟩ :=
    C17_generator_sound U cfg file root skip gops g _ j henc hS hN hg hj
  obtain ⟨S', N', text', raws', j1', j2', j3', hd', hcomplete, _, hcount⟩ :=
    C18_generator_complete U cfg file root skip gops g _ j henc hS hN hg hj
  obtain ⟨k1, k2⟩ := C16_generator_tables U cfg file root skip gops g _ j hg hj
  rw [j1] at j1'; cases j1'
  rw [j2] at j2'; cases j2'
  rw [j3] at j3'; cases j3'
  rw [hd] at hd'; cases hd'
  have k1' := k1
  have k2' := k2
  rw [j1] at k1
  rw [j2] at k2
  obtain rfl := Option.some.inj k1
  obtain rfl := Option.some.inj k2
  have hroot : j.sourceRoot = root := by
    obtain ⟨h1, h2, _⟩ := gRun_new hg
    obtain ⟨_, _, _, _, _, _, _, _, rfl⟩ := asJson_ok hj
    exact h2
  refine ⟨raws, ⟨text, j3, hd, ?_⟩, hroot, k1', k2', hsound, hcomplete, hcount⟩
  intro r hr
  obtain ⟨m, hm, hden⟩ := hsound r hr
  exact denotes_u32 (henc m hm) hden hS hN

/-- A consumer made from a generator is one of a map whose segments denote the added mappings. -/
theorem generator_built (hJ : E.json.Laws) (file root : Option String) (skip : Bool)
    (gops : List GOp) (g g' : Generator) (henc : ∀ m ∈ gAdded gops, m.Encodable E.cfg)
    (hS : (firstOccurrences ((gAdded gops).filterMap Mapping.source)).length < E.cfg.vlqLimit)
    (hN : (firstOccurrences ((gAdded gops).filterMap Mapping.name)).length < E.cfg.vlqLimit)
    (hg : (Generator.new file root skip).run E.url E.cfg gops = .ok g) {u : Option String}
    {c₀ : BasicConsumer E} (hc : BasicConsumer.fromSourceMap g u = .ok (c₀, g')) :
    ∃ j raws, Built j u c₀ ∧ j.Segments raws ∧ j.sourceRoot = root ∧
      j.sources = some (firstOccurrences ((gAdded gops).filterMap Mapping.source)) ∧
      j.names = some (firstOccurrences ((gAdded gops).filterMap Mapping.name)) ∧
      (∀ r ∈ raws, ∃ m ∈ gAdded gops, Denotes (firstOccurrences ((gAdded gops).filterMap Mapping.source))
        (firstOccurrences ((gAdded gops).filterMap Mapping.name)) r m) ∧
      (∀ m ∈ gAdded gops, ∃ r ∈ raws, Denotes (firstOccurrences ((gAdded gops).filterMap Mapping.source))
        (firstOccurrences ((gAdded gops).filterMap Mapping.name)) r m) ∧
      ((gAdded gops).Pairwise (fun a b => ¬ SameKey a b) → raws.length = (gAdded gops).length) := by
  simp only [BasicConsumer.fromSourceMap, Generator.asString, Res.bind_eq_ok, Res.pure_eq, Except.ok.injEq,
    Prod.mk.injEq, Prod.exists] at hc
  obtain ⟨_, g1, ⟨j, _, hj, rfl, rfl⟩, c1, hnew, rfl, rfl⟩ := hc
  obtain ⟨raws, hseg, hroot, hrest⟩ := generator_segments E.url E.cfg file root skip gops g _ j henc hS hN hg hj
  have hflat : IsI32 j.version ∧ j.sections = none := by
    obtain ⟨_, _, _, _, _, _, _, _, rfl⟩ := asJson_ok hj
    exact ⟨by show IsI32 3; decide, rfl⟩
  have hread : fromStr E.json (toStr E.json j) = some j :=
    C26_roundtrip_flat_partial E.json hJ j hflat.1 hflat.2
  exact ⟨j, raws, .inl ⟨_, hread, hnew⟩, hseg, hroot, hrest⟩

/-- C59: a consumer made from a generator, after any history of calls on either, visits exactly the added
mappings: in generated order, each segment denoting, through the map's sources and names, an added mapping,
each added mapping denoted, and one segment per mapping if no two of them agree on all compared fields. The
consumer's sources are the map's, resolved. -/
theorem C59_end_to_end (hJ : E.json.Laws) (hL : E.maps.Laws) (file root : Option String) (skip : Bool)
    (gops : List GOp) (g g' : Generator) (henc : ∀ m ∈ gAdded gops, m.Encodable E.cfg)
    (hS : (firstOccurrences ((gAdded gops).filterMap Mapping.source)).length < E.cfg.vlqLimit)
    (hN : (firstOccurrences ((gAdded gops).filterMap Mapping.name)).length < E.cfg.vlqLimit)
    (hg : (Generator.new file root skip).run E.url E.cfg gops = .ok g) {u : Option String}
    {c₀ c : BasicConsumer E} (hc : BasicConsumer.fromSourceMap g u = .ok (c₀, g')) {ops : List Op}
    (hrun : c₀.run ops = .ok c) :
    ∃ S N l c', c.eachMapping .generated = .ok (l, c') ∧
      S = firstOccurrences ((gAdded gops).filterMap Mapping.source) ∧
      N = firstOccurrences ((gAdded gops).filterMap Mapping.name) ∧
      (l.map LibMapping.raw).Pairwise (fun a b => a.line < b.line ∨ (a.line = b.line ∧ a.column ≤ b.column)) ∧
      (∀ x ∈ l, ∃ m ∈ gAdded gops, Denotes S N x.raw m) ∧
      (∀ m ∈ gAdded gops, ∃ x ∈ l, Denotes S N x.raw m) ∧
      ((gAdded gops).Pairwise (fun a b => ¬ SameKey a b) → l.length = (gAdded gops).length) ∧
      c.getSources.length = S.length ∧
      ∀ (i : Nat) s, S[i]? = some s → ∃ t, sourceUrl E root s u = .ok t ∧ c.getSources[i]? = some t := by
  obtain ⟨j, raws, hb, hseg, hroot, hsrcs, _, hsound, hcomplete, hcount⟩ :=
    generator_built hJ file root skip gops g g' henc hS hN hg hc
  obtain ⟨l, c', h1, h2, h3⟩ := C36_each_generated hL hb hrun hseg
  obtain ⟨srcs, s1, s2, s3⟩ := C28_sources hb
  rw [hsrcs] at s1
  cases s1
  have hst := C28_sources_stable hL hb hrun
  refine ⟨_, _, l, c', h1, rfl, rfl, h3, ?_, ?_, ?_, by rw [hst]; exact s2, ?_⟩
  · intro x hx
    exact hsound x.raw (h2.mem_iff.1 (List.mem_map.2 ⟨x, hx, rfl⟩))
  · intro m hm
    obtain ⟨r, hr, hden⟩ := hcomplete m hm
    obtain ⟨x, hx, rfl⟩ := List.mem_map.1 (h2.mem_iff.2 hr)
    exact ⟨x, hx, hden⟩
  · intro hpw
    rw [← hcount hpw, ← h2.length_eq, List.length_map]
  · intro i s hi
    rw [hst, ← hroot]
    exact s3 i s hi

/-- C59, that it returns: without source root and map URL, if every source is a plain URL. If moreover every
source is its own normal form, the consumer's sources are those of the added mappings. -/
theorem C59_returns (hJ : E.json.Laws) (hU : E.url.Laws) (file : Option String) (skip : Bool)
    (gops : List GOp) (henc : ∀ m ∈ gAdded gops, m.Encodable E.cfg)
    (hS : (firstOccurrences ((gAdded gops).filterMap Mapping.source)).length < E.cfg.vlqLimit)
    (hN : (firstOccurrences ((gAdded gops).filterMap Mapping.name)).length < E.cfg.vlqLimit)
    (hplain : ∀ m ∈ gAdded gops, ∀ s, m.source = some s → ∃ y, PlainUrl s.toList y) :
    ∃ (g g' : Generator) (c : BasicConsumer E), (Generator.new file none skip).run E.url E.cfg gops = .ok g ∧
      BasicConsumer.fromSourceMap g none = .ok (c, g') ∧
      ((∀ m ∈ gAdded gops, ∀ s, m.source = some s → PlainUrl s.toList s.toList) →
        c.getSources = firstOccurrences ((gAdded gops).filterMap Mapping.source)) := by
  obtain ⟨g, j, g', hg, hj⟩ := serialize_encodable E.url E.cfg file skip gops henc hS hN
  obtain ⟨k1, k2⟩ := C16_generator_tables E.url E.cfg file none skip gops g _ j hg hj
  have hflat : IsI32 j.version ∧ j.sections = none ∧ j.sourceRoot = none := by
    obtain ⟨h1, h2, _⟩ := gRun_new hg
    obtain ⟨_, _, _, _, _, _, _, _, rfl⟩ := asJson_ok hj
    refine ⟨by show IsI32 3; decide, rfl, ?_⟩
    exact h2
  have hread : fromStr E.json (toStr E.json j) = some j :=
    C26_roundtrip_flat_partial E.json hJ j hflat.1 hflat.2.1
  have hmem : ∀ s ∈ firstOccurrences ((gAdded gops).filterMap Mapping.source),
      ∃ m ∈ gAdded gops, m.source = some s := by
    intro s hs
    have := (mem_firstOccurrences _ s).1 hs
    obtain ⟨m, hm, hms⟩ := List.mem_filterMap.1 this
    exact ⟨m, hm, hms⟩
  have hmap : ∀ (ss : List String), (∀ s ∈ ss, ∃ y, PlainUrl s.toList y) →
      ∃ urls, ss.mapM (fun s => sourceUrl E none s none) = .ok urls ∧
        ((∀ s ∈ ss, PlainUrl s.toList s.toList) → urls = ss) := by
    intro ss
    induction ss with
    | nil => intro _; exact ⟨[], rfl, fun _ => rfl⟩
    | cons s ss ih =>
      intro h
      obtain ⟨y, hy⟩ := h s (by simp)
      obtain ⟨urls, h1, h2⟩ := ih (fun s hs => h s (by simp [hs]))
      have h3 := sourceUrl_plain (E := E) (hy.normalize hU)
      rw [String.ofList_toList] at h3
      refine ⟨String.ofList y :: urls, ?_, ?_⟩
      · simp only [List.mapM_cons, h3, h1, Res.ok_bind, Res.pure_eq]
      · intro hn
        have h4 := (hn s (by simp)).normalize hU
        rw [hy.normalize hU] at h4
        cases h4
        rw [h2 (fun s hs => hn s (by simp [hs])), String.ofList_toList]
  obtain ⟨urls, hurls, hsame⟩ := hmap (firstOccurrences ((gAdded gops).filterMap Mapping.source)) (by
    intro s hs
    obtain ⟨m, hm, hms⟩ := hmem s hs
    exact hplain m hm s hms)
  have hnew : ∃ c : BasicConsumer E, BasicConsumer.new (toStr E.json j) none = .ok c ∧ c.getSources = urls := by
    simp only [BasicConsumer.new, hread, unwrap, Res.ok_bind, build, k1, hflat.2.2, hurls, Res.pure_eq]
    exact ⟨_, rfl, by simp only [BasicConsumer.getSources, C07_arrayset_duplicates]⟩
  obtain ⟨c, hc, hcs⟩ := hnew
  refine ⟨g, g', c, hg, ?_, ?_⟩
  · simp only [BasicConsumer.fromSourceMap, Generator.asString, hj, Res.ok_bind, Res.pure_eq, hc]
  · intro hn
    rw [hcs, hsame]
    intro s hs
    obtain ⟨m, hm, hms⟩ := hmem s hs
    exact hn m hm s hms

/-- The history of the generator examples, read back by a consumer. -/
example : ∃ (g g' : Generator) (c : BasicConsumer demoEnv),
    (Generator.new (some "min.js") none false).run demoEnv.url demoEnv.cfg gxOps = .ok g ∧
    BasicConsumer.fromSourceMap g none = .ok (c, g') ∧ c.getSources = ["b.js", "a.js"] := by
  have hp : ∀ m ∈ gAdded gxOps, ∀ s, m.source = some s → PlainUrl s.toList s.toList := by
    intro m hm s hs
    simp only [gAdded, gxOps, List.mem_cons, List.not_mem_nil, or_false] at hm
    have ha : PlainUrl "a.js".toList "a.js".toList :=
      PlainUrl.ref ⟨[], "a.js".toList⟩ ⟨by simp, by decide⟩ (by decide)
    have hb : PlainUrl "b.js".toList "b.js".toList :=
      PlainUrl.ref ⟨[], "b.js".toList⟩ ⟨by simp, by decide⟩ (by decide)
    rcases hm with rfl | rfl | rfl | rfl <;> cases hs
    · exact hb
    · exact hb
    · exact ha
  obtain ⟨hS, hN⟩ := tables_small (ops := gxOps) (by decide)
  obtain ⟨g, g', c, h1, h2, h3⟩ := C59_returns (E := demoEnv) demo_json demo_url (some "min.js") false gxOps
    gxOps_enc hS hN (fun m hm s hs => ⟨_, hp m hm s hs⟩)
  exact ⟨g, g', c, h1, h2, (h3 hp).trans (by decide)⟩

end RSM
