import Verif.Props.MapUrl
import Verif.Props.EndToEnd
import Verif.Props.Indexed
/-! # C79: `consume` hands a consumer of the text to the callback

For every JSON, mappings and URL library satisfying its contract. -/

namespace RSM
open Spec

variable {E : Env}

/-- C79 for a basic map with plain sources and the URL of a map at most one directory deep (for deeper ones
see C57 and `C79_exact`): `consume` runs the callback, whatever it does, on one consumer of the map in the text, whose sources are
the sources of the map resolved against the source root and the URL; its result or panic is that of the callback. -/
theorem C79_basic_shallow (hU : E.url.Laws) {raw : Text} {m : SourceMapJson} (hm : fromStr E.json raw = some m)
    {o : Origin} {l : Loc} (ho : o.Valid) (hl : l.Valid) (hdepth : l.dirs.length ≤ 1) {srcs urls : List Text}
    (hs : m.sources = some (srcs.map String.ofList))
    (hurl : List.Forall₂ (fun s z => ∃ y, Computable (m.sourceRoot.map String.toList) s y ∧ AtMap o l.dirs y z)
      srcs urls) :
    ∃ c : BasicConsumer E, BasicConsumer.Built m (some (String.ofList (o.text ++ l.text))) c ∧
      c.getSources = urls.map String.ofList ∧
      ∀ {α : Type} (f : BasicConsumer E → Res α),
        BasicConsumer.consume raw (String.ofList (o.text ++ l.text)) f = f c := by
  have hmap : (srcs.map String.ofList).mapM
      (fun s => sourceUrl E m.sourceRoot s (some (String.ofList (o.text ++ l.text)))) =
      .ok (urls.map String.ofList) := by
    clear hs hm
    induction hurl with
    | nil => rfl
    | cons h _ ih =>
      obtain ⟨y, h1, h2⟩ := h
      simp only [List.map_cons, List.mapM_cons, sourceUrl, Option.map_some, String.toList_ofList,
        C57_root_partial hU ho hl hdepth h1 h2, Res.ok_bind, Res.pure_eq] at ih ⊢
      rw [ih]
      rfl
  obtain ⟨c, hc, hget⟩ : ∃ c : BasicConsumer E,
      BasicConsumer.new raw (some (String.ofList (o.text ++ l.text))) = .ok c ∧
      c.getSources = urls.map String.ofList := by
    simp only [BasicConsumer.new, BasicConsumer.build, hm, hs, unwrap, hmap, Res.ok_bind, Res.pure_eq]
    exact ⟨_, rfl, by simp only [BasicConsumer.getSources, C07_arrayset_duplicates]⟩
  refine ⟨c, .inl ⟨raw, hm, hc⟩, hget, ?_⟩
  intro α f
  simp only [BasicConsumer.consume, hc, Res.ok_bind]

/-- The crate's own test map under a relative root, consumed at a URL by callbacks that return and that panic. -/
example : ∃ raw, fromStr demoEnv.json raw = some { demoMap with sourceRoot := some "../lib" } ∧
    BasicConsumer.consume (E := demoEnv) raw "https://example.com/js/app.map" (fun c => pure c.getSources) =
      .ok ["https://example.com/lib/one.js", "https://example.com/lib/two.js"] ∧
    BasicConsumer.consume (E := demoEnv) raw "https://example.com/js/app.map"
      (fun _ => (.error (.explicit "no") : Res Unit)) = .error (.explicit "no") := by
  have hm : fromStr demoEnv.json (toStr demoEnv.json { demoMap with sourceRoot := some "../lib" }) = some _ :=
    C26_roundtrip_flat_partial _ demo_json _ (by decide) rfl
  obtain ⟨c, _, h1, h2⟩ := C79_basic_shallow demo_url hm
    (o := ⟨"https".toList, "example.com".toList, none⟩) (l := ⟨["js".toList], "app.map".toList⟩) (by decide +kernel)
    (by decide) (by decide) (srcs := ["one.js".toList, "two.js".toList])
    (urls := ["https://example.com/lib/one.js".toList, "https://example.com/lib/two.js".toList]) rfl
    (.cons ⟨_, .relative ⟨["..".toList], "lib".toList⟩ ⟨[], "one.js".toList⟩ (by decide) (by decide) (by decide)
        (by decide) (by decide), .ref (Ref.below ⟨["..".toList], "lib".toList⟩ ⟨[], "one.js".toList⟩) (by decide)
        (by decide)⟩
      (.cons ⟨_, .relative ⟨["..".toList], "lib".toList⟩ ⟨[], "two.js".toList⟩ (by decide) (by decide) (by decide)
        (by decide) (by decide), .ref (Ref.below ⟨["..".toList], "lib".toList⟩ ⟨[], "two.js".toList⟩) (by decide)
        (by decide)⟩ .nil))
  exact ⟨_, hm, (h2 _).trans (congrArg Except.ok h1), h2 _⟩

/-- C79, texts that are not a map: both `consume` panic and never get to the callback. -/
theorem C79_invalid {raw : Text} (hm : fromStr E.json raw = none) (u : String) (schedule : List Nat) {α : Type} :
    (∀ f : BasicConsumer E → Res α, BasicConsumer.consume raw u f = .error .unwrap) ∧
    (∀ f : IndexedConsumer E → Res α, IndexedConsumer.consume schedule raw u f = .error .unwrap) := by
  constructor <;> intro f
  · simp only [BasicConsumer.consume, BasicConsumer.new, hm, unwrap, Res.error_bind]
  · simp only [IndexedConsumer.consume, IndexedConsumer.new, hm, unwrap, Res.error_bind]

example : BasicConsumer.consume (E := demoEnv) "[3".toList "http://h/a.map" (fun c => pure c.getSources) = .error .unwrap :=
  (C79_invalid (by decide +kernel) _ []).1 _

/-- C79 for a text written by a generator: if the sources resolve, a callback that visits the mappings sees
exactly those added to the generator, in generated order. -/
theorem C79_generator (hJ : E.json.Laws) (hL : E.maps.Laws) (file root : Option String) (skip : Bool)
    (gops : List GOp) (g g' : Generator) (henc : ∀ m ∈ gAdded gops, m.Encodable E.cfg)
    (hS : (firstOccurrences ((gAdded gops).filterMap Mapping.source)).length < E.cfg.vlqLimit)
    (hN : (firstOccurrences ((gAdded gops).filterMap Mapping.name)).length < E.cfg.vlqLimit)
    (hg : (Generator.new file root skip).run E.url E.cfg gops = .ok g) {text : Text}
    (htext : g.asString E = .ok (text, g')) (u : String)
    (hres : ∀ m ∈ gAdded gops, ∀ s, m.source = some s → ∃ t, sourceUrl E root s (some u) = .ok t) :
    ∃ S N l, S = firstOccurrences ((gAdded gops).filterMap Mapping.source) ∧
      N = firstOccurrences ((gAdded gops).filterMap Mapping.name) ∧
      BasicConsumer.consume (E := E) text u (fun c => (c.eachMapping .generated).map Prod.fst) = .ok l ∧
      (l.map LibMapping.raw).Pairwise (fun a b => a.line < b.line ∨ (a.line = b.line ∧ a.column ≤ b.column)) ∧
      (∀ x ∈ l, ∃ m ∈ gAdded gops, Denotes S N x.raw m) ∧
      (∀ m ∈ gAdded gops, ∃ x ∈ l, Denotes S N x.raw m) ∧
      ((gAdded gops).Pairwise (fun a b => ¬ SameKey a b) → l.length = (gAdded gops).length) := by
  have htext' := htext
  simp only [Generator.asString, Res.bind_eq_ok, Res.pure_eq, Except.ok.injEq, Prod.mk.injEq, Prod.exists] at htext
  obtain ⟨j, g₁, hj, rfl, rfl⟩ := htext
  obtain ⟨k1, _⟩ := C16_generator_tables E.url E.cfg file root skip gops g _ j hg hj
  have hflat : IsI32 j.version ∧ j.sections = none ∧ j.sourceRoot = root := by
    obtain ⟨h1, h2, _⟩ := gRun_new hg
    obtain ⟨_, _, _, _, _, _, _, _, rfl⟩ := asJson_ok hj
    exact ⟨by show IsI32 3; decide, rfl, h2⟩
  have hread : fromStr E.json (toStr E.json j) = some j :=
    C26_roundtrip_flat_partial E.json hJ j hflat.1 hflat.2.1
  obtain ⟨urls, hurls⟩ := mapM_ok_of (f := fun s => sourceUrl E root s (some u))
    (l := firstOccurrences ((gAdded gops).filterMap Mapping.source)) (by
      intro s hs
      obtain ⟨m, hm, hms⟩ := List.mem_filterMap.1 ((mem_firstOccurrences _ s).1 hs)
      exact hres m hm s hms)
  obtain ⟨c, hc⟩ : ∃ c : BasicConsumer E, BasicConsumer.new (toStr E.json j) (some u) = .ok c := by
    simp only [BasicConsumer.new, hread, unwrap, Res.ok_bind, BasicConsumer.build, k1, hflat.2.2, hurls, Res.pure_eq]
    exact ⟨_, rfl⟩
  have hfrom : BasicConsumer.fromSourceMap g (some u) = .ok (c, g₁) := by
    simp only [BasicConsumer.fromSourceMap, htext', Res.ok_bind, Res.pure_eq, hc]
  obtain ⟨S, N, l, c', h1, h2, h3, h4, h5, h6, h7, _⟩ :=
    C59_end_to_end hJ hL file root skip gops g g₁ henc hS hN hg hfrom (ops := []) rfl
  refine ⟨S, N, l, h2, h3, ?_, h4, h5, h6, h7⟩
  simp only [BasicConsumer.consume, hc, Res.ok_bind, h1]
  rfl

/-- The history of the generator examples, written, and consumed at a URL. -/
example : ∃ text l, BasicConsumer.consume (E := demoEnv) text "http://h/js/app.map"
      (fun c => (c.eachMapping .generated).map Prod.fst) = .ok l ∧ l ≠ [] ∧
    ∀ m ∈ gAdded gxOps, ∃ x ∈ l, Denotes (firstOccurrences ((gAdded gxOps).filterMap Mapping.source))
      (firstOccurrences ((gAdded gxOps).filterMap Mapping.name)) x.raw m := by
  obtain ⟨hS, hN⟩ := tables_small (ops := gxOps) (by decide)
  obtain ⟨g, j, g', hg, hj⟩ := serialize_encodable demoEnv.url demoEnv.cfg (some "min.js") false gxOps gxOps_enc hS hN
  have ht : g.asString demoEnv = .ok (toStr demoEnv.json j, g') := by
    simp only [Generator.asString, hj, Res.ok_bind, Res.pure_eq]
  obtain ⟨S, N, l, rfl, rfl, h1, _, _, h2, _⟩ := C79_generator demo_json demo_maps (some "min.js") none false gxOps g g'
    gxOps_enc hS hN hg ht "http://h/js/app.map" (by
      intro m hm s hs
      simp only [gAdded, gxOps, List.mem_cons, List.not_mem_nil, or_false] at hm
      rcases hm with rfl | rfl | rfl | rfl <;> cases hs
      · exact ⟨"http://h/js/b.js", by decide +kernel⟩
      · exact ⟨"http://h/js/b.js", by decide +kernel⟩
      · exact ⟨"http://h/js/a.js", by decide +kernel⟩)
  refine ⟨_, l, h1, ?_, h2⟩
  rintro rfl
  obtain ⟨x, hx, _⟩ := h2 gxP (by simp [gAdded, gxOps])
  cases hx

/-- C79 for an indexed map with ordered sections and the workers in order (for the other orders see `C79_indexed`):
the callback runs on one consumer of the map, whose sources are those of the sections. -/
theorem C79_indexed_in_order (hL : E.maps.Laws) {raw : Text} {m : SourceMapJson} (hm : fromStr E.json raw = some m)
    {secs : List (JsonSection SourceMapJson)} (hv : m.version = 3) (hs : m.sections = some secs) (u : String)
    (hok : ∀ s ∈ secs, SectionOk E (some u) s) (hpos : ∀ s ∈ secs, 0 ≤ s.offset.line)
    (hord : (secs.map (·.offset)).Pairwise Position.Le) :
    ∃ c : IndexedConsumer E, IndexedConsumer.fromSourceMapJson (List.range secs.length) m (some u) = .ok c ∧
      c.getSources = .ok (secs.flatMap fun s => s.map.sources.getD []) ∧
      ∀ {α : Type} (f : IndexedConsumer E → Res α),
        IndexedConsumer.consume (List.range secs.length) raw u f = f c := by
  obtain ⟨c, hc⟩ := (C40_sequential_partial m (some u) hv hs hok hpos).2 hord
  refine ⟨c, hc, (C45_sources hL hs (List.Perm.refl _) hc (ops := []) rfl).2, ?_⟩
  intro α f
  simp only [IndexedConsumer.consume, IndexedConsumer.new, hm, unwrap, Res.ok_bind, hc]

theorem exists_ok {α : Type} {x : Res α} (h : x.isOk = true) : ∃ a, x = .ok a := by
  cases x with
  | error e => cases h
  | ok a => exact ⟨a, rfl⟩

/-- The demonstration map is read back from its text. -/
theorem demo_text : fromStr demoEnv.json (toStr demoEnv.json demoIndexed) = some demoIndexed := by
  have hflat : ∀ m : SourceMapJson, IsI32 m.version → m.sections = none → m.I32 := fun m hv hs =>
    .mk m hv (by simp [hs]) (by simp [hs]) (by simp [hs])
  refine C26_roundtrip_partial _ demo_json _ ?_ (by decide +kernel)
  have hsec : ∀ l, demoIndexed.sections = some l → ∀ s ∈ l, s = ⟨⟨0, 0⟩, demoMap, none⟩ ∨ s = ⟨⟨2, 5⟩, demoRooted, none⟩ := by
    intro l hl s hs
    cases hl
    simpa using hs
  refine .mk _ (by decide) ?_ ?_ ?_ <;> intro l hl s hs <;> rcases hsec l hl s hs with rfl | rfl
  · decide
  · decide
  · decide
  · decide
  · exact hflat _ (by decide) rfl
  · exact hflat _ (by decide) rfl

example : ∃ raw, fromStr demoEnv.json raw = some demoIndexed ∧
    IndexedConsumer.consume (E := demoEnv) [0, 1] raw "http://h/js/app.map" (fun c => c.getSources) =
      .ok ["one.js", "two.js", "one.js", "two.js"] := by
  have hm := demo_text
  obtain ⟨c, _, h1, h2⟩ := C79_indexed_in_order demo_maps hm rfl rfl "http://h/js/app.map" (by
      intro s hs
      simp only [List.mem_cons, List.not_mem_nil, or_false] at hs
      rcases hs with rfl | rfl
      · exact ⟨rfl, by decide, by decide, exists_ok (by decide +kernel)⟩
      · exact ⟨rfl, by decide, by decide, exists_ok (by decide +kernel)⟩) (by decide)
    (by simp [Position.Le])
  exact ⟨_, hm, (h2 _).trans h1⟩

end RSM
