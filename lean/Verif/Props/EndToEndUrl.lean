import Verif.Props.Serialise
import Verif.Props.IndexedUrl
import Verif.Props.EndToEnd
/-! # C59: from a generator to a consumer, under any plain source root and map URL -/

namespace RSM
open Spec Written BasicConsumer

variable {E : Env}

theorem build_iff {j : SourceMapJson} {u st st' : Option String} {c : BasicConsumer E} (h : build j u st = .ok c) :
    build j u st' = .ok { c with sourceMapUrl := st' } := by
  simp only [build, Res.bind_eq_ok, Res.pure_eq, Except.ok.injEq] at h ⊢
  obtain ⟨srcs, hs, urls, hu, rfl⟩ := h
  exact ⟨srcs, hs, urls, hu, rfl⟩

theorem content_key_iff {U : UrlLib} (hU : U.Laws) {R p : Written} {t : Tail} (hR : R.Valid) (hp : p.Valid) (ht : t.Valid)
    (hRl : 2 ≤ R.text.length) (hpl : 2 ≤ (p.text ++ t.text).length) :
    (∃ k, Generator.contentKey U (some R.string) (full p t) = .ok k) ↔ ¬ R.Together p := by
  have hg : (Generator.new none (some (String.ofList R.text)) false).sourceRoot = some (String.ofList R.text) := rfl
  rw [← C63_returns_iff hU hR hp ht hRl hpl hg none]
  simp only [Generator.setSourceContent, hg, Res.bind_eq_ok]
  constructor
  · rintro ⟨k, hk⟩
    exact ⟨_, k, hk, rfl⟩
  · rintro ⟨_, k, hk, _⟩
    exact ⟨k, hk⟩

/-- C59, exactly when it returns, for plain source roots, sources and map URLs of every kind: making a consumer from a
generator returns if and only if the generator holds no content or no source of a mapping is of the kind of the root
(C63), and every text looked at while locating the sources has two characters at least (C82). The sources of the consumer
are then those of the mappings, located. -/
theorem C59_returns_iff (hJ : E.json.Laws) (hU : E.url.Laws) (file : Option String) (skip : Bool)
    {root m : Option Written} (hR : ∀ R ∈ root, R.Valid) (hm : ∀ M ∈ m, M.MapUrl) (key : String → String)
    (w : String → Written × Tail) (gops : List GOp) (g : Generator)
    (hval : ∀ a ∈ gAdded gops, a.Valid ∧ 1 ≤ a.generated.line)
    (hS : (firstOccurrences ((gAdded gops).filterMap Mapping.source)).length < 2147483648)
    (hN : (firstOccurrences ((gAdded gops).filterMap Mapping.name)).length < 2147483648)
    (hkey : ∀ t v, GOp.setContent t v ∈ gops → Generator.contentKey E.url (root.map string) t = .ok (key t))
    (hw : ∀ a ∈ gAdded gops, ∀ s, a.source = some s → Source root m (w s) ∧ s = full (w s).1 (w s).2)
    (hg : (Generator.new file (root.map string) skip).run E.url E.cfg gops = .ok g) :
    ((∃ (c : BasicConsumer E) (g' : Generator), BasicConsumer.fromSourceMap g (m.map string) = .ok (c, g')) ↔
      ((∀ s, latestContent key s gops = none) ∨
        ∀ R ∈ root, ∀ a ∈ gAdded gops, ∀ s, a.source = some s → ¬ R.Together (w s).1) ∧
      ∀ a ∈ gAdded gops, ∀ s, a.source = some s → LongEnough root (w s).1 (w s).2 m) ∧
    ∀ (c : BasicConsumer E) (g' : Generator), BasicConsumer.fromSourceMap g (m.map string) = .ok (c, g') →
      c.getSources = (firstOccurrences ((gAdded gops).filterMap Mapping.source)).map
        fun s => full (located root (w s).1 m) (w s).2 := by
  have hret := C24_returns_iff E.url E.cfg file _ skip key gops g hval hS hN hkey hg
  obtain ⟨S, hSd⟩ : ∃ S, S = firstOccurrences ((gAdded gops).filterMap Mapping.source) := ⟨_, rfl⟩
  have hmem : ∀ s, s ∈ S ↔ ∃ a ∈ gAdded gops, a.source = some s := by
    intro s
    rw [hSd, mem_firstOccurrences, List.mem_filterMap]
  have hdesc : ∀ {j g'}, g.asJson E.url E.cfg = .ok (j, g') → Described j m (root, S.map w) ∧
      fromStr E.json (toStr E.json j) = some j := by
    intro j g' hj
    have k1 := (C16_generator_tables E.url E.cfg file _ skip gops g _ j hg hj).1
    obtain ⟨h1, h2, _⟩ := gRun_new hg
    obtain ⟨_, _, _, _, _, _, _, _, rfl⟩ := asJson_ok hj
    refine ⟨⟨hR, ?_, h2, ?_⟩, ?_⟩
    · intro x hx
      obtain ⟨s, hs, rfl⟩ := List.mem_map.1 hx
      obtain ⟨a, ha, hs⟩ := (hmem s).1 hs
      exact (hw a ha s hs).1
    · rw [k1, ← hSd, List.map_map]
      congr 1
      refine (List.map_id _).symm.trans (List.map_congr_left fun s hs => ?_)
      obtain ⟨a, ha, hs⟩ := (hmem s).1 hs
      exact (hw a ha s hs).2
    · exact C26_roundtrip_flat_partial E.json hJ _ (by show IsI32 3; decide) rfl
  have hlong : AllLong (root, S.map w) m ↔
      ∀ a ∈ gAdded gops, ∀ s, a.source = some s → LongEnough root (w s).1 (w s).2 m := by
    constructor
    · intro h a ha s hs
      exact h _ (List.mem_map.2 ⟨s, (hmem s).2 ⟨a, ha, hs⟩, rfl⟩)
    · intro h x hx
      obtain ⟨s, hs, rfl⟩ := List.mem_map.1 hx
      obtain ⟨a, ha, hs⟩ := (hmem s).1 hs
      exact h a ha s hs
  have hkeys : (∀ a ∈ gAdded gops, ∀ s, a.source = some s → LongEnough root (w s).1 (w s).2 m) →
      ((∀ a ∈ gAdded gops, ∀ s, a.source = some s → ∃ k, Generator.contentKey E.url (root.map string) s = .ok k) ↔
        ∀ R ∈ root, ∀ a ∈ gAdded gops, ∀ s, a.source = some s → ¬ R.Together (w s).1) := by
    intro hl
    cases root with
    | none => simp [Generator.contentKey]
    | some R =>
      simp only [Option.mem_def, Option.some.injEq, forall_eq', Option.map_some]
      refine forall₄_congr fun a ha s hs => ?_
      obtain ⟨l1, _, l2, _⟩ := hl a ha s hs
      obtain ⟨⟨h1, h2, _⟩, h3⟩ := hw a ha s hs
      rw [← content_key_iff hU (hR R rfl) h1 h2 (l2 R rfl).1 l1, ← h3]
  have hfrom : ∀ {c g'}, BasicConsumer.fromSourceMap (E := E) g (m.map string) = .ok (c, g') →
      ∃ j, g.asJson E.url E.cfg = .ok (j, g') ∧ Described j m (root, S.map w) ∧
        BasicConsumer.fromSourceMapJson (E := E) j (m.map string) = .ok { c with sourceMapUrl := none } := by
    intro c g' h
    simp only [BasicConsumer.fromSourceMap, Generator.asString, Res.bind_eq_ok, Res.pure_eq, Except.ok.injEq,
      Prod.exists, Prod.mk.injEq] at h
    obtain ⟨text, g1, ⟨j, g2, hj, rfl, rfl⟩, c1, h2, rfl, rfl⟩ := h
    obtain ⟨hd, hread⟩ := hdesc hj
    simp only [BasicConsumer.new, hread, unwrap, Res.ok_bind] at h2
    exact ⟨j, hj, hd, build_iff h2⟩
  refine ⟨⟨?_, ?_⟩, ?_⟩
  · rintro ⟨c, g', h⟩
    obtain ⟨j, hj, hd, hc⟩ := hfrom h
    have hl := hlong.1 (long_of_basic hU hm hd hc)
    refine ⟨?_, hl⟩
    rw [← hkeys hl]
    exact hret.1 ⟨j, g', hj⟩
  · rintro ⟨h1, hl⟩
    rw [← hkeys hl] at h1
    obtain ⟨j, g', hj⟩ := hret.2 h1
    obtain ⟨hd, hread⟩ := hdesc hj
    obtain ⟨c, hc, _⟩ := basic_of_long (E := E) hU hm hd (hlong.2 hl)
    refine ⟨{ c with sourceMapUrl := m.map string }, g', ?_⟩
    have : BasicConsumer.new (E := E) (toStr E.json j) (m.map string) =
        .ok { c with sourceMapUrl := m.map string } := by
      simp only [BasicConsumer.new, hread, unwrap, Res.ok_bind]
      exact build_iff hc
    simp only [BasicConsumer.fromSourceMap, Generator.asString, hj, Res.ok_bind, Res.pure_eq, this]
  · intro c g' h
    obtain ⟨j, hj, hd, hc⟩ := hfrom h
    obtain ⟨c', hc', hs⟩ := basic_of_long (E := E) hU hm hd (long_of_basic hU hm hd hc)
    rw [hc] at hc'
    cases hc'
    rw [← hSd]
    simpa [locatedSources, BasicConsumer.getSources, Function.comp_def] using hs

/-- Under the root `/src` and the map URL `http://x/js/a.map`: the source `a.js` of a mapping is located. -/
example : ∃ (g g' : Generator) (c : BasicConsumer demoEnv),
    (Generator.new none (some "/src") false).run demoEnv.url demoEnv.cfg [.add gxR] = .ok g ∧
    BasicConsumer.fromSourceMap g (some "http://x/js/a.map") = .ok (c, g') ∧
    c.getSources = ["http://x/src/a.js"] := by
  obtain ⟨g, hg⟩ : ∃ g, (Generator.new none (some "/src") false).run demoEnv.url demoEnv.cfg [.add gxR] = .ok g :=
    ⟨_, rfl⟩
  have h := C59_returns_iff (E := demoEnv) jsonText_laws MiniUrl.laws none false (root := some (.path ⟨[], "src".toList⟩))
    (m := some (.url ⟨"http".toList, ⟨"x".toList, none⟩⟩ ⟨["js".toList], "a.map".toList⟩))
    (by rintro R ⟨⟩; unfold Written.Valid; decide)
    (by rintro R ⟨⟩; exact ⟨by unfold Written.Valid; exact ⟨by decide, by decide⟩, by simp [IsRef]⟩)
    id (fun _ => (.ref ⟨[], "a.js".toList⟩, {})) [.add gxR] g
    (by
      intro a ha
      simp only [gAdded, List.mem_cons, List.not_mem_nil, or_false] at ha
      subst ha
      exact ⟨(gxR_enc (cfg := ⟨true, true⟩)).valid, by decide⟩)
    (by decide) (by decide) (by intro t v h; simp at h)
    (by
      intro a ha s hs
      simp only [gAdded, List.mem_cons, List.not_mem_nil, or_false] at ha
      subst ha
      cases hs
      exact ⟨⟨by unfold Written.Valid; decide, noTail_valid, fun _ => rfl,
        ⟨by rintro R ⟨⟩ h; exact h.elim, by rintro M ⟨⟩ h; exact absurd h (by show ¬ Local _; decide)⟩⟩, by decide⟩) hg
  obtain ⟨c, g', hc⟩ := h.1.2 ⟨.inl fun s => rfl, by
    intro a ha s hs
    simp only [LongEnough]
    refine ⟨by decide, by decide, ?_, ?_⟩
    · rintro R ⟨⟩; decide +kernel
    · rintro R ⟨⟩; decide +kernel⟩
  exact ⟨g, g', c, hg, hc, (h.2 c g' hc).trans (by decide)⟩

end RSM
