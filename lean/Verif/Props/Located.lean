import Verif.Props.Reference
import Verif.Props.IndexedContents
/-! # Property C128: the same with a source root and a map URL -/

namespace RSM
open Spec BasicConsumer

variable {E : Env}

/-- The source of the map that is meant by asking for `s`: what `s` is without the source root, if the map has it, and otherwise what
it is with the source root; both as seen from the map's URL. -/
def Means (E : Env) (root u : Option String) (sources : List String) (s t : String) : Prop :=
  ∃ t₀ t₁, sourceUrl E none s u = .ok t₀ ∧ sourceUrl E root s u = .ok t₁ ∧ t = if t₀ ∈ sources then t₀ else t₁

/-- What a call needs in order to return, given the sources and names in order of first use, whether contents are held, those of the
sources in order, and the mappings. -/
def MayNeed (sources names : List String) (held : Prop) (contents : List String) (added : List Mapping) : Op → Prop
  | .each _ => True
  | .spans => True
  | .original p _ => 1 ≤ p.line ∧ 0 ≤ p.column
  | .generated s l k b => s ∈ sources → 1 ≤ l ∧ 0 ≤ k ∧ (sources.idxOf s < names.length ∨
      Nearest Mapping.origAt (added.filter (·.source = some s)) ((l - 1).toNat, k.toNat) (b.getD .glb) none)
  | .all s l k => s ∈ sources → 1 ≤ l ∧ 0 ≤ k.getD 0
  | .content s p => held → if s ∈ sources then sources.idxOf s < contents.length else p = some false

theorem nearest_none_congr {α β : Type} {pos : α → Nat × Nat} {pos' : β → Nat × Nat} {l : List α} {l' : List β} (f : α → β)
    (hf : ∀ a ∈ l, pos' (f a) = pos a) (hm : ∀ y, y ∈ l.map f ↔ y ∈ l') {q : Nat × Nat} {b : Bias} :
    Nearest pos l q b none ↔ Nearest pos' l' q b none := by
  constructor
  · intro h
    exact Nearest.congr hm (h.mapped f hf)
  · intro h a ha
    have := h (f a) ((hm _).1 (List.mem_map.2 ⟨a, ha, rfl⟩))
    rwa [hf a ha] at this

/-- Which calls return. -/
theorem may_need (hL : E.maps.Laws) (hT : E.maps.Total) {j : SourceMapJson} {u : Option String} {c : BasicConsumer E}
    (hb : Built j u c) (f : String → String) {raws : List RawMapping} (hseg : j.Segments raws) {S N : List String}
    (hnam : j.names = some N) (hnd : S.Nodup) (hgs : c.getSources = S) (hlen : S.length < 2147483648)
    (hfit : ∀ x ∈ raws, Fits S N 2147483648 x) {held : Prop} {C : List String} (hC₁ : held → j.sourcesContent = some C)
    (hC₂ : ¬ held → j.sourcesContent = none) {L : List Mapping} (hmem : ∀ y, y ∈ raws.map (named S N) ↔ y ∈ L)
    {op : Op} (hr : op.InRange) (hunk : ∀ s, op.asked = some s → (c.Unknown s ↔ f s ∉ S))
    (hkn : ∀ s, op.asked = some s → ∀ n, c.Knows s n ↔ f s ∈ S ∧ S.idxOf (f s) = n) :
    (∃ a, c.answer op = .ok a) ↔ MayNeed S N held C L (op.via f) := by
  rw [C122_call hL hT hb hseg hnam (by rw [hgs]; exact hlen) (by rw [hgs]; exact hfit) hr]
  cases op with
  | each o => exact Iff.rfl
  | spans => exact Iff.rfl
  | original p b => exact Iff.rfl
  | generated s l k b =>
    simp only [BasicConsumer.Needs, BasicConsumer.Op.via, MayNeed, hunk s rfl, hkn s rfl]
    by_cases hs : f s ∈ S
    · simp only [hs, not_true_eq_false, false_or, true_and, exists_eq_left', forall_const]
      refine and_congr_right fun hl => and_congr_right fun hk => or_congr_right ?_
      refine nearest_none_congr (named S N) (fun a _ => named_origAt _ _ a) fun y => ?_
      rw [mem_named_filter hfit hnd (first_idxOf hs).1, hmem, List.mem_filter]
      simp
    · simp [hs]
  | all s l k =>
    simp only [BasicConsumer.Needs, BasicConsumer.Op.via, MayNeed, hunk s rfl, hkn s rfl]
    by_cases hs : f s ∈ S <;> simp [hs]
  | content s p =>
    simp only [BasicConsumer.Needs, BasicConsumer.Op.via, MayNeed, hunk s rfl, hkn s rfl]
    by_cases hh : held
    · simp only [hC₁ hh, Option.some.injEq, forall_eq', hh, forall_const]
      by_cases hs : f s ∈ S <;> simp [hs]
    · simp [hC₂ hh, hh]

theorem session_iff (hL : E.maps.Laws) (hT : E.maps.Total) {j : SourceMapJson} {u : Option String} {c : BasicConsumer E}
    (hb : Built j u c) {P : Op → Prop} {Q : Op → RawAns → Prop} : ∀ (ops : List Op),
    (∀ op ∈ ops, ((∃ a, c.answer op = .ok a) ↔ P op) ∧ ∀ a, c.answer op = .ok a → Q op a) →
    ((∃ l, c.session ops = .ok l) ↔ ∀ op ∈ ops, P op) ∧
      ∀ l, c.session ops = .ok l → List.Forall₂ (fun op a => Q op a.strip) ops l := by
  intro ops
  suffices h : (∀ op ∈ ops, ((∃ a, c.answer op = .ok a) ↔ P op) ∧ ∀ a, c.answer op = .ok a → Q op a) →
      ((∃ l, ops.mapM c.answer = .ok l) ↔ ∀ op ∈ ops, P op) ∧
        ∀ l, ops.mapM c.answer = .ok l → List.Forall₂ Q ops l by
    intro hops
    obtain ⟨h1, h2⟩ := h hops
    have hses := C122_session hL hT hb ops
    constructor
    · rw [← h1, ← hses]
      cases c.session ops with
      | error e => exact ⟨fun ⟨_, h⟩ => (by cases h), fun ⟨_, h⟩ => (by cases h)⟩
      | ok l => exact ⟨fun _ => ⟨_, rfl⟩, fun _ => ⟨_, rfl⟩⟩
    · intro l hl
      rw [hl] at hses
      have := h2 _ hses.symm
      rwa [List.forall₂_map_right_iff] at this
  induction ops with
  | nil =>
    intro _
    refine ⟨⟨fun _ => by simp, fun _ => ⟨[], rfl⟩⟩, ?_⟩
    intro l hl
    cases hl
    exact .nil
  | cons op ops ih =>
    intro hops
    obtain ⟨i1, i2⟩ := ih fun o ho => hops o (by simp [ho])
    obtain ⟨p1, p2⟩ := hops op (by simp)
    rw [List.mapM_cons]
    cases ha : c.answer op with
    | error e =>
      refine ⟨⟨fun ⟨_, h⟩ => (by cases h), fun h => ?_⟩, fun _ h => (by cases h)⟩
      obtain ⟨_, h⟩ := p1.2 (h op (by simp))
      rw [ha] at h
      cases h
    | ok a =>
      rw [Res.ok_bind]
      have hp := p1.1 ⟨a, ha⟩
      cases hm : ops.mapM c.answer with
      | error e =>
        refine ⟨⟨fun ⟨_, h⟩ => (by cases h), fun h => ?_⟩, fun _ h => (by cases h)⟩
        obtain ⟨_, h⟩ := i1.2 fun o ho => h o (by simp [ho])
        rw [hm] at h
        cases h
      | ok as =>
        rw [Res.ok_bind]
        refine ⟨⟨fun _ => ?_, fun _ => ⟨_, rfl⟩⟩, ?_⟩
        · intro o ho
          rcases List.mem_cons.1 ho with rfl | ho
          · exact hp
          · exact i1.1 ⟨as, hm⟩ o ho
        · intro l hl
          cases hl
          exact .cons (p2 a ha) (i2 as hm)

theorem map_forall₂ {α β γ : Type} {R : α → β → Prop} {f : α → γ} {g : β → γ} {l : List α} {l' : List β} (h : List.Forall₂ R l l')
    (hR : ∀ a b, R a b → f a = g b) : l.map f = l'.map g := by
  induction h with
  | nil => rfl
  | cons h _ ih => rw [List.map_cons, List.map_cons, ih, hR _ _ h]

theorem new_url {raw : Text} {u : Option String} {c : BasicConsumer E} (h : BasicConsumer.new raw u = .ok c) : c.sourceMapUrl = u := by
  simp only [BasicConsumer.new, Res.bind_eq_ok] at h
  obtain ⟨_, _, h⟩ := h
  obtain ⟨_, _, _, _, _, _, _, h⟩ := build_ok h
  exact h

/-- C128: a program builds a map with any source root and asks a consumer of it with any map URL; no two of the added sources are
located at the same place. The calls return if and only if every one has what it needs, and each answer is one that is allowed, in
terms of what was added, with the sources as they are located, and of what was set, asking for the source meant. -/
theorem C128_answers (hJ : E.json.Laws) (hL : E.maps.Laws) (hT : E.maps.Total) (file root u : Option String) (skip : Bool)
    (gops : List GOp) (henc : ∀ m ∈ gAdded gops, m.Encodable E.cfg) {S N : List String}
    (hfew : (firstOccurrences ((gAdded gops).filterMap Mapping.source)).length < E.cfg.vlqLimit)
    (hN : N = firstOccurrences ((gAdded gops).filterMap Mapping.name)) (hNfew : N.length < E.cfg.vlqLimit)
    (hS : List.Forall₂ (fun s t => sourceUrl E root s u = .ok t) (firstOccurrences ((gAdded gops).filterMap Mapping.source)) S)
    (hnd : S.Nodup) (key : String → String)
    (hkey₁ : ∀ t v, GOp.setContent t v ∈ gops → Generator.contentKey E.url root t = .ok (key t))
    (hkey₂ : ∀ m ∈ gAdded gops, ∀ s, m.source = some s → Generator.contentKey E.url root s = .ok (key s))
    {g g' : Generator} {c : BasicConsumer E} (hg : (Generator.new file root skip).run E.url E.cfg gops = .ok g)
    (hc : BasicConsumer.fromSourceMap g u = .ok (c, g')) (f : String → String) (ops : List Op)
    (hops : ∀ op ∈ ops, op.InRange ∧ ∀ s, op.asked = some s → Means E root u S s (f s)) :
    ((∃ l, c.session ops = .ok l) ↔ ∀ op ∈ ops, MayNeed S N (∃ s, latestContent key s gops ≠ none)
      ((firstOccurrences ((gAdded gops).filterMap Mapping.source)).filterMap fun s => latestContent key s gops)
      ((gAdded gops).map (told E root u)) (op.via f)) ∧
    ∀ l, c.session ops = .ok l → List.Forall₂ (fun op a => MayAnswer S N
      ((firstOccurrences ((gAdded gops).filterMap Mapping.source)).filterMap fun s => latestContent key s gops)
      ((gAdded gops).map (told E root u)) (op.via f) a.strip) ops l := by
  have hlim := E.cfg.vlqLimit_le
  subst hN
  obtain ⟨j, hj, hb'⟩ := generator_json hJ hc
  obtain ⟨j', raws, hb, hseg, hroot, hsrcs, hnam, hsound, hcomplete, _⟩ :=
    generator_built hJ file root skip gops g g' henc hfew hNfew hg hc
  obtain ⟨j'', raws', ms, hb'', hseg'', _, h5, h6, h7, h8⟩ := generator_pairs hJ file root skip gops g g' henc hfew hNfew hg hc
  have hjj : j' = j := by
    obtain ⟨_, _, _, _, _, _, h1, _⟩ := hb.spec
    obtain ⟨_, _, _, _, _, _, h2, _⟩ := hb'.spec
    rw [← h1, ← h2]
  have hjj' : j'' = j := by
    obtain ⟨_, _, _, _, _, _, h1, _⟩ := hb''.spec
    obtain ⟨_, _, _, _, _, _, h2, _⟩ := hb'.spec
    rw [← h1, ← h2]
  subst hjj
  subst hjj'
  have hrr : raws' = raws := by
    obtain ⟨_, e1, e2, _⟩ := hseg
    obtain ⟨_, e3, e4, _⟩ := hseg''
    rw [e1] at e3
    cases e3
    rw [e2] at e4
    exact (Option.some.inj e4).symm
  subst hrr
  have hcont := content_output key hkey₁ hkey₂ hg hj
  have hgs : c.getSources = S := by
    obtain ⟨st, srcs, urls, a1, a2, _, _, habs, _⟩ := hb.spec
    rw [hsrcs] at a1
    cases a1
    rw [hroot, forall₂_of_mapM.2 hS] at a2
    cases a2
    simp only [BasicConsumer.getSources, habs, C07_arrayset_duplicates]
  have hurl : c.sourceMapUrl = u := by
    simp only [BasicConsumer.fromSourceMap, Res.bind_eq_ok, Res.pure_eq, Except.ok.injEq, Prod.mk.injEq] at hc
    obtain ⟨_, _, _, h, rfl, _⟩ := hc
    exact new_url h
  have hsm : c.sourceMap.sourceRoot = root := by
    obtain ⟨_, _, _, _, _, _, hm, _⟩ := hb.spec
    rw [hm, hroot]
  have hlen : S.length < 2147483648 := by rw [← hS.length_eq]; omega
  have hfit : ∀ x ∈ raws', Fits S (firstOccurrences ((gAdded gops).filterMap Mapping.name)) 2147483648 x := fun x hx => by
    obtain ⟨m, hm, hden⟩ := hsound x hx
    exact denotes_fits (henc m hm) hden hS.length_eq.symm
  have htold : ∀ x m, Denotes (firstOccurrences ((gAdded gops).filterMap Mapping.source))
      (firstOccurrences ((gAdded gops).filterMap Mapping.name)) x m →
      named S (firstOccurrences ((gAdded gops).filterMap Mapping.name)) x = told E root u m := by
    intro x m hden
    have := denotes_told hb hsrcs hden
    rwa [hgs, hroot] at this
  have hmem : ∀ y, y ∈ raws'.map (named S (firstOccurrences ((gAdded gops).filterMap Mapping.name))) ↔
      y ∈ (gAdded gops).map (told E root u) := by
    intro y
    constructor
    · intro hy
      obtain ⟨x, hx, rfl⟩ := List.mem_map.1 hy
      obtain ⟨m, hm, hden⟩ := hsound x hx
      exact List.mem_map.2 ⟨m, hm, (htold x m hden).symm⟩
    · intro hy
      obtain ⟨m, hm, rfl⟩ := List.mem_map.1 hy
      obtain ⟨x, hx, hden⟩ := hcomplete m hm
      exact List.mem_map.2 ⟨x, hx, htold x m hden⟩
  have hperm : ((gAdded gops).map (told E root u)).Nodup →
      (raws'.map (named S (firstOccurrences ((gAdded gops).filterMap Mapping.name)))).Perm ((gAdded gops).map (told E root u)) := by
    intro hn
    have e : raws'.map (named S (firstOccurrences ((gAdded gops).filterMap Mapping.name))) = ms.map (told E root u) := by
      exact map_forall₂ h5 htold
    rw [e]
    refine (h8 ?_).map _
    refine (List.pairwise_map.1 hn).imp fun {a b} hab hk => hab ?_
    obtain ⟨k1, k2, k3, k4⟩ := hk
    obtain ⟨a1, a2, a3, a4, a5⟩ := a
    obtain ⟨b1, b2, b3, b4, b5⟩ := b
    simp only at k1 k2 k3 k4
    simp only [told, Mapping.bare, k1, k2, k3, k4]
  have hunk : ∀ op ∈ ops, ∀ s, op.asked = some s → (c.Unknown s ↔ f s ∉ S) := by
    intro op hop s hs
    obtain ⟨t₀, t₁, e0, e1, e2⟩ := (hops op hop).2 s hs
    unfold BasicConsumer.Unknown
    rw [hurl, hsm, hgs, e0, e1, e2]
    constructor
    · rintro ⟨t, t', e, h, e', h'⟩
      cases e; cases e'
      rw [if_neg h]
      exact h'
    · intro h
      by_cases h0 : t₀ ∈ S
      · rw [if_pos h0] at h; exact absurd h0 h
      · rw [if_neg h0] at h
        exact ⟨t₀, t₁, rfl, h0, rfl, h⟩
  have hkn : ∀ op ∈ ops, ∀ s, op.asked = some s → ∀ n, c.Knows s n ↔ f s ∈ S ∧ S.idxOf (f s) = n := by
    intro op hop s hs n
    obtain ⟨t₀, t₁, e0, e1, e2⟩ := (hops op hop).2 s hs
    unfold BasicConsumer.Knows
    rw [hurl, hsm, hgs, e0, e1, e2]
    constructor
    · rintro (⟨t, e, h⟩ | ⟨t, t', e, h, e', h'⟩)
      · cases e
        have hm := List.mem_iff_getElem?.2 ⟨n, h.1⟩
        rw [if_pos hm]
        exact ⟨hm, idxOf_first h⟩
      · cases e; cases e'
        rw [if_neg h]
        exact ⟨List.mem_iff_getElem?.2 ⟨n, h'.1⟩, idxOf_first h'⟩
    · intro h
      by_cases h0 : t₀ ∈ S
      · rw [if_pos h0] at h
        obtain ⟨_, rfl⟩ := h
        exact .inl ⟨t₀, rfl, first_idxOf h0⟩
      · rw [if_neg h0] at h
        obtain ⟨h1, rfl⟩ := h
        exact .inr ⟨t₀, t₁, rfl, h0, rfl, first_idxOf h1⟩
  have hC₂ : (¬ ∃ s, latestContent key s gops ≠ none) → j''.sourcesContent = none :=
    fun hh => hcont.2 fun t => Classical.byContradiction fun h => hh ⟨t, h⟩
  refine session_iff hL hT hb ops fun op hop => ⟨?_, fun a ha => ?_⟩
  · exact may_need hL hT hb f hseg hnam hnd hgs hlen hfit hcont.1 hC₂ hmem (hops op hop).1 (hunk op hop) (hkn op hop)
  · refine may_answer hL hT hb f hseg hnam hnd hgs hlen hfit ?_ ?_ hmem hperm (hops op hop).1 (hunk op hop) (hkn op hop) ha
    · by_cases hh : ∃ t, latestContent key t gops ≠ none
      · exact .inl (hcont.1 hh)
      · have hh' : ∀ t, latestContent key t gops = none := fun t => Classical.byContradiction fun h => hh ⟨t, h⟩
        exact .inr ⟨hC₂ hh, by simp [hh']⟩
    · rw [← hS.length_eq]
      exact List.length_filterMap_le _ _

/-- Three mappings of two sources, in order, and a content. -/
def locOps : List GOp :=
  [.add { generated := ⟨1, 5⟩, original := some ⟨3, 1⟩, source := some "b.js", name := some "foo" },
   .add { generated := ⟨4, 0⟩, original := some ⟨1, 0⟩, source := some "a.js" },
   .add { generated := ⟨4, 7⟩, original := some ⟨2, 0⟩, source := some "a.js", name := some "bar" }, .setContent "a.js" (some "x")]

/-- Asking for a source by its name, by its path from the map, by its location, and for one that is not there. -/
def locAsk : List Op :=
  [.original ⟨3, 6⟩ (some .lub), .generated "a.js" 1 3 none, .content "/src/b.js" none, .all "http://ex/src/a.js" 1 none,
    .each .original, .generated "no.js" 0 0 none]

/-- What they mean. -/
def locMeant (s : String) : String :=
  if s = "a.js" ∨ s = "http://ex/src/a.js" then "http://ex/src/a.js"
  else if s = "/src/b.js" then "http://ex/src/b.js"
  else "http://ex/src/no.js"

/-- The hypotheses hold together, with a source root and a map URL, of calls that all have what they need; of the content of the
second source, which was set, the call has not: it is the only one there. -/
theorem C128_case : (∀ m ∈ gAdded locOps, m.Encodable demoEnv.cfg) ∧
    List.Forall₂ (fun s t => sourceUrl demoEnv (some "/src") s (some "http://ex/js/app.js.map") = .ok t)
      (firstOccurrences ((gAdded locOps).filterMap Mapping.source)) ["http://ex/src/b.js", "http://ex/src/a.js"] ∧
    (["http://ex/src/b.js", "http://ex/src/a.js"] : List String).Nodup ∧
    (∀ t v, GOp.setContent t v ∈ locOps → Generator.contentKey demoEnv.url (some "/src") t = .ok (id t)) ∧
    (∀ m ∈ gAdded locOps, ∀ s, m.source = some s → Generator.contentKey demoEnv.url (some "/src") s = .ok (id s)) ∧
    (∃ (g g' : Generator) (c : BasicConsumer demoEnv),
      (Generator.new none (some "/src") false).run demoEnv.url demoEnv.cfg locOps = .ok g ∧
      BasicConsumer.fromSourceMap g (some "http://ex/js/app.js.map") = .ok (c, g')) ∧
    (∀ op ∈ locAsk ++ [.content "a.js" none], op.InRange ∧ ∀ s, op.asked = some s →
      Means demoEnv (some "/src") (some "http://ex/js/app.js.map") ["http://ex/src/b.js", "http://ex/src/a.js"] s (locMeant s)) ∧
    (∀ op ∈ locAsk, MayNeed ["http://ex/src/b.js", "http://ex/src/a.js"] ["foo", "bar"] True ["x"]
      ((gAdded locOps).map (told demoEnv (some "/src") (some "http://ex/js/app.js.map"))) (op.via locMeant)) ∧
    ¬ MayNeed ["http://ex/src/b.js", "http://ex/src/a.js"] ["foo", "bar"] True ["x"]
      ((gAdded locOps).map (told demoEnv (some "/src") (some "http://ex/js/app.js.map"))) ((Op.content "a.js" none).via locMeant) := by
  have e1 : firstOccurrences ((gAdded locOps).filterMap Mapping.source) = ["b.js", "a.js"] := by decide +kernel
  have ka : Generator.contentKey demoEnv.url (some "/src") "a.js" = .ok "a.js" := by decide +kernel
  have kb : Generator.contentKey demoEnv.url (some "/src") "b.js" = .ok "b.js" := by decide +kernel
  refine ⟨?_, ?_, by decide, ?_, ?_, ?_, ?_, ?_, ?_⟩
  · intro m hm
    simp only [gAdded, locOps, List.mem_cons, List.not_mem_nil, or_false] at hm
    rcases hm with rfl | rfl | rfl
    · exact .small (by decide) (by decide) rfl (by intro p hp; cases hp; decide) (by intro h; cases h)
    · exact .small (by decide) (by decide) rfl (by intro p hp; cases hp; decide) (by intro h; cases h)
    · exact .small (by decide) (by decide) rfl (by intro p hp; cases hp; decide) (by intro h; cases h)
  · rw [e1]
    exact .cons (by decide +kernel) (.cons (by decide +kernel) .nil)
  · intro t v h
    simp only [locOps, List.mem_cons, List.not_mem_nil, or_false, reduceCtorEq, false_or, GOp.setContent.injEq] at h
    rw [h.1]
    exact ka
  · intro m hm s hs
    simp only [gAdded, locOps, List.mem_cons, List.not_mem_nil, or_false] at hm
    rcases hm with rfl | rfl | rfl <;> cases hs <;> assumption
  · have h : ((Generator.new none (some "/src") false).run demoEnv.url demoEnv.cfg locOps >>= fun g =>
        BasicConsumer.fromSourceMap (E := demoEnv) g (some "http://ex/js/app.js.map")).toOption.isSome = true := by decide +kernel
    cases hg : (Generator.new none (some "/src") false).run demoEnv.url demoEnv.cfg locOps with
    | error e => rw [hg] at h; cases h
    | ok g =>
      rw [hg, Res.ok_bind] at h
      cases hc : BasicConsumer.fromSourceMap (E := demoEnv) g (some "http://ex/js/app.js.map") with
      | error e => rw [hc] at h; cases h
      | ok r => exact ⟨g, r.2, r.1, rfl, hc⟩
  · intro op hop
    simp only [locAsk, List.cons_append, List.nil_append, List.mem_cons, List.not_mem_nil, or_false] at hop
    have m1 : Means demoEnv (some "/src") (some "http://ex/js/app.js.map") ["http://ex/src/b.js", "http://ex/src/a.js"] "a.js"
        (locMeant "a.js") := ⟨"http://ex/js/a.js", "http://ex/src/a.js", by decide +kernel, by decide +kernel, by decide +kernel⟩
    have m2 : Means demoEnv (some "/src") (some "http://ex/js/app.js.map") ["http://ex/src/b.js", "http://ex/src/a.js"] "/src/b.js"
        (locMeant "/src/b.js") := ⟨"http://ex/src/b.js", "http://ex/src/src/b.js", by decide +kernel, by decide +kernel, by decide +kernel⟩
    have m3 : Means demoEnv (some "/src") (some "http://ex/js/app.js.map") ["http://ex/src/b.js", "http://ex/src/a.js"]
        "http://ex/src/a.js" (locMeant "http://ex/src/a.js") :=
      ⟨"http://ex/src/a.js", "http://ex/src/a.js", by decide +kernel, by decide +kernel, by decide +kernel⟩
    have m4 : Means demoEnv (some "/src") (some "http://ex/js/app.js.map") ["http://ex/src/b.js", "http://ex/src/a.js"] "no.js"
        (locMeant "no.js") := ⟨"http://ex/js/no.js", "http://ex/src/no.js", by decide +kernel, by decide +kernel, by decide +kernel⟩
    have hr : ∀ op ∈ locAsk ++ [.content "a.js" none], op.InRange := by
      simp [locAsk, BasicConsumer.Op.InRange, IsI32]
    refine ⟨hr op (by simpa [locAsk] using hop), fun s hs => ?_⟩
    rcases hop with rfl | rfl | rfl | rfl | rfl | rfl | rfl
    · cases hs
    · obtain rfl := Option.some.inj hs; exact m1
    · obtain rfl := Option.some.inj hs; exact m2
    · obtain rfl := Option.some.inj hs; exact m3
    · cases hs
    · obtain rfl := Option.some.inj hs; exact m4
    · obtain rfl := Option.some.inj hs; exact m1
  · intro op hop
    simp only [locAsk, List.mem_cons, List.not_mem_nil, or_false] at hop
    rcases hop with rfl | rfl | rfl | rfl | rfl | rfl
    · exact ⟨by decide, by decide⟩
    · exact fun _ => ⟨by decide, by decide, .inl (by decide +kernel)⟩
    · exact fun _ => by decide +kernel
    · exact fun _ => ⟨by decide, by decide⟩
    · trivial
    · have hno : locMeant "no.js" ∉ ["http://ex/src/b.js", "http://ex/src/a.js"] := by decide +kernel
      exact fun h => absurd h hno
  · intro h
    have := h trivial
    revert this
    decide +kernel

end RSM
