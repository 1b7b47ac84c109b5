import Verif.Props.Reverse
/-! # C71 and C72: positions and contents given to a generator, asked of a consumer

For consumers made from a generator, after any history of calls on either.
-/

namespace RSM
open Spec BasicConsumer

variable {E : Env}

/-- A consumer made from a generator is one of the map the generator serialises to. -/
theorem generator_json (hJ : E.json.Laws) {g g' : Generator} {u : Option String} {c₀ : BasicConsumer E} (hc : BasicConsumer.fromSourceMap g u = .ok (c₀, g')) :
    ∃ j, g.asJson E.url E.cfg = .ok (j, g') ∧ Built j u c₀ := by
  simp only [BasicConsumer.fromSourceMap, Generator.asString, Res.bind_eq_ok, Res.pure_eq, Except.ok.injEq,
    Prod.mk.injEq, Prod.exists] at hc
  obtain ⟨_, g1, ⟨j, _, hj, rfl, rfl⟩, c1, hnew, rfl, rfl⟩ := hc
  have hflat : IsI32 j.version ∧ j.sections = none := by
    obtain ⟨_, _, _, _, _, _, _, _, rfl⟩ := asJson_ok hj
    exact ⟨by show IsI32 3; decide, rfl⟩
  exact ⟨j, hj, .inl ⟨_, C26_roundtrip_flat_partial E.json hJ j hflat.1 hflat.2, hnew⟩⟩

/-- When `original_position_for` returns. -/
theorem original_returns (hL : E.maps.Laws) (hT : E.maps.Total) {m : SourceMapJson} {u : Option String}
    {c₀ c : BasicConsumer E} (h : Built m u c₀) (hrel : Rel c₀ c)
    {raws : List Spec.RawMapping} (hseg : m.Segments raws)
    (hlines : ∀ r ∈ raws, r.line < 4294967295)
    (horig : ∀ r ∈ raws, ∀ o, r.original = some o → o.line < 4294967295 ∧
      ∀ i, o.name = some i → ∃ names, m.names = some names ∧ i < names.length)
    {p : Position} (hp : IsI32 p.line ∧ IsI32 p.column) (hpos : 1 ≤ p.line ∧ 0 ≤ p.column) (b : Option Bias) :
    ∃ r c', c.originalPositionFor p b = .ok (r, c') := by
  have hmap₀ : c₀.sourceMap = m := by obtain ⟨_, _, _, _, _, _, hm, _⟩ := h.spec; exact hm
  have hmap : c.sourceMap = m := hrel.map.trans hmap₀
  obtain ⟨M₁, hM₁, hperm⟩ := parsed_segments hL (c := c₀) (raws := raws) (by rw [hmap₀]; exact hseg)
  rcases hrel.ensure with ⟨e, he, _⟩ | ⟨M, M₀, h4, h5, h6⟩
  · rw [hM₁] at he; cases he
  rw [hM₁] at h4
  cases h4
  have hc : checkPosition p.line p.column = .ok () := by
    simp only [checkPosition]; rw [if_neg (by omega), if_neg (by omega)]
  have hi : IsI32 (p.line - 1) := by have := hp.1; unfold IsI32 at *; omega
  obtain ⟨⟨x, M'⟩, hx⟩ := hT.orig M (asU32 (p.line - 1)) (asU32 p.column) (b.getD .glb)
  have hn := hL.orig _ _ _ _ _ _ hx
  obtain ⟨r, hrep⟩ : ∃ r, c.reportOriginal p.line x = .ok r := by
    cases x with
    | none => exact ⟨none, rfl⟩
    | some x =>
      have hmem : x.raw ∈ raws := by
        simp only [Option.map_some, Nearest] at hn
        exact hperm.mem_iff.1 (by rw [← h6]; exact hn.1)
      have h7 := hlines _ hmem
      have h8 := horig _ hmem
      simp only [LibMapping.raw] at h7 h8
      simp only [reportOriginal]
      split
      · cases ho : x.original with
        | none => exact ⟨none, rfl⟩
        | some o =>
          obtain ⟨h9, h10⟩ := h8 o ho
          have hs : ∀ y, y < 4294967295 → E.cfg.succU32 y = .ok (y + 1) := by
            intro y hy
            unfold Cfg.succU32
            simp [show y + 1 < 4294967296 by omega]
          cases hnm : o.name with
          | none => simp only [hnm, optName, Res.ok_bind, hs _ h9, hs _ h7]; exact ⟨_, rfl⟩
          | some i =>
            obtain ⟨names, n1, n2⟩ := h10 i hnm
            simp only [hnm, optName, nameAt, hmap, n1, unwrap, index, List.getElem?_eq_getElem n2, Res.ok_bind,
              Res.pure_eq, hs _ h9, hs _ h7]
            exact ⟨_, rfl⟩
      · exact ⟨none, rfl⟩
  refine ⟨r, { c with mappings := some M' }, ?_⟩
  simp only [originalPositionFor, hc, h5, E.cfg.arith_ok hi, hx, hrep, Res.ok_bind, Res.pure_eq]

/-- C31, that it returns: if `names` has an entry for every name a segment refers to, and the lines stay below the
largest 32-bit number, `original_position_for` returns for every position in range and either bias. -/
theorem C31_returns (hL : E.maps.Laws) (hT : E.maps.Total) {m : SourceMapJson} {u : Option String}
    {c₀ c : BasicConsumer E} (h : Built m u c₀) {ops : List Op} (hrun : c₀.run ops = .ok c)
    {raws : List Spec.RawMapping} (hseg : m.Segments raws)
    (hlines : ∀ r ∈ raws, r.line < 4294967295)
    (horig : ∀ r ∈ raws, ∀ o, r.original = some o → o.line < 4294967295 ∧
      ∀ i, o.name = some i → ∃ names, m.names = some names ∧ i < names.length)
    {p : Position} (hp : IsI32 p.line ∧ IsI32 p.column) (hpos : 1 ≤ p.line ∧ 0 ≤ p.column) (b : Option Bias) :
    ∃ r c', c.originalPositionFor p b = .ok (r, c') :=
  original_returns hL hT h (h.rel.run hL hrun) hseg hlines horig hp hpos b

section
variable (hJ : E.json.Laws) (hL : E.maps.Laws) (file root : Option String) (skip : Bool)
    (gops : List GOp) (g g' : Generator) (henc : ∀ m ∈ gAdded gops, m.Encodable E.cfg)
    (hS : (firstOccurrences ((gAdded gops).filterMap Mapping.source)).length < E.cfg.vlqLimit)
    (hN : (firstOccurrences ((gAdded gops).filterMap Mapping.name)).length < E.cfg.vlqLimit)
    (hg : (Generator.new file root skip).run E.url E.cfg gops = .ok g) {u : Option String}
    {c₀ c : BasicConsumer E} (hc : BasicConsumer.fromSourceMap g u = .ok (c₀, g')) {ops : List Op}
    (hrun : c₀.run ops = .ok c)

/-! ## C71 -/

section
include hJ hL henc hS hN hg hc hrun

/-- C71: what `original_position_for` of a consumer made from a generator can return: with the bias to the least
upper bound, all of an added mapping on the line after the one asked about, the first of that line, provided no
added mapping of the line asked about is at or after the column. -/
theorem C71_lub_added {p : Position} (hp : IsI32 p.line ∧ IsI32 p.column) {r : Mapping} {c' : BasicConsumer E}
    (hr : c.originalPositionFor p (some .lub) = .ok (some r, c')) :
    ∃ m ∈ gAdded gops, m.generated.line = p.line + 1 ∧
      (∀ m' ∈ gAdded gops, m'.generated.line = p.line → m'.generated.column < p.column) ∧
      (∀ m' ∈ gAdded gops, m'.generated.line = p.line + 1 → m.generated.column ≤ m'.generated.column) ∧
      r.generated = m.generated ∧ m.original.isSome ∧ r.original = m.original ∧ r.name = m.name ∧
      ∃ s t, m.source = some s ∧ sourceUrl E root s u = .ok t ∧ r.source = some t := by
  have hlim := E.cfg.vlqLimit_le
  obtain ⟨j, raws, hb, hseg, hroot, hsrcs, hnames, hsound, hcomplete, _⟩ :=
    generator_built hJ file root skip gops g g' henc hS hN hg hc
  obtain ⟨srcs, s1, s2, s3⟩ := C28_sources hb
  rw [hsrcs] at s1
  cases s1
  have hst := C28_sources_stable hL hb hrun
  obtain ⟨q1, s, o, h1, h2, h3, h4, h5, h6, h7, h8, h9, h10⟩ := C31_lub_refuted hL hb hrun hseg hp hr
  obtain ⟨m, hm, hd⟩ := hsound s h1
  have hd' := hd
  simp only [Denotes, h2] at hd
  obtain ⟨d1, d2, ⟨src, d3, d4⟩, d5⟩ := hd
  have e1 := (henc m hm).line
  have e2 := (henc m hm).column
  obtain ⟨e3, e4, e5, e6⟩ := (henc m hm).range _ d2
  rw [d1] at e1 e2
  simp only at e1 e2 e3 e4 e5 e6
  refine ⟨m, hm, by rw [d1]; simp only; omega, ?_, ?_, ?_, by simp [d2], ?_, ?_, ?_⟩
  · intro m' hm' hl
    obtain ⟨x, hx, hdx⟩ := hcomplete m' hm'
    have := h9 x hx (by rw [hdx.1] at hl; exact hl)
    rw [hdx.1]
    exact this
  · intro m' hm' hl
    obtain ⟨x, hx, hdx⟩ := hcomplete m' hm'
    rw [hdx.1] at hl
    simp only at hl
    have := h10 x hx (by omega)
    rw [hdx.1, d1]
    simp only
    omega
  · rcases r with ⟨⟨rl, rc⟩, ro, rs, rn, rlast⟩
    simp only at q1 h4 ⊢
    rw [d1, h4, q1 (by omega), wrap32_of_isI32 (by unfold IsI32; omega)]
    congr 1
    omega
  · rw [h5, d2, wrap32_of_isI32 (by unfold IsI32; omega), wrap32_of_isI32 (by unfold IsI32; omega)]
  · cases hn : o.name with
    | none =>
      rw [hn] at d5
      rw [h7 hn, d5]
    | some i =>
      rw [hn] at d5
      obtain ⟨t, d6, d7⟩ := d5
      obtain ⟨names, nm, n1, n2, n3⟩ := h8 i hn
      rw [hnames] at n1
      cases n1
      rw [d6] at n2
      cases n2
      rw [n3, d7]
  · obtain ⟨t, t1, t2⟩ := s3 _ _ d3
    refine ⟨src, t, d4, by rw [← hroot]; exact t1, ?_⟩
    rw [h6 (by rw [hst, s2]; omega), hst, t2]

/-- C71 is false of the code: asked about the generated position of an added mapping, whichever it is and with
whatever bias, a consumer made from the generator never finds it, nor anything else. -/
theorem C71_exact_refuted {m : Mapping} (hm : m ∈ gAdded gops) (b : Option Bias) {r : Option Mapping}
    {c' : BasicConsumer E} (hr : c.originalPositionFor m.generated b = .ok (r, c')) : r = none := by
  have hlim := E.cfg.vlqLimit_le
  have h1 := (henc m hm).line
  have h2 := (henc m hm).column
  have hp : IsI32 m.generated.line ∧ IsI32 m.generated.column := ⟨by unfold IsI32; omega, by unfold IsI32; omega⟩
  obtain ⟨j, raws, hb, -⟩ := generator_built hJ file root skip gops g g' henc hS hN hg hc
  cases hr' : r with
  | none => rfl
  | some x =>
    subst hr'
    by_cases hbias : b.getD .glb = .glb
    · have := C30_default_bias_refuted hL hb hrun hp hbias hr
      cases this
    · obtain rfl : b = some .lub := by
        rcases b with _ | _ | _ <;> simp at hbias ⊢
      obtain ⟨m', _, _, h5, _⟩ := C71_lub_added hJ hL file root skip gops g g' henc hS hN hg hc hrun hp hr
      have := h5 m hm rfl
      omega

/-- C71 is false of the code: with the default bias it does return, `None`. -/
theorem C71_default_refuted (hT : E.maps.Total) {m : Mapping} (hm : m ∈ gAdded gops) :
    ∃ c', c.originalPositionFor m.generated none = .ok (none, c') := by
  have hlim := E.cfg.vlqLimit_le
  have h1 := (henc m hm).line
  have h2 := (henc m hm).column
  obtain ⟨j, raws, hb, hseg, -⟩ := generator_built hJ file root skip gops g g' henc hS hN hg hc
  exact C30_returns_none_refuted hL hT hb hrun hseg ⟨by unfold IsI32; omega, by unfold IsI32; omega⟩ ⟨h1.1, h2.1⟩

/-- C71: `original_position_for` of a consumer made from a generator returns, for every position in range. -/
theorem C71_returns (hT : E.maps.Total) {p : Position} (hp : IsI32 p.line ∧ IsI32 p.column)
    (hpos : 1 ≤ p.line ∧ 0 ≤ p.column) (b : Option Bias) : ∃ r c', c.originalPositionFor p b = .ok (r, c') := by
  obtain ⟨j, raws, hb, hseg, _, _, hnames, hsound, -⟩ :=
    generator_built hJ file root skip gops g g' henc hS hN hg hc
  refine C31_returns hL hT hb hrun hseg ?_ ?_ hp hpos b
  · intro r hr
    obtain ⟨m, hm, hd⟩ := hsound r hr
    have := (henc m hm).line
    rw [hd.1] at this
    simp only at this
    omega
  · intro r hr o ho
    obtain ⟨m, hm, hd⟩ := hsound r hr
    simp only [Denotes, ho] at hd
    obtain ⟨_, d2, _, d4⟩ := hd
    have := (henc m hm).range _ d2
    refine ⟨by simp only at this; omega, ?_⟩
    intro i hi
    rw [hi] at d4
    obtain ⟨t, d4, _⟩ := d4
    exact ⟨_, hnames, (List.getElem?_eq_some_iff.1 d4).1⟩

/-- C71: when something is found: an added mapping `m` with a source is, if it is the first of its line and all the
mappings at its position have sources, found from the previous line by asking, with the bias to the least upper
bound, for a column after all mappings of that line. -/
theorem C71_lub_found (hT : E.maps.Total) {m : Mapping} (hm : m ∈ gAdded gops) {p : Position}
    (hp : IsI32 p.line ∧ IsI32 p.column) (hpos : 1 ≤ p.line ∧ 0 ≤ p.column)
    (hnext : m.generated.line = p.line + 1)
    (hgap : ∀ m' ∈ gAdded gops, m'.generated.line = p.line → m'.generated.column < p.column)
    (hfirst : ∀ m' ∈ gAdded gops, m'.generated.line = p.line + 1 → m.generated.column ≤ m'.generated.column)
    (hsrc : ∀ m' ∈ gAdded gops, m'.generated = m.generated → m'.source.isSome) :
    ∃ r c', c.originalPositionFor p (some .lub) = .ok (some r, c') ∧ r.generated = m.generated := by
  obtain ⟨r, c', hr⟩ := C71_returns hJ hL file root skip gops g g' henc hS hN hg hc hrun hT hp hpos (some .lub)
  obtain ⟨j, raws, hb, hseg, _, _, hnames, hsound, hcomplete, _⟩ :=
    generator_built hJ file root skip gops g g' henc hS hN hg hc
  obtain ⟨s, hs, hd⟩ := hcomplete m hm
  have hd1 := hd.1
  have hsome : r.isSome = true := by
    refine C31_lub_converse hL hb hrun hseg hp ?_ hs ?_ ?_ ?_ hr
    · intro x hx hxl
      obtain ⟨m', hm', hd'⟩ := hsound x hx
      have := hgap m' hm' (by rw [hd'.1]; exact hxl)
      rwa [hd'.1] at this
    · rw [hd1] at hnext
      simp only at hnext
      omega
    · intro x hx hxl
      obtain ⟨m', hm', hd'⟩ := hsound x hx
      have := hfirst m' hm' (by rw [hd'.1, ← hnext, hd1]; simp only; omega)
      rw [hd'.1, hd1] at this
      simp only at this
      omega
    · intro x hx hxl hxc
      obtain ⟨m', hm', hd'⟩ := hsound x hx
      have h1 := hsrc m' hm' (by rw [hd'.1, hd1, hxl, hxc])
      cases ho : x.original with
      | some o => rfl
      | none =>
        simp only [Denotes, ho] at hd'
        rw [hd'.2.2.1] at h1
        cases h1
  obtain ⟨r, rfl⟩ := Option.isSome_iff_exists.1 hsome
  obtain ⟨m', hm', k1, _, k3, k4, _⟩ := C71_lub_added hJ hL file root skip gops g g' henc hS hN hg hc hrun hp hr
  refine ⟨r, c', hr, ?_⟩
  have h1 := k3 m hm hnext
  have h2 := hfirst m' hm' k1
  rw [k4]
  rcases hm1 : m.generated with ⟨a1, a2⟩
  rcases hm2 : m'.generated with ⟨b1, b2⟩
  rw [hm1] at hnext h1 h2
  rw [hm2] at k1 h1 h2
  simp only at *
  congr 1 <;> omega

end

/-! ## C72 -/

variable (key : String → String)
    (hkey1 : ∀ t v, GOp.setContent t v ∈ gops → Generator.contentKey E.url root t = .ok (key t))
    (hkey2 : ∀ m ∈ gAdded gops, ∀ s, m.source = some s → Generator.contentKey E.url root s = .ok (key s))
include hJ hL hg hc hrun hkey1 hkey2

/-- C72: the answers of a consumer made from a generator about contents: the contents set for the sources of the
added mappings, those without one left out, are handed out by position. -/
theorem C72_contents_shifted (hS : (firstOccurrences ((gAdded gops).filterMap Mapping.source)).length < E.cfg.vlqLimit)
    (hset : ∃ s, latestContent key s gops ≠ none) :
    ∃ C, C = (firstOccurrences ((gAdded gops).filterMap Mapping.source)).filterMap
        (fun s => latestContent key s gops) ∧
      (c.hasContentsOfAllSources = .ok true ↔ ∀ m ∈ gAdded gops, ∀ s, m.source = some s →
        latestContent key s gops ≠ none) ∧
      ∀ (s : String) (n : Nat) (p : Option Bool), c.Knows s n →
        (∀ t, C[n]? = some t → ∃ c', c.sourceContentFor s p = .ok (some t, c')) ∧
        (C[n]? = none → ∃ e, c.sourceContentFor s p = .error e) := by
  have hlim := E.cfg.vlqLimit_le
  obtain ⟨j, hj, hb⟩ := generator_json hJ hc
  have h22 := (content_output key hkey1 hkey2 hg hj).1 hset
  obtain ⟨k1, k2⟩ := C16_generator_tables E.url E.cfg file root skip gops g _ j hg hj
  obtain ⟨srcs, s1, s2, s3⟩ := C28_sources hb
  rw [k1] at s1
  cases s1
  have hst := C28_sources_stable hL hb hrun
  have hrel := hb.rel.run hL hrun
  have hmap : c₀.sourceMap = j := by obtain ⟨_, _, _, _, _, _, hm, _⟩ := hb.spec; exact hm
  refine ⟨_, rfl, ?_, ?_⟩
  · obtain ⟨b, hb1, hb2⟩ := C39_has_contents hL hb hrun
    rw [hb1]
    have hlen : ∀ (S : List String), S.length ≤ (S.filterMap fun s => latestContent key s gops).length ↔
        ∀ s ∈ S, latestContent key s gops ≠ none := by
      intro S
      induction S with
      | nil => simp
      | cons a S ih =>
        have hle := List.length_filterMap_le (fun s => latestContent key s gops) S
        cases ha : latestContent key a gops with
        | none =>
          simp only [List.filterMap_cons, ha, List.length_cons, List.mem_cons]
          constructor
          · intro h; omega
          · intro h; exact absurd ha (h a (.inl rfl))
        | some v =>
          simp only [List.filterMap_cons, ha, List.length_cons, List.mem_cons, forall_eq_or_imp, Nat.add_le_add_iff_right]
          rw [ih]
          simp
    have heq : (Except.ok b : Res Bool) = .ok true ↔ b = true := by simp
    rw [heq, hb2, h22, hst, s2]
    simp only [Option.some.injEq, exists_eq_left', hlen]
    constructor
    · intro h m hm s hs
      exact h s ((mem_firstOccurrences _ s).2 (List.mem_filterMap.2 ⟨m, hm, hs⟩))
    · intro h s hs
      obtain ⟨m, hm, hms⟩ := List.mem_filterMap.1 ((mem_firstOccurrences _ s).1 hs)
      exact h m hm s hms
  · intro s n p hs
    have hnlt : n < c.getSources.length := by
      rcases hs with ⟨_, _, hf⟩ | ⟨_, _, _, _, _, hf⟩
      · exact (List.getElem?_eq_some_iff.mp hf.1).1
      · exact (List.getElem?_eq_some_iff.mp hf.1).1
    have hlen : c.getSources.length < 2147483648 := by rw [hst, s2]; omega
    have hk := ((lookup_spec hb (by rw [← hrel.getSources]; exact hlen) s).1 n).2 ⟨n, rfl, (hrel.knows s n).1 hs⟩
    have hu : E.cfg.asUsize (n : Int) = n := by
      unfold Cfg.asUsize; split <;> omega
    rcases hrel.find s with ⟨e, h1, _⟩ | ⟨r, q, h1, h2, h3⟩
    · rw [hk] at h1; cases h1
    · rw [hk] at h1; cases h1
      constructor
      · intro t ht
        refine ⟨{ c with cache := q }, ?_⟩
        simp only [sourceContentFor, hrel.map, hmap, h22, h2, Res.ok_bind, hu, index, ht, Res.pure_eq]
      · intro hn
        refine ⟨.index, ?_⟩
        simp only [sourceContentFor, hrel.map, hmap, h22, h2, Res.ok_bind, hu, index, hn, Res.error_bind]

/-- C72 (`_partial`): if every source of an added mapping has a content, `has_contents_of_all_sources` is true and
the content returned for a source is the one last set for it. Missing: only some sources with a content, where the
claim is false. -/
theorem C72_contents_partial (hS : (firstOccurrences ((gAdded gops).filterMap Mapping.source)).length < E.cfg.vlqLimit)
    (hsome : ∃ m ∈ gAdded gops, m.source.isSome)
    (hall : ∀ m ∈ gAdded gops, ∀ s, m.source = some s → latestContent key s gops ≠ none) :
    c.hasContentsOfAllSources = .ok true ∧
    ∀ (s src : String) (n : Nat) (p : Option Bool), c.Knows s n →
      (firstOccurrences ((gAdded gops).filterMap Mapping.source))[n]? = some src →
      ∃ t c', latestContent key src gops = some t ∧ c.sourceContentFor s p = .ok (some t, c') := by
  obtain ⟨m, hm, hms⟩ := hsome
  obtain ⟨s₀, hs₀⟩ := Option.isSome_iff_exists.1 hms
  obtain ⟨C, rfl, h1, h2⟩ := C72_contents_shifted hJ hL file root skip gops g g' hg hc hrun key hkey1 hkey2 hS
    ⟨s₀, hall m hm s₀ hs₀⟩
  refine ⟨h1.2 hall, ?_⟩
  intro s src n p hs hn
  have hall' : ∀ s ∈ firstOccurrences ((gAdded gops).filterMap Mapping.source),
      latestContent key s gops ≠ none := by
    intro s hs
    obtain ⟨m, hm, hms⟩ := List.mem_filterMap.1 ((mem_firstOccurrences _ s).1 hs)
    exact hall m hm s hms
  obtain ⟨t, ht⟩ := Option.ne_none_iff_exists'.1 (hall' src (List.mem_iff_getElem?.2 ⟨n, hn⟩))
  have hget : ∀ (S : List String) (n : Nat), (∀ s ∈ S, latestContent key s gops ≠ none) → S[n]? = some src →
      (S.filterMap fun s => latestContent key s gops)[n]? = some t := by
    intro S
    induction S with
    | nil => intro n _ h; simp at h
    | cons a S ih =>
      intro n hS h
      obtain ⟨v, hv⟩ := Option.ne_none_iff_exists'.1 (hS a (by simp))
      rw [List.filterMap_cons, hv]
      cases n with
      | zero =>
        simp only [List.getElem?_cons_zero, Option.some.injEq] at h ⊢
        subst h
        rw [ht] at hv
        exact (Option.some.inj hv).symm
      | succ n =>
        simp only [List.getElem?_cons_succ] at h ⊢
        exact ih n (fun s hs => hS s (by simp [hs])) h
  obtain ⟨c', hc'⟩ := (h2 s n p hs).1 t (hget _ n hall' hn)
  exact ⟨t, c', ht, hc'⟩

end

/-- C72, plain sources (`_partial`): without source root and map URL, if every source of an added mapping has a
content, the consumer made from the generator gives it back under the source's name. Missing: only some sources with
a content, where the claim is false. -/
theorem C72_found_partial (hJ : E.json.Laws) (hU : E.url.Laws) (hL : E.maps.Laws)
    (file : Option String) (skip : Bool) (gops : List GOp) (henc : ∀ m ∈ gAdded gops, m.Encodable E.cfg)
    (hS : (firstOccurrences ((gAdded gops).filterMap Mapping.source)).length < E.cfg.vlqLimit)
    (hN : (firstOccurrences ((gAdded gops).filterMap Mapping.name)).length < E.cfg.vlqLimit)
    (hplain : ∀ m ∈ gAdded gops, ∀ s, m.source = some s → PlainUrl s.toList s.toList)
    (hall : ∀ m ∈ gAdded gops, ∀ s, m.source = some s → latestContent id s gops ≠ none) :
    ∃ (g g' : Generator) (c₀ : BasicConsumer E), (Generator.new file none skip).run E.url E.cfg gops = .ok g ∧
      BasicConsumer.fromSourceMap g none = .ok (c₀, g') ∧
      ∀ (ops : List Op) (c : BasicConsumer E), c₀.run ops = .ok c →
      ∀ m ∈ gAdded gops, ∀ s, m.source = some s → ∀ p,
        ∃ t c', latestContent id s gops = some t ∧ c.sourceContentFor s p = .ok (some t, c') := by
  obtain ⟨g, g', c₀, hg, hc, hsame⟩ := C59_returns (E := E) hJ hU file skip gops henc hS hN
    (fun m hm s hs => ⟨_, hplain m hm s hs⟩)
  refine ⟨g, g', c₀, hg, hc, ?_⟩
  intro ops c hrun m hm s hs p
  obtain ⟨j, hj, hb⟩ := generator_json hJ hc
  have hgs : c.getSources = firstOccurrences ((gAdded gops).filterMap Mapping.source) := by
    rw [C28_sources_stable hL hb hrun, hsame hplain]
  have hmem : s ∈ firstOccurrences ((gAdded gops).filterMap Mapping.source) :=
    (mem_firstOccurrences _ s).2 (List.mem_filterMap.2 ⟨m, hm, hs⟩)
  obtain ⟨i, hi⟩ := List.mem_iff_getElem?.1 hmem
  obtain ⟨n, hn, hf⟩ := exists_first hi
  have hk : c.Knows s n := by
    refine .inl ⟨s, ?_, by rw [hgs]; exact hf⟩
    rw [stored_none hb hL hrun]
    have := sourceUrl_plain (E := E) ((hplain m hm s hs).normalize hU)
    rwa [String.ofList_toList] at this
  exact (C72_contents_partial hJ hL file none skip gops g g' hg hc hrun id (fun _ _ _ => rfl) (fun _ _ _ _ => rfl) hS
    ⟨m, hm, by rw [hs]; rfl⟩ hall).2 s s n p hk hf.1

/-- C72 is false of the code when only some sources have a content: with the second of two sources having one,
asking for the first returns it, and asking for the second panics. -/
theorem C72_some_contents_refuted (hJ : E.json.Laws) (hU : E.url.Laws) (hL : E.maps.Laws) :
    ∃ (gops : List GOp) (g g' : Generator) (c : BasicConsumer E),
      (Generator.new none none false).run E.url E.cfg gops = .ok g ∧
      BasicConsumer.fromSourceMap g none = .ok (c, g') ∧ c.getSources = ["a.js", "b.js"] ∧
      latestContent id "a.js" gops = none ∧ latestContent id "b.js" gops = some "B" ∧
      (∃ c', c.sourceContentFor "a.js" none = .ok (some "B", c')) ∧
      (∃ e, c.sourceContentFor "b.js" (some false) = .error e) := by
  have henc : ∀ m ∈ gAdded [.add gxA, .add gxB, .setContent "b.js" (some "B")], m.Encodable E.cfg := by
    intro m hm
    simp only [gAdded, List.mem_cons, List.not_mem_nil, or_false] at hm
    rcases hm with rfl | rfl
    · exact gxA_enc
    · exact gxB_enc
  have ha : PlainUrl "a.js".toList "a.js".toList :=
    PlainUrl.ref ⟨[], "a.js".toList⟩ ⟨by simp, by decide⟩ (by decide)
  have hb : PlainUrl "b.js".toList "b.js".toList :=
    PlainUrl.ref ⟨[], "b.js".toList⟩ ⟨by simp, by decide⟩ (by decide)
  have hp : ∀ m ∈ gAdded [.add gxA, .add gxB, .setContent "b.js" (some "B")], ∀ s, m.source = some s →
      PlainUrl s.toList s.toList := by
    intro m hm s hs
    simp only [gAdded, List.mem_cons, List.not_mem_nil, or_false] at hm
    rcases hm with rfl | rfl <;> cases hs
    · exact ha
    · exact hb
  obtain ⟨hS, hN⟩ := tables_small (ops := [.add gxA, .add gxB, .setContent "b.js" (some "B")]) (by decide)
  obtain ⟨g, g', c, h1, h2, h3⟩ := C59_returns (E := E) hJ hU none false _ henc hS hN
    (fun m hm s hs => ⟨_, hp m hm s hs⟩)
  have hgs : c.getSources = ["a.js", "b.js"] := (h3 hp).trans (by decide)
  obtain ⟨j, hj, hbt⟩ := generator_json hJ h2
  obtain ⟨C, rfl, -, h4⟩ := C72_contents_shifted hJ hL none none false _ g g' h1 h2 (ops := []) rfl id
    (fun _ _ _ => rfl) (fun _ _ _ _ => rfl) hS ⟨"b.js", by decide⟩
  have hk : ∀ s n, PlainUrl s.toList s.toList → IsFirst c.getSources s n → c.Knows s n := by
    intro s n hs hf
    refine .inl ⟨s, ?_, hf⟩
    rw [stored_none hbt hL (ops := []) (c := c) rfl]
    have := sourceUrl_plain (E := E) (hs.normalize hU)
    rwa [String.ofList_toList] at this
  refine ⟨_, g, g', c, h1, h2, hgs, by decide, by decide, ?_, ?_⟩
  · exact (h4 "a.js" 0 none (hk _ _ ha (by rw [hgs]; exact ⟨rfl, fun j hj => by omega⟩))).1 "B" (by decide)
  · refine (h4 "b.js" 1 (some false) (hk _ _ hb ?_)).2 (by decide)
    rw [hgs]
    refine ⟨rfl, fun j hj => ?_⟩
    obtain rfl : j = 0 := by omega
    decide

/-- The mappings of `revOps` with a content for each source, and an outdated one. -/
def contentOps : List GOp :=
  .setContent "a.js" (some "old") :: revOps ++ [.setContent "a.js" (some "A"), .setContent "b.js" (some "B")]

example : ∃ (g g' : Generator) (c c' : BasicConsumer demoEnv),
    (Generator.new (some "min.js") none false).run demoEnv.url demoEnv.cfg contentOps = .ok g ∧
    BasicConsumer.fromSourceMap g none = .ok (c, g') ∧ c.sourceContentFor "a.js" none = .ok (some "A", c') := by
  obtain ⟨hS, hN⟩ := tables_small (ops := contentOps) (by decide)
  obtain ⟨g, g', c, h1, h2, h3⟩ := C72_found_partial (E := demoEnv) demo_json demo_url demo_maps
    (some "min.js") false contentOps revOps_enc hS hN revOps_plain (by
      intro m hm s hs
      have : s = "a.js" ∨ s = "b.js" := by
        have : ∀ m ∈ gAdded contentOps, m.source = none ∨ m.source = some "a.js" ∨ m.source = some "b.js" := by decide
        rcases this m hm with h | h | h <;> rw [hs] at h <;> simp_all
      rcases this with rfl | rfl <;> decide)
  obtain ⟨t, c', h4, h5⟩ := h3 [] c rfl
    { generated := ⟨4, 0⟩, original := some ⟨1, 0⟩, source := some "a.js" } (by decide) "a.js" rfl none
  obtain rfl : t = "A" := by
    have : latestContent id "a.js" contentOps = some "A" := by decide
    rw [this] at h4
    exact (Option.some.inj h4).symm
  exact ⟨g, g', c, c', h1, h2, h5⟩

/-- C71's hypotheses are met, and its mapping exists: nothing is found at the position of an added mapping, and
the first mapping of line 4 is what is found for the end of line 3. -/
example : ∃ (g g' : Generator) (c : BasicConsumer demoEnv),
    (Generator.new (some "min.js") none false).run demoEnv.url demoEnv.cfg revOps = .ok g ∧
    BasicConsumer.fromSourceMap g none = .ok (c, g') ∧
    (∃ c', c.originalPositionFor ⟨4, 7⟩ none = .ok (none, c')) ∧
    (∃ r c', c.originalPositionFor ⟨3, 0⟩ (some .lub) = .ok (some r, c') ∧ r.generated = ⟨4, 0⟩) := by
  obtain ⟨hS, hN⟩ := tables_small (ops := revOps) (by decide)
  obtain ⟨g, g', c, h1, h2, h3⟩ := C59_returns (E := demoEnv) demo_json demo_url (some "min.js") false revOps
    revOps_enc hS hN (fun m hm s hs => ⟨_, revOps_plain m hm s hs⟩)
  refine ⟨g, g', c, h1, h2, ?_, ?_⟩
  · exact C71_default_refuted demo_json demo_maps (some "min.js") none false revOps g g' revOps_enc hS hN h1 h2
      (ops := []) rfl demo_total
      (m := { generated := ⟨4, 7⟩, original := some ⟨2, 0⟩, source := some "a.js", name := some "bar" }) (by decide)
  · exact C71_lub_found demo_json demo_maps (some "min.js") none false revOps g g' revOps_enc hS hN h1 h2
      (ops := []) rfl demo_total
      (m := { generated := ⟨4, 0⟩, original := some ⟨1, 0⟩, source := some "a.js" }) (by decide) (p := ⟨3, 0⟩)
      (by decide) (by decide) (by decide) (by decide) (by decide) (by decide)

end RSM
