import Verif.Props.Fields
/-! # Property C98, continued: assignments of any maps, exactly -/

namespace RSM

variable {E : Env}

namespace BasicConsumer

/-- The source a call names. -/
def named : Op → Option String
  | .content s _ => some s
  | .generated s _ _ _ => some s
  | .all s _ _ => some s
  | _ => none

/-- What a history has settled for good: the source roots under which sources were found, and the mappings. -/
structure Past where
  root : String → Option (Option String) := fun _ => none
  mappings : Option (Option String) := none

/-- The source has been found under the root `r`; what was settled before stays. -/
def Past.found (p : Past) (s : String) (r : Option String) : Past :=
  { p with root := fun k => if k = s then (p.root k).or (some r) else p.root k }

/-- The mappings `t` have been read; what was settled before stays. -/
def Past.read (p : Past) (t : Option String) : Past := { p with mappings := p.mappings.or (some t) }

/-- The source, as it stands or under the root of `m`, is one of those listed by the consumer. -/
def finds (c₀ : BasicConsumer E) (m : SourceMapJson) (s : String) : Bool :=
  [none, m.sourceRoot].any fun r =>
    match sourceUrl E r s c₀.sourceMapUrl with
    | .ok x => decide (x ∈ c₀.getSources)
    | .error _ => false

/-- What a call settles while `m` is in the field. -/
def Past.call (c₀ : BasicConsumer E) (m : SourceMapJson) (p : Past) : Op → Past
  | .content s _ => if m.sourcesContent.isSome && finds c₀ m s then p.found s m.sourceRoot else p
  | .generated s _ _ _ =>
    if (p.root s).isSome || finds c₀ m s then (p.found s m.sourceRoot).read m.mappings else p
  | .all s _ _ =>
    if (p.root s).isSome || finds c₀ m s then (p.found s m.sourceRoot).read m.mappings else p
  | .each _ => if (m.mappings.bind fun t => E.maps.parse t.toList).isSome then p.read m.mappings else p
  | .original _ _ => p.read m.mappings
  | .spans => p.read m.mappings

/-- What a history settles, beginning with `m` in the field. -/
def Past.after (c₀ : BasicConsumer E) (m : SourceMapJson) (p : Past) : List Use → Past
  | [] => p
  | .call op :: l => Past.after c₀ m (Past.call c₀ m p op) l
  | .assign m' :: l => Past.after c₀ m' p l

/-- The map that a question about the source `s` is answered from when `m` is in the field: its root and mappings are
the settled ones, as far as they are settled. -/
def Past.view (p : Past) (m : SourceMapJson) (s : String) : SourceMapJson :=
  { m with sourceRoot := (p.root s).getD m.sourceRoot, mappings := p.mappings.getD m.mappings }

/-- Looking up changes the cache only. -/
theorem find_cache (c : BasicConsumer E) (s : String) : ∃ r : Res (Option Int × HMap String Int),
    c.findSourceIndex s = r.map (fun x => (x.1, { c with cache := x.2 })) := by
  obtain ⟨r, hr⟩ := find_form c s
  exact ⟨r, hr c.sourceMap rfl c.mappings c.computedColumnSpans⟩

/-- The answer depends on what is read. -/
theorem step_answer {c d : BasicConsumer E} (hn : c.sourceMap.names = d.sourceMap.names)
    (hs : c.sourceMap.sourcesContent = d.sourceMap.sourcesContent) (ha : c.absoluteSources = d.absoluteSources)
    (hsp : c.computedColumnSpans = d.computedColumnSpans) (hM : c.mappings = d.mappings)
    (hMt : c.mappings = none → c.sourceMap.mappings = d.sourceMap.mappings) {op : Op}
    (hfind : ∀ k, named op = some k → (c.findSourceIndex k).map Prod.fst = (d.findSourceIndex k).map Prod.fst) :
    (c.step op).map Prod.fst = (d.step op).map Prod.fst := by
  have hens : ∀ q q', ensureMappings { c with cache := q } = ensureMappings { d with cache := q' } := by
    intro q q'
    simp only [ensureMappings, ← hM]
    cases h : c.mappings with
    | some M => rfl
    | none => simp only [parseMappings, hMt h]
  have hname : ∀ q q' i, nameAt { c with cache := q } i = nameAt { d with cache := q' } i := by
    intro q q' i; simp only [nameAt, hn]
  have hopt : ∀ q q' i, optName { c with cache := q } i = optName { d with cache := q' } i := by
    intro q q' i; cases i <;> simp only [optName, hname q q']
  have hfind' : ∀ k, named op = some k → (∃ e, c.findSourceIndex k = .error e ∧ d.findSourceIndex k = .error e) ∨
      ∃ i q q', c.findSourceIndex k = .ok (i, { c with cache := q }) ∧
        d.findSourceIndex k = .ok (i, { d with cache := q' }) := by
    intro k hk
    have h := hfind k hk
    obtain ⟨r, hr⟩ := find_cache c k
    obtain ⟨r', hr'⟩ := find_cache d k
    rw [hr, hr'] at h
    cases r with
    | error e =>
      cases r' with
      | error e' => simp only [Except.map, Except.error.injEq] at h; subst h; exact .inl ⟨e, hr, hr'⟩
      | ok x => simp [Except.map] at h
    | ok x =>
      cases r' with
      | error e' => simp [Except.map] at h
      | ok y =>
        simp only [Except.map, Except.ok.injEq] at h
        refine .inr ⟨x.1, x.2, y.2, hr, ?_⟩
        rw [hr', h]; rfl
  cases op with
  | content s p =>
    simp only [BasicConsumer.step, sourceContentFor, ← hs]
    cases c.sourceMap.sourcesContent with
    | none => rfl
    | some contents =>
      rcases hfind' s rfl with ⟨e, h1, h2⟩ | ⟨i, q, q', h1, h2⟩
      · rw [h1, h2]
      · simp only [h1, h2, Res.ok_bind]
        cases i with
        | none => simp only; split <;> rfl
        | some i => simp only; cases index contents (E.cfg.asUsize i) <;> rfl
  | original p b =>
    simp only [BasicConsumer.step, originalPositionFor]
    cases checkPosition p.line p.column with
    | error e => simp only [Res.error_bind, Except.map]
    | ok u =>
      have := hens c.cache d.cache
      rw [show ({ c with cache := c.cache } : BasicConsumer E) = c from rfl,
        show ({ d with cache := d.cache } : BasicConsumer E) = d from rfl] at this
      simp only [Res.ok_bind, this]
      cases d.ensureMappings with
      | error e => simp only [Res.error_bind, Except.map]
      | ok M =>
        simp only [Res.ok_bind]
        cases E.cfg.arith (p.line - 1) with
        | error e => simp only [Res.error_bind, Except.map]
        | ok line =>
          simp only [Res.ok_bind]
          cases E.maps.originalLocationFor M (asU32 line) (asU32 p.column) (b.getD .glb) with
          | error e => simp only [Res.error_bind, Except.map]
          | ok x =>
            have : ∀ y, reportOriginal c p.line y = reportOriginal d p.line y := by
              intro y
              cases y with
              | none => rfl
              | some y =>
                have ho : ∀ i, c.optName i = d.optName i := fun i => hopt c.cache d.cache i
                simp only [reportOriginal, ha, ho]
            simp only [Res.ok_bind, this]
            cases reportOriginal d p.line x.1 <;> rfl
  | generated s l k b =>
    simp only [BasicConsumer.step, generatedPositionFor]
    rcases hfind' s rfl with ⟨e, h1, h2⟩ | ⟨i, q, q', h1, h2⟩
    · rw [h1, h2]
    · simp only [h1, h2, Res.ok_bind]
      cases i with
      | none => rfl
      | some i =>
        cases checkPosition l k with
        | error e => simp only [Res.error_bind, Except.map]
        | ok u =>
          simp only [Res.ok_bind, hens q q']
          cases ensureMappings { d with cache := q' } with
          | error e => simp only [Res.error_bind, Except.map]
          | ok M =>
            simp only [Res.ok_bind]
            cases E.cfg.arith (l - 1) with
            | error e => simp only [Res.error_bind, Except.map]
            | ok line =>
              simp only [Res.ok_bind]
              cases E.maps.generatedLocationFor M (asU32 i) (asU32 line) (asU32 k) (b.getD .glb) with
              | error e => simp only [Res.error_bind, Except.map]
              | ok x =>
                have : ∀ y, reportGenerated { c with cache := q } i y = reportGenerated { d with cache := q' } i y := by
                  intro y
                  cases y with
                  | none => rfl
                  | some y =>
                    simp only [reportGenerated, nameAt, hn, ha, hsp]
                simp only [Res.ok_bind, this]
                cases reportGenerated { d with cache := q' } i x.1 <;> rfl
  | all s l k =>
    simp only [BasicConsumer.step, allGeneratedPositionFor]
    rcases hfind' s rfl with ⟨e, h1, h2⟩ | ⟨i, q, q', h1, h2⟩
    · rw [h1, h2]
    · simp only [h1, h2, Res.ok_bind]
      cases i with
      | none => rfl
      | some i =>
        simp only
        split
        · rfl
        · cases checkPosition l (k.getD 0) with
          | error e => simp only [Res.error_bind, Except.map]
          | ok u =>
            simp only [Res.ok_bind, hens q q']
            cases ensureMappings { d with cache := q' } with
            | error e => simp only [Res.error_bind, Except.map]
            | ok M =>
              simp only [Res.ok_bind]
              cases E.maps.allGeneratedLocationsFor M (asU32 i) (asU32 l) (some (asU32 (k.getD 0))) <;> rfl
  | each o =>
    simp only [BasicConsumer.step, eachMapping, ← hM]
    cases h : c.mappings with
    | some M => simp only; cases iterate M o <;> rfl
    | none =>
      simp only [parseMappings, hMt h]
      cases unwrap d.sourceMap.mappings with
      | error e => simp only [Res.error_bind, Except.map]
      | ok t =>
        simp only [Res.ok_bind, Res.pure_eq]
        cases E.maps.parse t.toList with
        | none => rfl
        | some M => simp only; cases iterate M o <;> rfl
  | spans =>
    simp only [BasicConsumer.step, computeColumnSpans, ← hsp]
    split
    · rfl
    · have := hens c.cache d.cache
      rw [show ({ c with cache := c.cache } : BasicConsumer E) = c from rfl,
        show ({ d with cache := d.cache } : BasicConsumer E) = d from rfl] at this
      rw [this]
      cases d.ensureMappings with
      | error e => simp only [Res.error_bind, Except.map]
      | ok M => simp only [Res.ok_bind]; cases E.maps.computeColumnSpans M <;> rfl

/-- What a history has led to: `m` is in the field, and `p` is settled. -/
structure Settled (c₀ : BasicConsumer E) (m : SourceMapJson) (p : Past) (c : BasicConsumer E) : Prop where
  field : c.sourceMap = m
  abs : c.absoluteSources = c₀.absoluteSources
  url : c.sourceMapUrl = c₀.sourceMapUrl
  unfound : ∀ k, p.root k = none → c.cache.get? k = none
  found : ∀ k r, p.root k = some r → ∃ v, c.cache.get? k = some v ∧
    ∀ m' : SourceMapJson, m'.sourceRoot = r → (c₀.assign m').lookupIndex k = .ok (some v)
  unread : p.mappings = none → c.mappings = none
  read : ∀ t, p.mappings = some t → ∃ M M₀, c.mappings = some M ∧
    (∀ m' : SourceMapJson, m'.mappings = t → (c₀.assign m').parsed = .ok M₀) ∧ E.maps.core M = E.maps.core M₀
  spans : c.computedColumnSpans = true → c.mappings ≠ none

theorem Settled.assign {c₀ c : BasicConsumer E} {m : SourceMapJson} {p : Past} (h : Settled c₀ m p c)
    (m' : SourceMapJson) : Settled c₀ m' p (c.assign m') :=
  ⟨rfl, h.abs, h.url, h.unfound, h.found, h.unread, h.read, h.spans⟩

/-- The list of sources is one that `indexOf` searches. -/
def Searchable (c₀ : BasicConsumer E) : Prop :=
  (∀ x, c₀.absoluteSources.indexOf x = none ↔ x ∉ c₀.getSources) ∧
  ∀ x i, c₀.absoluteSources.indexOf x = some i → (i : Int) < 2147483648

theorem wrap32_nat {i : Nat} (h : (i : Int) < 2147483648) : wrap32 i = i := by
  unfold wrap32; omega

theorem lookup_finds {c₀ : BasicConsumer E} (hs : Searchable c₀) {m : SourceMapJson} {s : String} {i : Option Int}
    (h : (c₀.assign m).lookupIndex s = .ok i) : i.isSome = finds c₀ m s ∧ ∀ v, i = some v → 0 ≤ v := by
  simp only [lookupIndex, BasicConsumer.assign, Res.bind_eq_ok] at h
  obtain ⟨rel, h1, h⟩ := h
  cases h2 : c₀.absoluteSources.indexOf rel with
  | some j =>
    rw [h2] at h
    simp only [Except.ok.injEq] at h
    subst h
    have hm : rel ∈ c₀.getSources :=
      Decidable.byContradiction fun hm => by rw [(hs.1 rel).2 hm] at h2; cases h2
    refine ⟨by simp [finds, h1, hm], ?_⟩
    intro v hv
    rw [← Option.some.inj hv, wrap32_nat (hs.2 _ _ h2)]; omega
  | none =>
    have hm := (hs.1 rel).1 h2
    rw [h2] at h
    simp only [Res.bind_eq_ok] at h
    obtain ⟨rooted, h3, h⟩ := h
    cases h4 : c₀.absoluteSources.indexOf rooted with
    | some j =>
      rw [h4] at h
      simp only [Except.ok.injEq] at h
      subst h
      have hm' : rooted ∈ c₀.getSources :=
        Decidable.byContradiction fun hm' => by rw [(hs.1 rooted).2 hm'] at h4; cases h4
      refine ⟨by simp [finds, h1, hm, h3, hm'], ?_⟩
      intro v hv
      rw [← Option.some.inj hv, wrap32_nat (hs.2 _ _ h4)]; omega
    | none =>
      have hm' := (hs.1 rooted).1 h4
      rw [h4] at h
      simp only [Except.ok.injEq] at h
      subst h
      exact ⟨by simp [finds, h1, hm, h3, hm'], by simp⟩

theorem lookup_root (c₀ : BasicConsumer E) {m m' : SourceMapJson} (h : m'.sourceRoot = m.sourceRoot) (s : String) :
    (c₀.assign m').lookupIndex s = (c₀.assign m).lookupIndex s := by
  simp only [lookupIndex, BasicConsumer.assign, h]

/-- What looking a source up settles. -/
theorem Settled.find {c₀ c c' : BasicConsumer E} {m : SourceMapJson} {p : Past} (h : Settled c₀ m p c)
    (hs : Searchable c₀) {s : String} {i : Option Int} (hf : c.findSourceIndex s = .ok (i, c')) :
    i.isSome = ((p.root s).isSome || finds c₀ m s) ∧ (∀ v, i = some v → 0 ≤ v) ∧ (∃ q, c' = { c with cache := q }) ∧
    Settled c₀ m (if i.isSome then p.found s m.sourceRoot else p) c' := by
  cases hr : p.root s with
  | some r =>
    obtain ⟨v, h1, h2⟩ := h.found s r hr
    simp only [findSourceIndex, h1, Except.ok.injEq, Prod.mk.injEq] at hf
    obtain ⟨rfl, rfl⟩ := hf
    have hp : p.found s m.sourceRoot = p := by
      obtain ⟨pr, pm⟩ := p
      simp only [Past.found, Past.mk.injEq, and_true]
      funext k
      split
      · next hk => subst hk; simp only at hr; rw [hr]; rfl
      · rfl
    refine ⟨rfl, ?_, ⟨c.cache, rfl⟩, by simpa [hp] using h⟩
    rintro w ⟨⟩
    exact (lookup_finds hs (h2 { m with sourceRoot := r } rfl)).2 v rfl
  | none =>
    have hc := h.unfound s hr
    have key : ∀ x, c.findSourceIndex s = .ok (x, c') → (c₀.assign m).lookupIndex s = .ok x ∧
        (x = none → c' = c) ∧ ∀ v, x = some v → c' = { c with cache := c.cache.insert s v } := by
      intro x hx
      simp only [findSourceIndex, hc, Res.bind_eq_ok] at hx
      simp only [lookupIndex, BasicConsumer.assign, ← h.abs, ← h.url, ← h.field]
      obtain ⟨rel, h1, hx⟩ := hx
      rw [h1, Res.ok_bind]
      cases h2 : c.absoluteSources.indexOf rel with
      | some j =>
        rw [h2] at hx
        simp only [Except.ok.injEq, Prod.mk.injEq] at hx
        obtain ⟨rfl, rfl⟩ := hx
        exact ⟨rfl, by simp, fun v hv => by rw [Option.some.inj hv]⟩
      | none =>
        rw [h2] at hx
        simp only [Res.bind_eq_ok] at hx
        obtain ⟨rooted, h3, hx⟩ := hx
        simp only [h3, Res.ok_bind]
        cases h4 : c.absoluteSources.indexOf rooted with
        | some j =>
          rw [h4] at hx
          simp only [Except.ok.injEq, Prod.mk.injEq] at hx
          obtain ⟨rfl, rfl⟩ := hx
          exact ⟨rfl, by simp, fun v hv => by rw [Option.some.inj hv]⟩
        | none =>
          rw [h4] at hx
          simp only [Except.ok.injEq, Prod.mk.injEq] at hx
          obtain ⟨rfl, rfl⟩ := hx
          exact ⟨rfl, fun _ => rfl, by simp⟩
    obtain ⟨k1, k2, k3⟩ := key i hf
    obtain ⟨f1, f2⟩ := lookup_finds hs k1
    refine ⟨by simpa using f1, f2, ?_⟩
    cases i with
    | none =>
      obtain rfl := k2 rfl
      exact ⟨⟨c'.cache, rfl⟩, by simpa using h⟩
    | some v =>
      obtain rfl := k3 v rfl
      refine ⟨⟨_, rfl⟩, ?_⟩
      simp only [Option.isSome_some, if_true]
      refine ⟨h.field, h.abs, h.url, ?_, ?_, h.unread, h.read, h.spans⟩
      · intro k hk
        simp only [Past.found] at hk
        simp only [HMap.get?_insert]
        split at hk
        · simp at hk
        · next hks => rw [if_neg hks]; exact h.unfound k hk
      · intro k r hk
        simp only [Past.found] at hk
        simp only [HMap.get?_insert]
        split at hk
        · next hks =>
          subst hks
          rw [hr] at hk
          simp only [Option.none_or, Option.some.injEq] at hk
          subst hk
          refine ⟨v, by simp, fun m' hm' => ?_⟩
          rw [lookup_root c₀ hm']; exact k1
        · next hks => rw [if_neg hks]; exact h.found k r hk

theorem parsed_mappings (c₀ : BasicConsumer E) {m m' : SourceMapJson} (h : m'.mappings = m.mappings) :
    (c₀.assign m').parsed = (c₀.assign m).parsed := by
  simp only [BasicConsumer.parsed, BasicConsumer.assign, h]

/-- The mappings a call goes on with, and what reading them settles. -/
theorem Settled.ensure {c₀ c : BasicConsumer E} {m : SourceMapJson} {p : Past} (h : Settled c₀ m p c)
    {M : E.maps.M} (he : c.ensureMappings = .ok M) {M' : E.maps.M} (hM : E.maps.core M' = E.maps.core M) :
    Settled c₀ m (p.read m.mappings) { c with mappings := some M' } := by
  refine ⟨h.field, h.abs, h.url, h.unfound, h.found, ?_, ?_, fun _ => by simp⟩
  · intro hn; simp [Past.read] at hn
  · intro t ht
    refine ⟨M', ?_⟩
    cases hp : p.mappings with
    | some t' =>
      simp only [Past.read, hp, Option.some_or, Option.some.injEq] at ht
      subst ht
      obtain ⟨M₁, M₀, h1, h2, h3⟩ := h.read t' hp
      simp only [ensureMappings, h1, Except.ok.injEq] at he
      subst he
      exact ⟨M₀, rfl, h2, hM.trans h3⟩
    | none =>
      simp only [Past.read, hp, Option.none_or, Option.some.injEq] at ht
      subst ht
      have hn := h.unread hp
      refine ⟨M, rfl, fun m' hm' => ?_, hM⟩
      rw [parsed_mappings c₀ hm', ← he]
      simp only [ensureMappings, hn, parseMappings, BasicConsumer.parsed, BasicConsumer.assign, h.field]
      cases unwrap m.mappings <;> rfl

/-- What a call settles. -/
theorem Settled.step (hL : E.maps.Laws) {c₀ c c' : BasicConsumer E} (hs : Searchable c₀) {m : SourceMapJson}
    {p : Past} (h : Settled c₀ m p c) {op : Op} {a : Ans} (hr : c.step op = .ok (a, c')) :
    Settled c₀ m (Past.call c₀ m p op) c' := by
  cases op with
  | content s q =>
    simp only [BasicConsumer.step, Res.bind_eq_ok, Res.pure_eq, Except.ok.injEq, Prod.mk.injEq] at hr
    obtain ⟨⟨r, c1⟩, hr, -, rfl⟩ := hr
    simp only [sourceContentFor, h.field] at hr
    simp only [Past.call]
    cases hc : m.sourcesContent with
    | none =>
      rw [hc] at hr
      simp only [Except.ok.injEq, Prod.mk.injEq] at hr
      rw [← hr.2]
      simpa using h
    | some contents =>
      rw [hc] at hr
      simp only [Res.bind_eq_ok] at hr
      obtain ⟨⟨i, c2⟩, hf, hr⟩ := hr
      obtain ⟨k1, _, _, k2⟩ := h.find hs hf
      have hc1 : c2 = c1 := by
        cases i with
        | none =>
          simp only at hr
          split at hr
          · cases hr
          · simp only [Res.pure_eq, Except.ok.injEq, Prod.mk.injEq] at hr; exact hr.2
        | some i =>
          simp only [Res.bind_eq_ok, Res.pure_eq, Except.ok.injEq, Prod.mk.injEq] at hr
          obtain ⟨_, _, _, h⟩ := hr; exact h
      subst hc1
      simp only [Option.isSome_some, Bool.true_and]
      cases hf : finds c₀ m s with
      | true => rw [hf] at k1; simp only [Bool.or_true] at k1; simpa [k1] using k2
      | false =>
        rw [hf] at k1
        simp only [Bool.or_false] at k1
        cases hp : p.root s with
        | none => rw [hp] at k1; simp only [Option.isSome_none] at k1; simpa [k1] using k2
        | some r =>
          have : p.found s m.sourceRoot = p := by
            obtain ⟨pr, pm⟩ := p
            simp only [Past.found, Past.mk.injEq, and_true]
            funext k
            split
            · next hk => subst hk; simp only at hp; rw [hp]; rfl
            · rfl
          rw [this] at k2
          simpa using k2
  | original q b =>
    simp only [BasicConsumer.step, Res.bind_eq_ok, Res.pure_eq, Except.ok.injEq, Prod.mk.injEq] at hr
    obtain ⟨⟨r, c1⟩, hr, -, rfl⟩ := hr
    simp only [originalPositionFor, Res.bind_eq_ok, Res.pure_eq, Except.ok.injEq, Prod.mk.injEq] at hr
    obtain ⟨_, _, M, hM, line, _, ⟨x, M'⟩, hx, _, _, _, rfl⟩ := hr
    exact h.ensure hM (hL.orig_core _ _ _ _ _ _ hx)
  | generated s l k b =>
    simp only [BasicConsumer.step, Res.bind_eq_ok, Res.pure_eq, Except.ok.injEq, Prod.mk.injEq] at hr
    obtain ⟨⟨r, c1⟩, hr, -, rfl⟩ := hr
    simp only [generatedPositionFor, Res.bind_eq_ok] at hr
    obtain ⟨⟨i, c2⟩, hf, hr⟩ := hr
    obtain ⟨k1, _, _, k2⟩ := h.find hs hf
    simp only [Past.call, ← k1]
    cases i with
    | none =>
      simp only [Res.pure_eq, Except.ok.injEq, Prod.mk.injEq] at hr
      rw [← hr.2]
      simpa using k2
    | some i =>
      simp only [Res.bind_eq_ok, Res.pure_eq, Except.ok.injEq, Prod.mk.injEq] at hr
      obtain ⟨_, _, M, hM, line, _, ⟨x, M'⟩, hx, _, _, _, rfl⟩ := hr
      exact k2.ensure hM (hL.gen_core _ _ _ _ _ _ _ hx)
  | all s l k =>
    simp only [BasicConsumer.step, Res.bind_eq_ok, Res.pure_eq, Except.ok.injEq, Prod.mk.injEq] at hr
    obtain ⟨⟨r, c1⟩, hr, -, rfl⟩ := hr
    simp only [allGeneratedPositionFor, Res.bind_eq_ok] at hr
    obtain ⟨⟨i, c2⟩, hf, hr⟩ := hr
    obtain ⟨k1, k0, _, k2⟩ := h.find hs hf
    simp only [Past.call, ← k1]
    cases i with
    | none =>
      simp only [Res.pure_eq, Except.ok.injEq, Prod.mk.injEq] at hr
      rw [← hr.2]
      simpa using k2
    | some i =>
      have := k0 i rfl
      simp only [if_neg (show ¬ i < 0 by omega), Res.bind_eq_ok, Res.pure_eq, Except.ok.injEq, Prod.mk.injEq] at hr
      obtain ⟨_, _, M, hM, ⟨x, M'⟩, hx, _, rfl⟩ := hr
      exact k2.ensure hM (hL.all_core _ _ _ _ _ _ hx)
  | each o =>
    simp only [BasicConsumer.step, Res.bind_eq_ok, Res.pure_eq, Except.ok.injEq, Prod.mk.injEq] at hr
    obtain ⟨⟨r, c1⟩, hr, -, rfl⟩ := hr
    have hcore : ∀ {M M' : E.maps.M} {r}, iterate M o = .ok (r, M') → E.maps.core M' = E.maps.core M := by
      intro M M' r h3
      cases o with
      | original => exact hL.byOrig_core _ _ _ h3
      | generated => simp only [iterate, Except.ok.injEq, Prod.mk.injEq] at h3; rw [h3.2]
    simp only [eachMapping] at hr
    simp only [Past.call]
    cases hm : c.mappings with
    | some M =>
      simp only [hm, Res.bind_eq_ok, Res.pure_eq, Except.ok.injEq, Prod.mk.injEq] at hr
      obtain ⟨⟨l, M'⟩, hi, rfl, rfl⟩ := hr
      have := h.ensure (M := M) (by simp [ensureMappings, hm]) (hcore hi)
      split
      · exact this
      · have hp : p.read m.mappings = p := by
          obtain ⟨pr, pm⟩ := p
          simp only [Past.read, Past.mk.injEq, true_and]
          cases pm with
          | none => rw [h.unread rfl] at hm; cases hm
          | some t => rfl
        rwa [hp] at this
    | none =>
      simp only [hm, parseMappings, Res.bind_eq_ok, Res.pure_eq, Except.ok.injEq, h.field] at hr
      obtain ⟨pp, ⟨t, ht, rfl⟩, hr⟩ := hr
      have ht' : m.mappings = some t := by
        cases hx : m.mappings with
        | none => rw [hx] at ht; cases ht
        | some y => rw [hx] at ht; cases ht; rfl
      cases hp : E.maps.parse t.toList with
      | none =>
        rw [hp] at hr
        simp only [Except.ok.injEq, Prod.mk.injEq] at hr
        rw [← hr.2]
        simpa [ht', hp] using h
      | some M =>
        rw [hp] at hr
        simp only [Res.bind_eq_ok, Except.ok.injEq, Prod.mk.injEq] at hr
        obtain ⟨⟨l, M'⟩, hi, rfl, rfl⟩ := hr
        have := h.ensure (M := M) (by simp [ensureMappings, hm, parseMappings, h.field, ht', hp, unwrap]) (hcore hi)
        rw [h.field] at this
        simpa [ht', hp] using this
  | spans =>
    simp only [BasicConsumer.step, Res.bind_eq_ok, Res.pure_eq, Except.ok.injEq, Prod.mk.injEq] at hr
    obtain ⟨c1, hr, -, rfl⟩ := hr
    simp only [computeColumnSpans] at hr
    split at hr
    · next hsp =>
      cases hr
      have hp : p.read m.mappings = p := by
        obtain ⟨pr, pm⟩ := p
        simp only [Past.read, Past.mk.injEq, true_and]
        cases pm with
        | none => exact absurd (h.unread rfl) (h.spans hsp)
        | some t => rfl
      simp only [Past.call, hp]; exact h
    · simp only [Res.bind_eq_ok, Res.pure_eq, Except.ok.injEq] at hr
      obtain ⟨M, hM, M', hM', rfl⟩ := hr
      have := h.ensure hM (hL.spans_core _ _ hM')
      exact ⟨this.field, this.abs, this.url, this.unfound, this.found, this.unread, this.read, fun _ => by simp⟩

theorem Settled.uses (hL : E.maps.Laws) {c₀ : BasicConsumer E} (hs : Searchable c₀) : ∀ {l : List Use}
    {c c' : BasicConsumer E} {m : SourceMapJson} {p : Past}, Settled c₀ m p c → c.uses l = .ok c' →
    Settled c₀ (latest m l) (Past.after c₀ m p l) c' := by
  intro l
  induction l with
  | nil => intro c c' m p h hu; cases hu; exact h
  | cons x l ih =>
    intro c c' m p h hu
    cases x with
    | call op =>
      simp only [BasicConsumer.uses, Res.bind_eq_ok] at hu
      obtain ⟨⟨a, c1⟩, h1, h2⟩ := hu
      exact ih (h.step hL hs h1) h2
    | assign m' => exact ih (h.assign m') hu

/-- The answers are those of the new consumer with the view of the field. -/
theorem Settled.fresh {c₀ c : BasicConsumer E} (hf : c₀.Fresh) {m : SourceMapJson} {p : Past}
    (h : Settled c₀ m p c) (hL : E.maps.Laws) (hT : E.maps.Total) (op : Op) (k : String)
    (hk : named op = none ∨ named op = some k) :
    (c.step op).map (fun r => r.1.strip) = ((c₀.assign (p.view m k)).step op).map (fun r => r.1.strip) := by
  have h0 : Fresh (c₀.assign (p.view m k)) := ⟨hf.cache, hf.mappings, hf.spans⟩
  let q : HMap String Int := match c.cache.get? k with
    | none => HMap.empty
    | some v => HMap.empty.insert k v
  let d : BasicConsumer E :=
    { c₀.assign (p.view m k) with cache := q, mappings := c.mappings, computedColumnSpans := c.computedColumnSpans }
  have hq : q.get? k = c.cache.get? k := by
    show HMap.get? (match c.cache.get? k with
      | none => HMap.empty
      | some v => HMap.empty.insert k v) k = _
    cases c.cache.get? k with
    | none => rfl
    | some v => simp [HMap.get?_insert]
  have hrel : Rel (c₀.assign (p.view m k)) d := by
    refine ⟨rfl, rfl, rfl, ?_, ?_, h.spans⟩
    · intro j v hj
      have hjk : j = k ∧ c.cache.get? k = some v := by
        change HMap.get? (match c.cache.get? k with
          | none => HMap.empty
          | some v => HMap.empty.insert k v) j = some v at hj
        cases hc : c.cache.get? k with
        | none => rw [hc] at hj; simp at hj
        | some w =>
          rw [hc] at hj
          simp only [HMap.get?_insert, HMap.get?_empty] at hj
          split at hj
          · next e => exact ⟨e, hj⟩
          · cases hj
      obtain ⟨rfl, hv⟩ := hjk
      cases hr : p.root j with
      | none => rw [h.unfound j hr] at hv; cases hv
      | some r =>
        obtain ⟨w, h1, h2⟩ := h.found j r hr
        rw [hv, Option.some.injEq] at h1
        subst h1
        exact h2 _ (by simp [Past.view, hr])
    · intro M hM
      have hM' : c.mappings = some M := hM
      cases hp : p.mappings with
      | none => rw [h.unread hp] at hM'; cases hM'
      | some t =>
        obtain ⟨M₁, M₀, h1, h2, h3⟩ := h.read t hp
        rw [hM', Option.some.injEq] at h1
        subst h1
        exact ⟨M₀, h2 _ (by simp [Past.view, hp]), h3⟩
  rw [← hrel.agree_total hL hT h0.rel op]
  have hans : (c.step op).map Prod.fst = (d.step op).map Prod.fst := by
    refine step_answer (d := d) (by rw [h.field]; rfl) (by rw [h.field]; rfl) h.abs rfl rfl (fun hn => ?_) (fun j hj => ?_)
    · rw [h.field]
      show m.mappings = p.mappings.getD m.mappings
      cases hp : p.mappings with
      | none => rfl
      | some t => obtain ⟨M, _, h1, _⟩ := h.read t hp; rw [hn] at h1; cases h1
    · have hjk : j = k := by
        rcases hk with hk | hk
        · rw [hk] at hj; cases hj
        · rw [hk] at hj; cases hj; rfl
      subst hjk
      cases hc : c.cache.get? j with
      | some v =>
        have hd : d.cache.get? j = some v := by rw [← hc]; exact hq
        simp only [findSourceIndex, hc, hd, Except.map]
      | none =>
        have hd : d.cache.get? j = none := by rw [← hc]; exact hq
        have hroot : d.sourceMap.sourceRoot = c.sourceMap.sourceRoot := by
          rw [h.field]
          show (p.root j).getD m.sourceRoot = m.sourceRoot
          cases hr : p.root j with
          | none => rfl
          | some r => obtain ⟨v, h1, _⟩ := h.found j r hr; rw [hc] at h1; cases h1
        have hu : d.sourceMapUrl = c.sourceMapUrl := h.url.symm
        have ha : d.absoluteSources = c.absoluteSources := h.abs.symm
        simp only [findSourceIndex, hc, hd, hroot, hu, ha]
        cases sourceUrl E none j c.sourceMapUrl with
        | error e => rfl
        | ok rel =>
          simp only [Res.ok_bind]
          cases c.absoluteSources.indexOf rel with
          | some i => rfl
          | none =>
            simp only
            cases sourceUrl E c.sourceMap.sourceRoot j c.sourceMapUrl with
            | error e => rfl
            | ok rooted =>
              simp only [Res.ok_bind]
              cases c.absoluteSources.indexOf rooted <;> rfl
  have hc : ∀ x : Res (Ans × BasicConsumer E),
      x.map (fun r => r.1.strip) = (x.map Prod.fst).map Ans.strip := by
    intro x; cases x <;> rfl
  rw [hc, hc, hans]

end BasicConsumer

open BasicConsumer

/-- C98, exactly, whatever maps are assigned: a question is answered as a new consumer would, with the last map in its
field except for its source root, which is the one under which the source asked about was first found, if it was, and
for its mappings, which are those first read, if they were. The list of sources stays the one made at construction. -/
theorem C98_exactly (hL : E.maps.Laws) (hT : E.maps.Total) {m₀ : SourceMapJson} {u : Option String}
    {c₀ c : BasicConsumer E} (hb : Built m₀ u c₀) (hlen : c₀.getSources.length < 2147483648) {l : List Use}
    (hu : c₀.uses l = .ok c) :
    c.getSources = c₀.getSources ∧ c.sourceMap = latest m₀ l ∧
    c.hasContentsOfAllSources = (c₀.assign (latest m₀ l)).hasContentsOfAllSources ∧
    ∀ (op : Op) (s : String), (named op = none ∨ named op = some s) →
      (c.step op).map (fun r => r.1.strip) =
        ((c₀.assign ((Past.after c₀ m₀ {} l).view (latest m₀ l) s)).step op).map (fun r => r.1.strip) := by
  obtain ⟨_, srcs, urls, _, _, hf, hm, habs, _⟩ := hb.spec
  have hgs : c₀.getSources = urls := by
    simp only [BasicConsumer.getSources, habs, C07_arrayset_duplicates]
  have hs : Searchable c₀ := by
    refine ⟨fun x => ?_, fun x i hi => ?_⟩
    · rw [hgs, habs]; exact indexOf_none urls x
    · rw [habs, indexOf_first] at hi
      have : i < urls.length := (List.getElem?_eq_some_iff.1 hi.1).1
      rw [hgs] at hlen
      omega
  have h0 : Settled c₀ m₀ {} c₀ :=
    ⟨hm, rfl, rfl, fun k _ => by rw [hf.cache]; rfl, fun k r hk => (nomatch hk), fun _ => hf.mappings,
      fun t ht => (nomatch ht), fun hsp => (nomatch hsp.symm.trans hf.spans)⟩
  have h1 := Settled.uses hL hs h0 hu
  refine ⟨?_, h1.field, ?_, fun op s hk => Settled.fresh hf h1 hL hT op s hk⟩
  · simp only [getSources, h1.abs]
  · simp only [hasContentsOfAllSources, h1.field, assign]

/-- The answer to `op`, about the source `s`, after the uses `l` of the consumer of a map, and that of the new consumer
with the view of its field. -/
def viewCase (m₀ : SourceMapJson) (l : List Use) (op : Op) (s : String) : Res (RawAns × RawAns) := do
  let c₀ ← demoConsumer m₀
  let c ← c₀.uses l
  let x ← c.step op
  let y ← (c₀.assign ((Past.after c₀ m₀ {} l).view (latest m₀ l) s)).step op
  pure (x.1.strip, y.1.strip)

/-! A case of the theorem: `one.js` is found under the root of the first map and the mappings are read; then a map without
root, with other contents and other mappings, is assigned. The content asked for is the new one of the source found
before, though a new consumer would not find it; the other source was not found before and is not found now; the mappings
are the old ones. -/

def swapped : SourceMapJson :=
  { demoMap with sourcesContent := some ["1", "2"], mappings := some "CAAC" }

def swapping : List Use := [.call (.content "one.js" none), .call (.each .generated), .assign swapped]

example : viewCase { demoRooted with mappings := some "AAAA" } swapping (.content "one.js" (some false)) "one.js" =
    .ok (.content (some "1"), .content (some "1")) := by decide +kernel

example : viewCase { demoRooted with mappings := some "AAAA" } swapping (.content "two.js" (some false)) "two.js" =
    .ok (.content none, .content none) := by decide +kernel

example : viewCase { demoRooted with mappings := some "AAAA" } swapping (.each .generated) "" =
    .ok (.mappings [⟨0, 0, some ⟨0, 0, 0, none⟩⟩], .mappings [⟨0, 0, some ⟨0, 0, 0, none⟩⟩]) := by decide +kernel

end RSM
