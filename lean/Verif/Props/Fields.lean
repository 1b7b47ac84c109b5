import Verif.Model.Fields
import Verif.Props.Consumer
import Verif.Props.Indexed
/-! # Property C98: assignments to the public field `source_map` -/

namespace RSM

variable {E : Env}

namespace BasicConsumer

/-- What a caller can do with a consumer: call a method, or assign to `source_map`. -/
inductive Use where
  | call (op : Op)
  | assign (m : SourceMapJson)

/-- A sequence of uses, in which the calls all return. -/
def uses (c : BasicConsumer E) : List Use → Res (BasicConsumer E)
  | [] => .ok c
  | .call op :: l => do
    let r ← c.step op
    r.2.uses l
  | .assign m :: l => (c.assign m).uses l

/-- The map assigned last; `m` if none was. -/
def latest (m : SourceMapJson) : List Use → SourceMapJson
  | [] => m
  | .call _ :: l => latest m l
  | .assign m' :: l => latest m' l

/-- The maps assigned. -/
def assigned : List Use → List SourceMapJson
  | [] => []
  | .call _ :: l => assigned l
  | .assign m :: l => m :: assigned l

/-- The map with other mappings. -/
def withMappings (m : SourceMapJson) (t : Option String) : SourceMapJson := { m with mappings := t }

theorem withMappings_self (m : SourceMapJson) : withMappings m m.mappings = m := by
  cases m; rfl

theorem assign_assign (c : BasicConsumer E) (m m' : SourceMapJson) : (c.assign m).assign m' = c.assign m' := rfl

theorem assign_self (c : BasicConsumer E) : c.assign c.sourceMap = c := rfl

/-- Looking a source up changes the cache only, and reads the root of the map only. -/
theorem find_form (c : BasicConsumer E) (s : String) : ∃ r : Res (Option Int × HMap String Int),
    ∀ m : SourceMapJson, m.sourceRoot = c.sourceMap.sourceRoot → ∀ (M : Option E.maps.M) (b : Bool),
      findSourceIndex { c with sourceMap := m, mappings := M, computedColumnSpans := b } s =
        r.map (fun x => (x.1, { c with sourceMap := m, mappings := M, computedColumnSpans := b, cache := x.2 })) := by
  cases hc : c.cache.get? s with
  | some v => exact ⟨.ok (some v, c.cache), fun m _ M b => by simp [findSourceIndex, hc, Except.map]⟩
  | none =>
    cases h1 : sourceUrl E none s c.sourceMapUrl with
    | error e => exact ⟨.error e, fun m _ M b => by simp [findSourceIndex, hc, h1, Except.map]⟩
    | ok rel =>
      cases h2 : c.absoluteSources.indexOf rel with
      | some i =>
        exact ⟨.ok (some (wrap32 i), c.cache.insert s (wrap32 i)), fun m _ M b => by
          simp [findSourceIndex, hc, h1, h2, Except.map]⟩
      | none =>
        cases h3 : sourceUrl E c.sourceMap.sourceRoot s c.sourceMapUrl with
        | error e => exact ⟨.error e, fun m hm M b => by simp [findSourceIndex, hc, h1, h2, hm, h3, Except.map]⟩
        | ok rooted =>
          cases h4 : c.absoluteSources.indexOf rooted with
          | some i =>
            exact ⟨.ok (some (wrap32 i), c.cache.insert s (wrap32 i)), fun m hm M b => by
              simp [findSourceIndex, hc, h1, h2, hm, h3, h4, Except.map]⟩
          | none =>
            exact ⟨.ok (none, c.cache), fun m hm M b => by simp [findSourceIndex, hc, h1, h2, hm, h3, h4, Except.map]⟩

/-- Once the mappings are parsed, those of the map are not looked at any more. -/
theorem step_parsed {c : BasicConsumer E} (hc : c.mappings ≠ none) (t : Option String) (op : Op) :
    (c.assign (withMappings c.sourceMap t)).step op =
      (c.step op).map (fun r => (r.1, r.2.assign (withMappings r.2.sourceMap t))) := by
  obtain ⟨m, q, abs, url, ms, sp⟩ := c
  cases ms with
  | none => exact absurd rfl hc
  | some M =>
    have hfind : ∀ s, ∃ r : Res (Option Int × HMap String Int),
        findSourceIndex (E := E) ⟨m, q, abs, url, some M, sp⟩ s =
          r.map (fun x => (x.1, ⟨m, x.2, abs, url, some M, sp⟩)) ∧
        findSourceIndex (E := E) ⟨withMappings m t, q, abs, url, some M, sp⟩ s =
          r.map (fun x => (x.1, ⟨withMappings m t, x.2, abs, url, some M, sp⟩)) := by
      intro s
      obtain ⟨r, hr⟩ := find_form (E := E) ⟨m, q, abs, url, some M, sp⟩ s
      exact ⟨r, hr m rfl (some M) sp, hr (withMappings m t) rfl (some M) sp⟩
    cases op with
    | content s p =>
      obtain ⟨r, h1, h2⟩ := hfind s
      have hsc : (withMappings m t).sourcesContent = m.sourcesContent := rfl
      simp only [BasicConsumer.step, sourceContentFor, assign, h1, h2, hsc]
      cases m.sourcesContent with
      | none => rfl
      | some contents =>
        cases r with
        | error e => rfl
        | ok r =>
          obtain ⟨i, k⟩ := r
          cases i with
          | none => simp only [Except.map, Res.ok_bind]; split <;> rfl
          | some i =>
            simp only [Except.map, Res.ok_bind]
            cases index contents (E.cfg.asUsize i) <;> rfl
    | original p b =>
      simp only [BasicConsumer.step, originalPositionFor, assign, ensureMappings]
      cases checkPosition p.line p.column with
      | error e => rfl
      | ok u =>
        simp only [Res.ok_bind]
        cases E.cfg.arith (p.line - 1) with
        | error e => rfl
        | ok line =>
          simp only [Res.ok_bind]
          cases E.maps.originalLocationFor M (asU32 line) (asU32 p.column) (b.getD .glb) with
          | error e => rfl
          | ok x =>
            have : ∀ y, reportOriginal (E := E) ⟨withMappings m t, q, abs, url, some M, sp⟩ p.line y =
                reportOriginal (E := E) ⟨m, q, abs, url, some M, sp⟩ p.line y := by
              intro y
              cases y with
              | none => rfl
              | some y => rfl
            simp only [Res.ok_bind, this]
            cases reportOriginal (E := E) ⟨m, q, abs, url, some M, sp⟩ p.line x.1 <;> rfl
    | generated s l k b =>
      obtain ⟨r, h1, h2⟩ := hfind s
      simp only [BasicConsumer.step, generatedPositionFor, assign, h1, h2]
      cases r with
      | error e => rfl
      | ok r =>
        obtain ⟨i, w⟩ := r
        simp only [Except.map, Res.ok_bind]
        cases i with
        | none => rfl
        | some i =>
          simp only [ensureMappings]
          cases checkPosition l k with
          | error e => rfl
          | ok u =>
            simp only [Res.ok_bind]
            cases E.cfg.arith (l - 1) with
            | error e => rfl
            | ok line =>
              simp only [Res.ok_bind]
              cases E.maps.generatedLocationFor M (asU32 i) (asU32 line) (asU32 k) (b.getD .glb) with
              | error e => rfl
              | ok x =>
                have : ∀ y, reportGenerated (E := E) ⟨withMappings m t, w, abs, url, some M, sp⟩ i y =
                    reportGenerated (E := E) ⟨m, w, abs, url, some M, sp⟩ i y := by
                  intro y
                  cases y with
                  | none => rfl
                  | some y => rfl
                simp only [Res.ok_bind, this]
                cases reportGenerated (E := E) ⟨m, w, abs, url, some M, sp⟩ i x.1 <;> rfl
    | all s l k =>
      obtain ⟨r, h1, h2⟩ := hfind s
      simp only [BasicConsumer.step, allGeneratedPositionFor, assign, h1, h2]
      cases r with
      | error e => rfl
      | ok r =>
        obtain ⟨i, w⟩ := r
        simp only [Except.map, Res.ok_bind]
        cases i with
        | none => rfl
        | some i =>
          simp only [ensureMappings]
          split
          · rfl
          · cases checkPosition l (k.getD 0) with
            | error e => rfl
            | ok u =>
              simp only [Res.ok_bind]
              cases E.maps.allGeneratedLocationsFor M (asU32 i) (asU32 l) (some (asU32 (k.getD 0))) <;> rfl
    | each o =>
      simp only [BasicConsumer.step, eachMapping, assign]
      cases iterate M o <;> rfl
    | spans =>
      simp only [BasicConsumer.step, computeColumnSpans, assign, ensureMappings]
      cases sp with
      | true => rfl
      | false =>
        simp only [Bool.false_eq_true, if_false, Res.ok_bind]
        cases E.maps.computeColumnSpans M <;> rfl

/-- What the history has led to: `m` is in the field, and `t` are the mappings that count. -/
structure Inv (c₀ : BasicConsumer E) (m : SourceMapJson) (t : Option String) (c : BasicConsumer E) : Prop where
  field : c.sourceMap = m
  rel : Rel (c₀.assign (withMappings m t)) (c.assign (withMappings m t))
  unread : c.mappings = none → t = m.mappings

theorem step_field {c c' : BasicConsumer E} {op : Op} {a : Ans} (hL : E.maps.Laws)
    {c₀ : BasicConsumer E} (h : Rel c₀ c) (hs : c.step op = .ok (a, c')) : c'.sourceMap = c.sourceMap :=
  (h.step hL hs).map.trans h.map.symm

/-- A call that has certainly read the mappings: a question about a generated position or for the column spans,
or any other whose answer has a mapping in it. -/
def Reads : Op → Ans → Prop
  | .original _ _, _ => True
  | .spans, _ => True
  | _, .mapping (some _) => True
  | _, .mappings (_ :: _) => True
  | _, _ => False

theorem step_keeps {c₀ c c' : BasicConsumer E} (h : Rel c₀ c) {op : Op} {a : Ans} (hs : c.step op = .ok (a, c')) :
    (c.mappings ≠ none → c'.mappings ≠ none) ∧ (Reads op a → c'.mappings ≠ none) := by
  cases op with
  | content s p =>
    simp only [BasicConsumer.step, Res.bind_eq_ok, Res.pure_eq, Except.ok.injEq, Prod.mk.injEq] at hs
    obtain ⟨⟨r, c1⟩, hr, rfl, rfl⟩ := hs
    refine ⟨?_, fun h => by simp [Reads] at h⟩
    rcases content_ok h hr with ⟨_, _, rfl⟩ | ⟨_, _, _, _, _, h3, rfl, _⟩ <;> exact id
  | original p b =>
    simp only [BasicConsumer.step, Res.bind_eq_ok, Res.pure_eq, Except.ok.injEq, Prod.mk.injEq] at hs
    obtain ⟨⟨r, c1⟩, hr, -, rfl⟩ := hs
    obtain ⟨_, line, M, M₀, x, M', h1, h2, _, h3, _, rfl⟩ := original_ok h hr
    exact ⟨fun _ => by simp, fun _ => by simp⟩
  | generated s l k b =>
    simp only [BasicConsumer.step, Res.bind_eq_ok, Res.pure_eq, Except.ok.injEq, Prod.mk.injEq] at hs
    obtain ⟨⟨r, c1⟩, hr, rfl, rfl⟩ := hs
    obtain ⟨i, q, _, h1, h2⟩ := generated_ok h hr
    rcases h2 with ⟨_, rfl, rfl⟩ | ⟨i', line, M, M₀, x, M', _, _, h3, h4, _, h5, _, rfl⟩
    · exact ⟨id, fun h => by simp [Reads] at h⟩
    · exact ⟨fun _ => by simp, fun _ => by simp⟩
  | all s l k =>
    simp only [BasicConsumer.step, Res.bind_eq_ok, Res.pure_eq, Except.ok.injEq, Prod.mk.injEq] at hs
    obtain ⟨⟨r, c1⟩, hr, rfl, rfl⟩ := hs
    obtain ⟨i, q, _, h1, h2⟩ := all_ok h hr
    rcases h2 with ⟨_, rfl, rfl⟩ | ⟨i', M, M₀, M', _, _, _, h3, h4, h5, rfl⟩
    · exact ⟨id, fun h => by simp [Reads] at h⟩
    · exact ⟨fun _ => by simp, fun _ => by simp⟩
  | each o =>
    simp only [BasicConsumer.step, Res.bind_eq_ok, Res.pure_eq, Except.ok.injEq, Prod.mk.injEq] at hs
    obtain ⟨⟨r, c1⟩, hr, rfl, rfl⟩ := hs
    rcases each_ok h hr with ⟨_, _, _, rfl, rfl⟩ | ⟨M, M₀, M', h1, h2, h3, rfl⟩
    · exact ⟨id, fun h => by simp [Reads] at h⟩
    · exact ⟨fun _ => by simp, fun _ => by simp⟩
  | spans =>
    simp only [BasicConsumer.step, Res.bind_eq_ok, Res.pure_eq, Except.ok.injEq, Prod.mk.injEq] at hs
    obtain ⟨c1, hr, -, rfl⟩ := hs
    rcases spans_ok h hr with ⟨hsp, rfl⟩ | ⟨M, M₀, M', h1, h2, h3, rfl⟩
    · exact ⟨id, fun _ => h.spans hsp⟩
    · exact ⟨fun _ => by simp, fun _ => by simp⟩

theorem Inv.call (hL : E.maps.Laws) {c₀ c c' : BasicConsumer E} {m : SourceMapJson} {t : Option String}
    (h : Inv c₀ m t c) {op : Op} {a : Ans} (hs : c.step op = .ok (a, c')) :
    Inv c₀ m t c' ∧ (c.mappings ≠ none → c'.mappings ≠ none) ∧ (Reads op a → c'.mappings ≠ none) := by
  obtain ⟨rfl, hrel, hun⟩ := h
  cases hm : c.mappings with
  | none =>
    obtain rfl := hun hm
    rw [withMappings_self] at hrel
    have hrel' : Rel (c₀.assign c.sourceMap) c := hrel
    have hf : c'.sourceMap = c.sourceMap := step_field hL hrel' hs
    refine ⟨⟨hf, ?_, fun _ => rfl⟩, fun h => absurd rfl h, (step_keeps hrel' hs).2⟩
    rw [withMappings_self, ← hf, assign_self, hf]
    exact hrel'.step hL hs
  | some M =>
    have hp := step_parsed (c := c) (by rw [hm]; simp) t op
    rw [hs] at hp
    simp only [Except.map] at hp
    have hk := step_keeps hrel hp
    have hk1 : c'.mappings ≠ none :=
      hk.1 (by rw [show (c.assign (withMappings c.sourceMap t)).mappings = some M from hm]; simp)
    have hf : c'.sourceMap = c.sourceMap := by
      have e1 : withMappings c'.sourceMap t = withMappings c.sourceMap t :=
        (hrel.step hL hp).map.trans hrel.map.symm
      have e2 := step_parsed (c := c) (by rw [hm]; simp) c.sourceMap.mappings op
      rw [withMappings_self, assign_self, hs] at e2
      simp only [Except.map, Except.ok.injEq, Prod.mk.injEq, true_and] at e2
      have e3 : c'.sourceMap.mappings = c.sourceMap.mappings := by rw [e2]; rfl
      have e4 := congrArg (fun x => withMappings x c.sourceMap.mappings) e1
      simp only [withMappings] at e4
      have e5 := withMappings_self c'.sourceMap
      rw [e3, withMappings, e4] at e5
      exact e5.symm.trans (withMappings_self c.sourceMap)
    refine ⟨⟨hf, ?_, fun h => absurd h hk1⟩, fun _ => hk1, fun _ => hk1⟩
    have := hrel.step hL hp
    rw [hf] at this
    exact this

theorem Inv.assign {c₀ c : BasicConsumer E} {m m' : SourceMapJson} {t : Option String} (h : Inv c₀ m t c)
    (hr : m'.sourceRoot = m.sourceRoot) :
    ∃ t', Inv c₀ m' t' (c.assign m') ∧ (t' = m'.mappings ∨ t' = t) ∧ (c.mappings ≠ none → t' = t) := by
  have hlook : ∀ (x : SourceMapJson) (s : String), x.sourceRoot = m.sourceRoot →
      (c₀.assign x).lookupIndex s = (c₀.assign (withMappings m t)).lookupIndex s := by
    intro x s hx
    simp only [lookupIndex, BasicConsumer.assign, withMappings, hx]
  cases hm : c.mappings with
  | none =>
    refine ⟨m'.mappings, ⟨rfl, ?_, fun _ => rfl⟩, .inl rfl, fun h => absurd rfl h⟩
    rw [withMappings_self]
    exact ⟨rfl, h.rel.abs, h.rel.url, fun k v hk => by rw [hlook m' k hr]; exact h.rel.cache k v hk,
      fun M hM => (nomatch (show none = some M from hm.symm.trans hM)), h.rel.spans⟩
  | some M =>
    refine ⟨t, ⟨rfl, ?_, fun h => ?_⟩, .inr rfl, fun _ => rfl⟩
    · exact ⟨rfl, h.rel.abs, h.rel.url, fun k v hk => by rw [hlook (withMappings m' t) k hr]; exact h.rel.cache k v hk,
        h.rel.mappings, h.rel.spans⟩
    · rw [show (c.assign m').mappings = some M from hm] at h; cases h

theorem Inv.uses (hL : E.maps.Laws) {c₀ : BasicConsumer E} : ∀ {l : List Use} {c c' : BasicConsumer E}
    {m : SourceMapJson} {t : Option String}, Inv c₀ m t c → (∀ x ∈ assigned l, x.sourceRoot = m.sourceRoot) →
    c.uses l = .ok c' → ∃ t', Inv c₀ (latest m l) t' c' ∧ (t' = t ∨ t' ∈ (assigned l).map (·.mappings)) ∧
      (c.mappings ≠ none → c'.mappings ≠ none ∧ t' = t) := by
  intro l
  induction l with
  | nil =>
    intro c c' m t h _ hu
    cases hu
    exact ⟨t, h, .inl rfl, fun hn => ⟨hn, rfl⟩⟩
  | cons u l ih =>
    intro c c' m t h hroot hu
    cases u with
    | call op =>
      simp only [BasicConsumer.uses, Res.bind_eq_ok] at hu
      obtain ⟨⟨a, c1⟩, h1, h2⟩ := hu
      obtain ⟨k1, k2, _⟩ := h.call hL h1
      obtain ⟨t', j1, j2, j3⟩ := ih k1 hroot h2
      exact ⟨t', j1, j2, fun hn => j3 (k2 hn)⟩
    | assign x =>
      simp only [BasicConsumer.uses] at hu
      obtain ⟨t1, k1, k2, k3⟩ := h.assign (hroot x (by simp [assigned]))
      obtain ⟨t', j1, j2, j3⟩ := ih k1 (fun y hy => by
        rw [hroot y (by simp [assigned, hy]), hroot x (by simp [assigned])]) hu
      refine ⟨t', j1, ?_, fun hn => ⟨(j3 hn).1, (j3 hn).2.trans (k3 hn)⟩⟩
      simp only [assigned, List.map_cons, List.mem_cons]
      rcases j2 with rfl | j2
      · rcases k2 with rfl | rfl
        · exact .inr (.inl rfl)
        · exact .inl rfl
      · exact .inr (.inr j2)

deriving instance DecidableEq for RawAns

end BasicConsumer

open BasicConsumer

/-- The consumer follows its field: for assigned maps that are `ok` beside the map it was built from, it answers as
if it were new, with the last map assigned in its field. -/
def FollowsField (E : Env) (ok : SourceMapJson → SourceMapJson → Prop) : Prop :=
  ∀ (m₀ : SourceMapJson) (u : Option String) (c₀ c : BasicConsumer E) (l : List Use), Built m₀ u c₀ →
    (∀ m ∈ assigned l, ok m₀ m) → c₀.uses l = .ok c → ∀ op,
      (c.step op).map (fun r => r.1.strip) = ((c₀.assign (latest m₀ l)).step op).map (fun r => r.1.strip)

theorem Built.inv {m : SourceMapJson} {u : Option String} {c : BasicConsumer E} (h : Built m u c) :
    Inv c m m.mappings c := by
  have hmap : c.sourceMap = m := by obtain ⟨_, _, _, _, _, _, hm, _⟩ := h.spec; exact hm
  refine ⟨hmap, ?_, fun _ => rfl⟩
  rw [withMappings_self, ← hmap, assign_self]
  exact h.rel

/-- The answers are those of the new consumer with the mappings that count. -/
theorem Inv.fresh {c₀ c : BasicConsumer E} (hf : c₀.Fresh) {m : SourceMapJson} {t : Option String}
    (h : Inv c₀ m t c) (hL : E.maps.Laws) (hT : E.maps.Total) (op : Op) :
    (c.step op).map (fun r => r.1.strip) =
      ((c₀.assign (withMappings m t)).step op).map (fun r => r.1.strip) := by
  have h0 : Fresh (c₀.assign (withMappings m t)) := ⟨hf.cache, hf.mappings, hf.spans⟩
  rw [← h.rel.agree_total hL hT h0.rel op]
  cases hm : c.mappings with
  | none =>
    obtain rfl := h.unread hm
    rw [withMappings_self, ← h.field, assign_self]
  | some M =>
    have := step_parsed (c := c) (by rw [hm]; simp) t op
    rw [h.field] at this
    rw [this]
    cases c.step op <;> rfl

/-- C98, the part that holds: as long as the assigned maps keep the source root and the mappings, the consumer
follows its field. -/
theorem C98_follows_partial (hL : E.maps.Laws) (hT : E.maps.Total) :
    FollowsField E (fun m₀ m => m.sourceRoot = m₀.sourceRoot ∧ m.mappings = m₀.mappings) := by
  intro m₀ u c₀ c l hb hok hu op
  have hf : c₀.Fresh := by obtain ⟨_, _, _, _, _, hf, _⟩ := hb.spec; exact hf
  obtain ⟨t, h1, h2, _⟩ := Inv.uses hL (Built.inv hb) (fun x hx => (hok x hx).1) hu
  have hlast : ∀ (l : List Use) (m : SourceMapJson), m.mappings = m₀.mappings →
      (∀ x ∈ assigned l, x.mappings = m₀.mappings) → (latest m l).mappings = m₀.mappings := by
    intro l
    induction l with
    | nil => intro m hm _; exact hm
    | cons x l ih =>
      intro m hm hx
      cases x with
      | call op => exact ih m hm hx
      | assign y => exact ih y (hx y (by simp [assigned])) (fun z hz => hx z (by simp [assigned, hz]))
  have ht : t = (latest m₀ l).mappings := by
    rw [hlast l m₀ rfl (fun x hx => (hok x hx).2)]
    rcases h2 with rfl | h2
    · rfl
    · obtain ⟨x, hx, rfl⟩ := List.mem_map.1 h2
      exact (hok x hx).2
  rw [Inv.fresh hf h1 hL hT op, ht, withMappings_self]

/-- C98, what is there for all assignments that keep the source root: names, sources and contents are those of the
last map, the mappings are those of one of the maps that have been in the field; the list of sources is the one made
at construction, whatever `sources` the maps have. -/
theorem C98_one_of_them (hL : E.maps.Laws) (hT : E.maps.Total) {m₀ : SourceMapJson} {u : Option String}
    {c₀ c : BasicConsumer E} {l : List Use} (hb : Built m₀ u c₀)
    (hroot : ∀ m ∈ assigned l, m.sourceRoot = m₀.sourceRoot) (hu : c₀.uses l = .ok c) :
    ∃ m' ∈ m₀ :: assigned l, c.getSources = c₀.getSources ∧ c.sourceMap = latest m₀ l ∧
      c.hasContentsOfAllSources = (c₀.assign (latest m₀ l)).hasContentsOfAllSources ∧
      ∀ op, (c.step op).map (fun r => r.1.strip) =
        ((c₀.assign { latest m₀ l with mappings := m'.mappings }).step op).map (fun r => r.1.strip) := by
  have hf : c₀.Fresh := by obtain ⟨_, _, _, _, _, hf, _⟩ := hb.spec; exact hf
  obtain ⟨t, h1, h2, _⟩ := Inv.uses hL (Built.inv hb) hroot hu
  have hg : c.getSources = c₀.getSources := h1.rel.getSources
  have hh : c.hasContentsOfAllSources = (c₀.assign (latest m₀ l)).hasContentsOfAllSources := by
    simp only [hasContentsOfAllSources, h1.field, assign]
  rcases h2 with rfl | h2
  · exact ⟨m₀, by simp, hg, h1.field, hh, fun op => Inv.fresh hf h1 hL hT op⟩
  · obtain ⟨x, hx, rfl⟩ := List.mem_map.1 h2
    exact ⟨x, by simp [hx], hg, h1.field, hh, fun op => Inv.fresh hf h1 hL hT op⟩

/-- C98, which one: after a call that has read the mappings, they stay those of a map that had been in the field by
then; later assignments do not change them. -/
theorem C98_sticks (hL : E.maps.Laws) (hT : E.maps.Total) {m₀ : SourceMapJson} {u : Option String}
    {c₀ c₁ c₂ c : BasicConsumer E} {l₁ l₂ : List Use} {op : Op} {a : Ans} (hb : Built m₀ u c₀)
    (hroot : ∀ m ∈ assigned l₁ ++ assigned l₂, m.sourceRoot = m₀.sourceRoot)
    (h₁ : c₀.uses l₁ = .ok c₁) (hs : c₁.step op = .ok (a, c₂)) (hr : Reads op a) (h₂ : c₂.uses l₂ = .ok c) :
    ∃ m' ∈ m₀ :: assigned l₁, ∀ op, (c.step op).map (fun r => r.1.strip) =
      ((c₀.assign { latest m₀ (l₁ ++ l₂) with mappings := m'.mappings }).step op).map (fun r => r.1.strip) := by
  have hf : c₀.Fresh := by obtain ⟨_, _, _, _, _, hf, _⟩ := hb.spec; exact hf
  obtain ⟨t, k1, k2, _⟩ := Inv.uses hL (Built.inv hb) (fun x hx => hroot x (by simp [hx])) h₁
  obtain ⟨k3, _, k4⟩ := k1.call hL hs
  have hlr : ∀ (l : List Use) (m : SourceMapJson), m.sourceRoot = m₀.sourceRoot →
      (∀ x ∈ assigned l, x.sourceRoot = m₀.sourceRoot) → (latest m l).sourceRoot = m₀.sourceRoot := by
    intro l
    induction l with
    | nil => intro m hm _; exact hm
    | cons x l ih =>
      intro m hm hx
      cases x with
      | call op => exact ih m hm hx
      | assign y => exact ih y (hx y (by simp [assigned])) (fun z hz => hx z (by simp [assigned, hz]))
  have hla : ∀ (l : List Use) (m : SourceMapJson), latest (latest m l) l₂ = latest m (l ++ l₂) := by
    intro l
    induction l with
    | nil => intro m; rfl
    | cons x l ih => intro m; cases x <;> exact ih _
  obtain ⟨t', j1, _, j2⟩ := k3.uses hL (fun x hx => by
    rw [hroot x (by simp [hx]), hlr l₁ m₀ rfl (fun x hx => hroot x (by simp [hx]))]) h₂
  obtain ⟨_, rfl⟩ := j2 (k4 hr)
  rw [hla] at j1
  rcases k2 with rfl | k2
  · exact ⟨m₀, by simp, fun op => Inv.fresh hf j1 hL hT op⟩
  · obtain ⟨x, hx, rfl⟩ := List.mem_map.1 k2
    exact ⟨x, by simp [hx], fun op => Inv.fresh hf j1 hL hT op⟩

/-- C98, which one, if the mappings have not been read yet: after nothing but assignments and questions for
contents the consumer follows its field, with the mappings of the last map. -/
theorem C98_unread (hL : E.maps.Laws) (hT : E.maps.Total) {m₀ : SourceMapJson} {u : Option String}
    {c₀ c : BasicConsumer E} {l : List Use} (hb : Built m₀ u c₀)
    (hroot : ∀ m ∈ assigned l, m.sourceRoot = m₀.sourceRoot) (hu : c₀.uses l = .ok c)
    (hl : ∀ x ∈ l, (∃ m, x = .assign m) ∨ ∃ s p, x = .call (.content s p)) (op : Op) :
    (c.step op).map (fun r => r.1.strip) = ((c₀.assign (latest m₀ l)).step op).map (fun r => r.1.strip) := by
  have hf : c₀.Fresh := by obtain ⟨_, _, _, _, _, hf, _⟩ := hb.spec; exact hf
  obtain ⟨t, h1, h2, _⟩ := Inv.uses hL (Built.inv hb) hroot hu
  have hn : c.mappings = none := by
    have : ∀ (l : List Use) (d : BasicConsumer E), d.mappings = none → d.uses l = .ok c →
        (∀ x ∈ l, (∃ m, x = .assign m) ∨ ∃ s p, x = .call (.content s p)) → c.mappings = none := by
      intro l
      induction l with
      | nil => intro d hd hu _; cases hu; exact hd
      | cons x l ih =>
        intro d hd hu hl
        rcases hl x (by simp) with ⟨m, rfl⟩ | ⟨s, p, rfl⟩
        · exact ih (d.assign m) hd hu (fun y hy => hl y (by simp [hy]))
        · simp only [BasicConsumer.uses, Res.bind_eq_ok] at hu
          obtain ⟨⟨a, d1⟩, h1, h2⟩ := hu
          refine ih d1 ?_ h2 (fun y hy => hl y (by simp [hy]))
          simp only [BasicConsumer.step, Res.bind_eq_ok, Res.pure_eq, Except.ok.injEq, Prod.mk.injEq] at h1
          obtain ⟨⟨r, d2⟩, hr, -, rfl⟩ := h1
          obtain ⟨q, hq⟩ := find_form d s
          have hq' := hq d.sourceMap rfl d.mappings d.computedColumnSpans
          simp only [sourceContentFor] at hr
          cases hc : d.sourceMap.sourcesContent with
          | none =>
            rw [hc] at hr
            simp only [Except.ok.injEq, Prod.mk.injEq] at hr
            rw [← hr.2]; exact hd
          | some contents =>
            rw [hc] at hr
            simp only [Res.bind_eq_ok] at hr
            obtain ⟨⟨i, d3⟩, hf, hr⟩ := hr
            have e3 : d3.mappings = none := by
              rw [hf] at hq'
              cases q with
              | error e => cases hq'
              | ok q =>
                simp only [Except.map, Except.ok.injEq, Prod.mk.injEq] at hq'
                rw [hq'.2]; exact hd
            cases i with
            | none =>
              simp only at hr
              split at hr
              · cases hr
              · simp only [Res.pure_eq, Except.ok.injEq, Prod.mk.injEq] at hr
                rw [← hr.2]; exact e3
            | some i =>
              simp only [Res.bind_eq_ok, Res.pure_eq, Except.ok.injEq, Prod.mk.injEq] at hr
              obtain ⟨_, _, _, rfl⟩ := hr
              exact e3
    exact this l c₀ hf.mappings hu hl
  rw [Inv.fresh hf h1 hL hT op, h1.unread hn, withMappings_self]

/-- The answer to `op` after the uses `l` of the consumer of a map, and that of the new consumer with the last map
assigned in its field. -/
def fieldCase (m₀ : SourceMapJson) (l : List Use) (op : Op) : Res (RawAns × RawAns) := do
  let c₀ ← demoConsumer m₀
  let c ← c₀.uses l
  let x ← c.step op
  let y ← (c₀.assign (latest m₀ l)).step op
  pure (x.1.strip, y.1.strip)

theorem not_follows {ok : SourceMapJson → SourceMapJson → Prop} {m₀ : SourceMapJson} {l : List Use} {op : Op}
    {x y : RawAns} (hok : ∀ m ∈ assigned l, ok m₀ m) (h : fieldCase m₀ l op = .ok (x, y)) (hne : x ≠ y) :
    ¬ FollowsField demoEnv ok := by
  intro hF
  simp only [fieldCase, Res.bind_eq_ok, Res.pure_eq, Except.ok.injEq, Prod.mk.injEq] at h
  obtain ⟨c₀, h1, c, h2, a, h3, b, h4, rfl, rfl⟩ := h
  have := hF m₀ none c₀ c l (.inr h1) hok h2 op
  rw [h3, h4] at this
  simp only [Except.map, Except.ok.injEq] at this
  exact hne this

/-- A map with one segment. -/
def otherMappings : SourceMapJson := { demoMap with mappings := some "AAAA" }

/-- C98, refuted for assignments of other mappings: once the mappings have been visited, the new ones never are. -/
theorem C98_mappings_refuted : ¬ FollowsField demoEnv (fun m₀ m => m.sourceRoot = m₀.sourceRoot) := by
  refine not_follows (m₀ := otherMappings) (l := [.call (.each .generated), .assign { demoMap with mappings := some "CAAC" }])
    (op := .each .generated) (x := .mappings [⟨0, 0, some ⟨0, 0, 0, none⟩⟩])
    (y := .mappings [⟨0, 1, some ⟨0, 0, 1, none⟩⟩]) ?_ ?_ (by decide)
  · intro m hm
    simp only [assigned, List.mem_singleton] at hm
    subst hm; rfl
  · decide +kernel

/-- C98, refuted for assignments of another root: a source that was found once is found again though the new root
leads elsewhere. -/
theorem C98_root_refuted : ¬ FollowsField demoEnv (fun m₀ m => m.mappings = m₀.mappings) := by
  refine not_follows (m₀ := demoRooted) (l := [.call (.content "one.js" none), .assign demoMap])
    (op := .content "one.js" (some false)) (x := .content (some "ONE")) (y := .content none) ?_ ?_ (by decide)
  · intro m hm
    simp only [assigned, List.mem_singleton] at hm
    subst hm; rfl
  · decide +kernel

/-! A case of the theorems: the names and the contents are replaced between two questions. -/

def renamed : SourceMapJson := { demoMap with names := some ["x", "y", "z"], sourcesContent := some ["1", "2"] }

example : fieldCase demoMap [.call (.original ⟨1, 28⟩ none), .assign renamed] (.content "two.js" none) =
    .ok (.content (some "2"), .content (some "2")) := by decide +kernel

/-- C98, the indexed consumer: the field is not read at all after construction. Whatever is assigned, every method
returns or panics as before and leaves the same consumer, with the assigned map in its field. -/
theorem C98_indexed (c : IndexedConsumer E) (m : SourceMapJson) :
    (c.assign m).getSources = c.getSources ∧
    (c.assign m).hasContentsOfAllSources = c.hasContentsOfAllSources ∧
    (∀ s p, (c.assign m).sourceContentFor s p = (c.sourceContentFor s p).map (fun r => (r.1, r.2.assign m))) ∧
    (∀ p b, (c.assign m).originalPositionFor p b = (c.originalPositionFor p b).map (fun r => (r.1, r.2.assign m))) ∧
    (∀ s l k b, (c.assign m).generatedPositionFor s l k b =
      (c.generatedPositionFor s l k b).map (fun r => (r.1, r.2.assign m))) ∧
    (∀ s l k, (c.assign m).allGeneratedPositionFor s l k =
      (c.allGeneratedPositionFor s l k).map (fun r => (r.1, r.2.assign m))) ∧
    (∀ o, (c.assign m).eachMapping o = (c.eachMapping o).map (fun r => (r.1, r.2.assign m))) ∧
    (c.assign m).computedColumnSpans = c.computedColumnSpans.map (fun r => r.assign m) := by
  obtain ⟨m₀, secs⟩ := c
  have hfind : ∀ s, (IndexedConsumer.findSourceIndex (E := E) ⟨m, secs⟩ s) =
      (IndexedConsumer.findSourceIndex (E := E) ⟨m₀, secs⟩ s).map (fun r => (r.1, r.2.assign m)) := by
    intro s
    simp only [IndexedConsumer.findSourceIndex, BorrowFlag.borrow, Res.ok_bind]
    cases IndexedConsumer.findLoop _ s secs <;> rfl
  refine ⟨rfl, rfl, fun s p => ?_, fun p b => ?_, fun s l k b => ?_, fun s l k => ?_, fun o => ?_, ?_⟩
  · simp only [IndexedConsumer.sourceContentFor, IndexedConsumer.assign]
    cases IndexedConsumer.contentLoop s p secs with
    | error e => rfl
    | ok r =>
      obtain ⟨a, b⟩ := r
      cases a with
      | some a => rfl
      | none => simp only [Res.ok_bind]; split <;> rfl
  · simp only [IndexedConsumer.originalPositionFor, IndexedConsumer.assign]
    have : IndexedConsumer.sectionIndex (E := E) ⟨m, secs⟩ p = IndexedConsumer.sectionIndex ⟨m₀, secs⟩ p := rfl
    rw [this]
    cases IndexedConsumer.sectionIndex (E := E) ⟨m₀, secs⟩ p with
    | error e => rfl
    | ok i =>
      simp only [Res.ok_bind]
      cases secs[E.cfg.asUsize i]? with
      | none => rfl
      | some s =>
        simp only
        cases IndexedConsumer.originalInSection s p b <;> rfl
  · simp only [IndexedConsumer.generatedPositionFor, IndexedConsumer.assign, hfind]
    cases IndexedConsumer.findSourceIndex (E := E) ⟨m₀, secs⟩ s with
    | error e => rfl
    | ok r =>
      obtain ⟨a, ⟨m₁, secs₁⟩⟩ := r
      cases a with
      | none => rfl
      | some i =>
        simp only [Except.map, Res.ok_bind, BorrowFlag.borrowMut]
        cases secs₁[E.cfg.asUsize i]? with
        | none => rfl
        | some x =>
          simp only
          cases x.consumer.generatedPositionFor s l k b with
          | error e => rfl
          | ok g =>
            simp only [Res.ok_bind]
            cases IndexedConsumer.shiftGenerated _ secs₁[E.cfg.asUsize i + 1]? g.1 <;> rfl
  · simp only [IndexedConsumer.allGeneratedPositionFor, IndexedConsumer.assign, hfind]
    cases IndexedConsumer.findSourceIndex (E := E) ⟨m₀, secs⟩ s with
    | error e => rfl
    | ok r =>
      obtain ⟨a, ⟨m₁, secs₁⟩⟩ := r
      cases a with
      | none => rfl
      | some i =>
        simp only [Except.map, Res.ok_bind, BorrowFlag.borrowMut]
        cases secs₁[E.cfg.asUsize i]? with
        | none => rfl
        | some x =>
          simp only
          cases x.consumer.allGeneratedPositionFor s l k with
          | error e => rfl
          | ok g =>
            simp only [Res.ok_bind]
            cases g.1.mapM (IndexedConsumer.shiftOne _ secs₁[E.cfg.asUsize i + 1]?) <;> rfl
  · simp only [IndexedConsumer.eachMapping, IndexedConsumer.assign, BorrowFlag.borrowMut, Res.ok_bind]
    cases IndexedConsumer.eachLoop _ o secs <;> rfl
  · simp only [IndexedConsumer.computedColumnSpans, IndexedConsumer.assign]
    cases secs.mapM (m := Except Panic) (fun s => do
        let k ← s.consumer.computeColumnSpans
        pure { s with consumer := k }) <;> rfl

/-! The indexed consumer of a map answers the same with the field emptied. -/
example : demoAskIndexed [0, 1] demoIndexed (fun c => (c.assign { version := 3 }).sourceContentFor "two.js" none) =
    .ok (some "TWO") := by decide +kernel

end RSM
