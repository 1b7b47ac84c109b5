import Verif.Model.Consumer
import Verif.Dep.Mappings
/-! # Histories of a `BasicConsumer` -/

namespace RSM

variable {E : Env}

theorem Res.ok_inj {α : Type} {x : Res α} {a b : α} (h1 : x = .ok a) (h2 : x = .ok b) : a = b := by
  rw [h1] at h2
  exact Except.ok.inj h2

namespace BasicConsumer

/-- The index of a source, without the cache. -/
def lookupIndex (c : BasicConsumer E) (source : String) : Res (Option Int) := do
  let rel ← sourceUrl E none source c.sourceMapUrl
  match c.absoluteSources.indexOf rel with
  | some index => .ok (some (wrap32 index))
  | none => do
    let rooted ← sourceUrl E c.sourceMap.sourceRoot source c.sourceMapUrl
    match c.absoluteSources.indexOf rooted with
    | some index => .ok (some (wrap32 index))
    | none => .ok none

/-- The parsed mappings of the map, or the panic. -/
def parsed (c : BasicConsumer E) : Res E.maps.M := do
  let t ← unwrap c.sourceMap.mappings
  unwrap (E.maps.parse t.toList)

/-- `c` is `c₀` with some things cached: the cached source indices are right, and the mappings, if
parsed, are those of the map. -/
structure Rel (c₀ c : BasicConsumer E) : Prop where
  map : c.sourceMap = c₀.sourceMap
  abs : c.absoluteSources = c₀.absoluteSources
  url : c.sourceMapUrl = c₀.sourceMapUrl
  cache : ∀ k v, c.cache.get? k = some v → c₀.lookupIndex k = .ok (some v)
  mappings : ∀ M, c.mappings = some M → ∃ M₀, c₀.parsed = .ok M₀ ∧ E.maps.core M = E.maps.core M₀
  spans : c.computedColumnSpans = true → c.mappings ≠ none

/-- Nothing has been cached yet. -/
structure Fresh (c : BasicConsumer E) : Prop where
  cache : c.cache = HMap.empty
  mappings : c.mappings = none
  spans : c.computedColumnSpans = false

theorem Fresh.rel {c : BasicConsumer E} (h : c.Fresh) : Rel c c where
  map := rfl
  abs := rfl
  url := rfl
  cache k v hk := by rw [h.cache] at hk; simp at hk
  mappings M hM := by rw [h.mappings] at hM; cases hM
  spans hs := by rw [h.spans] at hs; cases hs

theorem build_ok {m : SourceMapJson} {u st : Option String} {c : BasicConsumer E}
    (h : build m u st = .ok c) : ∃ srcs urls, m.sources = some srcs ∧
      srcs.mapM (fun s => sourceUrl E m.sourceRoot s u) = .ok urls ∧ c.Fresh ∧
      c.sourceMap = m ∧ c.absoluteSources = ArraySet.fromArray urls true ∧ c.sourceMapUrl = st := by
  simp only [build, Res.bind_eq_ok, Res.pure_eq, Except.ok.injEq] at h
  obtain ⟨srcs, hs, urls, hu, rfl⟩ := h
  refine ⟨srcs, urls, ?_, hu, ⟨rfl, rfl, rfl⟩, rfl, rfl, rfl⟩
  cases hm : m.sources with
  | none => rw [hm] at hs; cases hs
  | some x => rw [hm] at hs; cases hs; rfl

theorem Rel.lookup {c₀ c : BasicConsumer E} (h : Rel c₀ c) (s : String) :
    c.lookupIndex s = c₀.lookupIndex s := by
  simp only [lookupIndex, h.map, h.abs, h.url]

theorem Rel.parsed {c₀ c : BasicConsumer E} (h : Rel c₀ c) : c.parsed = c₀.parsed := by
  simp only [BasicConsumer.parsed, h.map]

theorem Rel.insert {c₀ c : BasicConsumer E} (h : Rel c₀ c) {s : String} {i : Int}
    (hi : c₀.lookupIndex s = .ok (some i)) : Rel c₀ { c with cache := c.cache.insert s i } where
  map := h.map
  abs := h.abs
  url := h.url
  cache k v hk := by
    simp only [HMap.get?_insert] at hk
    split at hk
    · next he => cases hk; rw [he]; exact hi
    · exact h.cache k v hk
  mappings := h.mappings
  spans := h.spans

theorem Rel.setMappings {c₀ c : BasicConsumer E} (h : Rel c₀ c) {M M₀ : E.maps.M}
    (hp : c₀.parsed = .ok M₀) (hc : E.maps.core M = E.maps.core M₀) :
    Rel c₀ { c with mappings := some M } where
  map := h.map
  abs := h.abs
  url := h.url
  cache := h.cache
  mappings M' hM := by cases hM; exact ⟨M₀, hp, hc⟩
  spans _ := by simp

/-- Looking a source up gives what an uncached lookup gives, and only fills the cache. -/
theorem Rel.find {c₀ c : BasicConsumer E} (h : Rel c₀ c) (s : String) :
    (∃ e, c₀.lookupIndex s = .error e ∧ c.findSourceIndex s = .error e) ∨
    (∃ r k, c₀.lookupIndex s = .ok r ∧ c.findSourceIndex s = .ok (r, { c with cache := k }) ∧
      Rel c₀ { c with cache := k }) := by
  cases hc : c.cache.get? s with
  | some v =>
    exact .inr ⟨some v, c.cache, h.cache s v hc, by simp [findSourceIndex, hc], h⟩
  | none =>
    have hl := h.lookup s
    rw [← hl]
    simp only [findSourceIndex, hc]
    cases hr : sourceUrl E none s c.sourceMapUrl with
    | error e => exact .inl ⟨e, by simp [lookupIndex, hr], by simp⟩
    | ok rel =>
      simp only [lookupIndex, hr, Res.ok_bind]
      cases hi : c.absoluteSources.indexOf rel with
      | some i =>
        refine .inr ⟨some (wrap32 i), _, rfl, rfl, h.insert ?_⟩
        rw [← hl]
        simp [lookupIndex, hr, hi]
      | none =>
        cases hr2 : sourceUrl E c.sourceMap.sourceRoot s c.sourceMapUrl with
        | error e => exact .inl ⟨e, by simp, by simp⟩
        | ok rooted =>
          simp only [Res.ok_bind]
          cases hi2 : c.absoluteSources.indexOf rooted with
          | some i =>
            refine .inr ⟨some (wrap32 i), _, rfl, rfl, h.insert ?_⟩
            rw [← hl]
            simp [lookupIndex, hr, hi, hr2, hi2]
          | none => exact .inr ⟨none, c.cache, rfl, rfl, h⟩

theorem Rel.find_ok {c₀ c c' : BasicConsumer E} (h : Rel c₀ c) {s : String} {r : Option Int}
    (hf : c.findSourceIndex s = .ok (r, c')) : c₀.lookupIndex s = .ok r ∧
      (∃ k, c' = { c with cache := k }) ∧ Rel c₀ c' := by
  rcases h.find s with ⟨e, _, he⟩ | ⟨r', k, h1, h2, h3⟩
  · rw [he] at hf; cases hf
  · rw [h2] at hf
    simp only [Except.ok.injEq, Prod.mk.injEq] at hf
    obtain ⟨rfl, rfl⟩ := hf
    exact ⟨h1, ⟨k, rfl⟩, h3⟩

/-- The mappings in use have the segments of the map's mappings. -/
theorem Rel.ensure {c₀ c : BasicConsumer E} (h : Rel c₀ c) :
    (∃ e, c₀.parsed = .error e ∧ c.ensureMappings = .error e) ∨
    (∃ M M₀, c₀.parsed = .ok M₀ ∧ c.ensureMappings = .ok M ∧ E.maps.core M = E.maps.core M₀) := by
  cases hm : c.mappings with
  | some M =>
    obtain ⟨M₀, h1, h2⟩ := h.mappings M hm
    exact .inr ⟨M, M₀, h1, by simp [ensureMappings, hm], h2⟩
  | none =>
    have he : c.ensureMappings = c₀.parsed := by
      rw [← h.parsed]
      simp only [ensureMappings, hm, parseMappings, BasicConsumer.parsed]
      cases c.sourceMap.mappings <;> rfl
    rw [he]
    cases hp : c₀.parsed with
    | error e => exact .inl ⟨e, rfl, rfl⟩
    | ok M₀ => exact .inr ⟨M₀, M₀, rfl, rfl, rfl⟩

theorem Rel.ensure_ok {c₀ c : BasicConsumer E} (h : Rel c₀ c) {M : E.maps.M}
    (he : c.ensureMappings = .ok M) : ∃ M₀, c₀.parsed = .ok M₀ ∧ E.maps.core M = E.maps.core M₀ := by
  rcases h.ensure with ⟨e, _, h2⟩ | ⟨M', M₀, h1, h2, h3⟩
  · rw [h2] at he; cases he
  · rw [h2] at he; cases he; exact ⟨M₀, h1, h3⟩

/-- The same mapping without its column span. -/
def stripMapping (m : Mapping) : Mapping := { m with lastGeneratedColumn := none }

/-! ## What a returning call did -/

theorem checkPosition_ok {l k : Int} {u : Unit} (h : checkPosition l k = .ok u) : 1 ≤ l ∧ 0 ≤ k := by
  simp only [checkPosition] at h
  split at h
  · cases h
  · split at h
    · cases h
    · omega

theorem original_ok {c₀ c c' : BasicConsumer E} (h : Rel c₀ c) {p : Position} {b : Option Bias}
    {r : Option Mapping} (hr : c.originalPositionFor p b = .ok (r, c')) :
    (1 ≤ p.line ∧ 0 ≤ p.column) ∧ ∃ line M M₀ x M', c₀.parsed = .ok M₀ ∧
      E.maps.core M = E.maps.core M₀ ∧ E.cfg.arith (p.line - 1) = .ok line ∧
      E.maps.originalLocationFor M (asU32 line) (asU32 p.column) (b.getD .glb) = .ok (x, M') ∧
      c.reportOriginal p.line x = .ok r ∧ c' = { c with mappings := some M' } := by
  simp only [originalPositionFor, Res.bind_eq_ok, Res.pure_eq, Except.ok.injEq, Prod.mk.injEq] at hr
  obtain ⟨u, hu, M, hM, line, hl, ⟨x, M'⟩, hx, r', hr', rfl, rfl⟩ := hr
  obtain ⟨M₀, h1, h2⟩ := h.ensure_ok hM
  exact ⟨checkPosition_ok hu, line, M, M₀, x, M', h1, h2, hl, hx, hr', rfl⟩

theorem generated_ok {c₀ c c' : BasicConsumer E} (h : Rel c₀ c) {s : String} {l k : Int}
    {b : Option Bias} {r : Option Mapping} (hr : c.generatedPositionFor s l k b = .ok (r, c')) :
    ∃ i q, c₀.lookupIndex s = .ok i ∧ Rel c₀ { c with cache := q } ∧
      ((i = none ∧ r = none ∧ c' = { c with cache := q }) ∨
       ∃ i' line M M₀ x M', i = some i' ∧ (1 ≤ l ∧ 0 ≤ k) ∧ c₀.parsed = .ok M₀ ∧
        E.maps.core M = E.maps.core M₀ ∧ E.cfg.arith (l - 1) = .ok line ∧
        E.maps.generatedLocationFor M (asU32 i') (asU32 line) (asU32 k) (b.getD .glb) = .ok (x, M') ∧
        c.reportGenerated i' x = .ok r ∧ c' = { c with cache := q, mappings := some M' }) := by
  simp only [generatedPositionFor, Res.bind_eq_ok] at hr
  obtain ⟨⟨i, c1⟩, hf, hr⟩ := hr
  obtain ⟨h1, ⟨q, rfl⟩, h3⟩ := h.find_ok hf
  refine ⟨i, q, h1, h3, ?_⟩
  cases i with
  | none =>
    simp only [Res.pure_eq, Except.ok.injEq, Prod.mk.injEq] at hr
    exact .inl ⟨rfl, hr.1.symm, hr.2.symm⟩
  | some i' =>
    simp only [Res.bind_eq_ok, Res.pure_eq, Except.ok.injEq, Prod.mk.injEq] at hr
    obtain ⟨u, hu, M, hM, line, hl, ⟨x, M'⟩, hx, r', hr', rfl, rfl⟩ := hr
    obtain ⟨M₀, h4, h5⟩ := h3.ensure_ok hM
    exact .inr ⟨i', line, M, M₀, x, M', rfl, checkPosition_ok hu, h4, h5, hl, hx, hr', rfl⟩

theorem all_ok {c₀ c c' : BasicConsumer E} (h : Rel c₀ c) {s : String} {l : Int} {k : Option Int}
    {r : List LibMapping} (hr : c.allGeneratedPositionFor s l k = .ok (r, c')) :
    ∃ i q, c₀.lookupIndex s = .ok i ∧ Rel c₀ { c with cache := q } ∧
      (((∀ i', i = some i' → i' < 0) ∧ r = [] ∧ c' = { c with cache := q }) ∨
       ∃ i' M M₀ M', i = some i' ∧ 0 ≤ i' ∧ (1 ≤ l ∧ 0 ≤ k.getD 0) ∧ c₀.parsed = .ok M₀ ∧
        E.maps.core M = E.maps.core M₀ ∧
        E.maps.allGeneratedLocationsFor M (asU32 i') (asU32 l) (some (asU32 (k.getD 0))) = .ok (r, M') ∧
        c' = { c with cache := q, mappings := some M' }) := by
  simp only [allGeneratedPositionFor, Res.bind_eq_ok] at hr
  obtain ⟨⟨i, c1⟩, hf, hr⟩ := hr
  obtain ⟨h1, ⟨q, rfl⟩, h3⟩ := h.find_ok hf
  refine ⟨i, q, h1, h3, ?_⟩
  cases i with
  | none =>
    simp only [Res.pure_eq, Except.ok.injEq, Prod.mk.injEq] at hr
    exact .inl ⟨by simp, hr.1.symm, hr.2.symm⟩
  | some i' =>
    simp only at hr
    split at hr
    · next hneg =>
      simp only [Res.pure_eq, Except.ok.injEq, Prod.mk.injEq] at hr
      exact .inl ⟨by rintro _ ⟨⟩; exact hneg, hr.1.symm, hr.2.symm⟩
    · next hneg =>
      simp only [Res.bind_eq_ok, Res.pure_eq, Except.ok.injEq, Prod.mk.injEq] at hr
      obtain ⟨u, hu, M, hM, ⟨x, M'⟩, hx, rfl, rfl⟩ := hr
      obtain ⟨M₀, h4, h5⟩ := h3.ensure_ok hM
      exact .inr ⟨i', M, M₀, M', rfl, by omega, checkPosition_ok hu, h4, h5, hx, rfl⟩

theorem each_ok {c₀ c c' : BasicConsumer E} (h : Rel c₀ c) {ord : IterOrd}
    {r : List LibMapping} (hr : c.eachMapping ord = .ok (r, c')) :
    (∃ t, c₀.sourceMap.mappings = some t ∧ E.maps.parse t.toList = none ∧ r = [] ∧ c' = c) ∨
    (∃ M M₀ M', c₀.parsed = .ok M₀ ∧ E.maps.core M = E.maps.core M₀ ∧ iterate M ord = .ok (r, M') ∧
      c' = { c with mappings := some M' }) := by
  simp only [eachMapping] at hr
  cases hm : c.mappings with
  | some M =>
    obtain ⟨M₀, h1, h2⟩ := h.mappings M hm
    simp only [hm, Res.bind_eq_ok, Res.pure_eq, Except.ok.injEq, Prod.mk.injEq] at hr
    obtain ⟨⟨l, M'⟩, hi, rfl, rfl⟩ := hr
    exact .inr ⟨M, M₀, M', h1, h2, hi, rfl⟩
  | none =>
    simp only [hm, parseMappings, Res.bind_eq_ok, Res.pure_eq, Except.ok.injEq, h.map] at hr
    obtain ⟨p, ⟨t, ht, rfl⟩, hr⟩ := hr
    have ht' : c₀.sourceMap.mappings = some t := by
      cases hx : c₀.sourceMap.mappings with
      | none => rw [hx] at ht; cases ht
      | some y => rw [hx] at ht; cases ht; rfl
    cases hp : E.maps.parse t.toList with
    | none =>
      rw [hp] at hr
      simp only [Except.ok.injEq, Prod.mk.injEq] at hr
      exact .inl ⟨t, ht', hp, hr.1.symm, hr.2.symm⟩
    | some M =>
      rw [hp] at hr
      simp only [Res.bind_eq_ok, Except.ok.injEq, Prod.mk.injEq] at hr
      obtain ⟨⟨l, M'⟩, hi, rfl, rfl⟩ := hr
      refine .inr ⟨M, M, M', ?_, rfl, hi, by rw [h.map]⟩
      simp [BasicConsumer.parsed, ht', hp, unwrap]

theorem content_ok {c₀ c c' : BasicConsumer E} (h : Rel c₀ c) {s : String} {p : Option Bool}
    {r : Option String} (hr : c.sourceContentFor s p = .ok (r, c')) :
    (c₀.sourceMap.sourcesContent = none ∧ r = none ∧ c' = c) ∨
    ∃ contents i q, c₀.sourceMap.sourcesContent = some contents ∧ c₀.lookupIndex s = .ok i ∧
      Rel c₀ { c with cache := q } ∧ c' = { c with cache := q } ∧
      ((i = none ∧ p = some false ∧ r = none) ∨
       ∃ i' t, i = some i' ∧ contents[E.cfg.asUsize i']? = some t ∧ r = some t) := by
  simp only [sourceContentFor, h.map] at hr
  cases hc : c₀.sourceMap.sourcesContent with
  | none =>
    rw [hc] at hr
    simp only [Except.ok.injEq, Prod.mk.injEq] at hr
    exact .inl ⟨rfl, hr.1.symm, hr.2.symm⟩
  | some contents =>
    rw [hc] at hr
    simp only [Res.bind_eq_ok] at hr
    obtain ⟨⟨i, c1⟩, hf, hr⟩ := hr
    obtain ⟨h1, ⟨q, rfl⟩, h3⟩ := h.find_ok hf
    refine .inr ⟨contents, i, q, rfl, h1, h3, ?_⟩
    cases i with
    | none =>
      simp only at hr
      split at hr
      · cases hr
      · next hp =>
        simp only [Res.pure_eq, Except.ok.injEq, Prod.mk.injEq] at hr
        refine ⟨hr.2.symm, .inl ⟨rfl, ?_, hr.1.symm⟩⟩
        cases p with
        | none => simp at hp
        | some b => cases b <;> simp_all
    | some i' =>
      simp only [Res.bind_eq_ok, Res.pure_eq, Except.ok.injEq, Prod.mk.injEq] at hr
      obtain ⟨t, ht, rfl, rfl⟩ := hr
      refine ⟨rfl, .inr ⟨i', t, rfl, ?_, rfl⟩⟩
      simp only [index] at ht
      split at ht
      · next hx => cases ht; exact hx
      · cases ht

theorem spans_ok {c₀ c c' : BasicConsumer E} (h : Rel c₀ c) (hr : c.computeColumnSpans = .ok c') :
    (c.computedColumnSpans = true ∧ c' = c) ∨
    ∃ M M₀ M', c₀.parsed = .ok M₀ ∧ E.maps.core M = E.maps.core M₀ ∧
      E.maps.computeColumnSpans M = .ok M' ∧
      c' = { c with mappings := some M', computedColumnSpans := true } := by
  simp only [computeColumnSpans] at hr
  split at hr
  · next hs => cases hr; exact .inl ⟨hs, rfl⟩
  · simp only [Res.bind_eq_ok, Res.pure_eq, Except.ok.injEq] at hr
    obtain ⟨M, hM, M', hM', rfl⟩ := hr
    obtain ⟨M₀, h1, h2⟩ := h.ensure_ok hM
    exact .inr ⟨M, M₀, M', h1, h2, hM', rfl⟩

/-! ## Histories -/

/-- A call of a public method that depends on or changes the consumer. -/
inductive Op where
  | content (source : String) (panicOnMissing : Option Bool)
  | original (p : Position) (bias : Option Bias)
  | generated (source : String) (line column : Int) (bias : Option Bias)
  | all (source : String) (line : Int) (column : Option Int)
  | each (ord : IterOrd)
  | spans

/-- What a call returns (for `each`, what the callback gets). -/
inductive Ans where
  | content (r : Option String)
  | mapping (r : Option Mapping)
  | mappings (r : List LibMapping)
  | unit

/-- One call. -/
def step (c : BasicConsumer E) : Op → Res (Ans × BasicConsumer E)
  | .content s p => do let r ← c.sourceContentFor s p; pure (.content r.1, r.2)
  | .original p b => do let r ← c.originalPositionFor p b; pure (.mapping r.1, r.2)
  | .generated s l k b => do let r ← c.generatedPositionFor s l k b; pure (.mapping r.1, r.2)
  | .all s l k => do let r ← c.allGeneratedPositionFor s l k; pure (.mappings r.1, r.2)
  | .each o => do let r ← c.eachMapping o; pure (.mappings r.1, r.2)
  | .spans => do let c' ← c.computeColumnSpans; pure (.unit, c')

/-- A sequence of calls that all return. -/
def run (c : BasicConsumer E) : List Op → Res (BasicConsumer E)
  | [] => .ok c
  | op :: ops => do
    let r ← c.step op
    r.2.run ops

/-- The answer without column spans. -/
inductive RawAns where
  | content (r : Option String)
  | mapping (r : Option Mapping)
  | mappings (r : List Spec.RawMapping)
  | unit

/-- Forget column spans. -/
def Ans.strip : Ans → RawAns
  | .content r => .content r
  | .mapping r => .mapping (r.map stripMapping)
  | .mappings r => .mappings (r.map LibMapping.raw)
  | .unit => .unit

theorem Rel.step (hL : E.maps.Laws) {c₀ c c' : BasicConsumer E} (h : Rel c₀ c) {op : Op} {a : Ans}
    (hs : c.step op = .ok (a, c')) : Rel c₀ c' := by
  cases op with
  | content s p =>
    simp only [BasicConsumer.step, Res.bind_eq_ok, Res.pure_eq, Except.ok.injEq, Prod.mk.injEq] at hs
    obtain ⟨⟨r, c1⟩, hr, -, rfl⟩ := hs
    rcases content_ok h hr with ⟨_, _, rfl⟩ | ⟨_, _, _, _, _, h3, rfl, _⟩
    · exact h
    · exact h3
  | original p b =>
    simp only [BasicConsumer.step, Res.bind_eq_ok, Res.pure_eq, Except.ok.injEq, Prod.mk.injEq] at hs
    obtain ⟨⟨r, c1⟩, hr, -, rfl⟩ := hs
    obtain ⟨_, line, M, M₀, x, M', h1, h2, _, h3, _, rfl⟩ := original_ok h hr
    exact h.setMappings h1 ((hL.orig_core _ _ _ _ _ _ h3).trans h2)
  | generated s l k b =>
    simp only [BasicConsumer.step, Res.bind_eq_ok, Res.pure_eq, Except.ok.injEq, Prod.mk.injEq] at hs
    obtain ⟨⟨r, c1⟩, hr, -, rfl⟩ := hs
    obtain ⟨i, q, _, h1, h2⟩ := generated_ok h hr
    rcases h2 with ⟨_, _, rfl⟩ | ⟨i', line, M, M₀, x, M', _, _, h3, h4, _, h5, _, rfl⟩
    · exact h1
    · exact h1.setMappings h3 ((hL.gen_core _ _ _ _ _ _ _ h5).trans h4)
  | all s l k =>
    simp only [BasicConsumer.step, Res.bind_eq_ok, Res.pure_eq, Except.ok.injEq, Prod.mk.injEq] at hs
    obtain ⟨⟨r, c1⟩, hr, -, rfl⟩ := hs
    obtain ⟨i, q, _, h1, h2⟩ := all_ok h hr
    rcases h2 with ⟨_, _, rfl⟩ | ⟨i', M, M₀, M', _, _, _, h3, h4, h5, rfl⟩
    · exact h1
    · exact h1.setMappings h3 ((hL.all_core _ _ _ _ _ _ h5).trans h4)
  | each o =>
    simp only [BasicConsumer.step, Res.bind_eq_ok, Res.pure_eq, Except.ok.injEq, Prod.mk.injEq] at hs
    obtain ⟨⟨r, c1⟩, hr, -, rfl⟩ := hs
    rcases each_ok h hr with ⟨_, _, _, _, rfl⟩ | ⟨M, M₀, M', h1, h2, h3, rfl⟩
    · exact h
    · refine h.setMappings h1 (Eq.trans ?_ h2)
      cases o with
      | original => exact hL.byOrig_core _ _ _ h3
      | generated => simp only [iterate, Except.ok.injEq, Prod.mk.injEq] at h3; rw [h3.2]
  | spans =>
    simp only [BasicConsumer.step, Res.bind_eq_ok, Res.pure_eq, Except.ok.injEq, Prod.mk.injEq] at hs
    obtain ⟨c1, hr, -, rfl⟩ := hs
    rcases spans_ok h hr with ⟨_, rfl⟩ | ⟨M, M₀, M', h1, h2, h3, rfl⟩
    · exact h
    · have := h.setMappings h1 ((hL.spans_core _ _ h3).trans h2)
      exact ⟨this.map, this.abs, this.url, this.cache, this.mappings, fun _ => by simp⟩

theorem Rel.run (hL : E.maps.Laws) {c₀ : BasicConsumer E} : ∀ {ops : List Op} {c c' : BasicConsumer E},
    Rel c₀ c → c.run ops = .ok c' → Rel c₀ c' := by
  intro ops
  induction ops with
  | nil => intro c c' h hr; cases hr; exact h
  | cons op ops ih =>
    intro c c' h hr
    simp only [BasicConsumer.run, Res.bind_eq_ok] at hr
    obtain ⟨⟨a, c1⟩, h1, h2⟩ := hr
    exact ih (h.step hL h1) h2

/-- What is reported for a mapping found depends on its segment only, spans apart. -/
theorem reportOriginal_congr {c c' : BasicConsumer E} (hm : c.sourceMap = c'.sourceMap)
    (ha : c.absoluteSources = c'.absoluteSources) (line : Int) {x y : Option LibMapping}
    (h : x.map LibMapping.raw = y.map LibMapping.raw) {r s : Option Mapping}
    (hr : c.reportOriginal line x = .ok r) (hs : c'.reportOriginal line y = .ok s) :
    r.map stripMapping = s.map stripMapping := by
  cases x with
  | none =>
    cases y with
    | none =>
      simp only [reportOriginal, Except.ok.injEq] at hr hs
      subst hr; subst hs; rfl
    | some y => simp at h
  | some x =>
    cases y with
    | none => simp at h
    | some y =>
      obtain ⟨a1, a2, a3, a4⟩ := x
      obtain ⟨b1, b2, b3, b4⟩ := y
      simp only [Option.map_some, LibMapping.raw, Option.some.injEq, Spec.RawMapping.mk.injEq] at h
      obtain ⟨rfl, rfl, rfl⟩ := h
      simp only [reportOriginal] at hr hs
      split at hr
      · next hif =>
        rw [if_pos hif] at hs
        cases a4 with
        | none =>
          simp only [Except.ok.injEq] at hr hs
          subst hr; subst hs; rfl
        | some o =>
          simp only [Res.bind_eq_ok, Res.pure_eq, Except.ok.injEq] at hr hs
          obtain ⟨n, hn, ol, hol, gl, hgl, rfl⟩ := hr
          obtain ⟨n', hn', ol', hol', gl', hgl', rfl⟩ := hs
          obtain rfl := Res.ok_inj hol hol'
          obtain rfl := Res.ok_inj hgl hgl'
          have : c.optName o.name = c'.optName o.name := by
            cases o.name <;> simp only [optName, nameAt, hm]
          rw [this, hn'] at hn; cases hn
          simp [stripMapping, ha]
      · next hif =>
        rw [if_neg hif] at hs
        simp only [Except.ok.injEq] at hr hs
        subst hr; subst hs; rfl

theorem reportGenerated_congr {c c' : BasicConsumer E} (hm : c.sourceMap = c'.sourceMap)
    (ha : c.absoluteSources = c'.absoluteSources) (src : Int) {x y : Option LibMapping}
    (h : x.map LibMapping.raw = y.map LibMapping.raw) {r s : Option Mapping}
    (hr : c.reportGenerated src x = .ok r) (hs : c'.reportGenerated src y = .ok s) :
    r.map stripMapping = s.map stripMapping := by
  cases x with
  | none =>
    cases y with
    | none =>
      simp only [reportGenerated, Except.ok.injEq] at hr hs
      subst hr; subst hs; rfl
    | some y => simp at h
  | some x =>
    cases y with
    | none => simp at h
    | some y =>
      obtain ⟨a1, a2, a3, a4⟩ := x
      obtain ⟨b1, b2, b3, b4⟩ := y
      simp only [Option.map_some, LibMapping.raw, Option.some.injEq, Spec.RawMapping.mk.injEq] at h
      obtain ⟨rfl, rfl, rfl⟩ := h
      simp only [reportGenerated, Res.bind_eq_ok] at hr hs
      obtain ⟨o, ho, hr⟩ := hr
      obtain ⟨o', ho', hs⟩ := hs
      simp only [ho, Except.ok.injEq] at ho'
      subst ho'
      split at hr
      · next hif =>
        rw [if_pos hif] at hs
        simp only [Res.bind_eq_ok, Res.pure_eq, Except.ok.injEq] at hr hs
        obtain ⟨gl, hgl, n, hn, rfl⟩ := hr
        obtain ⟨gl', hgl', n', hn', rfl⟩ := hs
        obtain rfl := Res.ok_inj hgl hgl'
        have : c.nameAt o.source = c'.nameAt o.source := by simp only [nameAt, hm]
        rw [this, hn'] at hn; cases hn
        simp [stripMapping, ha]
      · next hif =>
        rw [if_neg hif] at hs
        simp only [Except.ok.injEq] at hr hs
        subst hr; subst hs; rfl

/-- Two consumers of the same map answer alike, spans apart. -/
theorem Rel.agree (hL : E.maps.Laws) {c₀ c d c' d' : BasicConsumer E} (hc : Rel c₀ c)
    (hd : Rel c₀ d) {op : Op} {a b : Ans} (h1 : c.step op = .ok (a, c')) (h2 : d.step op = .ok (b, d')) :
    a.strip = b.strip := by
  have em : c.sourceMap = d.sourceMap := hc.map.trans hd.map.symm
  have ea : c.absoluteSources = d.absoluteSources := hc.abs.trans hd.abs.symm
  cases op with
  | content s p =>
    simp only [BasicConsumer.step, Res.bind_eq_ok, Res.pure_eq, Except.ok.injEq, Prod.mk.injEq] at h1 h2
    obtain ⟨⟨r, c1⟩, hr, rfl, rfl⟩ := h1
    obtain ⟨⟨s, d1⟩, hs, rfl, rfl⟩ := h2
    simp only [Ans.strip, RawAns.content.injEq]
    rcases content_ok hc hr with ⟨e1, rfl, _⟩ | ⟨_, i, _, e1, e2, _, _, e3⟩ <;>
      rcases content_ok hd hs with ⟨f1, rfl, _⟩ | ⟨_, j, _, f1, f2, _, _, f3⟩
    · rfl
    · rw [e1] at f1; cases f1
    · rw [e1] at f1; cases f1
    · rw [e1] at f1; cases f1
      rw [e2] at f2; cases f2
      rcases e3 with ⟨rfl, rfl, rfl⟩ | ⟨i', t, rfl, ht, rfl⟩ <;>
        rcases f3 with ⟨g1, g2, rfl⟩ | ⟨j', t', g1, ht', rfl⟩
      · rfl
      · cases g1
      · cases g1
      · cases g1; rw [ht] at ht'; exact ht'
  | original p b =>
    simp only [BasicConsumer.step, Res.bind_eq_ok, Res.pure_eq, Except.ok.injEq, Prod.mk.injEq] at h1 h2
    obtain ⟨⟨r, c1⟩, hr, rfl, rfl⟩ := h1
    obtain ⟨⟨s, d1⟩, hs, rfl, rfl⟩ := h2
    obtain ⟨_, line, M, M₀, x, M', e1, e2, e3, e4, e5, _⟩ := original_ok hc hr
    obtain ⟨_, line', N, N₀, y, N', f1, f2, f3, f4, f5, _⟩ := original_ok hd hs
    rw [e1] at f1; cases f1
    rw [e3] at f3; cases f3
    have := hL.orig_det _ _ _ _ _ _ _ _ _ (e2.trans f2.symm) e4 f4
    simp only [Ans.strip, RawAns.mapping.injEq]
    exact reportOriginal_congr em ea _ this e5 f5
  | generated s l k b =>
    simp only [BasicConsumer.step, Res.bind_eq_ok, Res.pure_eq, Except.ok.injEq, Prod.mk.injEq] at h1 h2
    obtain ⟨⟨r, c1⟩, hr, rfl, rfl⟩ := h1
    obtain ⟨⟨s, d1⟩, hs, rfl, rfl⟩ := h2
    simp only [Ans.strip, RawAns.mapping.injEq]
    obtain ⟨i, q, e1, _, e2⟩ := generated_ok hc hr
    obtain ⟨j, q', f1, _, f2⟩ := generated_ok hd hs
    rw [e1] at f1; cases f1
    rcases e2 with ⟨rfl, rfl, _⟩ | ⟨i', line, M, M₀, x, M', rfl, _, e3, e4, e5, e6, e7, _⟩ <;>
      rcases f2 with ⟨g1, rfl, _⟩ | ⟨j', line', N, N₀, y, N', g1, _, f3, f4, f5, f6, f7, _⟩
    · rfl
    · cases g1
    · cases g1
    · cases g1
      rw [e3] at f3; cases f3
      rw [e5] at f5; cases f5
      have := hL.gen_det _ _ _ _ _ _ _ _ _ _ (e4.trans f4.symm) e6 f6
      exact reportGenerated_congr em ea _ this e7 f7
  | all s l k =>
    simp only [BasicConsumer.step, Res.bind_eq_ok, Res.pure_eq, Except.ok.injEq, Prod.mk.injEq] at h1 h2
    obtain ⟨⟨r, c1⟩, hr, rfl, rfl⟩ := h1
    obtain ⟨⟨s, d1⟩, hs, rfl, rfl⟩ := h2
    simp only [Ans.strip, RawAns.mappings.injEq]
    obtain ⟨i, q, e1, _, e2⟩ := all_ok hc hr
    obtain ⟨j, q', f1, _, f2⟩ := all_ok hd hs
    rw [e1] at f1; cases f1
    rcases e2 with ⟨e0, rfl, _⟩ | ⟨i', M, M₀, M', rfl, hi, _, e3, e4, e5, _⟩ <;>
      rcases f2 with ⟨g0, rfl, _⟩ | ⟨j', N, N₀, N', g1, hj, _, f3, f4, f5, _⟩
    · rfl
    · have := e0 j' g1; omega
    · have := g0 i' rfl; omega
    · cases g1
      rw [e3] at f3; cases f3
      exact hL.all_det _ _ _ _ _ _ _ _ _ (e4.trans f4.symm) e5 f5
  | each o =>
    simp only [BasicConsumer.step, Res.bind_eq_ok, Res.pure_eq, Except.ok.injEq, Prod.mk.injEq] at h1 h2
    obtain ⟨⟨r, c1⟩, hr, rfl, rfl⟩ := h1
    obtain ⟨⟨s, d1⟩, hs, rfl, rfl⟩ := h2
    simp only [Ans.strip, RawAns.mappings.injEq]
    have hcon : ∀ {t M₀}, c₀.sourceMap.mappings = some t → E.maps.parse t.toList = none →
        c₀.parsed = .ok M₀ → False := by
      intro t M₀ a b c
      simp [BasicConsumer.parsed, a, b, unwrap] at c
    rcases each_ok hc hr with ⟨_, e1, e2, rfl, _⟩ | ⟨M, M₀, M', e1, e2, e3, _⟩ <;>
      rcases each_ok hd hs with ⟨_, f1, f2, rfl, _⟩ | ⟨N, N₀, N', f1, f2, f3, _⟩
    · rfl
    · exact (hcon e1 e2 f1).elim
    · exact (hcon f1 f2 e1).elim
    · rw [e1] at f1; cases f1
      cases o with
      | original => exact hL.byOrig_det _ _ _ _ _ _ (e2.trans f2.symm) e3 f3
      | generated =>
        simp only [iterate, Except.ok.injEq, Prod.mk.injEq] at e3 f3
        rw [← e3.1, ← f3.1]
        exact e2.trans f2.symm
  | spans =>
    simp only [BasicConsumer.step, Res.bind_eq_ok, Res.pure_eq, Except.ok.injEq, Prod.mk.injEq] at h1 h2
    obtain ⟨c1, hr, rfl, rfl⟩ := h1
    obtain ⟨d1, hs, rfl, rfl⟩ := h2
    rfl

theorem reportOriginal_eq {c c' : BasicConsumer E} (hm : c.sourceMap = c'.sourceMap)
    (ha : c.absoluteSources = c'.absoluteSources) (line : Int) {x y : Option LibMapping}
    (h : x.map LibMapping.raw = y.map LibMapping.raw) :
    (c.reportOriginal line x).map (·.map stripMapping) = (c'.reportOriginal line y).map (·.map stripMapping) := by
  cases x with
  | none =>
    cases y with
    | none => rfl
    | some y => simp at h
  | some x =>
    cases y with
    | none => simp at h
    | some y =>
      obtain ⟨a1, a2, a3, a4⟩ := x
      obtain ⟨b1, b2, b3, b4⟩ := y
      simp only [Option.map_some, LibMapping.raw, Option.some.injEq, Spec.RawMapping.mk.injEq] at h
      obtain ⟨rfl, rfl, rfl⟩ := h
      simp only [reportOriginal]
      split
      · cases a4 with
        | none => rfl
        | some o =>
          have : c.optName o.name = c'.optName o.name := by
            cases o.name <;> simp only [optName, nameAt, hm]
          simp only [this]
          generalize c'.optName o.name = q1
          generalize E.cfg.succU32 o.line = q2
          generalize E.cfg.succU32 a1 = q3
          cases q1 <;> cases q2 <;> cases q3 <;> simp [Except.map, stripMapping, ha]
      · rfl

theorem reportGenerated_eq {c c' : BasicConsumer E} (hm : c.sourceMap = c'.sourceMap)
    (ha : c.absoluteSources = c'.absoluteSources) (src : Int) {x y : Option LibMapping}
    (h : x.map LibMapping.raw = y.map LibMapping.raw) :
    (c.reportGenerated src x).map (·.map stripMapping) = (c'.reportGenerated src y).map (·.map stripMapping) := by
  cases x with
  | none =>
    cases y with
    | none => rfl
    | some y => simp at h
  | some x =>
    cases y with
    | none => simp at h
    | some y =>
      obtain ⟨a1, a2, a3, a4⟩ := x
      obtain ⟨b1, b2, b3, b4⟩ := y
      simp only [Option.map_some, LibMapping.raw, Option.some.injEq, Spec.RawMapping.mk.injEq] at h
      obtain ⟨rfl, rfl, rfl⟩ := h
      simp only [reportGenerated]
      cases a4 with
      | none => simp only [unwrap, Res.error_bind]
      | some o =>
        simp only [unwrap, Res.ok_bind]
        split
        · have : c.nameAt o.source = c'.nameAt o.source := by simp only [nameAt, hm]
          simp only [this]
          generalize c'.nameAt o.source = q1
          generalize E.cfg.succU32 a1 = q3
          cases q1 <;> cases q3 <;> simp [Except.map, stripMapping, ha]
        · rfl

/-- What `each_mapping` does, spans apart, in terms of the map alone. -/
theorem each_step (hL : E.maps.Laws) (hT : E.maps.Total) {c₀ c : BasicConsumer E} (hc : Rel c₀ c)
    {o : IterOrd} : (c.step (.each o)).map (fun r => r.1.strip) =
      match c₀.sourceMap.mappings with
      | none => .error .unwrap
      | some t => match E.maps.parse t.toList with
        | none => .ok (.mappings [])
        | some M₀ => (iterate M₀ o).map (fun r => .mappings (r.1.map LibMapping.raw)) := by
  have hit : ∀ M M₀ : E.maps.M, E.maps.core M = E.maps.core M₀ →
      (iterate M o).map (fun r => RawAns.mappings (r.1.map LibMapping.raw)) =
      (iterate M₀ o).map (fun r => RawAns.mappings (r.1.map LibMapping.raw)) := by
    intro M M₀ h
    cases o with
    | generated =>
      simp only [iterate, Except.map, Except.ok.injEq, RawAns.mappings.injEq]
      exact h
    | original =>
      obtain ⟨⟨x, M'⟩, hx⟩ := hT.byOrig M
      obtain ⟨⟨y, N'⟩, hy⟩ := hT.byOrig M₀
      simp only [iterate, hx, hy, Except.map, Except.ok.injEq, RawAns.mappings.injEq]
      exact hL.byOrig_det _ _ _ _ _ _ h hx hy
  simp only [BasicConsumer.step, eachMapping]
  cases hm : c.mappings with
  | some M =>
    obtain ⟨M₀, h1, h2⟩ := hc.mappings M hm
    simp only [BasicConsumer.parsed, Res.bind_eq_ok] at h1
    obtain ⟨t, ht, hp⟩ := h1
    cases hx : c₀.sourceMap.mappings with
    | none => rw [hx] at ht; cases ht
    | some t' =>
      rw [hx] at ht; cases ht
      cases hy : E.maps.parse t.toList with
      | none => rw [hy] at hp; cases hp
      | some M₁ =>
        rw [hy] at hp; cases hp
        simp only [hy]
        rw [← hit M M₀ h2]
        cases iterate M o <;> rfl
  | none =>
    simp only [parseMappings, hc.map]
    cases hx : c₀.sourceMap.mappings with
    | none => rfl
    | some t =>
      simp only [unwrap, Res.ok_bind, Res.pure_eq]
      cases hy : E.maps.parse t.toList with
      | none => rfl
      | some M =>
        simp only
        cases iterate M o <;> rfl

/-- With operations that return, two consumers of the same map behave alike, spans apart, panics
included. -/
theorem Rel.agree_total (hL : E.maps.Laws) (hT : E.maps.Total) {c₀ c d : BasicConsumer E}
    (hc : Rel c₀ c) (hd : Rel c₀ d) (op : Op) :
    (c.step op).map (fun r => r.1.strip) = (d.step op).map (fun r => r.1.strip) := by
  have em : c.sourceMap = d.sourceMap := hc.map.trans hd.map.symm
  have ea : c.absoluteSources = d.absoluteSources := hc.abs.trans hd.abs.symm
  -- the two lookups
  have hfind : ∀ s, (∃ e, c.findSourceIndex s = .error e ∧ d.findSourceIndex s = .error e) ∨
      (∃ r q q', c.findSourceIndex s = .ok (r, { c with cache := q }) ∧
        d.findSourceIndex s = .ok (r, { d with cache := q' }) ∧ Rel c₀ { c with cache := q } ∧
        Rel c₀ { d with cache := q' }) := by
    intro s
    rcases hc.find s with ⟨e, h1, h2⟩ | ⟨r, q, h1, h2, h3⟩ <;>
      rcases hd.find s with ⟨e', h4, h5⟩ | ⟨r', q', h4, h5, h6⟩ <;> rw [h1] at h4 <;> cases h4
    · exact .inl ⟨e, h2, h5⟩
    · exact .inr ⟨r, q, q', h2, h5, h3, h6⟩
  have hens : ∀ c d : BasicConsumer E, Rel c₀ c → Rel c₀ d →
      (∃ e, c.ensureMappings = .error e ∧ d.ensureMappings = .error e) ∨
      (∃ M N, c.ensureMappings = .ok M ∧ d.ensureMappings = .ok N ∧ E.maps.core M = E.maps.core N) := by
    intro c d hc hd
    rcases hc.ensure with ⟨e, h1, h2⟩ | ⟨M, M₀, h1, h2, h3⟩ <;>
      rcases hd.ensure with ⟨e', h4, h5⟩ | ⟨N, N₀, h4, h5, h6⟩ <;> rw [h1] at h4 <;> cases h4
    · exact .inl ⟨e, h2, h5⟩
    · exact .inr ⟨M, N, h2, h5, h3.trans h6.symm⟩
  cases op with
  | content s p =>
    simp only [BasicConsumer.step, sourceContentFor, em]
    cases hs : d.sourceMap.sourcesContent with
    | none => rfl
    | some contents =>
      rcases hfind s with ⟨e, h1, h2⟩ | ⟨r, q, q', h1, h2, _⟩
      · simp only [h1, h2, Res.error_bind]
      · simp only [h1, h2, Res.ok_bind]
        cases r with
        | none => cases hp : p.getD true <;> rfl
        | some i => simp only; cases index contents (E.cfg.asUsize i) <;> rfl
  | original p b =>
    simp only [BasicConsumer.step, originalPositionFor]
    cases checkPosition p.line p.column with
    | error e => simp only [Res.error_bind]
    | ok u =>
      rcases hens c d hc hd with ⟨e, h1, h2⟩ | ⟨M, N, h1, h2, h3⟩
      · simp only [h1, h2, Res.ok_bind, Res.error_bind]
      · simp only [h1, h2, Res.ok_bind]
        cases E.cfg.arith (p.line - 1) with
        | error e => simp only [Res.error_bind]
        | ok line =>
          obtain ⟨⟨x, M'⟩, hx⟩ := hT.orig M (asU32 line) (asU32 p.column) (b.getD .glb)
          obtain ⟨⟨y, N'⟩, hy⟩ := hT.orig N (asU32 line) (asU32 p.column) (b.getD .glb)
          have hxy := hL.orig_det _ _ _ _ _ _ _ _ _ h3 hx hy
          have := reportOriginal_eq em ea p.line hxy
          simp only [Res.ok_bind, hx, hy]
          cases h4 : c.reportOriginal p.line x <;> cases h5 : d.reportOriginal p.line y <;>
            rw [h4, h5] at this <;> simp_all [Except.map, Ans.strip]
  | generated s l k b =>
    simp only [BasicConsumer.step, generatedPositionFor]
    rcases hfind s with ⟨e, h1, h2⟩ | ⟨r, q, q', h1, h2, h3, h4⟩
    · simp only [h1, h2, Res.error_bind]
    · simp only [h1, h2, Res.ok_bind]
      cases r with
      | none => rfl
      | some i =>
        simp only
        cases checkPosition l k with
        | error e => simp only [Res.error_bind]
        | ok u =>
          rcases hens _ _ h3 h4 with ⟨e, h5, h6⟩ | ⟨M, N, h5, h6, h7⟩
          · simp only [h5, h6, Res.ok_bind, Res.error_bind]
          · simp only [h5, h6, Res.ok_bind]
            cases E.cfg.arith (l - 1) with
            | error e => simp only [Res.error_bind]
            | ok line =>
              obtain ⟨⟨x, M'⟩, hx⟩ := hT.gen M (asU32 i) (asU32 line) (asU32 k) (b.getD .glb)
              obtain ⟨⟨y, N'⟩, hy⟩ := hT.gen N (asU32 i) (asU32 line) (asU32 k) (b.getD .glb)
              have hxy := hL.gen_det _ _ _ _ _ _ _ _ _ _ h7 hx hy
              have := reportGenerated_eq (c := { c with cache := q }) (c' := { d with cache := q' }) em ea i hxy
              simp only [Res.ok_bind, hx, hy]
              revert this
              generalize BasicConsumer.reportGenerated { c with cache := q } i x = q1
              generalize BasicConsumer.reportGenerated { d with cache := q' } i y = q2
              intro this
              cases q1 <;> cases q2 <;> simp_all [Except.map, Ans.strip]
  | all s l k =>
    simp only [BasicConsumer.step, allGeneratedPositionFor]
    rcases hfind s with ⟨e, h1, h2⟩ | ⟨r, q, q', h1, h2, h3, h4⟩
    · simp only [h1, h2, Res.error_bind]
    · simp only [h1, h2, Res.ok_bind]
      cases r with
      | none => rfl
      | some i =>
        simp only
        split
        · rfl
        · cases checkPosition l (k.getD 0) with
          | error e => simp only [Res.error_bind]
          | ok u =>
            rcases hens _ _ h3 h4 with ⟨e, h5, h6⟩ | ⟨M, N, h5, h6, h7⟩
            · simp only [h5, h6, Res.ok_bind, Res.error_bind]
            · simp only [h5, h6, Res.ok_bind]
              obtain ⟨⟨x, M'⟩, hx⟩ := hT.all M (asU32 i) (asU32 l) (some (asU32 (k.getD 0)))
              obtain ⟨⟨y, N'⟩, hy⟩ := hT.all N (asU32 i) (asU32 l) (some (asU32 (k.getD 0)))
              have hxy := hL.all_det _ _ _ _ _ _ _ _ _ h7 hx hy
              simp only [hx, hy, Res.ok_bind]
              simp [Except.map, Ans.strip, hxy]
  | each o => rw [each_step hL hT hc, each_step hL hT hd]
  | spans =>
    simp only [BasicConsumer.step, computeColumnSpans]
    have hflag : ∀ c : BasicConsumer E, Rel c₀ c → c.computedColumnSpans = true →
        ∃ M₀, c₀.parsed = .ok M₀ := by
      intro c hc h
      cases hm : c.mappings with
      | none => exact absurd hm (hc.spans h)
      | some M => obtain ⟨M₀, h1, _⟩ := hc.mappings M hm; exact ⟨M₀, h1⟩
    have hret : ∀ (c : BasicConsumer E) M₀, Rel c₀ c → c₀.parsed = .ok M₀ →
        ∃ c', c.computeColumnSpans = .ok c' := by
      intro c M₀ hc hp
      simp only [computeColumnSpans]
      split
      · exact ⟨_, rfl⟩
      · rcases hc.ensure with ⟨e, h1, _⟩ | ⟨M, _, _, h2, _⟩
        · rw [hp] at h1; cases h1
        · obtain ⟨M', hM'⟩ := hT.spans M
          rw [h2]
          simp only [Res.ok_bind, hM']
          exact ⟨_, rfl⟩
    have herr : ∀ (c : BasicConsumer E) e, Rel c₀ c → c₀.parsed = .error e →
        c.computeColumnSpans = .error e := by
      intro c e hc hp
      simp only [computeColumnSpans]
      split
      · next h => obtain ⟨_, h1⟩ := hflag c hc h; rw [hp] at h1; cases h1
      · rcases hc.ensure with ⟨e', h1, h2⟩ | ⟨M, _, h1, h2, _⟩
        · rw [hp] at h1; cases h1; rw [h2]; rfl
        · rw [hp] at h1; cases h1
    change Except.map _ (c.computeColumnSpans >>= _) = Except.map _ (d.computeColumnSpans >>= _)
    cases hp : c₀.parsed with
    | error e => rw [herr c e hc hp, herr d e hd hp]
    | ok M₀ =>
      obtain ⟨c', h1⟩ := hret c M₀ hc hp
      obtain ⟨d', h2⟩ := hret d M₀ hd hp
      rw [h1, h2]
      rfl

end BasicConsumer

end RSM
