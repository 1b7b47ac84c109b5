import Verif.Lemmas.CaughtGen
import Verif.Props.IndexedHistory
import Verif.Props.Generator
/-! # Properties C95-C96: objects on which calls have panicked -/

namespace RSM
open Spec

variable {E : Env}

/-! ## C95: consumers -/

namespace BasicConsumer

/-- A call of a method, with a callback for `each_mapping`. -/
inductive Call where
  | content (source : String) (panicOnMissing : Option Bool)
  | original (p : Position) (bias : Option Bias)
  | generated (source : String) (line column : Int) (bias : Option Bias)
  | all (source : String) (line : Int) (column : Option Int)
  | each (f : Callback) (ord : IterOrd)
  | spans

/-- The consumer after a call, whether it returns or panics. -/
def after (c : BasicConsumer E) : Call → BasicConsumer E
  | .content s p => (sourceContentForL s p c).2
  | .original p b => (originalPositionForL p b c).2
  | .generated s l k b => (generatedPositionForL s l k b c).2
  | .all s l k => (allGeneratedPositionForL s l k c).2
  | .each f o => (eachMappingL f o (c, [])).2.1
  | .spans => (computeColumnSpansL c).2

/-- The consumer after calls whose panics are caught. -/
def survive (c : BasicConsumer E) (calls : List Call) : BasicConsumer E := calls.foldl after c

theorem Rel.survive (hL : E.maps.Laws) {c₀ : BasicConsumer E} : ∀ (calls : List Call) {c : BasicConsumer E},
    Rel c₀ c → Rel c₀ (c.survive calls) := by
  intro calls
  induction calls with
  | nil => intro c h; exact h
  | cons k ks ih =>
    intro c h
    refine ih (c := c.after k) ?_
    cases k with
    | content s p => exact (content_keeps s p c h).1
    | original p b => exact (original_keeps hL p b c h).1
    | generated s l k b => exact (generated_keeps hL s l k b c h).1
    | all s l k => exact (all_keeps hL s l k c h).1
    | each f o => exact each_keeps hL h f o []
    | spans => exact (spans_keeps hL c h).1

end BasicConsumer

open BasicConsumer in
/-- C95: the model of this section and that of the others are of the same methods: a call returns the same and leaves the
same consumer, or panics alike. -/
theorem C95_models_agree :
    (∀ s p, (sourceContentForL (E := E) s p).Agrees fun c => c.sourceContentFor s p) ∧
    (∀ p b, (originalPositionForL (E := E) p b).Agrees fun c => c.originalPositionFor p b) ∧
    (∀ s l k b, (generatedPositionForL (E := E) s l k b).Agrees fun c => c.generatedPositionFor s l k b) ∧
    (∀ s l k, (allGeneratedPositionForL (E := E) s l k).Agrees fun c => c.allGeneratedPositionFor s l k) ∧
    (computeColumnSpansL (E := E)).Agrees (fun c => c.computeColumnSpans >>= fun c' => pure ((), c')) ∧
    (∀ s p, (IndexedConsumer.sourceContentForL (E := E) s p).Agrees fun c => c.sourceContentFor s p) ∧
    (∀ p b, (IndexedConsumer.originalPositionForL (E := E) p b).Agrees fun c => c.originalPositionFor p b) ∧
    (IndexedConsumer.computedColumnSpansL (E := E)).Agrees
      (fun c => c.computedColumnSpans >>= fun c' => pure ((), c')) :=
  ⟨content_agrees, original_agrees, generated_agrees, all_agrees, spans_agrees, IndexedConsumer.content_agrees,
    IndexedConsumer.original_agrees, IndexedConsumer.spans_agrees⟩

open BasicConsumer in
/-- C95: a consumer on which any calls have returned or panicked answers every call as a new one: the same result but for
column spans, or the same panic. -/
theorem C95_basic (hL : E.maps.Laws) (hT : E.maps.Total) {m : SourceMapJson} {u : Option String}
    {c₀ : BasicConsumer E} (h : Built m u c₀) (calls : List Call) :
    (∀ op, ((c₀.survive calls).step op).map (fun r => r.1.strip) = (c₀.step op).map (fun r => r.1.strip)) ∧
    (c₀.survive calls).getSources = c₀.getSources ∧
    (c₀.survive calls).hasContentsOfAllSources = c₀.hasContentsOfAllSources := by
  have hr := h.rel.survive hL calls
  refine ⟨fun op => hr.agree_total hL hT h.rel op, ?_, ?_⟩
  · simp only [getSources, hr.abs]
  · simp only [hasContentsOfAllSources, hr.map]

open BasicConsumer in
/-- C95: on such a consumer `each_mapping` calls its callback, whatever it does, with the mappings a new consumer reports
(spans apart), in their order, once each, up to and including the first call that panics; it panics as the callback
does. If the new consumer panics, so does this one, and the callback is not called. -/
theorem C95_each (hL : E.maps.Laws) (hT : E.maps.Total) {m : SourceMapJson} {u : Option String}
    {c₀ : BasicConsumer E} (h : Built m u c₀) (calls : List Call) (f : Callback) (o : IterOrd) :
    (∀ e, c₀.eachMapping o = .error e →
      (eachMappingL f o (c₀.survive calls, [])).1 = .error e ∧ (eachMappingL f o (c₀.survive calls, [])).2.2 = []) ∧
    ∀ l₀ c', c₀.eachMapping o = .ok (l₀, c') → ∃ l, l.map LibMapping.raw = l₀.map LibMapping.raw ∧
      (((eachMappingL f o (c₀.survive calls, [])).1 = .ok () ∧
          (eachMappingL f o (c₀.survive calls, [])).2.2 = l ∧
          ∀ k, 0 < k → k ≤ l.length → f (l.take k) = none) ∨
        ∃ k e, 0 < k ∧ k ≤ l.length ∧ (eachMappingL f o (c₀.survive calls, [])).1 = .error e ∧
          (eachMappingL f o (c₀.survive calls, [])).2.2 = l.take k ∧ f (l.take k) = some e ∧
          ∀ j, 0 < j → j < k → f (l.take j) = none) := by
  have ha := (C95_basic hL hT h calls).1 (.each o)
  simp only [BasicConsumer.step] at ha
  rcases each_left f o (c₀.survive calls) [] with ⟨e, q, h1, h2, _⟩ | ⟨l, c1, h1, h2⟩
  · rw [h1] at ha
    rw [h2]
    refine ⟨fun e' he => ?_, fun l₀ c' he => ?_⟩
    · rw [he] at ha
      simp only [Res.error_bind, Except.map, Except.error.injEq] at ha
      subst ha
      exact ⟨rfl, rfl⟩
    · rw [he] at ha
      cases ha
  · rw [h1] at ha
    rw [h2]
    refine ⟨fun e' he => ?_, fun l₀ c' he => ?_⟩
    · rw [he] at ha
      cases ha
    · rw [he] at ha
      simp only [Res.ok_bind, Res.pure_eq, Except.map, Except.ok.injEq, Ans.strip, RawAns.mappings.injEq] at ha
      refine ⟨l, ha, ?_⟩
      rcases callAll_spec f l [] with ⟨h3, h4⟩ | ⟨k, e, h3, h4, h5, h6, h7⟩
      · rw [h3]
        exact .inl ⟨rfl, by simp, by simpa using h4⟩
      · rw [h5]
        exact .inr ⟨k, e, h3, h4, rfl, by simp, by simpa using h6, by simpa using h7⟩

namespace IndexedConsumer

/-- The consumer after a call, whether it returns or panics. -/
def after (c : IndexedConsumer E) : BasicConsumer.Call → IndexedConsumer E
  | .content s p => (sourceContentForL s p c).2
  | .original p b => (originalPositionForL p b c).2
  | .generated s l k b => (generatedPositionForL s l k b c).2
  | .all s l k => (allGeneratedPositionForL s l k c).2
  | .each f o => (eachMappingL f o (c, [])).2.1
  | .spans => (computedColumnSpansL c).2

/-- The consumer after calls whose panics are caught. -/
def survive (c : IndexedConsumer E) (calls : List BasicConsumer.Call) : IndexedConsumer E := calls.foldl after c

theorem SameSections.survive (hL : E.maps.Laws) {m : SourceMapJson} {l₀ : List (IdxSection E)} :
    ∀ (calls : List BasicConsumer.Call) {c : IndexedConsumer E},
    SameSections m l₀ c → SameSections m l₀ (c.survive calls) := by
  intro calls
  induction calls with
  | nil => intro c h; exact h
  | cons k ks ih =>
    intro c h
    refine ih (c := c.after k) ?_
    cases k with
    | content s p => exact (content_keeps s p c h).1
    | original p b => exact (original_keeps hL p b c h).1
    | generated s l k b => simp only [after, generated_left]; exact h
    | all s l k => simp only [after, all_left]; exact h
    | each f o => simp only [after, each_left]; exact h
    | spans => exact (spans_keeps hL c h).1

end IndexedConsumer

open IndexedConsumer in
/-- C95: the same of an indexed consumer, built under any schedule. -/
theorem C95_indexed (hL : E.maps.Laws) (hT : E.maps.Total) {m : SourceMapJson} {u : Option String}
    {secs : List (JsonSection SourceMapJson)} (hs : m.sections = some secs) {sch : List Nat}
    (h1 : IsSchedule secs.length sch) {c₀ : IndexedConsumer E} (e1 : fromSourceMapJson sch m u = .ok c₀)
    (calls : List BasicConsumer.Call) :
    AnswerAlike (c₀.survive calls) c₀ ∧ (c₀.survive calls).sourceMap = c₀.sourceMap := by
  have hf := fresh_sections hs h1 e1
  have hk : SameSections c₀.sourceMap c₀.sections (c₀.survive calls) := SameSections.survive hL calls ⟨hf, rfl⟩
  exact ⟨alike_of_rel hL hT hk.1 hf, hk.2⟩

open IndexedConsumer in
/-- C95: the reverse lookups and `each_mapping` of an indexed consumer leave it untouched, and the callback is never
called. -/
theorem C95_indexed_untouched (c : IndexedConsumer E) :
    (∀ s l k b, generatedPositionForL s l k b c = ((c.generatedPositionFor s l k b).map Prod.fst, c)) ∧
    (∀ s l k, allGeneratedPositionForL s l k c = ((c.allGeneratedPositionFor s l k).map Prod.fst, c)) ∧
    ∀ f o, eachMappingL f o (c, []) = ((c.eachMapping o).map fun _ => (), (c, [])) :=
  ⟨fun s l k b => generated_left s l k b c, fun s l k => all_left s l k c, fun f o => each_left f o c []⟩

/-- Calls that panic: an unknown source, a line 0, a callback that panics at its second call, a query whose name is out
of range; and one that returns. -/
def demoCalls : List BasicConsumer.Call :=
  [.content "nowhere.js" none, .original ⟨0, 0⟩ none, .each (fun l => if l.length = 2 then some .index else none) .generated,
    .all "two.js" 0 none, .spans]

/-- The callback of the third call sees two mappings; afterwards the consumer has parsed its mappings and answers. -/
example : ((demoConsumer demoMap).map fun c =>
      ((BasicConsumer.eachMappingL (fun l => if l.length = 2 then some .index else none) .generated (c, [])).1.isOk,
        (BasicConsumer.eachMappingL (fun l => if l.length = 2 then some .index else none) .generated (c, [])).2.2.length,
        (c.survive demoCalls).mappings.isSome, (c.survive demoCalls).cache.contains "two.js",
        (c.survive demoCalls).computedColumnSpans) : Res _) = .ok (false, 2, true, true, true) ∧
    demoAsk demoMap (fun c => (c.survive demoCalls).generatedPositionFor "two.js" 1 11 none) =
      .ok (some ⟨⟨2, 9⟩, some ⟨0, 11⟩, some "two.js", some "baz", some 18⟩) :=
  ⟨by decide +kernel, by decide +kernel⟩

/-- A panicking `each_mapping` on an indexed consumer does no harm to forward lookups. -/
example : demoAskIndexed [0, 1] demoIndexed (fun c => do
      let r := c.eachMapping .generated
      pure (r.isOk, c)) = .ok false ∧
    demoAskIndexed [0, 1] demoIndexed (fun c => (c.survive demoCalls).originalPositionFor ⟨3, 100⟩ (some .lub)) =
      .ok (some ⟨⟨2, 1⟩, some ⟨1, 1⟩, some "/the/root/two.js", none, some 5⟩) :=
  ⟨by decide +kernel, by decide +kernel⟩

/-! ## C96: generators -/

open Generator

/-- C96: the two models of the generator's methods agree. -/
theorem C96_models_agree (U : UrlLib) (cfg : Cfg) (g : Generator) (op : GOp) :
    (∃ g', g.step U cfg op = .ok g' ∧ g.stepL U cfg op = (.ok (), g')) ∨
    ∃ e g', g.step U cfg op = .error e ∧ g.stepL U cfg op = (.error e, g') := step_left

/-- What any call leaves of the fields. -/
theorem stepL_fields {U : UrlLib} {cfg : Cfg} {g : Generator} {op : GOp} :
    (g.stepL U cfg op).2.file = g.file ∧ (g.stepL U cfg op).2.sourceRoot = g.sourceRoot ∧
    (g.stepL U cfg op).2.sources = ((gAdded [op]).filterMap Mapping.source).foldl (fun s i => s.add i false) g.sources ∧
    (g.stepL U cfg op).2.names = ((gAdded [op]).filterMap Mapping.name).foldl (fun s i => s.add i false) g.names ∧
    (g.stepL U cfg op).2.mappings.array.Perm (g.mappings.array ++
      match (g.stepL U cfg op).1 with
      | .ok _ => gAdded [op]
      | .error _ => []) := by
  cases op with
  | add m =>
    have hs : addIfNew g.sources m.source =
        ((gAdded [.add m]).filterMap Mapping.source).foldl (fun s i => s.add i false) g.sources := by
      cases hm : m.source with
      | none => simp [gAdded, hm, addIfNew_none]
      | some s => simp [gAdded, hm, addIfNew_some]
    have hn : addIfNew g.names m.name =
        ((gAdded [.add m]).filterMap Mapping.name).foldl (fun s i => s.add i false) g.names := by
      cases hm : m.name with
      | none => simp [gAdded, hm, addIfNew_none]
      | some s => simp [gAdded, hm, addIfNew_some]
    simp only [stepL, Generator.add_left]
    cases h : g.addMapping cfg m with
    | error e => exact ⟨rfl, rfl, hs, hn, by simp⟩
    | ok g' =>
      have := addMapping_perm h
      obtain ⟨l, h1, rfl⟩ := addMapping_ok h
      exact ⟨rfl, rfl, hs, hn, by
        simp only [gAdded]
        simp only at this
        rw [this]⟩
  | setContent s v =>
    simp only [stepL, setContent_left]
    cases h : g.setSourceContent U s v with
    | error e => exact ⟨rfl, rfl, rfl, rfl, by simp⟩
    | ok g' =>
      obtain ⟨k, _, rfl⟩ := setSourceContent_ok h
      exact ⟨rfl, rfl, rfl, rfl, by simp [gAdded]⟩
  | asJson =>
    simp only [stepL]
    rcases asJson_left U cfg g with ⟨j, g', h1, h2⟩ | ⟨e, _, h1, h2⟩ | ⟨_, e, l, _, h1, h2, h3⟩ <;>
      simp only [h2]
    · obtain ⟨sc, out, l, t, _, h4, _, rfl, _⟩ := asJson_ok h1
      refine ⟨rfl, rfl, rfl, rfl, ?_⟩
      obtain ⟨h5, h6⟩ := toArray_perm cfg h4
      simp only [Except.map, gAdded, List.append_nil, h6]
      exact h5
    · exact ⟨trivial, trivial, rfl, rfl, by simp [Except.map]⟩
    · refine ⟨trivial, trivial, rfl, rfl, ?_⟩
      simp only [Except.map, List.append_nil]
      rcases h3 with ⟨q, _, h4, rfl⟩ | ⟨out, h4, _⟩
      · exact h4
      · obtain ⟨h5, h6⟩ := toArray_perm cfg h4
        rw [h6]
        exact h5

theorem survive_fields {U : UrlLib} {cfg : Cfg} : ∀ (ops : List GOp) (g : Generator),
    (g.survive U cfg ops).file = g.file ∧ (g.survive U cfg ops).sourceRoot = g.sourceRoot ∧
    (g.survive U cfg ops).sources = ((gAdded ops).filterMap Mapping.source).foldl (fun s i => s.add i false) g.sources ∧
    (g.survive U cfg ops).names = ((gAdded ops).filterMap Mapping.name).foldl (fun s i => s.add i false) g.names ∧
    (g.survive U cfg ops).mappings.array.Perm (g.mappings.array ++ gAdded (g.returned U cfg ops)) := by
  intro ops
  induction ops with
  | nil => intro g; exact ⟨rfl, rfl, rfl, rfl, by simp [survive, returned, gAdded]⟩
  | cons op ops ih =>
    intro g
    obtain ⟨a1, a2, a3, a4, a5⟩ := stepL_fields (U := U) (cfg := cfg) (g := g) (op := op)
    obtain ⟨b1, b2, b3, b4, b5⟩ := ih (g.stepL U cfg op).2
    have e : gAdded (op :: ops) = gAdded [op] ++ gAdded ops := gAdded_append [op] ops
    simp only [survive]
    refine ⟨b1.trans a1, b2.trans a2, ?_, ?_, ?_⟩
    · rw [b3, a3, e, List.filterMap_append, List.foldl_append]
    · rw [b4, a4, e, List.filterMap_append, List.foldl_append]
    · refine b5.trans ((a5.append_right _).trans ?_)
      simp only [returned]
      cases (g.stepL U cfg op).1 with
      | error e => simp
      | ok u =>
        simp only
        rw [show gAdded (op :: returned U cfg (g.stepL U cfg op).2 ops) =
          gAdded [op] ++ gAdded (returned U cfg (g.stepL U cfg op).2 ops) from gAdded_append [op] _, List.append_assoc]

/-- C96: after any calls, panics caught, a map that is emitted lists the sources and names of all mappings passed to
`add_mapping`, whether it returned or not, and is made of exactly the mappings for which it returned. -/
theorem C96_left_behind (U : UrlLib) (cfg : Cfg) (file root : Option String) (skip : Bool) (ops : List GOp)
    {j : SourceMapJson} {g' : Generator}
    (h : ((Generator.new file root skip).survive U cfg ops).asJson U cfg = .ok (j, g')) :
    j.file = file ∧ j.sourceRoot = root ∧
    j.sources = some (firstOccurrences ((gAdded ops).filterMap Mapping.source)) ∧
    j.names = some (firstOccurrences ((gAdded ops).filterMap Mapping.name)) ∧
    g'.mappings.array.Perm (gAdded ((Generator.new file root skip).returned U cfg ops)) := by
  obtain ⟨a1, a2, a3, a4, a5⟩ := survive_fields (U := U) (cfg := cfg) ops (Generator.new file root skip)
  obtain ⟨sc, out, l, t, _, h4, _, rfl, rfl⟩ := asJson_ok h
  obtain ⟨h5, h6⟩ := toArray_perm cfg h4
  refine ⟨a1, a2, ?_, ?_, ?_⟩
  · simp only [a3, ← tableOf_array]
    rfl
  · simp only [a4, ← tableOf_array]
    rfl
  · rw [h6]
    exact h5.trans (by simpa [Generator.new, MappingList.new] using a5)

/-- C96 is false of the code: with overflow checks, a call of `add_mapping` that panics leaves the source of its mapping
in the table, and the next map lists it. -/
theorem C96_no_trace_refuted (U : UrlLib) (cfg : Cfg) (hc : cfg.overflowChecks = true) :
    ∃ (g : Generator) (m : Mapping) (j j' : SourceMapJson) (g₁ g₂ : Generator),
      (Generator.new none none false).run U cfg [.add gxQ] = .ok g ∧
      (g.stepL U cfg (.add m)).1 = .error .overflow ∧
      g.asJson U cfg = .ok (j, g₁) ∧ (g.stepL U cfg (.add m)).2.asJson U cfg = .ok (j', g₂) ∧
      j.sources = some [] ∧ j'.sources = some ["a.js"] := by
  obtain ⟨oc, ptr⟩ := cfg
  simp only at hc
  subst hc
  let m : Mapping := { generated := ⟨-2147483648, 0⟩, original := some ⟨1, 0⟩, source := some "a.js" }
  obtain ⟨g, hg⟩ : ∃ g, (Generator.new none none false).run U ⟨true, ptr⟩ [.add gxQ] = .ok g := by
    cases ptr <;> exact ⟨_, rfl⟩
  have h1 : (g.stepL U ⟨true, ptr⟩ (.add m)).1 = .error .overflow := by cases ptr <;> cases hg <;> rfl
  obtain ⟨out, l, t, r1, r2⟩ := serialize_total (ops := [.add gxQ])
    (by intro m hm; simp [gAdded] at hm; subst hm; exact ⟨(gxQ_enc (cfg := ⟨true, ptr⟩)).valid, by decide⟩) (by decide) (by decide) hg
  have e1 : g.mappings = ⟨[gxQ], true, some gxQ⟩ := by cases ptr <;> cases hg <;> rfl
  have e2 : (g.stepL U ⟨true, ptr⟩ (.add m)).2 = { g with sources := addIfNew g.sources (some "a.js") } := by
    cases ptr <;> cases hg <;> rfl
  have e3 : g.sources = ArraySet.new := by cases ptr <;> cases hg <;> rfl
  have e4 : g.sourceContents = ⟨[]⟩ := by cases ptr <;> cases hg <;> rfl
  rw [e1] at r1
  cases r1
  have h2 := asJson_intro (g := g) (U := U) (cfg := ⟨true, ptr⟩) (by simp only [sourcesContent, e4]; rfl)
    (by rw [e1]; rfl) r2
  have h4 := asJson_intro (g := { g with sources := addIfNew g.sources (some "a.js") }) (U := U) (cfg := ⟨true, ptr⟩)
    (out := [gxQ]) (by simp only [sourcesContent, e4]; rfl) (by simp only [e1]; rfl) (t := t) r2
  refine ⟨g, m, _, _, _, _, hg, h1, h2, e2 ▸ h4, ?_, ?_⟩
  · simp only [e3]; rfl
  · simp only [e2, e3]; rfl

/-- A call that panics leaves a generator with valid mappings as it was. -/
theorem panic_unchanged {U : UrlLib} {cfg : Cfg} {file root : Option String} {skip : Bool} {pre : List GOp} {op : GOp}
    {g : Generator} (hval : ∀ m ∈ gAdded (pre ++ [op]), m.Valid ∧ 1 ≤ m.generated.line)
    (hS : (firstOccurrences ((gAdded (pre ++ [op])).filterMap Mapping.source)).length < 2147483648)
    (hN : (firstOccurrences ((gAdded (pre ++ [op])).filterMap Mapping.name)).length < 2147483648)
    (h : (Generator.new file root skip).run U cfg pre = .ok g) {e : Panic} (he : (g.stepL U cfg op).1 = .error e) :
    (∀ m, op ≠ .add m) ∧ (g.stepL U cfg op).2 = g := by
  cases op with
  | add m =>
    obtain ⟨_, _, h3, _⟩ := gRun_new h
    have hv : ∀ m ∈ added (mlOps pre), m.Valid := by
      rw [added_mlOps]; intro m hm; exact (hval m (by rw [gAdded_append]; simp [hm])).1
    obtain ⟨l1, r1, r2⟩ := run_valid cfg (mlOps pre) MappingList.new MappingList.inv_new hv
    rw [h3] at r1; cases r1
    obtain ⟨l', e', _⟩ := add_valid cfg r2 (hval m (by rw [gAdded_append]; simp [gAdded])).1
    simp only [stepL, Generator.add_left, addMapping, e', Res.ok_bind, Res.pure_eq] at he
    cases he
  | setContent s v =>
    refine ⟨(fun m h => nomatch h), ?_⟩
    simp only [stepL, setContent_left] at he ⊢
    cases h : g.setSourceContent U s v with
    | error e => rfl
    | ok g' => rw [h] at he; cases he
  | asJson =>
    refine ⟨(fun m h => nomatch h), ?_⟩
    have e0 : gAdded (pre ++ [.asJson]) = gAdded pre := by simp [gAdded_append, gAdded]
    rw [e0] at hval hS hN
    obtain ⟨out, l, t, r1, r2⟩ := serialize_total hval hS hN h
    simp only [stepL] at he ⊢
    rcases asJson_left U cfg g with ⟨j, g', h1, h2⟩ | ⟨e, _, h1, h2⟩ | ⟨_, e, l, _, h1, h2, h3⟩
    · rw [h2] at he; cases he
    · rw [h2]
    · rcases h3 with ⟨q, h4, _⟩ | ⟨out', h4, h5⟩
      · rw [r1] at h4; cases h4
      · rw [r1] at h4
        cases h4
        rw [r2] at h5
        cases h5

theorem survive_valid {U : UrlLib} {cfg : Cfg} {file root : Option String} {skip : Bool} :
    ∀ (ops pre : List GOp) (g : Generator), (∀ m ∈ gAdded (pre ++ ops), m.Valid ∧ 1 ≤ m.generated.line) →
    (firstOccurrences ((gAdded (pre ++ ops)).filterMap Mapping.source)).length < 2147483648 →
    (firstOccurrences ((gAdded (pre ++ ops)).filterMap Mapping.name)).length < 2147483648 →
    (Generator.new file root skip).run U cfg pre = .ok g →
    (Generator.new file root skip).run U cfg (pre ++ g.returned U cfg ops) = .ok (g.survive U cfg ops) ∧
      gAdded (g.returned U cfg ops) = gAdded ops := by
  intro ops
  induction ops with
  | nil => intro pre g _ _ _ h; simp [returned, survive, h]
  | cons op ops ih =>
    intro pre g hval hS hN hpre
    have happ : pre ++ op :: ops = (pre ++ [op]) ++ ops := by simp
    rw [happ] at hval hS hN
    rcases step_left (U := U) (cfg := cfg) (g := g) (op := op) with ⟨g1, h1, h2⟩ | ⟨e, g1, h1, h2⟩
    · have hrun : (Generator.new file root skip).run U cfg (pre ++ [op]) = .ok g1 := by
        rw [gRun_append pre [op] _ g hpre]
        simp only [Generator.run, h1, Res.ok_bind]
      obtain ⟨r1, r2⟩ := ih (pre ++ [op]) g1 hval hS hN hrun
      simp only [returned, survive, h2]
      refine ⟨by simpa using r1, ?_⟩
      rw [show gAdded (op :: returned U cfg g1 ops) = gAdded [op] ++ gAdded (returned U cfg g1 ops) from
        gAdded_append [op] _, r2]
      exact (gAdded_append [op] ops).symm
    · have hS' : (firstOccurrences ((gAdded (pre ++ [op])).filterMap Mapping.source)).length < 2147483648 := by
        rw [gAdded_append (pre ++ [op]), List.filterMap_append] at hS
        exact Nat.lt_of_le_of_lt (firstOccurrences_mono _ _) hS
      have hN' : (firstOccurrences ((gAdded (pre ++ [op])).filterMap Mapping.name)).length < 2147483648 := by
        rw [gAdded_append (pre ++ [op]), List.filterMap_append] at hN
        exact Nat.lt_of_le_of_lt (firstOccurrences_mono _ _) hN
      obtain ⟨k1, k2⟩ := panic_unchanged (fun m hm => hval m (by rw [gAdded_append]; simp [hm])) hS' hN' hpre
        (e := e) (by rw [h2])
      have e0 : gAdded ((pre ++ [op]) ++ ops) = gAdded (pre ++ ops) := by
        rw [gAdded_append, gAdded_append, gAdded_append]
        cases op with
        | add m => exact absurd rfl (k1 m)
        | setContent s v => simp [gAdded]
        | asJson => simp [gAdded]
      have e1 : gAdded (op :: ops) = gAdded ops := by
        cases op with
        | add m => exact absurd rfl (k1 m)
        | setContent s v => rfl
        | asJson => rfl
      rw [e0] at hval hS hN
      rw [h2] at k2
      simp only at k2
      subst k2
      obtain ⟨r1, r2⟩ := ih pre g1 hval hS hN hpre
      simp only [returned, survive, h2]
      exact ⟨r1, by rw [e1]; exact r2⟩

/-- C96, for valid mappings, whatever the source root and the contents: a call that panics has no effect at all. The
generator is the one on which only the calls that returned were made, and these include every `add_mapping`. What is
missing: mappings that `validate_mapping` would refuse (see the refutation and `C96_left_behind`). -/
theorem C96_no_trace_partial (U : UrlLib) (cfg : Cfg) (file root : Option String) (skip : Bool) (ops : List GOp)
    (hval : ∀ m ∈ gAdded ops, m.Valid ∧ 1 ≤ m.generated.line)
    (hS : (firstOccurrences ((gAdded ops).filterMap Mapping.source)).length < 2147483648)
    (hN : (firstOccurrences ((gAdded ops).filterMap Mapping.name)).length < 2147483648) :
    (Generator.new file root skip).run U cfg ((Generator.new file root skip).returned U cfg ops) =
        .ok ((Generator.new file root skip).survive U cfg ops) ∧
      gAdded ((Generator.new file root skip).returned U cfg ops) = gAdded ops := by
  have := survive_valid (U := U) (cfg := cfg) (file := file) (root := root) (skip := skip) ops []
    (Generator.new file root skip) (by simpa using hval) (by simpa using hS) (by simpa using hN) rfl
  simpa using this

/-- A map that cannot be written because of the contents (C24), the panic caught, the contents taken back, and the map
written after all. -/
example : ((Generator.new none (some "src") false).returned MiniUrl.lib ⟨true, true⟩
      [.setContent "/lib/x.js" (some "x"), .add gxR, .asJson, .setContent "/lib/x.js" none]).length = 3 ∧
    ((((Generator.new none (some "src") false).survive MiniUrl.lib ⟨true, true⟩
      [.setContent "/lib/x.js" (some "x"), .add gxR, .asJson, .setContent "/lib/x.js" none]).asJson MiniUrl.lib
        ⟨true, true⟩).map fun r => r.1.mappings) = .ok (some ";;;AAAA") :=
  ⟨by decide +kernel, by decide +kernel⟩

end RSM
