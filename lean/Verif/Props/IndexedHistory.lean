import Verif.Props.Indexed
/-! # Properties C66-C68: an `IndexedConsumer` over its lifetime -/

namespace RSM
open IndexedConsumer
variable {E : Env}

/-! ## The section asked depends on the offsets only -/

theorem recursiveSearch_map {β γ : Type} (cfg : Cfg) (f : β → γ) (g : γ → Res Int) (hay : List β) (bias : Int) :
    ∀ (fuel : Nat) (low high : Int), recursiveSearch cfg (fun x => g (f x)) hay bias fuel low high =
      recursiveSearch cfg g (hay.map f) bias fuel low high := by
  intro fuel
  induction fuel with
  | zero => intro low high; rfl
  | succ fuel ih =>
    intro low high
    simp only [recursiveSearch, List.length_map]
    cases cfg.arith (high - low) with
    | error e => rfl
    | ok d =>
      simp only [Res.ok_bind]
      cases cfg.arith (d.tdiv 2 + low) with
      | error e => rfl
      | ok mid =>
        simp only [Res.ok_bind]
        cases hx : hay[cfg.asUsize mid]? with
        | none => simp only [index, List.getElem?_map, hx]; rfl
        | some x => simp only [index, List.getElem?_map, hx, Option.map_some, Res.ok_bind, ih]

theorem walkBack_map {β γ : Type} (f : β → γ) (g : γ → γ → Res Int) (hay : List β) :
    ∀ i, walkBack (fun x y => g (f x) (f y)) hay i = walkBack g (hay.map f) i := by
  intro i
  induction i with
  | zero => rfl
  | succ i ih =>
    simp only [walkBack]
    cases hx : hay[i + 1]? with
    | none => simp only [index, List.getElem?_map, hx]; rfl
    | some x =>
      cases hy : hay[i]? with
      | none => simp only [index, List.getElem?_map, hx, hy, Option.map_some, Res.ok_bind]; rfl
      | some y => simp only [index, List.getElem?_map, hx, hy, Option.map_some, Res.ok_bind, ih]

theorem sectionIndex_map (c : IndexedConsumer E) (p : Position) : c.sectionIndex p =
    search E.cfg p (c.sections.map (·.generatedOffset)) (needleCmp E.cfg) (needleCmp E.cfg) none := by
  simp only [sectionIndex, search, List.isEmpty_map, List.length_map]
  rw [recursiveSearch_map E.cfg (fun s : IdxSection E => s.generatedOffset) (needleCmp E.cfg p)]
  simp only [walkBack_map (fun s : IdxSection E => s.generatedOffset) (needleCmp E.cfg)]

theorem IndexedConsumer.SecRel.offsets {l₀ l : List (IdxSection E)} (h : SecRel l₀ l) :
    l.map (·.generatedOffset) = l₀.map (·.generatedOffset) := by
  induction h with
  | nil => rfl
  | cons h1 _ _ ih => simp [h1, ih]

/-! ## Two consumers of the same map -/

theorem content_agree {c₀ c d : BasicConsumer E} (hc : BasicConsumer.Rel c₀ c) (hd : BasicConsumer.Rel c₀ d)
    (s : String) (p : Option Bool) :
    (c.sourceContentFor s p).map Prod.fst = (d.sourceContentFor s p).map Prod.fst := by
  simp only [BasicConsumer.sourceContentFor, hc.map, hd.map]
  cases c₀.sourceMap.sourcesContent with
  | none => rfl
  | some contents =>
    rcases hc.find s with ⟨e, h1, h2⟩ | ⟨r, k, h1, h2, _⟩ <;>
      rcases hd.find s with ⟨e', h3, h4⟩ | ⟨r', k', h3, h4, _⟩ <;> rw [h1] at h3 <;> cases h3 <;>
      simp only [h2, h4, Res.ok_bind, Res.error_bind] <;> try rfl
    cases r with
    | none => by_cases hp : p.getD true = true <;> simp only [hp] <;> rfl
    | some i => simp only; cases index contents (E.cfg.asUsize i) <;> rfl

theorem contentLoop_agree {s : String} {p : Option Bool} : ∀ {l₀ l l' : List (IdxSection E)},
    SecRel l₀ l → SecRel l₀ l' →
    (contentLoop s p l).map Prod.fst = (contentLoop s p l').map Prod.fst := by
  intro l₀ l l' h h'
  induction h generalizing l' with
  | nil => cases h'; rfl
  | cons h1 h2 h3 ih =>
    cases h' with
    | cons g1 g2 g3 =>
      have e := content_agree h2 g2 s p
      have ih := ih g3
      simp only [contentLoop]
      revert e
      cases h4 : BasicConsumer.sourceContentFor _ s p with
      | error x =>
        cases h5 : BasicConsumer.sourceContentFor _ s p with
        | error y => intro e; simp only [Except.map, Except.error.injEq] at e; subst e; rfl
        | ok y => intro e; cases e
      | ok x =>
        cases h5 : BasicConsumer.sourceContentFor _ s p with
        | error y => intro e; cases e
        | ok y =>
          intro e
          simp only [Except.map, Except.ok.injEq] at e
          simp only [Res.ok_bind, e]
          cases y.1 with
          | some t => rfl
          | none =>
            revert ih
            cases contentLoop s p _ <;> cases contentLoop s p _ <;> intro ih <;> simp_all [Except.map]

/-- Two consumers with a common ancestor send a query to the same section. -/
theorem sectionIndex_agree {l₀ : List (IdxSection E)} {c d : IndexedConsumer E} (hc : SecRel l₀ c.sections)
    (hd : SecRel l₀ d.sections) (p : Position) : c.sectionIndex p = d.sectionIndex p := by
  rw [sectionIndex_map, sectionIndex_map, hc.offsets, hd.offsets]

/-- The two sections at an index, if any. -/
theorem IndexedConsumer.SecRel.pair {l₀ l l' : List (IdxSection E)} (h : SecRel l₀ l) (h' : SecRel l₀ l') (i : Nat) :
    (l[i]? = none ∧ l'[i]? = none) ∨ ∃ s s' s₀, l[i]? = some s ∧ l'[i]? = some s' ∧
      s.generatedOffset = s'.generatedOffset ∧ BasicConsumer.Rel s₀ s.consumer ∧ BasicConsumer.Rel s₀ s'.consumer := by
  have e1 := h.length
  have e2 := h'.length
  by_cases hi : i < l.length
  · have a := List.getElem?_eq_getElem hi
    have b := List.getElem?_eq_getElem (l := l') (i := i) (by omega)
    obtain ⟨s₀, h1, h2, h3⟩ := h.get a
    obtain ⟨s₁, h4, h5, h6⟩ := h'.get b
    rw [h1] at h4
    cases h4
    exact .inr ⟨_, _, _, a, b, h2.trans h5.symm, h3, h6⟩
  · exact .inl ⟨List.getElem?_eq_none (by omega), List.getElem?_eq_none (by omega)⟩

theorem content_of_loop (c : IndexedConsumer E) (s : String) (p : Option Bool) :
    (c.sourceContentFor s p).map Prod.fst = (contentLoop s p c.sections).map Prod.fst >>= fun r =>
      match r with
      | some t => .ok (some t)
      | none => if p.getD true then .error (.explicit "is not in the SourceMap.") else .ok none := by
  simp only [sourceContentFor]
  cases contentLoop s p c.sections with
  | error e => rfl
  | ok r =>
    simp only [Res.ok_bind, Except.map]
    cases r.1 with
    | some t => rfl
    | none => by_cases hp : p.getD true = true <;> simp [hp]

theorem map_original {c d : BasicConsumer E} {p : Position} {b : Option Bias}
    (h : (c.step (.original p b)).map (fun r => r.1.strip) = (d.step (.original p b)).map (fun r => r.1.strip)) :
    (c.originalPositionFor p b).map (fun r => r.1.map BasicConsumer.stripMapping) =
      (d.originalPositionFor p b).map (fun r => r.1.map BasicConsumer.stripMapping) := by
  simp only [BasicConsumer.step] at h
  revert h
  cases c.originalPositionFor p b <;> cases d.originalPositionFor p b <;> intro h <;>
    simp_all [Except.map, BasicConsumer.Ans.strip]

/-- Calls on two consumers that give the same: the same answer but for the spans, or the same panic. -/
structure AnswerAlike (c d : IndexedConsumer E) : Prop where
  sources : c.getSources = d.getSources
  hasContents : c.hasContentsOfAllSources = d.hasContentsOfAllSources
  content : ∀ s p, (c.sourceContentFor s p).map Prod.fst = (d.sourceContentFor s p).map Prod.fst
  original : ∀ p b, (c.originalPositionFor p b).map (fun r => r.1.map BasicConsumer.stripMapping) =
    (d.originalPositionFor p b).map (fun r => r.1.map BasicConsumer.stripMapping)
  generated : ∀ s l k b, (c.generatedPositionFor s l k b).map Prod.fst = (d.generatedPositionFor s l k b).map Prod.fst
  all : ∀ s l k, (c.allGeneratedPositionFor s l k).map Prod.fst = (d.allGeneratedPositionFor s l k).map Prod.fst
  each : ∀ o, (c.eachMapping o).map Prod.fst = (d.eachMapping o).map Prod.fst

theorem alike_of_rel (hL : E.maps.Laws) (hT : E.maps.Total) {l₀ : List (IdxSection E)} {c d : IndexedConsumer E}
    (hc : SecRel l₀ c.sections) (hd : SecRel l₀ d.sections) : AnswerAlike c d := by
  have hlen : c.sections = [] ↔ d.sections = [] := by
    rw [← List.length_eq_zero_iff, ← List.length_eq_zero_iff, hc.length, hd.length]
  have hsrc : ∀ {l₀ l l' : List (IdxSection E)}, SecRel l₀ l → SecRel l₀ l' →
      l.mapM (fun s => unwrap s.consumer.sourceMap.sources) = l'.mapM (fun s => unwrap s.consumer.sourceMap.sources) := by
    intro l₀ l l' h h'
    induction h generalizing l' with
    | nil => cases h'; rfl
    | cons h1 h2 h3 ih =>
      cases h' with
      | cons g1 g2 g3 => simp only [List.mapM_cons, ih g3, h2.map, g2.map]
  have hcon : ∀ {l₀ l l' : List (IdxSection E)}, SecRel l₀ l → SecRel l₀ l' →
      allHaveContents l = allHaveContents l' := by
    intro l₀ l l' h h'
    induction h generalizing l' with
    | nil => cases h'; rfl
    | cons h1 h2 h3 ih =>
      cases h' with
      | cons g1 g2 g3 =>
        simp only [allHaveContents, ih g3, BasicConsumer.hasContentsOfAllSources, h2.map, g2.map]
  refine ⟨?_, hcon hc hd, ?_, ?_, ?_, ?_, ?_⟩
  · simp only [getSources, hsrc hc hd]
  · intro s p
    rw [content_of_loop, content_of_loop, contentLoop_agree hc hd]
  · intro p b
    simp only [originalPositionFor, sectionIndex_agree hc hd]
    cases d.sectionIndex p with
    | error e => rfl
    | ok i =>
      simp only [Res.ok_bind]
      rcases hc.pair hd (E.cfg.asUsize i) with ⟨h1, h2⟩ | ⟨s, s', s₀, h1, h2, h3, h4, h5⟩
      · rw [h1, h2]; rfl
      · rw [h1, h2]
        simp only [originalInSection, sectionColumnShift, h3]
        cases E.cfg.arith (s'.generatedOffset.line - 1) with
        | error e => rfl
        | ok a =>
          simp only [Res.ok_bind]
          cases E.cfg.arith (p.line - a) with
          | error e => rfl
          | ok line =>
            simp only [Res.ok_bind]
            cases (if s'.generatedOffset.line = p.line then E.cfg.arith (s'.generatedOffset.column - 1) else .ok 0) with
            | error e => rfl
            | ok x =>
              simp only [Res.ok_bind]
              cases E.cfg.arith (p.column - x) with
              | error e => rfl
              | ok column =>
                have := map_original (h4.agree_total hL hT h5 (.original ⟨line, column⟩ b))
                simp only [Res.ok_bind]
                revert this
                cases s.consumer.originalPositionFor ⟨line, column⟩ b <;>
                  cases s'.consumer.originalPositionFor ⟨line, column⟩ b <;> intro h <;> simp_all [Except.map]
  · intro s l k b
    by_cases h : c.sections = []
    · simp only [generatedPositionFor, find_empty h, find_empty (hlen.1 h), Res.ok_bind]; try rfl
    · simp only [generatedPositionFor, find_panics h, find_panics (mt hlen.2 h), Res.error_bind]; try rfl
  · intro s l k
    by_cases h : c.sections = []
    · simp only [allGeneratedPositionFor, find_empty h, find_empty (hlen.1 h), Res.ok_bind]; try rfl
    · simp only [allGeneratedPositionFor, find_panics h, find_panics (mt hlen.2 h), Res.error_bind]; try rfl
  · intro o
    rcases hc.pair hd 0 with ⟨h1, h2⟩ | ⟨s, s', s₀, h1, h2, h3, h4, h5⟩
    · have e1 : c.sections = [] := by simpa using h1
      simp only [eachMapping, e1, hlen.1 e1, BorrowFlag.borrowMut, Res.ok_bind, eachLoop]; rfl
    · cases hcs : c.sections with
      | nil => rw [hcs] at h1; cases h1
      | cons x xs =>
        cases hds : d.sections with
        | nil => rw [hds] at h2; cases h2
        | cons y ys =>
          rw [hcs] at h1; rw [hds] at h2
          cases h1; cases h2
          simp only [eachMapping, BorrowFlag.borrowMut, Res.ok_bind, hcs, hds, eachLoop, BorrowFlag.borrow, h3]
          cases E.cfg.arith (s'.generatedOffset.line - 1) with
          | error e => rfl
          | ok a => cases E.cfg.arith (s'.generatedOffset.column - 1) <;> rfl

/-! ## C66 -/

/-- C66: two indexed consumers of the same map and URL, built under any two schedules, answer every
call alike after any two histories. -/
theorem C66_history_independent (hL : E.maps.Laws) (hT : E.maps.Total) {m : SourceMapJson} {u : Option String}
    {secs : List (JsonSection SourceMapJson)} (hs : m.sections = some secs) {sch₁ sch₂ : List Nat}
    (h1 : IsSchedule secs.length sch₁) (h2 : IsSchedule secs.length sch₂) {c₀ c d₀ d : IndexedConsumer E}
    (e1 : fromSourceMapJson sch₁ m u = .ok c₀) (e2 : fromSourceMapJson sch₂ m u = .ok d₀)
    {ops₁ ops₂ : List Op} (r1 : c₀.run ops₁ = .ok c) (r2 : d₀.run ops₂ = .ok d) : AnswerAlike c d := by
  have e := C41_schedule_independent hs h1 h2 e1 e2
  subst e
  have hf := fresh_sections hs h1 e1
  exact alike_of_rel hL hT (hf.run hL r1).1 (hf.run hL r2).1

/-- C66: a call leaves the map of the consumer and the number and offsets of its sections alone. -/
theorem C66_shape_kept (hL : E.maps.Laws) {m : SourceMapJson} {u : Option String}
    {secs : List (JsonSection SourceMapJson)} (hs : m.sections = some secs) {sch : List Nat}
    (h1 : IsSchedule secs.length sch) {c₀ c : IndexedConsumer E} (e1 : fromSourceMapJson sch m u = .ok c₀)
    {ops : List Op} (hrun : c₀.run ops = .ok c) : c.sourceMap = m ∧
      c.sections.map (·.generatedOffset) = c₀.sections.map (·.generatedOffset) ∧
      c.sections.map (·.consumer.sourceMap) = secs.map (·.map) := by
  obtain ⟨h2, h3⟩ := (fresh_sections hs h1 e1).run hL hrun
  refine ⟨h3.trans (from_ok e1).2.1, h2.offsets, ?_⟩
  obtain ⟨hl, hsec⟩ := sections_after hL hs h1 e1 hrun
  apply List.ext_getElem?
  intro i
  simp only [List.getElem?_map]
  by_cases hi : i < secs.length
  · obtain ⟨s, x₀, h4, h5, _, _, hb, hrel⟩ := hsec i _ (List.getElem?_eq_getElem (by omega))
    rw [h4, List.getElem?_eq_getElem (by omega)]
    obtain ⟨_, _, _, _, _, _, h6, _⟩ := hb.spec
    simp [hrel.map, h6]
  · rw [List.getElem?_eq_none (by omega), List.getElem?_eq_none (by omega)]; rfl

/-- A history on the two-section map: contents, spans and forward queries into both sections. -/
def demoIndexedOps : List IndexedConsumer.Op :=
  [.content "two.js" (some false), .original ⟨3, 100⟩ (some .lub), .spans, .original ⟨1, 5⟩ none]

/-- Before and after that history: the same but for the span. -/
example : demoAskIndexed [0, 1] demoIndexed (fun c => c.originalPositionFor ⟨3, 100⟩ (some .lub)) =
      .ok (some ⟨⟨2, 1⟩, some ⟨1, 1⟩, some "/the/root/two.js", none, none⟩) ∧
    demoAskIndexed [0, 1] demoIndexed (fun c => do
        let c ← c.run demoIndexedOps
        c.originalPositionFor ⟨3, 100⟩ (some .lub)) =
      .ok (some ⟨⟨2, 1⟩, some ⟨1, 1⟩, some "/the/root/two.js", none, some 5⟩) :=
  ⟨by decide +kernel, by decide +kernel⟩

/-- The hypotheses are met by the two-section map, and the two consumers differ. -/
example : ∃ secs c₀ c, demoIndexed.sections = some secs ∧ IsSchedule secs.length [0, 1] ∧
    fromSourceMapJson (E := demoEnv) [0, 1] demoIndexed none = .ok c₀ ∧ c₀.run demoIndexedOps = .ok c ∧
    c.sections.map (·.consumer.computedColumnSpans) = [true, true] ∧
    c₀.sections.map (·.consumer.computedColumnSpans) = [false, false] := by
  have key : ∃ c₀ c, fromSourceMapJson (E := demoEnv) [0, 1] demoIndexed none = .ok c₀ ∧
      c₀.run demoIndexedOps = .ok c ∧
      (c.sections.map (·.consumer.computedColumnSpans), c₀.sections.map (·.consumer.computedColumnSpans)) =
        ([true, true], [false, false]) := by
    have h : demoAskIndexed [0, 1] demoIndexed (fun c₀ => do
        let c ← c₀.run demoIndexedOps
        pure ((c.sections.map (·.consumer.computedColumnSpans),
          c₀.sections.map (·.consumer.computedColumnSpans)), c)) = .ok ([true, true], [false, false]) := by
      decide +kernel
    simp only [demoAskIndexed, Res.bind_eq_ok, Res.pure_eq, Except.ok.injEq] at h
    obtain ⟨c₀, h0, _, ⟨c, hc, rfl⟩, hr⟩ := h
    exact ⟨c₀, c, h0, hc, hr⟩
  obtain ⟨c₀, c, h0, hc, hr⟩ := key
  simp only [Prod.mk.injEq] at hr
  exact ⟨_, c₀, c, rfl, List.Perm.refl _, h0, hc, hr.1, hr.2⟩

/-! ## C67 -/

/-- All sections have their spans. -/
def AllSpans (l : List (IdxSection E)) : Prop := ∀ s ∈ l, s.consumer.computedColumnSpans = true

theorem allSpans_mapM : ∀ {l l' : List (IdxSection E)},
    l.mapM (fun s => do let k ← s.consumer.computeColumnSpans; pure { s with consumer := k }) = .ok l' →
    AllSpans l' := by
  intro l
  induction l with
  | nil => intro l' h; simp only [List.mapM_nil, Res.pure_eq, Except.ok.injEq] at h; subst h; intro s hs; cases hs
  | cons a l ih =>
    intro l' h
    simp only [List.mapM_cons, Res.bind_eq_ok, Res.pure_eq, Except.ok.injEq] at h
    obtain ⟨_, ⟨k, hk, rfl⟩, ts, hts, rfl⟩ := h
    intro s hs
    rcases List.mem_cons.1 hs with rfl | hs
    · simp only [BasicConsumer.computeColumnSpans] at hk
      split at hk
      · next h => cases hk; exact h
      · simp only [Res.bind_eq_ok, Res.pure_eq, Except.ok.injEq] at hk
        obtain ⟨_, _, _, _, rfl⟩ := hk
        rfl
    · exact ih (by simpa using hts) s hs

theorem allSpans_same : ∀ {l : List (IdxSection E)}, AllSpans l →
    l.mapM (fun s => do let k ← s.consumer.computeColumnSpans; pure { s with consumer := k }) = (.ok l : Res _) := by
  intro l
  induction l with
  | nil => intro _; rfl
  | cons a l ih =>
    intro h
    have h1 := h a (by simp)
    have h2 := ih (fun s hs => h s (by simp [hs]))
    rw [List.mapM_cons, h2]
    simp [BasicConsumer.computeColumnSpans, h1]

theorem allSpans_content {s : String} {p : Option Bool} : ∀ {l₀ l l' : List (IdxSection E)} {r : Option String},
    SecRel l₀ l → contentLoop s p l = .ok (r, l') → AllSpans l → AllSpans l' := by
  intro l₀ l l' r h
  induction h generalizing l' r with
  | nil => intro hr hs; cases hr; exact hs
  | @cons s₀ x l₀ l h1 h2 h3 ih =>
    intro hr hs
    simp only [contentLoop, Res.bind_eq_ok] at hr
    obtain ⟨⟨y, c'⟩, hc, hr⟩ := hr
    have hk : c'.computedColumnSpans = true := step_spans (op := .content s p) (a := .content y) (by
      simp [BasicConsumer.step, hc]) h2 (hs x (by simp))
    have hs' : AllSpans l := fun z hz => hs z (by simp [hz])
    cases y with
    | some t =>
      simp only [Res.pure_eq, Except.ok.injEq, Prod.mk.injEq] at hr
      obtain ⟨rfl, rfl⟩ := hr
      intro z hz
      rcases List.mem_cons.1 hz with rfl | hz
      · exact hk
      · exact hs' z hz
    | none =>
      simp only [Res.bind_eq_ok, Res.pure_eq, Except.ok.injEq, Prod.mk.injEq] at hr
      obtain ⟨⟨y, l''⟩, hy, rfl, rfl⟩ := hr
      intro z hz
      rcases List.mem_cons.1 hz with rfl | hz
      · exact hk
      · exact ih hy hs' z hz

theorem allSpans_step {l₀ : List (IdxSection E)} {c c' : IndexedConsumer E} (h : SecRel l₀ c.sections)
    {op : Op} (hs : c.step op = .ok c') (ha : AllSpans c.sections) : AllSpans c'.sections := by
  cases op with
  | content s p =>
    simp only [IndexedConsumer.step, sourceContentFor, Res.bind_eq_ok, Res.pure_eq, Except.ok.injEq] at hs
    obtain ⟨⟨r, c1⟩, ⟨⟨x, l'⟩, hx, hr⟩, rfl⟩ := hs
    have := allSpans_content h hx ha
    cases x with
    | some t =>
      simp only [Except.ok.injEq, Prod.mk.injEq] at hr
      obtain ⟨_, rfl⟩ := hr
      exact this
    | none =>
      simp only at hr
      split at hr
      · cases hr
      · simp only [Except.ok.injEq, Prod.mk.injEq] at hr
        obtain ⟨_, rfl⟩ := hr
        exact this
  | original p b =>
    simp only [IndexedConsumer.step, originalPositionFor, Res.bind_eq_ok, Res.pure_eq, Except.ok.injEq] at hs
    obtain ⟨⟨r, c1⟩, ⟨i, hi, hr⟩, rfl⟩ := hs
    cases hg : c.sections[E.cfg.asUsize i]? with
    | none =>
      rw [hg] at hr
      simp only [Except.ok.injEq, Prod.mk.injEq] at hr
      obtain ⟨_, rfl⟩ := hr
      exact ha
    | some s =>
      rw [hg] at hr
      simp only [Res.bind_eq_ok, Except.ok.injEq, Prod.mk.injEq] at hr
      obtain ⟨⟨x, s'⟩, hx, _, rfl⟩ := hr
      simp only [originalInSection, Res.bind_eq_ok, Res.pure_eq, Except.ok.injEq, Prod.mk.injEq] at hx
      obtain ⟨_, _, line, _, _, _, column, _, ⟨y, k⟩, hy, _, rfl⟩ := hx
      obtain ⟨s₀, _, _, hrel⟩ := h.get hg
      have hk : k.computedColumnSpans = true :=
        step_spans (op := .original ⟨line, column⟩ b) (a := .mapping y) (by
          simp [BasicConsumer.step, hy]) hrel (ha s (List.mem_of_getElem? hg))
      intro z hz
      rcases List.mem_or_eq_of_mem_set hz with hz | rfl
      · exact ha z hz
      · exact hk
  | generated s l k b =>
    by_cases hne : c.sections = []
    · simp only [IndexedConsumer.step, generatedPositionFor, find_empty hne, Res.ok_bind, Res.pure_eq,
        Except.ok.injEq] at hs
      subst hs
      intro z hz; cases hz
    · simp only [IndexedConsumer.step, generatedPositionFor, find_panics hne, Res.error_bind, reduceCtorEq] at hs
  | all s l k =>
    by_cases hne : c.sections = []
    · simp only [IndexedConsumer.step, allGeneratedPositionFor, find_empty hne, Res.ok_bind, Res.pure_eq,
        Except.ok.injEq] at hs
      subst hs
      intro z hz; cases hz
    · simp only [IndexedConsumer.step, allGeneratedPositionFor, find_panics hne, Res.error_bind, reduceCtorEq] at hs
  | each o =>
    by_cases hne : c.sections = []
    · simp only [IndexedConsumer.step, eachMapping, hne, eachLoop, BorrowFlag.borrowMut, Res.ok_bind,
        Res.pure_eq, Except.ok.injEq] at hs
      subst hs
      intro z hz; cases hz
    · obtain ⟨e, he⟩ := each_panics hne o
      simp only [IndexedConsumer.step, he, Res.error_bind, reduceCtorEq] at hs
  | spans =>
    simp only [IndexedConsumer.step, computedColumnSpans, Res.bind_eq_ok, Res.pure_eq, Except.ok.injEq] at hs
    obtain ⟨l', hl', rfl⟩ := hs
    exact allSpans_mapM (by simpa using hl')

theorem allSpans_run (hL : E.maps.Laws) {l₀ : List (IdxSection E)} : ∀ {ops : List Op} {c c' : IndexedConsumer E},
    SecRel l₀ c.sections → c.run ops = .ok c' → AllSpans c.sections → AllSpans c'.sections := by
  intro ops
  induction ops with
  | nil => intro c c' _ hr ha; cases hr; exact ha
  | cons op ops ih =>
    intro c c' h hr ha
    simp only [IndexedConsumer.run, Res.bind_eq_ok] at hr
    obtain ⟨c1, h1, h2⟩ := hr
    exact ih (h.step hL h1).1 h2 (allSpans_step h h1 ha)

/-- C67: once `computed_column_spans` has returned, calling it again, after any further calls,
returns and changes nothing. -/
theorem C67_spans_idempotent (hL : E.maps.Laws) {m : SourceMapJson} {u : Option String}
    {secs : List (JsonSection SourceMapJson)} (hs : m.sections = some secs) {sch : List Nat}
    (h1 : IsSchedule secs.length sch) {c₀ c c₁ c₂ : IndexedConsumer E} (e1 : fromSourceMapJson sch m u = .ok c₀)
    {ops ops' : List Op} (hrun : c₀.run ops = .ok c) (hsp : c.computedColumnSpans = .ok c₁)
    (hrun' : c₁.run ops' = .ok c₂) : c₂.computedColumnSpans = .ok c₂ := by
  have h2 := ((fresh_sections hs h1 e1).run hL hrun).1
  have hstep : c.step .spans = .ok c₁ := hsp
  have h3 := (h2.step hL hstep).1
  have h4 : AllSpans c₁.sections := by
    simp only [computedColumnSpans, Res.bind_eq_ok, Res.pure_eq, Except.ok.injEq] at hsp
    obtain ⟨l', hl', rfl⟩ := hsp
    exact allSpans_mapM (by simpa using hl')
  have h5 := allSpans_same (allSpans_run hL h3 hrun' h4)
  simp only [computedColumnSpans]
  rw [h5]
  rfl

/-- C67: it changes no answer, spans apart. -/
theorem C67_spans_transparent (hL : E.maps.Laws) (hT : E.maps.Total) {m : SourceMapJson} {u : Option String}
    {secs : List (JsonSection SourceMapJson)} (hs : m.sections = some secs) {sch : List Nat}
    (h1 : IsSchedule secs.length sch) {c₀ c c₁ : IndexedConsumer E} (e1 : fromSourceMapJson sch m u = .ok c₀)
    {ops : List Op} (hrun : c₀.run ops = .ok c) (hsp : c.computedColumnSpans = .ok c₁) : AnswerAlike c c₁ := by
  have h2 := ((fresh_sections hs h1 e1).run hL hrun).1
  have hstep : c.step .spans = .ok c₁ := hsp
  exact alike_of_rel hL hT h2 (h2.step hL hstep).1

/-- C67: it returns exactly if the mappings of every section can be parsed. -/
theorem C67_spans_returns_iff (hL : E.maps.Laws) (hT : E.maps.Total) {m : SourceMapJson} {u : Option String}
    {secs : List (JsonSection SourceMapJson)} (hs : m.sections = some secs) {sch : List Nat}
    (h1 : IsSchedule secs.length sch) {c₀ c : IndexedConsumer E} (e1 : fromSourceMapJson sch m u = .ok c₀)
    {ops : List Op} (hrun : c₀.run ops = .ok c) :
    (∃ c₁, c.computedColumnSpans = .ok c₁) ↔
      ∀ s ∈ secs, ∃ text M, s.map.mappings = some text ∧ E.maps.parse text.toList = some M := by
  have h2 := ((fresh_sections hs h1 e1).run hL hrun).1
  obtain ⟨hl, hsec⟩ := sections_after hL hs h1 e1 hrun
  have one : ∀ {s : JsonSection SourceMapJson} {c₀ d : BasicConsumer E}, BasicConsumer.Built s.map u c₀ →
      BasicConsumer.Rel c₀ d → ((∃ k, d.computeColumnSpans = .ok k) ↔
        ∃ text M, s.map.mappings = some text ∧ E.maps.parse text.toList = some M) := by
    intro s c₀ d hb hrel
    obtain ⟨_, _, _, _, _, _, hm, _⟩ := hb.spec
    have hp : (∃ M₀, c₀.parsed = .ok M₀) ↔
        ∃ text M, s.map.mappings = some text ∧ E.maps.parse text.toList = some M := by
      simp only [BasicConsumer.parsed, hm, Res.bind_eq_ok]
      constructor
      · rintro ⟨M₀, t, ht, h⟩
        cases hx : s.map.mappings with
        | none => rw [hx] at ht; cases ht
        | some x =>
          rw [hx] at ht
          have ht : x = t := by simpa [unwrap] using ht
          subst ht
          cases hy : E.maps.parse x.toList with
          | none => rw [hy] at h; cases h
          | some M => exact ⟨x, M, rfl, hy⟩
      · rintro ⟨t, M, h3, h4⟩
        exact ⟨M, t, by rw [h3]; rfl, by rw [h4]; rfl⟩
    rw [← hp]
    constructor
    · rintro ⟨k, hk⟩
      rcases BasicConsumer.spans_ok hrel hk with ⟨hf, _⟩ | ⟨_, M₀, _, h3, _⟩
      · cases hmm : d.mappings with
        | none => exact absurd hmm (hrel.spans hf)
        | some M => obtain ⟨M₀, h1, _⟩ := hrel.mappings M hmm; exact ⟨M₀, h1⟩
      · exact ⟨M₀, h3⟩
    · rintro ⟨M₀, h3⟩
      simp only [BasicConsumer.computeColumnSpans]
      split
      · exact ⟨_, rfl⟩
      · rcases hrel.ensure with ⟨e, h4, _⟩ | ⟨M, _, _, h5, _⟩
        · rw [h3] at h4; cases h4
        · obtain ⟨M', hM'⟩ := hT.spans M
          rw [h5]
          simp only [Res.ok_bind, hM']
          exact ⟨_, rfl⟩
  have each : ∀ (i : Nat) x s, c.sections[i]? = some x → secs[i]? = some s →
      ((∃ k, x.consumer.computeColumnSpans = .ok k) ↔
        ∃ text M, s.map.mappings = some text ∧ E.maps.parse text.toList = some M) := by
    intro i x s hx hs'
    obtain ⟨s', x₀, h3, _, _, _, hb, hrel⟩ := hsec i x hx
    rw [hs'] at h3
    cases h3
    exact one hb hrel
  constructor
  · rintro ⟨c₁, h⟩ s hsm
    simp only [computedColumnSpans, Res.bind_eq_ok] at h
    obtain ⟨l', hl', _⟩ := h
    obtain ⟨i, hi⟩ := List.getElem?_of_mem hsm
    have hi' : i < secs.length := (List.getElem?_eq_some_iff.1 hi).1
    have hx := List.getElem?_eq_getElem (l := c.sections) (i := i) (by omega)
    obtain ⟨y, hy, _⟩ := (mapM_ok hl').2 i _ hx
    simp only [Res.bind_eq_ok] at hy
    obtain ⟨k, hk, _⟩ := hy
    exact (each i _ s hx hi).1 ⟨k, hk⟩
  · intro h
    obtain ⟨r, hr⟩ := mapM_total (l := c.sections)
      (f := fun s => do let k ← s.consumer.computeColumnSpans; pure { s with consumer := k }) (by
        intro x hx
        obtain ⟨i, hi⟩ := List.getElem?_of_mem hx
        have hi' : i < c.sections.length := (List.getElem?_eq_some_iff.1 hi).1
        have hs' := List.getElem?_eq_getElem (l := secs) (i := i) (by omega)
        obtain ⟨k, hk⟩ := (each i x _ hi hs').2 (h _ (List.mem_of_getElem? hs'))
        exact ⟨_, by rw [hk]; rfl⟩)
    refine ⟨{ c with sections := r }, ?_⟩
    simp only [computedColumnSpans]
    rw [hr]
    rfl

example : demoAskIndexed [0, 1] demoIndexed (fun c => do
    let c ← c.computedColumnSpans
    pure (c.sections.map (·.consumer.computedColumnSpans), c)) = .ok [true, true] := by decide +kernel

/-! ## C68 -/

/-- C68: `has_contents_of_all_sources` is true exactly if every section's map has at least as many
contents as sources, after any history; for a map without sections it is true. -/
theorem C68_has_contents (hL : E.maps.Laws) {m : SourceMapJson} {u : Option String}
    {secs : List (JsonSection SourceMapJson)} (hs : m.sections = some secs) {sch : List Nat}
    (h1 : IsSchedule secs.length sch) {c₀ c : IndexedConsumer E} (e1 : fromSourceMapJson sch m u = .ok c₀)
    {ops : List Op} (hrun : c₀.run ops = .ok c) :
    ∃ b, c.hasContentsOfAllSources = .ok b ∧ (b = true ↔ ∀ s ∈ secs, ∃ srcs contents,
      s.map.sources = some srcs ∧ s.map.sourcesContent = some contents ∧ srcs.length ≤ contents.length) := by
  have hmaps := (C66_shape_kept hL hs h1 e1 hrun).2.2
  have hsrcs := (C45_sources hL hs h1 e1 hrun).1
  simp only [hasContentsOfAllSources]
  generalize c.sections = l at hmaps
  clear e1 hs h1 hrun
  induction l generalizing secs with
  | nil =>
    have : secs = [] := by simpa using hmaps.symm
    subst this
    exact ⟨true, rfl, by simp⟩
  | cons x l ih =>
    cases secs with
    | nil => simp at hmaps
    | cons s secs =>
      simp only [List.map_cons, List.cons.injEq] at hmaps
      obtain ⟨b, hb, hiff⟩ := ih (secs := secs) (fun t ht => hsrcs t (by simp [ht])) hmaps.2
      obtain ⟨srcs, hsr⟩ := Option.isSome_iff_exists.1 (hsrcs s (by simp))
      simp only [allHaveContents, BasicConsumer.hasContentsOfAllSources, hmaps.1, hb]
      cases hc : s.map.sourcesContent with
      | none =>
        refine ⟨false, rfl, by simp only [Bool.false_eq_true, false_iff]; intro h; obtain ⟨_, _, _, h2, _⟩ := h s (by simp); rw [hc] at h2; cases h2⟩
      | some contents =>
        simp only [hsr, unwrap, Res.ok_bind, Res.pure_eq]
        by_cases hle : srcs.length ≤ contents.length
        · refine ⟨b, by simp [hle], hiff.trans ⟨?_, ?_⟩⟩
          · intro h t ht
            rcases List.mem_cons.1 ht with rfl | ht
            · exact ⟨srcs, contents, hsr, hc, hle⟩
            · exact h t ht
          · intro h t ht; exact h t (by simp [ht])
        · refine ⟨false, by simp [hle], by
            simp only [Bool.false_eq_true, false_iff]; intro h
            obtain ⟨_, _, h2, h3, h4⟩ := h s (by simp)
            rw [hsr] at h2; rw [hc] at h3; cases h2; cases h3; exact hle h4⟩

/-- True for the two-section map with contents, false when one section has none, true without sections. -/
example : demoAskIndexed [0, 1] demoIndexed (fun c => do let b ← c.hasContentsOfAllSources; pure (b, c)) = .ok true ∧
    demoAskIndexed [0, 1] { demoIndexed with sections := some [⟨⟨0, 0⟩, demoMap, none⟩,
        ⟨⟨2, 5⟩, { demoRooted with sourcesContent := none }, none⟩] }
      (fun c => do let b ← c.hasContentsOfAllSources; pure (b, c)) = .ok false ∧
    demoAskIndexed [] { demoIndexed with sections := some [] }
      (fun c => do let b ← c.hasContentsOfAllSources; pure (b, c)) = .ok true :=
  ⟨by decide +kernel, by decide +kernel, by decide +kernel⟩

end RSM
