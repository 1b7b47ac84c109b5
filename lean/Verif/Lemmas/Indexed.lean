import Verif.Lemmas.Consumer
import Verif.Spec.Indexed
import Verif.Props.Consumer
/-! # Construction and histories of an `IndexedConsumer` -/

namespace RSM

variable {E : Env}

theorem mapM_ok {α β : Type} {f : α → Res β} : ∀ {l : List α} {r : List β}, l.mapM f = .ok r →
    r.length = l.length ∧ ∀ (i : Nat) x, l[i]? = some x → ∃ y, f x = .ok y ∧ r[i]? = some y := by
  intro l
  induction l with
  | nil => intro r h; simp only [List.mapM_nil, Res.pure_eq, Except.ok.injEq] at h; subst h; simp
  | cons a l ih =>
    intro r h
    simp only [List.mapM_cons, Res.bind_eq_ok, Res.pure_eq, Except.ok.injEq] at h
    obtain ⟨t, ht, ts, hts, rfl⟩ := h
    obtain ⟨h3, h4⟩ := ih hts
    refine ⟨by simp [h3], ?_⟩
    intro i x hx
    cases i with
    | zero => simp only [List.getElem?_cons_zero, Option.some.injEq] at hx ⊢; subst hx; exact ⟨t, ht, rfl⟩
    | succ i => simp only [List.getElem?_cons_succ] at hx ⊢; exact h4 i x hx

theorem mapM_total {α β : Type} {f : α → Res β} : ∀ {l : List α}, (∀ x ∈ l, ∃ y, f x = .ok y) →
    ∃ r, l.mapM f = .ok r := by
  intro l
  induction l with
  | nil => intro _; exact ⟨[], rfl⟩
  | cons a l ih =>
    intro h
    obtain ⟨y, hy⟩ := h a (by simp)
    obtain ⟨r, hr⟩ := ih (fun x hx => h x (by simp [hx]))
    exact ⟨y :: r, by simp [List.mapM_cons, hy, hr]⟩

namespace IndexedConsumer

/-- `x` is what the closure makes of `s`. -/
def Makes (u : Option String) (s : JsonSection SourceMapJson) (x : IdxSection E) : Prop :=
  s.url = none ∧ E.cfg.arith (s.offset.line + 1) = .ok x.generatedOffset.line ∧
    E.cfg.arith (s.offset.column + 1) = .ok x.generatedOffset.column ∧
    BasicConsumer.fromSourceMapJson s.map u = .ok x.consumer

theorem Makes.unique {u : Option String} {s : JsonSection SourceMapJson} {x y : IdxSection E}
    (hx : Makes u s x) (hy : Makes u s y) : x = y := by
  obtain ⟨⟨a, b⟩, c⟩ := x
  obtain ⟨⟨a', b'⟩, c'⟩ := y
  obtain ⟨_, h1, h2, h3⟩ := hx
  obtain ⟨_, h4, h5, h6⟩ := hy
  have e1 := Res.ok_inj h1 h4
  have e2 := Res.ok_inj h2 h5
  have e3 := Res.ok_inj h3 h6
  simp only at e1 e2 e3
  subst e1; subst e2; subst e3
  rfl

theorem buildSection_ok {u : Option String} {last p : Position} {s : JsonSection SourceMapJson}
    {x : IdxSection E} :
    buildSection u last s = .ok (x, p) ↔ Makes u s x ∧ p = s.offset ∧ last.Le s.offset := by
  simp only [buildSection]
  constructor
  · intro h
    split at h
    · cases h
    · next h1 =>
      split at h
      · cases h
      · next h2 =>
        simp only [Res.bind_eq_ok, Res.pure_eq, Except.ok.injEq, Prod.mk.injEq] at h
        obtain ⟨l, hl, c, hc, k, hk, rfl, rfl⟩ := h
        refine ⟨⟨by simpa using h1, hl, hc, hk⟩, rfl, ?_⟩
        unfold Position.Le; omega
  · rintro ⟨⟨h1, h2, h3, h4⟩, rfl, h5⟩
    have hu : ¬ (s.url.isSome = true) := by simp [h1]
    rw [if_neg hu, if_neg (by unfold Position.Le at h5; omega), h2, h3, h4]
    rfl

theorem runSchedule_ok {u : Option String} {secs : List (JsonSection SourceMapJson)} :
    ∀ {is : List Nat} {last : Position} {acc acc' : HMap Nat (IdxSection E)},
    runSchedule u secs is last acc = .ok acc' →
    (∀ i ∈ is, ∃ s x, secs[i]? = some s ∧ Makes u s x ∧ acc'.get? i = some x) ∧
    (∀ i, i ∉ is → acc'.get? i = acc.get? i) ∧
    (last :: offsetsAlong secs is).Pairwise Position.Le := by
  intro is
  induction is with
  | nil => intro last acc acc' h; cases h; simp [offsetsAlong]
  | cons i is ih =>
    intro last acc acc' h
    simp only [runSchedule, Res.bind_eq_ok] at h
    obtain ⟨s, hs, ⟨x, p⟩, hx, h⟩ := h
    obtain ⟨hm, rfl, hle⟩ := buildSection_ok.1 hx
    obtain ⟨h1, h2, h3⟩ := ih h
    have hs' : secs[i]? = some s := by
      simp only [index] at hs
      split at hs
      · next hy => cases hs; exact hy
      · cases hs
    refine ⟨?_, ?_, ?_⟩
    · intro j hj
      by_cases hji : j ∈ is
      · exact h1 j hji
      · have : j = i := by
          rcases List.mem_cons.1 hj with h | h
          · exact h
          · exact absurd h hji
        subst this
        refine ⟨s, x, hs', hm, ?_⟩
        rw [h2 j hji, HMap.get?_insert]
        simp
    · intro j hj
      simp only [List.mem_cons, not_or] at hj
      rw [h2 j hj.2, HMap.get?_insert]
      simp [hj.1]
    · have ho : offsetsAlong secs (i :: is) = s.offset :: offsetsAlong secs is := by
        simp [offsetsAlong, hs']
      rw [ho]
      refine List.pairwise_cons.2 ⟨?_, h3⟩
      intro a ha
      rcases List.mem_cons.1 ha with rfl | ha
      · exact hle
      · have := (List.pairwise_cons.1 h3).1 a ha
        unfold Position.Le at *; dsimp only at this; omega

theorem runSchedule_total {u : Option String} {secs : List (JsonSection SourceMapJson)} :
    ∀ {is : List Nat} {last : Position} {acc : HMap Nat (IdxSection E)},
    (∀ i ∈ is, ∃ s x, secs[i]? = some s ∧ Makes (E := E) u s x) →
    (last :: offsetsAlong secs is).Pairwise Position.Le →
    ∃ acc', runSchedule u secs is last acc = .ok acc' := by
  intro is
  induction is with
  | nil => intro last acc _ _; exact ⟨acc, rfl⟩
  | cons i is ih =>
    intro last acc h1 h2
    obtain ⟨s, x, hs, hx⟩ := h1 i (by simp)
    have ho : offsetsAlong secs (i :: is) = s.offset :: offsetsAlong secs is := by
      simp [offsetsAlong, hs]
    rw [ho] at h2
    have h3 := List.pairwise_cons.1 h2
    have hb : buildSection u last s = .ok (x, s.offset) :=
      buildSection_ok.2 ⟨hx, rfl, h3.1 _ (by simp)⟩
    obtain ⟨acc', h4⟩ := ih (last := s.offset) (acc := acc.insert i x) (fun j hj => h1 j (by simp [hj])) h3.2
    exact ⟨acc', by simp [runSchedule, index, hs, hb, h4]⟩

/-- What construction makes, and when it succeeds. -/
theorem collect_ok {u : Option String} {secs : List (JsonSection SourceMapJson)} {schedule : List Nat}
    (hsch : IsSchedule secs.length schedule) {l : List (IdxSection E)}
    (h : collectSections u secs schedule = .ok l) :
    l.length = secs.length ∧ (∀ (i : Nat) s, secs[i]? = some s → ∃ x, l[i]? = some x ∧ Makes u s x) ∧
      ((⟨-1, 0⟩ : Position) :: offsetsAlong secs schedule).Pairwise Position.Le := by
  simp only [collectSections, Res.bind_eq_ok] at h
  obtain ⟨acc, h1, h2⟩ := h
  obtain ⟨h3, _, h5⟩ := runSchedule_ok h1
  obtain ⟨h6, h7⟩ := mapM_ok h2
  refine ⟨by simpa using h6, ?_, h5⟩
  intro i s hs
  have hi : i < secs.length := (List.getElem?_eq_some_iff.1 hs).1
  obtain ⟨s', x, hs', hx, hg⟩ := h3 i (hsch.mem_iff.2 (by simpa using hi))
  rw [hs] at hs'; cases hs'
  obtain ⟨y, hy, hl⟩ := h7 i i (by rw [List.getElem?_range hi])
  rw [hg] at hy
  cases hy
  exact ⟨x, hl, hx⟩

theorem collect_total {u : Option String} {secs : List (JsonSection SourceMapJson)} {schedule : List Nat}
    (hsch : IsSchedule secs.length schedule)
    (h1 : ∀ (i : Nat) s, secs[i]? = some s → ∃ x, Makes (E := E) u s x)
    (h2 : ((⟨-1, 0⟩ : Position) :: offsetsAlong secs schedule).Pairwise Position.Le) :
    ∃ l : List (IdxSection E), collectSections u secs schedule = .ok l := by
  obtain ⟨acc, h3⟩ := runSchedule_total (E := E) (u := u) (secs := secs) (is := schedule) (acc := HMap.empty)
    (fun i hi => by
      have hi' : i < secs.length := by simpa using hsch.mem_iff.1 hi
      obtain ⟨x, hx⟩ := h1 i secs[i] (List.getElem?_eq_getElem hi')
      exact ⟨secs[i], x, List.getElem?_eq_getElem hi', hx⟩) h2
  obtain ⟨h4, _, _⟩ := runSchedule_ok h3
  obtain ⟨l, hl⟩ := mapM_total (f := fun i => unwrap (acc.get? i)) (l := List.range secs.length)
    (fun i hi => by
      obtain ⟨s, x, _, _, hx⟩ := h4 i (hsch.mem_iff.2 hi)
      exact ⟨x, by simp [hx, unwrap]⟩)
  exact ⟨l, by simp [collectSections, h3, hl]⟩

theorem from_ok {schedule : List Nat} {m : SourceMapJson} {u : Option String} {c : IndexedConsumer E}
    (h : fromSourceMapJson schedule m u = .ok c) : m.version = 3 ∧ c.sourceMap = m ∧
      ∃ secs, m.sections = some secs ∧ collectSections u secs schedule = .ok c.sections := by
  simp only [fromSourceMapJson] at h
  split at h
  · cases h
  · next hv =>
    simp only [Res.bind_eq_ok, Res.pure_eq, Except.ok.injEq] at h
    obtain ⟨secs, hs, l, hl, rfl⟩ := h
    refine ⟨by simpa [supportedSourceMapVersion] using hv, rfl, secs, ?_, hl⟩
    cases hx : m.sections with
    | none => rw [hx] at hs; cases hs
    | some y => rw [hx] at hs; cases hs; rfl

theorem from_total {schedule : List Nat} {m : SourceMapJson} {u : Option String}
    {secs : List (JsonSection SourceMapJson)} {l : List (IdxSection E)} (hv : m.version = 3)
    (hs : m.sections = some secs) (hl : collectSections u secs schedule = .ok l) :
    fromSourceMapJson schedule m u = .ok ⟨m, l⟩ := by
  simp [fromSourceMapJson, hv, supportedSourceMapVersion, hs, unwrap, hl]

/-! ## Histories -/

/-- Section by section, `l` is `l₀` with some things cached. -/
inductive SecRel : List (IdxSection E) → List (IdxSection E) → Prop where
  | nil : SecRel [] []
  | cons {s₀ s : IdxSection E} {l₀ l : List (IdxSection E)} : s.generatedOffset = s₀.generatedOffset →
      BasicConsumer.Rel s₀.consumer s.consumer → SecRel l₀ l → SecRel (s₀ :: l₀) (s :: l)

theorem SecRel.length {l₀ l : List (IdxSection E)} (h : SecRel l₀ l) : l.length = l₀.length := by
  induction h with
  | nil => rfl
  | cons _ _ _ ih => simp [ih]

theorem SecRel.get {l₀ l : List (IdxSection E)} (h : SecRel l₀ l) : ∀ {i : Nat} {s : IdxSection E},
    l[i]? = some s → ∃ s₀, l₀[i]? = some s₀ ∧ s.generatedOffset = s₀.generatedOffset ∧
      BasicConsumer.Rel s₀.consumer s.consumer := by
  induction h with
  | nil => intro i s hs; simp at hs
  | cons h1 h2 _ ih =>
    intro i s hs
    cases i with
    | zero => simp only [List.getElem?_cons_zero, Option.some.injEq] at hs ⊢; subst hs; exact ⟨_, rfl, h1, h2⟩
    | succ i => simp only [List.getElem?_cons_succ] at hs ⊢; exact ih hs

theorem SecRel.set {l₀ l : List (IdxSection E)} (h : SecRel l₀ l) : ∀ {i : Nat} {s s' : IdxSection E},
    l[i]? = some s → s'.generatedOffset = s.generatedOffset →
    (∀ c₀, BasicConsumer.Rel c₀ s.consumer → BasicConsumer.Rel c₀ s'.consumer) → SecRel l₀ (l.set i s') := by
  induction h with
  | nil => intro i s s' hs; simp at hs
  | cons h1 h2 h3 ih =>
    intro i s s' hs ho hr
    cases i with
    | zero =>
      simp only [List.getElem?_cons_zero, Option.some.injEq] at hs
      subst hs
      exact .cons (ho.trans h1) (hr _ h2) h3
    | succ i =>
      simp only [List.getElem?_cons_succ] at hs
      exact .cons h1 h2 (ih hs ho hr)

/-- A call of a public method. -/
inductive Op where
  | content (source : String) (panicOnMissing : Option Bool)
  | original (p : Position) (bias : Option Bias)
  | generated (source : String) (line column : Int) (bias : Option Bias)
  | all (source : String) (line : Int) (column : Option Int)
  | each (ord : BasicConsumer.IterOrd)
  | spans

/-- The consumer after a call that returns. -/
def step (c : IndexedConsumer E) : Op → Res (IndexedConsumer E)
  | .content s p => do let r ← c.sourceContentFor s p; pure r.2
  | .original p b => do let r ← c.originalPositionFor p b; pure r.2
  | .generated s l k b => do let r ← c.generatedPositionFor s l k b; pure r.2
  | .all s l k => do let r ← c.allGeneratedPositionFor s l k; pure r.2
  | .each o => do let r ← c.eachMapping o; pure r.2
  | .spans => c.computedColumnSpans

/-- A sequence of calls that all return. -/
def run (c : IndexedConsumer E) : List Op → Res (IndexedConsumer E)
  | [] => .ok c
  | op :: ops => do
    let c' ← c.step op
    c'.run ops

theorem find_empty {c : IndexedConsumer E} (h : c.sections = []) (s : String) :
    c.findSourceIndex s = .ok (none, { c with sections := [] }) := by
  simp [findSourceIndex, BorrowFlag.borrow, h, findLoop]

theorem find_panics {c : IndexedConsumer E} (h : c.sections ≠ []) (s : String) :
    c.findSourceIndex s = .error .borrow := by
  cases hs : c.sections with
  | nil => exact absurd hs h
  | cons a l => simp [findSourceIndex, BorrowFlag.borrow, BorrowFlag.borrowMut, hs, findLoop]

theorem each_panics {c : IndexedConsumer E} (h : c.sections ≠ []) (o : BasicConsumer.IterOrd) :
    ∃ e, c.eachMapping o = .error e := by
  cases hs : c.sections with
  | nil => exact absurd hs h
  | cons a l =>
    simp only [eachMapping, BorrowFlag.borrowMut, Res.ok_bind, hs, eachLoop, BorrowFlag.borrow]
    cases E.cfg.arith (a.generatedOffset.line - 1) with
    | error e => exact ⟨e, rfl⟩
    | ok x =>
      cases E.cfg.arith (a.generatedOffset.column - 1) with
      | error e => exact ⟨e, rfl⟩
      | ok y => exact ⟨.borrow, rfl⟩

theorem contentLoop_rel (hL : E.maps.Laws) {s : String} {p : Option Bool} :
    ∀ {l₀ l l' : List (IdxSection E)} {r : Option String}, SecRel l₀ l →
    contentLoop s p l = .ok (r, l') → SecRel l₀ l' := by
  intro l₀ l l' r h
  induction h generalizing l' r with
  | nil => intro hr; cases hr; exact .nil
  | cons h1 h2 h3 ih =>
    intro hr
    simp only [contentLoop, Res.bind_eq_ok] at hr
    obtain ⟨⟨x, c'⟩, hc, hr⟩ := hr
    have hrel := h2.step hL (op := .content s p) (a := .content x) (c' := c') (by
      simp [BasicConsumer.step, hc])
    cases x with
    | some t =>
      simp only [Res.pure_eq, Except.ok.injEq, Prod.mk.injEq] at hr
      obtain ⟨rfl, rfl⟩ := hr
      exact .cons h1 hrel h3
    | none =>
      simp only [Res.bind_eq_ok, Res.pure_eq, Except.ok.injEq, Prod.mk.injEq] at hr
      obtain ⟨⟨y, l''⟩, hy, rfl, rfl⟩ := hr
      exact .cons h1 hrel (ih hy)

theorem spans_rel (hL : E.maps.Laws) : ∀ {l₀ l l' : List (IdxSection E)}, SecRel l₀ l →
    l.mapM (fun s => do let k ← s.consumer.computeColumnSpans; pure { s with consumer := k }) = .ok l' →
    SecRel l₀ l' := by
  intro l₀ l l' h
  induction h generalizing l' with
  | nil => intro hr; simp only [List.mapM_nil, Res.pure_eq, Except.ok.injEq] at hr; subst hr; exact .nil
  | cons h1 h2 h3 ih =>
    intro hr
    simp only [List.mapM_cons, Res.bind_eq_ok, Res.pure_eq, Except.ok.injEq] at hr
    obtain ⟨_, ⟨k, hk, rfl⟩, ts, hts, rfl⟩ := hr
    have hrel := h2.step hL (op := .spans) (a := .unit) (c' := k) (by
      simp [BasicConsumer.step, hk])
    exact .cons h1 hrel (ih (by simpa using hts))

/-- No call changes more than the caches of the sections. -/
theorem SecRel.step (hL : E.maps.Laws) {l₀ : List (IdxSection E)} {c c' : IndexedConsumer E}
    (h : SecRel l₀ c.sections) {op : Op} (hs : c.step op = .ok c') :
    SecRel l₀ c'.sections ∧ c'.sourceMap = c.sourceMap := by
  cases op with
  | content s p =>
    simp only [IndexedConsumer.step, sourceContentFor, Res.bind_eq_ok, Res.pure_eq, Except.ok.injEq] at hs
    obtain ⟨⟨r, c1⟩, ⟨⟨x, l'⟩, hx, hr⟩, rfl⟩ := hs
    have := contentLoop_rel hL h hx
    cases x with
    | some t =>
      simp only [Except.ok.injEq, Prod.mk.injEq] at hr
      obtain ⟨_, rfl⟩ := hr
      exact ⟨this, rfl⟩
    | none =>
      simp only at hr
      split at hr
      · cases hr
      · simp only [Except.ok.injEq, Prod.mk.injEq] at hr
        obtain ⟨_, rfl⟩ := hr
        exact ⟨this, rfl⟩
  | original p b =>
    simp only [IndexedConsumer.step, originalPositionFor, Res.bind_eq_ok, Res.pure_eq,
      Except.ok.injEq] at hs
    obtain ⟨⟨r, c1⟩, ⟨i, hi, hr⟩, rfl⟩ := hs
    cases hg : c.sections[E.cfg.asUsize i]? with
    | none =>
      rw [hg] at hr
      simp only [Except.ok.injEq, Prod.mk.injEq] at hr
      obtain ⟨_, rfl⟩ := hr
      exact ⟨h, rfl⟩
    | some s =>
      rw [hg] at hr
      simp only [Res.bind_eq_ok, Except.ok.injEq, Prod.mk.injEq] at hr
      obtain ⟨⟨x, s'⟩, hx, _, rfl⟩ := hr
      simp only [originalInSection, Res.bind_eq_ok, Res.pure_eq, Except.ok.injEq, Prod.mk.injEq] at hx
      obtain ⟨_, _, line, _, _, _, column, _, ⟨y, k⟩, hy, _, rfl⟩ := hx
      refine ⟨h.set hg rfl ?_, rfl⟩
      intro c₀ hc₀
      exact hc₀.step hL (op := .original ⟨line, column⟩ b) (a := .mapping y) (c' := k) (by
        simp [BasicConsumer.step, hy])
  | generated s l k b =>
    by_cases hne : c.sections = []
    · simp only [IndexedConsumer.step, generatedPositionFor, find_empty hne, Res.ok_bind, Res.pure_eq,
        Except.ok.injEq] at hs
      subst hs
      exact ⟨by rw [hne] at h; exact h, rfl⟩
    · simp only [IndexedConsumer.step, generatedPositionFor, find_panics hne, Res.error_bind,
        reduceCtorEq] at hs
  | all s l k =>
    by_cases hne : c.sections = []
    · simp only [IndexedConsumer.step, allGeneratedPositionFor, find_empty hne, Res.ok_bind, Res.pure_eq,
        Except.ok.injEq] at hs
      subst hs
      exact ⟨by rw [hne] at h; exact h, rfl⟩
    · simp only [IndexedConsumer.step, allGeneratedPositionFor, find_panics hne, Res.error_bind,
        reduceCtorEq] at hs
  | each o =>
    by_cases hne : c.sections = []
    · simp only [IndexedConsumer.step, eachMapping, hne, eachLoop, BorrowFlag.borrowMut, Res.ok_bind,
        Res.pure_eq, Except.ok.injEq] at hs
      subst hs
      exact ⟨by rw [hne] at h; exact h, rfl⟩
    · obtain ⟨e, he⟩ := each_panics hne o
      simp only [IndexedConsumer.step, he, Res.error_bind, reduceCtorEq] at hs
  | spans =>
    simp only [IndexedConsumer.step, computedColumnSpans, Res.bind_eq_ok, Res.pure_eq,
      Except.ok.injEq] at hs
    obtain ⟨l', hl', rfl⟩ := hs
    exact ⟨spans_rel hL h (by simpa using hl'), rfl⟩

theorem SecRel.run (hL : E.maps.Laws) {l₀ : List (IdxSection E)} : ∀ {ops : List Op}
    {c c' : IndexedConsumer E}, SecRel l₀ c.sections → c.run ops = .ok c' →
    SecRel l₀ c'.sections ∧ c'.sourceMap = c.sourceMap := by
  intro ops
  induction ops with
  | nil => intro c c' h hr; cases hr; exact ⟨h, rfl⟩
  | cons op ops ih =>
    intro c c' h hr
    simp only [IndexedConsumer.run, Res.bind_eq_ok] at hr
    obtain ⟨c1, h1, h2⟩ := hr
    obtain ⟨h3, h4⟩ := h.step hL h1
    obtain ⟨h5, h6⟩ := ih h3 h2
    exact ⟨h5, h6.trans h4⟩

/-- The sections of a new consumer have cached nothing. -/
theorem SecRel.self : ∀ {l : List (IdxSection E)}, (∀ s ∈ l, s.consumer.Fresh) → SecRel l l := by
  intro l
  induction l with
  | nil => intro _; exact .nil
  | cons a l ih =>
    intro h
    exact .cons rfl (h a (by simp)).rel (ih fun s hs => h s (by simp [hs]))

end IndexedConsumer

end RSM
