import Verif.Props.Indexed

/-! # C105: a map wrapped as the only section of an indexed map -/

namespace RSM

open IndexedConsumer

variable {E : Env}

/-- `outer` is an indexed map whose only section, at offset (0, 0) and without a URL, is `m`. -/
structure WrapOf (m outer : SourceMapJson) : Prop where
  version : outer.version = 3
  sections : outer.sections = some [{ offset := ⟨0, 0⟩, url := none, map := m }]

/-- The positions that the indexed consumer takes to be before its first section: the whole of what
is above line 1, and the columns of line 1 up to and including column 0. -/
def BeforeFirst (p : Position) : Prop := p.line < 1 ∨ (p.line = 1 ∧ p.column < 1)

instance (p : Position) : Decidable (BeforeFirst p) := by unfold BeforeFirst; infer_instance

/-- The call that the only section gets for a call to the indexed consumer. -/
def innerOp : IndexedConsumer.Op → Option BasicConsumer.Op
  | .content s p => some (.content s p)
  | .original p b => if BeforeFirst p then none else some (.original p b)
  | .generated s l k b => some (.generated s l k b)
  | .all s l k => some (.all s l k)
  | .each o => some (.each o)
  | .spans => some .spans

/-- The indexed consumer with the one section at (0, 0). -/
def IndexedConsumer.Around (c : IndexedConsumer E) (b : BasicConsumer E) : Prop :=
  c.sections = [⟨⟨1, 1⟩, b⟩]

/-- The position whose comparison with (1, 1) overflows. -/
def FarOut (p : Position) : Prop :=
  p.line = -2147483648 ∨ (p.line = 1 ∧ p.column = -2147483648)

/-- The arguments of the calls are `i32`s. -/
def IndexedConsumer.Op.Fits : IndexedConsumer.Op → Prop
  | .original p _ => IsI32 p.line ∧ IsI32 p.column
  | _ => True

namespace IndexedConsumer

theorem arith_ok {cfg : Cfg} {x : Int} (h : IsI32 x) : cfg.arith x = .ok x := by
  rw [Cfg.arith, if_pos h]

/-- The search in one section. -/
theorem sectionIndex_one {c : IndexedConsumer E} {b : BasicConsumer E} (h : c.Around b) (p : Position) :
    c.sectionIndex p = (do
      let r ← needleCmp E.cfg p ⟨1, 1⟩
      pure (if r < 0 then -1 else 0)) := by
  have h0 : E.cfg.asUsize 0 = 0 := by cases hp : E.cfg.ptr64 <;> simp [Cfg.asUsize, hp]
  have e : wrap32 ((1 : Nat) : Int) = 1 := by decide
  simp only [sectionIndex, search, show c.sections = [⟨⟨1, 1⟩, b⟩] from h, List.isEmpty_cons,
    Bool.false_eq_true, if_false, List.length_cons, List.length_nil, Nat.zero_add, e, Option.getD_none]
  have e3 : ((1 : Int) + 1).toNat = 1 + 1 := by decide
  rw [e3]
  have a1 : E.cfg.arith ((1 : Int) - (-1)) = .ok 2 := arith_ok (by decide)
  have a2 : E.cfg.arith ((2 : Int).tdiv 2 + (-1)) = .ok 0 := arith_ok (by decide)
  have a3 : E.cfg.arith ((1 : Int) - 0) = .ok 1 := arith_ok (by decide)
  have a4 : E.cfg.arith ((0 : Int) - (-1)) = .ok 1 := arith_ok (by decide)
  rw [recursiveSearch]
  simp only [a1, a2, Res.ok_bind, h0, index, List.getElem?_cons_zero, a3, a4]
  cases needleCmp E.cfg p ⟨1, 1⟩ with
  | error e => simp only [Res.error_bind]
  | ok r =>
    simp only [Res.ok_bind, Res.pure_eq]
    by_cases h1 : r = 0
    · subst h1; simp [walkBack]
    · by_cases h2 : r > 0
      · have h3 : ¬ r < 0 := by omega
        simp [h1, h2, h3, walkBack, greatestLowerBound, leastUpperBound]
      · have h3 : r < 0 := by omega
        simp [h1, h2, h3, greatestLowerBound, leastUpperBound]

theorem needleCmp_before (cfg : Cfg) {p : Position} (hl : IsI32 p.line) (hk : IsI32 p.column)
    (hb : BeforeFirst p) (hf : ¬ FarOut p) : ∃ r, needleCmp cfg p ⟨1, 1⟩ = .ok r ∧ r < 0 := by
  unfold IsI32 at hl hk
  unfold BeforeFirst at hb
  unfold FarOut at hf
  have a : cfg.arith (p.line - 1) = .ok (p.line - 1) := arith_ok (by unfold IsI32; omega)
  unfold needleCmp
  simp only [a, Res.ok_bind]
  by_cases h : p.line - 1 = 0
  · have a2 : cfg.arith (p.column - 1) = .ok (p.column - 1) := arith_ok (by unfold IsI32; omega)
    exact ⟨p.column - 1, by simp only [ne_eq, h, not_true_eq_false, if_false, a2], by omega⟩
  · exact ⟨p.line - 1, by simp only [ne_eq, h, not_false_eq_true, if_true], by omega⟩

theorem needleCmp_inside (cfg : Cfg) {p : Position} (hl : IsI32 p.line) (hk : IsI32 p.column)
    (hb : ¬ BeforeFirst p) : ∃ r, needleCmp cfg p ⟨1, 1⟩ = .ok r ∧ ¬ r < 0 := by
  unfold IsI32 at hl hk
  unfold BeforeFirst at hb
  have a : cfg.arith (p.line - 1) = .ok (p.line - 1) := arith_ok (by unfold IsI32; omega)
  unfold needleCmp
  simp only [a, Res.ok_bind]
  by_cases h : p.line - 1 = 0
  · have a2 : cfg.arith (p.column - 1) = .ok (p.column - 1) := arith_ok (by unfold IsI32; omega)
    exact ⟨p.column - 1, by simp only [ne_eq, h, not_true_eq_false, if_false, a2], by omega⟩
  · exact ⟨p.line - 1, by simp only [ne_eq, h, not_false_eq_true, if_true], by omega⟩

theorem asUsize_zero (cfg : Cfg) : cfg.asUsize 0 = 0 := by
  cases hp : cfg.ptr64 <;> simp [Cfg.asUsize, hp]

theorem asUsize_neg (cfg : Cfg) : ∃ n, cfg.asUsize (-1) = n + 1 := by
  cases hp : cfg.ptr64
  · exact ⟨4294967294, by simp [Cfg.asUsize, hp]⟩
  · exact ⟨18446744073709551614, by simp [Cfg.asUsize, hp]⟩

/-- What the only section is asked, once found. -/
theorem originalPositionFor_found {c : IndexedConsumer E} {b : BasicConsumer E} (h : c.Around b)
    {p : Position} (hl : IsI32 p.line) (hk : IsI32 p.column) (bias : Option Bias)
    (hi : c.sectionIndex p = .ok 0) :
    c.originalPositionFor p bias = (b.originalPositionFor p bias).map
      fun r => (r.1, { c with sections := [⟨⟨1, 1⟩, r.2⟩] }) := by
  have a1 : E.cfg.arith ((1 : Int) - 1) = .ok 0 := arith_ok (by decide)
  have a2 : E.cfg.arith (p.line - 0) = .ok p.line := by rw [Int.sub_zero]; exact arith_ok hl
  have a3 : E.cfg.arith (p.column - 0) = .ok p.column := by rw [Int.sub_zero]; exact arith_ok hk
  have a4 : sectionColumnShift (E := E) ⟨⟨1, 1⟩, b⟩ p = .ok 0 := by
    unfold sectionColumnShift
    split
    · exact a1
    · rfl
  unfold originalPositionFor
  simp only [hi, Res.ok_bind, asUsize_zero, show c.sections = [⟨⟨1, 1⟩, b⟩] from h,
    List.getElem?_cons_zero, originalInSection, a1, a2, a3, a4, List.set_cons_zero]
  cases b.originalPositionFor p bias with
  | error e => simp only [Res.error_bind, Except.map]
  | ok r => simp only [Res.ok_bind, Res.pure_eq, Except.map]

theorem original_before {c : IndexedConsumer E} {b : BasicConsumer E} (h : c.Around b)
    {p : Position} (hl : IsI32 p.line) (hk : IsI32 p.column) (hb : BeforeFirst p) (hf : ¬ FarOut p)
    (bias : Option Bias) : c.originalPositionFor p bias = .ok (none, c) := by
  obtain ⟨r, hr, hr0⟩ := needleCmp_before E.cfg hl hk hb hf
  obtain ⟨n, hn⟩ := asUsize_neg E.cfg
  unfold originalPositionFor
  simp only [sectionIndex_one h, hr, Res.ok_bind, if_pos hr0, hn, Res.pure_eq,
    show c.sections = [⟨⟨1, 1⟩, b⟩] from h, List.getElem?_cons_succ, List.getElem?_nil]

theorem original_inside {c : IndexedConsumer E} {b : BasicConsumer E} (h : c.Around b)
    {p : Position} (hl : IsI32 p.line) (hk : IsI32 p.column) (hb : ¬ BeforeFirst p)
    (bias : Option Bias) :
    c.originalPositionFor p bias = (b.originalPositionFor p bias).map
      fun r => (r.1, { c with sections := [⟨⟨1, 1⟩, r.2⟩] }) := by
  obtain ⟨r, hr, hr0⟩ := needleCmp_inside E.cfg hl hk hb
  refine originalPositionFor_found h hl hk bias ?_
  simp only [sectionIndex_one h, hr, Res.ok_bind, if_neg hr0, Res.pure_eq]

theorem original_far {c : IndexedConsumer E} {b : BasicConsumer E} (h : c.Around b)
    {p : Position} (hl : IsI32 p.line) (hk : IsI32 p.column) (hf : FarOut p)
    (bias : Option Bias) : ∃ e, c.originalPositionFor p bias = .error e := by
  have hm : ∀ x : Int, x = -2147483648 → E.cfg.arith (x - 1) = .error .overflow ∨
      E.cfg.arith (x - 1) = .ok 2147483647 := by
    rintro x rfl
    unfold Cfg.arith
    rw [if_neg (by decide)]
    cases E.cfg.overflowChecks
    · right; decide
    · left; rfl
  have hbasic : ∃ e, b.originalPositionFor p bias = .error e := by
    unfold FarOut at hf
    unfold BasicConsumer.originalPositionFor BasicConsumer.checkPosition
    by_cases h1 : p.line < 1
    · rw [if_pos h1]; exact ⟨_, Res.error_bind ..⟩
    · have h2 : p.column < 0 := by omega
      rw [if_neg h1, if_pos h2]; exact ⟨_, Res.error_bind ..⟩
  have hcmp : needleCmp E.cfg p ⟨1, 1⟩ = .error .overflow ∨
      needleCmp E.cfg p ⟨1, 1⟩ = .ok 2147483647 := by
    unfold needleCmp
    rcases hf with hf | ⟨hf1, hf2⟩
    · rcases hm _ hf with e | e
      · left; simp only [e, Res.error_bind]
      · right
        simp only [e, Res.ok_bind]
        rw [if_pos (by decide)]
    · have a : E.cfg.arith (p.line - 1) = .ok 0 := by rw [hf1]; exact arith_ok (by decide)
      simp only [a, Res.ok_bind, ne_eq, not_true_eq_false, if_false]
      exact hm _ hf2
  rcases hcmp with e | e
  · exact ⟨.overflow, by unfold originalPositionFor; simp only [sectionIndex_one h, e, Res.error_bind]⟩
  · obtain ⟨x, hx⟩ := hbasic
    refine ⟨x, ?_⟩
    rw [originalPositionFor_found h hl hk bias]
    · rw [hx]; rfl
    · simp only [sectionIndex_one h, e, Res.ok_bind, Res.pure_eq]
      rw [if_neg (by decide)]

theorem content_around {c : IndexedConsumer E} {b : BasicConsumer E} (h : c.Around b)
    (s : String) (pm : Option Bool) :
    c.sourceContentFor s pm = (b.sourceContentFor s pm).bind fun r =>
      if r.1 = none ∧ pm.getD true = true then .error (.explicit "is not in the SourceMap.")
      else .ok (r.1, { c with sections := [⟨⟨1, 1⟩, r.2⟩] }) := by
  unfold IndexedConsumer.sourceContentFor
  simp only [show c.sections = [⟨⟨1, 1⟩, b⟩] from h, contentLoop]
  cases b.sourceContentFor s pm with
  | error e => simp only [Res.error_bind, Except.bind]
  | ok r =>
    obtain ⟨t, b'⟩ := r
    cases t with
    | none => simp only [Res.ok_bind, Except.bind, Res.pure_eq, true_and]
    | some t => simp [Res.ok_bind, Except.bind, Res.pure_eq]

theorem spans_around {c : IndexedConsumer E} {b : BasicConsumer E} (h : c.Around b) :
    c.computedColumnSpans = b.computeColumnSpans.map
      fun k => { c with sections := [⟨⟨1, 1⟩, k⟩] } := by
  unfold IndexedConsumer.computedColumnSpans
  simp only [show c.sections = [⟨⟨1, 1⟩, b⟩] from h, List.mapM_cons, List.mapM_nil]
  cases b.computeColumnSpans with
  | error e => simp only [Res.error_bind, Except.map]
  | ok r => simp only [Res.ok_bind, Res.pure_eq, Except.map]

/-- One call that returns is the call `innerOp` on the section. -/
theorem step_around {c c' : IndexedConsumer E} {b : BasicConsumer E} (h : c.Around b) {op : Op}
    (hfit : op.Fits) (hs : c.step op = .ok c') :
    ∃ b', c'.Around b' ∧ b.run (innerOp op).toList = .ok b' := by
  have hne : c.sections ≠ [] := by rw [show c.sections = [⟨⟨1, 1⟩, b⟩] from h]; simp
  cases op with
  | content s p =>
    simp only [IndexedConsumer.step, content_around h] at hs
    cases hb : b.sourceContentFor s p with
    | error e => rw [hb] at hs; simp [Except.bind] at hs
    | ok r =>
      rw [hb] at hs
      simp only [Except.bind] at hs
      split at hs
      · simp at hs
      · simp only [Res.ok_bind, Res.pure_eq, Except.ok.injEq] at hs
        subst hs
        exact ⟨r.2, rfl, by simp only [innerOp, Option.toList, BasicConsumer.run, BasicConsumer.step, hb,
          Res.ok_bind, Res.pure_eq]⟩
  | original p bias =>
    obtain ⟨hl, hk⟩ := hfit
    simp only [IndexedConsumer.step] at hs
    by_cases hbf : BeforeFirst p
    · by_cases hf : FarOut p
      · obtain ⟨e, he⟩ := original_far h hl hk hf bias
        rw [he] at hs; simp at hs
      · rw [original_before h hl hk hbf hf bias] at hs
        simp only [Res.ok_bind, Res.pure_eq, Except.ok.injEq] at hs
        subst hs
        exact ⟨b, h, by simp only [innerOp, if_pos hbf, Option.toList, BasicConsumer.run]⟩
    · rw [original_inside h hl hk hbf bias] at hs
      cases hb : b.originalPositionFor p bias with
      | error e => rw [hb] at hs; simp [Except.map] at hs
      | ok r =>
        rw [hb] at hs
        simp only [Except.map, Res.ok_bind, Res.pure_eq, Except.ok.injEq] at hs
        subst hs
        exact ⟨r.2, rfl, by simp only [innerOp, if_neg hbf, Option.toList, BasicConsumer.run,
          BasicConsumer.step, hb, Res.ok_bind, Res.pure_eq]⟩
  | generated s l k bias =>
    have := (C44_reverse_lookups_panic_refuted c hne s l k bias .generated).1
    simp only [IndexedConsumer.step, this, Res.error_bind] at hs
    cases hs
  | all s l k =>
    have h1 : c.allGeneratedPositionFor s l k = .error .borrow := by
      simp [IndexedConsumer.allGeneratedPositionFor, find_panics hne]
    simp only [IndexedConsumer.step, h1, Res.error_bind] at hs
    cases hs
  | each o =>
    obtain ⟨e, he⟩ := each_panics hne o
    simp only [IndexedConsumer.step, he, Res.error_bind] at hs
    cases hs
  | spans =>
    simp only [IndexedConsumer.step, spans_around h] at hs
    cases hb : b.computeColumnSpans with
    | error e => rw [hb] at hs; simp [Except.map] at hs
    | ok r =>
      rw [hb] at hs
      simp only [Except.map, Except.ok.injEq] at hs
      subst hs
      exact ⟨r, rfl, by simp only [innerOp, Option.toList, BasicConsumer.run, BasicConsumer.step, hb,
        Res.ok_bind, Res.pure_eq]⟩

theorem run_around {ops : List Op} : ∀ {c c' : IndexedConsumer E} {b : BasicConsumer E}, c.Around b →
    (∀ op ∈ ops, op.Fits) → c.run ops = .ok c' →
    ∃ b', c'.Around b' ∧ b.run (ops.filterMap innerOp) = .ok b' := by
  induction ops with
  | nil =>
    intro c c' b h _ hr
    simp only [IndexedConsumer.run, Except.ok.injEq] at hr
    subst hr
    exact ⟨b, h, rfl⟩
  | cons op ops ih =>
    intro c c' b h hfit hr
    simp only [IndexedConsumer.run] at hr
    rw [Res.bind_eq_ok] at hr
    obtain ⟨c₁, h1, h2⟩ := hr
    obtain ⟨b₁, hb1, hr1⟩ := step_around h (hfit op (by simp)) h1
    obtain ⟨b', hb', hr'⟩ := ih hb1 (fun o ho => hfit o (by simp [ho])) h2
    refine ⟨b', hb', ?_⟩
    cases ho : innerOp op with
    | none =>
      rw [List.filterMap_cons_none ho]
      rw [ho] at hr1
      simp only [Option.toList, BasicConsumer.run, Except.ok.injEq] at hr1
      rw [hr1]; exact hr'
    | some o =>
      rw [List.filterMap_cons_some ho]
      rw [ho] at hr1
      simp only [Option.toList, BasicConsumer.run] at hr1 ⊢
      rw [Res.bind_eq_ok] at hr1
      obtain ⟨r, h3, h4⟩ := hr1
      simp only [Except.ok.injEq] at h4
      rw [h3, Res.ok_bind, h4]; exact hr'

/-- The construction, for every schedule. -/
theorem from_around {m outer : SourceMapJson} (hw : WrapOf m outer) {sch : List Nat}
    (hsch : IsSchedule 1 sch) (u : Option String) :
    fromSourceMapJson (E := E) sch outer u = (BasicConsumer.fromSourceMapJson m u).map
      fun b => ⟨outer, [⟨⟨1, 1⟩, b⟩]⟩ := by
  have hs : sch = [0] := by
    have : sch.Perm [0] := hsch
    exact List.perm_singleton.1 this
  subst hs
  have a : E.cfg.arith ((0 : Int) + 1) = .ok 1 := arith_ok (by decide)
  unfold fromSourceMapJson
  rw [if_neg (by rw [hw.version]; decide)]
  simp only [hw.sections, unwrap, Res.ok_bind, collectSections, List.length_cons, List.length_nil,
    runSchedule, index, List.getElem?_cons_zero, buildSection, Option.isSome_none, Bool.false_eq_true, if_false, a]
  rw [if_neg (by decide)]
  cases BasicConsumer.fromSourceMapJson m u with
  | error e => simp only [Res.error_bind, Except.map]
  | ok b =>
    simp only [Res.ok_bind, Res.pure_eq, Except.map, List.range_succ, List.range_zero, List.nil_append,
      List.mapM_cons, List.mapM_nil, Nat.zero_add]
    simp [HMap.get?_insert]

theorem around_after {m outer : SourceMapJson} (hw : WrapOf m outer) {sch : List Nat}
    (hsch : IsSchedule 1 sch) {u : Option String} {c₀ c : IndexedConsumer E}
    (e : fromSourceMapJson sch outer u = .ok c₀) {ops : List Op} (hfit : ∀ op ∈ ops, op.Fits)
    (hrun : c₀.run ops = .ok c) {b₀ : BasicConsumer E}
    (eb : BasicConsumer.fromSourceMapJson m u = .ok b₀) :
    ∃ b, c.Around b ∧ b₀.run (ops.filterMap innerOp) = .ok b := by
  rw [from_around hw hsch, eb] at e
  simp only [Except.map, Except.ok.injEq] at e
  subst e
  exact run_around (c := ⟨outer, [⟨⟨1, 1⟩, b₀⟩]⟩) (b := b₀) rfl hfit hrun

end IndexedConsumer

/-- C105: the wrapped map is accepted exactly when the map is, and rejected with the same panic. -/
theorem C105_accepts {m outer : SourceMapJson} (hw : WrapOf m outer) {sch : List Nat}
    (hsch : IsSchedule 1 sch) (u : Option String) :
    ((∃ c : IndexedConsumer E, fromSourceMapJson sch outer u = .ok c) ↔
      ∃ b : BasicConsumer E, BasicConsumer.fromSourceMapJson m u = .ok b) ∧
    ∀ x, fromSourceMapJson (E := E) sch outer u = .error x ↔
      BasicConsumer.fromSourceMapJson (E := E) m u = .error x := by
  rw [from_around hw hsch]
  cases BasicConsumer.fromSourceMapJson (E := E) m u <;> simp [Except.map]

/-- C105: after every history, the answer of `original_position_for` is the one that the consumer of
the map itself gives after the same calls, panics included; except that a position up to line 1
column 0 has no mapping (or, where the comparison overflows, the call panics). -/
theorem C105_original {m outer : SourceMapJson} (hw : WrapOf m outer) {sch : List Nat}
    (hsch : IsSchedule 1 sch) {u : Option String} {c₀ c : IndexedConsumer E}
    (e : fromSourceMapJson sch outer u = .ok c₀) {ops : List Op} (hfit : ∀ op ∈ ops, op.Fits)
    (hrun : c₀.run ops = .ok c) {b₀ : BasicConsumer E}
    (eb : BasicConsumer.fromSourceMapJson m u = .ok b₀) :
    ∃ b, b₀.run (ops.filterMap innerOp) = .ok b ∧ ∀ p : Position, IsI32 p.line → IsI32 p.column →
      ∀ bias,
        (¬ BeforeFirst p → (c.originalPositionFor p bias).map Prod.fst =
          (b.originalPositionFor p bias).map Prod.fst) ∧
        (BeforeFirst p → ¬ FarOut p → (c.originalPositionFor p bias).map Prod.fst = .ok none) ∧
        (FarOut p → ∃ x, c.originalPositionFor p bias = .error x) := by
  obtain ⟨b, hb, hr⟩ := around_after hw hsch e hfit hrun eb
  refine ⟨b, hr, fun p hl hk bias => ⟨fun h => ?_, fun h hf => ?_, fun hf => original_far hb hl hk hf bias⟩⟩
  · rw [original_inside hb hl hk h bias]
    cases b.originalPositionFor p bias <;> rfl
  · rw [original_before hb hl hk h hf bias]; rfl

/-- C105: the contents are those of the map, but a source whose content is missing makes the call
panic unless the caller passes `Some(false)`, even where the map has no contents at all. -/
theorem C105_content {m outer : SourceMapJson} (hw : WrapOf m outer) {sch : List Nat}
    (hsch : IsSchedule 1 sch) {u : Option String} {c₀ c : IndexedConsumer E}
    (e : fromSourceMapJson sch outer u = .ok c₀) {ops : List Op} (hfit : ∀ op ∈ ops, op.Fits)
    (hrun : c₀.run ops = .ok c) {b₀ : BasicConsumer E}
    (eb : BasicConsumer.fromSourceMapJson m u = .ok b₀) :
    ∃ b, b₀.run (ops.filterMap innerOp) = .ok b ∧
      (∀ s pm t, (c.sourceContentFor s pm).map Prod.fst = .ok (some t) ↔
        (b.sourceContentFor s pm).map Prod.fst = .ok (some t)) ∧
      (∀ s, (c.sourceContentFor s (some false)).map Prod.fst =
        (b.sourceContentFor s (some false)).map Prod.fst) ∧
      (∀ s pm, pm ≠ some false → (c.sourceContentFor s pm).map Prod.fst ≠ .ok none) ∧
      (∀ s pm x, b.sourceContentFor s pm = .error x → c.sourceContentFor s pm = .error x) ∧
      c.hasContentsOfAllSources = b.hasContentsOfAllSources := by
  obtain ⟨b, hb, hr⟩ := around_after hw hsch e hfit hrun eb
  refine ⟨b, hr, fun s pm t => ?_, fun s => ?_, fun s pm hpm => ?_, fun s pm x hx => ?_, ?_⟩
  · rw [content_around hb]
    cases b.sourceContentFor s pm with
    | error x => simp [Except.bind, Except.map]
    | ok r =>
      obtain ⟨_ | t', b'⟩ := r
      · by_cases h : pm.getD true = true <;> simp [Except.bind, Except.map, h]
      · simp [Except.bind, Except.map]
  · rw [content_around hb]
    cases b.sourceContentFor s (some false) <;> simp [Except.bind, Except.map]
  · have hp : pm.getD true = true := by
      cases pm with
      | none => rfl
      | some v => cases v with
        | false => exact absurd rfl hpm
        | true => rfl
    rw [content_around hb]
    cases b.sourceContentFor s pm with
    | error x => simp [Except.bind, Except.map]
    | ok r =>
      obtain ⟨_ | t', b'⟩ := r <;> simp [Except.bind, Except.map, hp]
  · rw [content_around hb, hx]; rfl
  · unfold IndexedConsumer.hasContentsOfAllSources
    rw [show c.sections = [⟨⟨1, 1⟩, b⟩] from hb]
    simp only [allHaveContents]
    cases b.hasContentsOfAllSources with
    | error x => simp only [Res.error_bind]
    | ok v => cases v <;> simp [Res.ok_bind]

/-- C105: the column spans can be computed exactly when they can for the map, and the sources are
listed as the map has them, not resolved. -/
theorem C105_spans_sources {m outer : SourceMapJson} (hL : E.maps.Laws) (hw : WrapOf m outer) {sch : List Nat}
    (hsch : IsSchedule 1 sch) {u : Option String} {c₀ c : IndexedConsumer E}
    (e : fromSourceMapJson sch outer u = .ok c₀) {ops : List Op} (hfit : ∀ op ∈ ops, op.Fits)
    (hrun : c₀.run ops = .ok c) {b₀ : BasicConsumer E}
    (eb : BasicConsumer.fromSourceMapJson m u = .ok b₀) :
    ∃ b, b₀.run (ops.filterMap innerOp) = .ok b ∧
      ((∃ c', c.computedColumnSpans = .ok c') ↔ ∃ b', b.computeColumnSpans = .ok b') ∧
      c.getSources = .ok (m.sources.getD []) := by
  obtain ⟨b, hb, hr⟩ := around_after hw hsch e hfit hrun eb
  refine ⟨b, hr, ?_, ?_⟩
  · rw [spans_around hb]
    cases b.computeColumnSpans <;> simp [Except.map]
  · rw [(C45_sources hL hw.sections (by simpa using hsch) e hrun).2]
    simp

/-- An indexed map around `demoMap`. -/
def demoWrap : SourceMapJson := { version := 3, sections := some [⟨⟨0, 0⟩, demoMap, none⟩] }

/-- The hypotheses hold together, for a history with a call of each kind that returns. -/
example : WrapOf demoMap demoWrap ∧ IsSchedule 1 [0] ∧
    ∃ (c₀ c : IndexedConsumer demoEnv) (b₀ : BasicConsumer demoEnv), fromSourceMapJson [0] demoWrap none = .ok c₀ ∧
      c₀.run [.original ⟨1, 0⟩ (some .lub), .original ⟨2, 5⟩ none, .content "two.js" none, .spans] = .ok c ∧
      BasicConsumer.fromSourceMapJson demoMap none = .ok b₀ := by
  refine ⟨⟨rfl, rfl⟩, by simp [IsSchedule], ?_⟩
  have hb : (BasicConsumer.fromSourceMapJson (E := demoEnv) demoMap none).isOk = true := by decide +kernel
  have hc : (do
      let c ← fromSourceMapJson (E := demoEnv) [0] demoWrap none
      c.run [.original ⟨1, 0⟩ (some .lub), .original ⟨2, 5⟩ none, .content "two.js" none, .spans]).isOk = true := by
    decide +kernel
  revert hb hc
  cases BasicConsumer.fromSourceMapJson (E := demoEnv) demoMap none with
  | error x => intro hb; cases hb
  | ok b₀ =>
    intro _
    cases fromSourceMapJson (E := demoEnv) [0] demoWrap none with
    | error x => intro hc; cases hc
    | ok c₀ =>
      rw [Res.ok_bind]
      cases hr : c₀.run [.original ⟨1, 0⟩ (some .lub), .original ⟨2, 5⟩ none, .content "two.js" none, .spans] with
      | error x => intro hc; cases hc
      | ok c => intro _; exact ⟨c₀, c, b₀, rfl, hr, rfl⟩

/-- The same around a map whose first line is empty. -/
def demoLate : SourceMapJson := { demoMap with mappings := some ";CCACA,IAAI" }

/-- Line 1 column 0 with the upper bias: the map has an answer, the wrapped map none. From column 1
on they agree. -/
example : demoAskIndexed [0] { demoWrap with sections := some [⟨⟨0, 0⟩, demoLate, none⟩] }
      (fun c => c.originalPositionFor ⟨1, 0⟩ (some .lub)) = .ok none ∧
    demoAsk demoLate (fun c => do
      let r ← c.originalPositionFor ⟨1, 0⟩ (some .lub); pure (r.1.isSome, r.2)) = .ok true ∧
    demoAskIndexed [0] { demoWrap with sections := some [⟨⟨0, 0⟩, demoLate, none⟩] }
      (fun c => c.originalPositionFor ⟨1, 1⟩ (some .lub)) =
      demoAsk demoLate (fun c => c.originalPositionFor ⟨1, 1⟩ (some .lub)) ∧
    demoAsk demoLate (fun c => do
      let r ← c.originalPositionFor ⟨1, 1⟩ (some .lub); pure (r.1.isSome, r.2)) = .ok true :=
  ⟨by decide +kernel, by decide +kernel, by decide +kernel, by decide +kernel⟩

/-- A map without contents: the map answers with nothing, the wrapped map panics. -/
example : demoAsk { demoMap with sourcesContent := none } (fun c => c.sourceContentFor "one.js" none) = .ok none ∧
    demoAskIndexed [0] { demoWrap with sections := some [⟨⟨0, 0⟩, { demoMap with sourcesContent := none }, none⟩] }
      (fun c => c.sourceContentFor "one.js" none) = .error (.explicit "is not in the SourceMap.") :=
  ⟨by decide +kernel, by decide +kernel⟩

end RSM
