import Verif.Props.EndToEnd
/-! # C69 and C70: column spans, and from original back to generated positions

For every mappings library satisfying its contract, after any history of calls; C70 for the consumers made from a
generator.
-/

namespace RSM
open Spec BasicConsumer

variable {E : Env}

/-! ## C69 -/

/-- The flag is set by `compute_column_spans` and by nothing else. -/
theorem step_flag {c₀ c c' : BasicConsumer E} (hrel : Rel c₀ c) {op : Op} {a : Ans} (h : c.step op = .ok (a, c')) :
    c'.computedColumnSpans = true ↔ c.computedColumnSpans = true ∨ op = .spans := by
  cases op with
  | content s p =>
    simp only [BasicConsumer.step, Res.bind_eq_ok, Res.pure_eq, Except.ok.injEq, Prod.mk.injEq] at h
    obtain ⟨⟨r, c1⟩, hr, -, rfl⟩ := h
    rcases content_ok hrel hr with ⟨_, _, rfl⟩ | ⟨_, _, _, _, _, h3, rfl, _⟩ <;> simp
  | original p b =>
    simp only [BasicConsumer.step, Res.bind_eq_ok, Res.pure_eq, Except.ok.injEq, Prod.mk.injEq] at h
    obtain ⟨⟨r, c1⟩, hr, -, rfl⟩ := h
    obtain ⟨_, line, M, M₀, x, M', h1, h2, _, h3, _, rfl⟩ := original_ok hrel hr
    simp
  | generated s l k b =>
    simp only [BasicConsumer.step, Res.bind_eq_ok, Res.pure_eq, Except.ok.injEq, Prod.mk.injEq] at h
    obtain ⟨⟨r, c1⟩, hr, -, rfl⟩ := h
    obtain ⟨i, q, _, h1, h2⟩ := generated_ok hrel hr
    rcases h2 with ⟨_, _, rfl⟩ | ⟨i', line, M, M₀, x, M', _, _, h3, h4, _, h5, _, rfl⟩ <;> simp
  | all s l k =>
    simp only [BasicConsumer.step, Res.bind_eq_ok, Res.pure_eq, Except.ok.injEq, Prod.mk.injEq] at h
    obtain ⟨⟨r, c1⟩, hr, -, rfl⟩ := h
    obtain ⟨i, q, _, h1, h2⟩ := all_ok hrel hr
    rcases h2 with ⟨_, _, rfl⟩ | ⟨i', M, M₀, M', _, _, _, h3, h4, h5, rfl⟩ <;> simp
  | each o =>
    simp only [BasicConsumer.step, Res.bind_eq_ok, Res.pure_eq, Except.ok.injEq, Prod.mk.injEq] at h
    obtain ⟨⟨r, c1⟩, hr, -, rfl⟩ := h
    rcases each_ok hrel hr with ⟨_, _, _, _, rfl⟩ | ⟨M, M₀, M', h1, h2, h3, rfl⟩ <;> simp
  | spans =>
    simp only [BasicConsumer.step, Res.bind_eq_ok, Res.pure_eq, Except.ok.injEq, Prod.mk.injEq] at h
    obtain ⟨c1, hr, -, rfl⟩ := h
    rcases spans_ok hrel hr with ⟨h1, rfl⟩ | ⟨M, M₀, M', h1, h2, h3, rfl⟩
    · simp [h1]
    · simp

theorem run_flag (hL : E.maps.Laws) {c₀ : BasicConsumer E} : ∀ {ops : List Op} {c c' : BasicConsumer E},
    Rel c₀ c → c.run ops = .ok c' →
    (c'.computedColumnSpans = true ↔ c.computedColumnSpans = true ∨ Op.spans ∈ ops) := by
  intro ops
  induction ops with
  | nil => intro c c' _ hr; cases hr; simp
  | cons op ops ih =>
    intro c c' h hr
    simp only [BasicConsumer.run, Res.bind_eq_ok] at hr
    obtain ⟨⟨a, c1⟩, h1, h2⟩ := hr
    rw [ih (h.step hL h1) h2, step_flag h h1, or_assoc, List.mem_cons, eq_comm (a := op)]

theorem built_flag (hL : E.maps.Laws) {m : SourceMapJson} {u : Option String} {c₀ c : BasicConsumer E}
    (h : Built m u c₀) {ops : List Op} (hrun : c₀.run ops = .ok c) :
    c.computedColumnSpans = true ↔ Op.spans ∈ ops := by
  have h0 : c₀.computedColumnSpans = false := by
    rcases h with ⟨raw, _, h⟩ | h
    · simp only [BasicConsumer.new, Res.bind_eq_ok] at h
      obtain ⟨_, _, h⟩ := h
      obtain ⟨_, _, _, _, hf, _⟩ := build_ok h
      exact hf.spans
    · obtain ⟨_, _, _, _, hf, _⟩ := build_ok h
      exact hf.spans
  rw [run_flag hL h.rel hrun, h0]
  simp

/-- C69: once `compute_column_spans` has been called, everything `generated_position_for` finds has a last column. -/
theorem C69_spans_reported (hL : E.maps.Laws) {m : SourceMapJson} {u : Option String} {c₀ c : BasicConsumer E}
    (h : Built m u c₀) {ops : List Op} (hrun : c₀.run ops = .ok c) (hsp : Op.spans ∈ ops) {s : String} {l k : Int}
    {b : Option Bias} {x : Mapping} {c' : BasicConsumer E}
    (hr : c.generatedPositionFor s l k b = .ok (some x, c')) : x.lastGeneratedColumn.isSome = true := by
  have hf := (built_flag hL h hrun).2 hsp
  obtain ⟨i, q, _, _, ⟨_, h3, _⟩ | ⟨i', line, M, M₀, y, M', _, _, _, _, _, h5, h6, _⟩⟩ :=
    generated_ok (h.rel.run hL hrun) hr
  · cases h3
  · cases y with
    | none => simp [reportGenerated] at h6
    | some y =>
      simp only [reportGenerated, Res.bind_eq_ok] at h6
      obtain ⟨o, _, h6⟩ := h6
      split at h6
      · simp only [Res.bind_eq_ok, Res.pure_eq, Except.ok.injEq, Option.some.injEq] at h6
        obtain ⟨_, _, _, _, rfl⟩ := h6
        cases hy : y.lastGeneratedColumn <;> simp [hf]
      · cases h6

/-- C69: the last column `generated_position_for` reports is the one of the library's answer; if that has none, -1 if
`compute_column_spans` has been called and none otherwise. -/
theorem C69_generated_last (hL : E.maps.Laws) {m : SourceMapJson} {u : Option String} {c₀ c : BasicConsumer E}
    (h : Built m u c₀) {ops : List Op} (hrun : c₀.run ops = .ok c)
    {s : String} {n : Nat} (hlen : c.getSources.length < 2147483648) (hs : c.Knows s n) {l k : Int}
    (hp : IsI32 l ∧ IsI32 k) {b : Option Bias} {x : Mapping} {c' : BasicConsumer E}
    (hr : c.generatedPositionFor s l k b = .ok (some x, c')) :
    ∃ M M' y, E.maps.generatedLocationFor M n (l - 1).toNat k.toNat (b.getD .glb) = .ok (some y, M') ∧
      c.ensureMappings = .ok M ∧
      (∀ e, y.lastGeneratedColumn = some e → x.lastGeneratedColumn = some (wrap32 e)) ∧
      (y.lastGeneratedColumn = none → Op.spans ∈ ops → x.lastGeneratedColumn = some (-1)) ∧
      (y.lastGeneratedColumn = none → Op.spans ∉ ops → x.lastGeneratedColumn = none) := by
  have hf := built_flag hL h hrun
  have hrel := h.rel.run hL hrun
  have hk := ((lookup_spec h (by rw [← hrel.getSources]; exact hlen) s).1 n).2 ⟨n, rfl, (hrel.knows s n).1 hs⟩
  simp only [generatedPositionFor, Res.bind_eq_ok] at hr
  obtain ⟨⟨i, c1⟩, hfi, hr⟩ := hr
  obtain ⟨h1, ⟨q, rfl⟩, h3⟩ := hrel.find_ok hfi
  rw [hk] at h1
  cases h1
  simp only [Res.bind_eq_ok, Res.pure_eq, Except.ok.injEq, Prod.mk.injEq] at hr
  obtain ⟨_, hu, M, hM, line, hl, ⟨y, M'⟩, hy, r', hr', rfl, rfl⟩ := hr
  have hpos := checkPosition_ok hu
  have hi : IsI32 (l - 1) := by have := hp.1; unfold IsI32 at *; omega
  rw [E.cfg.arith_ok hi] at hl
  cases hl
  have hnlt : n < c.getSources.length := by
    rcases hs with ⟨_, _, hf⟩ | ⟨_, _, _, _, _, hf⟩
    · exact (List.getElem?_eq_some_iff.mp hf.1).1
    · exact (List.getElem?_eq_some_iff.mp hf.1).1
  have hq0 : asU32 (n : Int) = n := by unfold asU32; omega
  rw [hq0, asU32_i32 (by omega) hi, asU32_i32 hpos.2 hp.2] at hy
  cases y with
  | none => simp [reportGenerated] at hr'
  | some y =>
    simp only [reportGenerated, Res.bind_eq_ok] at hr'
    obtain ⟨o, _, hr'⟩ := hr'
    split at hr'
    · simp only [Res.bind_eq_ok, Res.pure_eq, Except.ok.injEq, Option.some.injEq] at hr'
      obtain ⟨_, _, _, _, rfl⟩ := hr'
      refine ⟨M, M', y, hy, hM, ?_, ?_, ?_⟩
      · intro e he; simp [he]
      · intro he hsp; simp [he, hf.2 hsp]
      · intro he hsp
        have : c.computedColumnSpans = false := by
          cases hc : c.computedColumnSpans
          · rfl
          · exact absurd (hf.1 hc) hsp
        simp [he, this]
    · cases hr'

/-- C69: the last column `original_position_for` reports is the one of the library's answer, or none; never -1 put in
its place. -/
theorem C69_original_last {c c' : BasicConsumer E} {p : Position} {b : Option Bias} {x : Mapping}
    (hp : IsI32 p.line ∧ IsI32 p.column) (hr : c.originalPositionFor p b = .ok (some x, c')) :
    ∃ M M' y, c.ensureMappings = .ok M ∧
      E.maps.originalLocationFor M (p.line - 1).toNat p.column.toNat (b.getD .glb) = .ok (some y, M') ∧
      (∀ e, y.lastGeneratedColumn = some e → x.lastGeneratedColumn = some (wrap32 e)) ∧
      (y.lastGeneratedColumn = none → x.lastGeneratedColumn = none) := by
  simp only [originalPositionFor, Res.bind_eq_ok, Res.pure_eq, Except.ok.injEq, Prod.mk.injEq] at hr
  obtain ⟨_, hu, M, hM, line, hl, ⟨y, M'⟩, hy, r', hr', rfl, rfl⟩ := hr
  have hpos := checkPosition_ok hu
  have hi : IsI32 (p.line - 1) := by have := hp.1; unfold IsI32 at *; omega
  rw [E.cfg.arith_ok hi] at hl
  cases hl
  rw [asU32_i32 (by omega) hi, asU32_i32 hpos.2 hp.2] at hy
  cases y with
  | none => simp [reportOriginal] at hr'
  | some y =>
    simp only [reportOriginal] at hr'
    split at hr'
    · split at hr'
      · cases hr'
      · simp only [Res.bind_eq_ok, Res.pure_eq, Except.ok.injEq, Option.some.injEq] at hr'
        obtain ⟨_, _, _, _, _, _, rfl⟩ := hr'
        refine ⟨M, M', y, hM, hy, ?_, ?_⟩
        · intro e he; simp [he]
        · intro he; simp [he]
    · cases hr'

/-- The segment at column 18 ends before the next one, at 21; the one at column 28 is the last of its line; without
`compute_column_spans` there are no last columns. -/
example :
    demoAsk demoMap (fun c => do let c ← c.run [.spans]; c.generatedPositionFor "two.js" 1 21 none) =
      .ok (some ⟨⟨2, 18⟩, some ⟨0, 21⟩, some "two.js", some "baz", some 21⟩) ∧
    demoAsk demoMap (fun c => do let c ← c.run [.spans]; c.generatedPositionFor "two.js" 2 10 none) =
      .ok (some ⟨⟨2, 28⟩, some ⟨1, 10⟩, some "two.js", some "baz", some (-1)⟩) ∧
    demoAsk demoMap (fun c => c.generatedPositionFor "two.js" 2 10 none) =
      .ok (some ⟨⟨2, 28⟩, some ⟨1, 10⟩, some "two.js", some "baz", none⟩) :=
  ⟨by decide +kernel, by decide +kernel, by decide +kernel⟩

example :
    demoAsk demoMap (fun c => do let c ← c.run [.spans]; c.originalPositionFor ⟨1, 40⟩ (some .lub)) =
      .ok (some ⟨⟨2, 1⟩, some ⟨1, 1⟩, some "two.js", none, some 5⟩) := by decide +kernel

/-! ## C34: when `generated_position_for` returns -/

/-- What `generated_position_for` does with a source that is known. -/
theorem generated_run (hL : E.maps.Laws) (hT : E.maps.Total) {m : SourceMapJson} {u : Option String}
    {c₀ c : BasicConsumer E} (h : Built m u c₀) {ops : List Op} (hrun : c₀.run ops = .ok c)
    {raws : List Spec.RawMapping} (hseg : m.Segments raws) (hlen : c.getSources.length < 2147483648)
    {s : String} {n : Nat} (hs : c.Knows s n) {l k : Int} (hp : IsI32 l ∧ IsI32 k) (hl : 1 ≤ l) (hk : 0 ≤ k)
    (b : Option Bias) :
    ∃ (x : Option LibMapping) (c' : BasicConsumer E),
      Nearest Spec.RawMapping.origPos (raws.filter (·.fromSource n)) ((l - 1).toNat, k.toNat)
        (b.getD .glb) (x.map LibMapping.raw) ∧
      c.generatedPositionFor s l k b = (c.reportGenerated n x).map (·, c') := by
  have hrel := h.rel.run hL hrun
  have hlk := ((lookup_spec h (by rw [← hrel.getSources]; exact hlen) s).1 n).2 ⟨n, rfl, (hrel.knows s n).1 hs⟩
  have hmap : c₀.sourceMap = m := by obtain ⟨_, _, _, _, _, _, hm, _⟩ := h.spec; exact hm
  obtain ⟨M₁, hM₁, hperm⟩ := parsed_segments hL (c := c₀) (raws := raws) (by rw [hmap]; exact hseg)
  rcases hrel.find s with ⟨e, he, _⟩ | ⟨r, q, h1, h2, h3⟩
  · rw [hlk] at he; cases he
  rw [hlk] at h1
  cases h1
  rcases h3.ensure with ⟨e, he, _⟩ | ⟨M, M₀, h4, h5, h6⟩
  · rw [hM₁] at he; cases he
  rw [hM₁] at h4
  cases h4
  have hi : IsI32 (l - 1) := by have := hp.1; unfold IsI32 at *; omega
  have hnlt : n < c.getSources.length := by
    rcases hs with ⟨_, _, hf⟩ | ⟨_, _, _, _, _, hf⟩
    · exact (List.getElem?_eq_some_iff.mp hf.1).1
    · exact (List.getElem?_eq_some_iff.mp hf.1).1
  have hq0 : asU32 (n : Int) = n := by unfold asU32; omega
  obtain ⟨⟨x, M'⟩, hx⟩ := hT.gen M n (l - 1).toNat k.toNat (b.getD .glb)
  refine ⟨x, { c with cache := q, mappings := some M' }, ?_, ?_⟩
  · refine Nearest.congr ?_ (hL.gen _ _ _ _ _ _ _ hx)
    intro y
    simp only [List.mem_filter, h6, hperm.mem_iff]
  · have hc : checkPosition l k = .ok () := by
      simp only [checkPosition]
      rw [if_neg (by omega), if_neg (by omega)]
    simp only [generatedPositionFor, h2, Res.ok_bind, hc, h5, E.cfg.arith_ok hi, hq0,
      asU32_i32 (show 0 ≤ l - 1 by omega) hi, asU32_i32 hk hp.2, hx]
    have : BasicConsumer.reportGenerated { c with cache := q } (n : Int) x = c.reportGenerated n x := by
      cases x <;> rfl
    rw [this]
    cases c.reportGenerated n x <;> rfl

theorem near_source {n : Nat} {raws : List Spec.RawMapping} {q : Nat × Nat} {b : Bias} {x : LibMapping}
    (hn : Nearest Spec.RawMapping.origPos (raws.filter (·.fromSource n)) q b ((some x).map LibMapping.raw)) :
    x.raw ∈ raws ∧ ∃ o, x.original = some o ∧ o.source = n := by
  simp only [Option.map_some, Nearest] at hn
  have hmem := List.mem_filter.mp hn.1
  refine ⟨hmem.1, ?_⟩
  have := hmem.2
  simp only [Spec.RawMapping.fromSource, LibMapping.raw] at this
  cases ho : x.original with
  | none => rw [ho] at this; simp at this
  | some o => rw [ho] at this; exact ⟨o, rfl, by simpa using this⟩

/-- C34, that it returns (`_partial`): if `names` has an entry at the index of the source and the lines stay below
2³² - 1. Missing: see `C34_too_few_names_refuted`. -/
theorem C34_returns_partial (hL : E.maps.Laws) (hT : E.maps.Total) {m : SourceMapJson} {u : Option String}
    {c₀ c : BasicConsumer E} (h : Built m u c₀) {ops : List Op} (hrun : c₀.run ops = .ok c)
    {raws : List Spec.RawMapping} (hseg : m.Segments raws) (hlen : c.getSources.length < 2147483648)
    {s : String} {n : Nat} (hs : c.Knows s n) {l k : Int} (hp : IsI32 l ∧ IsI32 k) (hl : 1 ≤ l) (hk : 0 ≤ k)
    (b : Option Bias) {names : List String} (hnames : m.names = some names) (hn : n < names.length)
    (hlines : ∀ r ∈ raws, r.line < 4294967295) :
    ∃ r c', c.generatedPositionFor s l k b = .ok (r, c') := by
  obtain ⟨x, c', h1, h2⟩ := generated_run hL hT h hrun hseg hlen hs hp hl hk b
  have hmap : c.sourceMap = m := by
    obtain ⟨_, _, _, _, _, _, hm, _⟩ := h.spec; exact (h.rel.run hL hrun).map.trans hm
  rw [h2]
  cases x with
  | none => exact ⟨none, c', rfl⟩
  | some x =>
    obtain ⟨hmem, o, ho, hon⟩ := near_source h1
    have hx := hlines _ hmem
    simp only [LibMapping.raw] at hx
    simp only [reportGenerated, ho, unwrap, Res.ok_bind]
    split
    · have : E.cfg.succU32 x.generatedLine = .ok (x.generatedLine + 1) := by
        unfold Cfg.succU32
        simp [show x.generatedLine + 1 < 4294967296 by omega]
      simp only [this, Res.ok_bind, nameAt, hmap, hnames, unwrap, index, hon, List.getElem?_eq_getElem hn]
      exact ⟨_, _, rfl⟩
    · exact ⟨_, _, rfl⟩

/-- C34 is false of the code: with no `names` entry at the index of the source, a lookup that finds anything panics,
whether or not the mapping has a name. -/
theorem C34_too_few_names_refuted (hL : E.maps.Laws) (hT : E.maps.Total) {m : SourceMapJson} {u : Option String}
    {c₀ c : BasicConsumer E} (h : Built m u c₀) {ops : List Op} (hrun : c₀.run ops = .ok c)
    {raws : List Spec.RawMapping} (hseg : m.Segments raws) (hlen : c.getSources.length < 2147483648)
    {s : String} {n : Nat} (hs : c.Knows s n) {l k : Int} (hp : IsI32 l ∧ IsI32 k) (hl : 1 ≤ l) (hk : 0 ≤ k)
    (b : Option Bias) (hnames : ∀ names, m.names = some names → names.length ≤ n)
    (hfind : ¬ Nearest Spec.RawMapping.origPos (raws.filter (·.fromSource n)) ((l - 1).toNat, k.toNat)
      (b.getD .glb) none) :
    ∃ e, c.generatedPositionFor s l k b = .error e := by
  obtain ⟨x, c', h1, h2⟩ := generated_run hL hT h hrun hseg hlen hs hp hl hk b
  have hmap : c.sourceMap = m := by
    obtain ⟨_, _, _, _, _, _, hm, _⟩ := h.spec; exact (h.rel.run hL hrun).map.trans hm
  have hnlt : n < c.getSources.length := by
    rcases hs with ⟨_, _, hf⟩ | ⟨_, _, _, _, _, hf⟩
    · exact (List.getElem?_eq_some_iff.mp hf.1).1
    · exact (List.getElem?_eq_some_iff.mp hf.1).1
  rw [h2]
  cases x with
  | none => exact absurd h1 hfind
  | some x =>
    obtain ⟨hmem, o, ho, hon⟩ := near_source h1
    have hif : wrap32 (o.source : Int) = n := by
      rw [hon]; exact wrap32_of_isI32 (by unfold IsI32; omega)
    simp only [reportGenerated, ho, unwrap, Res.ok_bind]
    rw [if_pos hif]
    cases E.cfg.succU32 x.generatedLine with
    | error e => exact ⟨e, rfl⟩
    | ok g =>
      simp only [Res.ok_bind, nameAt, hmap]
      cases hm : m.names with
      | none => exact ⟨_, rfl⟩
      | some names =>
        have := hnames names hm
        simp only [unwrap, Res.ok_bind, index, hon, List.getElem?_eq_none this]
        exact ⟨_, rfl⟩

/-- With one name only, the lookups of the second source panic, also those of mappings without name. -/
example :
    demoAsk { demoMap with names := some ["bar"] } (fun c => c.generatedPositionFor "two.js" 1 1 none) =
      .error .index ∧
    demoAsk { demoMap with names := some ["bar"] } (fun c => c.generatedPositionFor "one.js" 1 1 none) =
      .ok (some ⟨⟨1, 1⟩, some ⟨0, 1⟩, some "one.js", some "bar", none⟩) ∧
    demoAsk { demoMap with names := none } (fun c => c.generatedPositionFor "two.js" 1 1 none) =
      .error .unwrap :=
  ⟨by decide +kernel, by decide +kernel, by decide +kernel⟩

/-! ## C70 -/

/-- `Nearest` among segments is `Nearest` among what they denote, lines being counted from 1. -/
theorem Nearest.denoted {raws : List Spec.RawMapping} {ms : List Mapping} {l k : Int} (hl : 1 ≤ l) {b : Bias}
    {R : Spec.RawMapping → Mapping → Prop} (hR : ∀ r m, R r m → m.origPos = (r.origPos.1 + 1, r.origPos.2))
    (h2 : ∀ m ∈ ms, ∃ r ∈ raws, R r m) :
    (Nearest Spec.RawMapping.origPos raws ((l - 1).toNat, k.toNat) b none →
      Nearest Mapping.origPos ms (l.toNat, k.toNat) b none) ∧
    (∀ r, Nearest Spec.RawMapping.origPos raws ((l - 1).toNat, k.toNat) b (some r) →
      ∀ m ∈ ms, R r m → Nearest Mapping.origPos ms (l.toNat, k.toNat) b (some m)) := by
  have hne : ∀ r m, R r m → r.origPos ≠ ((l - 1).toNat, k.toNat) → m.origPos ≠ (l.toNat, k.toNat) := by
    intro r m h hn e
    rw [hR r m h] at e
    apply hn
    simp only [Prod.mk.injEq] at e
    ext
    · simp only; omega
    · exact e.2
  have heq : ∀ r m, R r m → r.origPos = ((l - 1).toNat, k.toNat) → m.origPos = (l.toNat, k.toNat) := by
    intro r m h e
    rw [hR r m h, e]
    show ((l - 1).toNat + 1, k.toNat) = (l.toNat, k.toNat)
    congr 1
    omega
  constructor
  · intro h m hm
    obtain ⟨r, hr, hrm⟩ := h2 m hm
    have h3 := h r hr
    refine ⟨hne r m hrm h3.1, ?_⟩
    have h4 := h3.2
    cases b <;> simp only [PLt, hR r m hrm] at h4 ⊢ <;> omega
  · intro r h m hm hrm
    simp only [Nearest] at h ⊢
    refine ⟨hm, ?_⟩
    rcases h.2 with e | ⟨h3, h4⟩
    · exact .inl (heq r m hrm e)
    · refine .inr ⟨?_, ?_⟩
      · intro m' hm'
        obtain ⟨r', hr', hrm'⟩ := h2 m' hm'
        exact hne r' m' hrm' (h3 r' hr')
      · cases b
        all_goals
          simp only at h4 ⊢
          refine ⟨?_, ?_⟩
          · have := h4.1
            simp only [PLt, hR r m hrm] at this ⊢
            omega
          · intro m' hm' hlt
            obtain ⟨r', hr', hrm'⟩ := h2 m' hm'
            have h5 := h4.2 r' hr'
            simp only [PLt, hR r m hrm, hR r' m' hrm'] at h5 hlt ⊢
            omega

theorem denotes_origPos {S N : List String} {r : Spec.RawMapping} {m : Mapping} (h : Denotes S N r m)
    (ho : r.original.isSome) : m.origPos = (r.origPos.1 + 1, r.origPos.2) := by
  obtain ⟨o, ho⟩ := Option.isSome_iff_exists.1 ho
  simp only [Denotes, ho] at h
  simp only [Mapping.origPos, h.2.1, Spec.RawMapping.origPos, ho, Prod.mk.injEq]
  omega

theorem denotes_source {S N : List String} (hnd : S.Nodup) {r : Spec.RawMapping} {m : Mapping} (h : Denotes S N r m)
    {n : Nat} {src : String} (hn : S[n]? = some src) : r.fromSource n = true ↔ m.source = some src := by
  obtain ⟨hn', hs⟩ := List.getElem?_eq_some_iff.1 hn
  simp only [Denotes] at h
  cases ho : r.original with
  | none =>
    rw [ho] at h
    simp [Spec.RawMapping.fromSource, ho, h.2.2.1]
  | some o =>
    rw [ho] at h
    obtain ⟨_, _, ⟨s, h1, h2⟩, _⟩ := h
    obtain ⟨h3, h4⟩ := List.getElem?_eq_some_iff.1 h1
    simp only [Spec.RawMapping.fromSource, ho, beq_iff_eq, h2, Option.some.injEq]
    constructor
    · rintro rfl
      rw [← h4, ← hs]
    · intro e
      exact (hnd.getElem_inj_iff).1 (by rw [h4, hs, e])

/-- The segments of a source and the added mappings of that source denote each other. -/
theorem denoted_source {S N : List String} (hnd : S.Nodup) {raws : List Spec.RawMapping} {ms : List Mapping}
    (h1 : ∀ r ∈ raws, ∃ m ∈ ms, Denotes S N r m) (h2 : ∀ m ∈ ms, ∃ r ∈ raws, Denotes S N r m)
    {n : Nat} {src : String} (hn : S[n]? = some src) :
    (∀ r ∈ raws.filter (·.fromSource n), ∃ m ∈ ms.filter (·.source = some src),
      Denotes S N r m ∧ r.original.isSome) ∧
    (∀ m ∈ ms.filter (·.source = some src), ∃ r ∈ raws.filter (·.fromSource n),
      Denotes S N r m ∧ r.original.isSome) := by
  have hsome : ∀ r : Spec.RawMapping, r.fromSource n = true → r.original.isSome := by
    intro r h
    unfold Spec.RawMapping.fromSource at h
    split at h
    · next e => simp [e]
    · cases h
  constructor
  · intro r hr
    obtain ⟨hr, hf⟩ := List.mem_filter.1 hr
    obtain ⟨m, hm, hd⟩ := h1 r hr
    exact ⟨m, List.mem_filter.2 ⟨hm, by simpa using (denotes_source hnd hd hn).1 hf⟩, hd, hsome r hf⟩
  · intro m hm
    obtain ⟨hm, hf⟩ := List.mem_filter.1 hm
    obtain ⟨r, hr, hd⟩ := h2 m hm
    have hf := (denotes_source hnd hd hn).2 (by simpa using hf)
    exact ⟨r, List.mem_filter.2 ⟨hr, hf⟩, hd, hsome r hf⟩

section
variable (hJ : E.json.Laws) (hL : E.maps.Laws) (file root : Option String) (skip : Bool)
    (gops : List GOp) (g g' : Generator) (henc : ∀ m ∈ gAdded gops, m.Encodable E.cfg)
    (hS : (firstOccurrences ((gAdded gops).filterMap Mapping.source)).length < E.cfg.vlqLimit)
    (hN : (firstOccurrences ((gAdded gops).filterMap Mapping.name)).length < E.cfg.vlqLimit)
    (hg : (Generator.new file root skip).run E.url E.cfg gops = .ok g) {u : Option String}
    {c₀ c : BasicConsumer E} (hc : BasicConsumer.fromSourceMap g u = .ok (c₀, g')) {ops : List Op}
    (hrun : c₀.run ops = .ok c)
include hJ hL henc hS hN hg hc hrun

/-- C70: what `generated_position_for` of a consumer made from a generator returns, asked about the source `src` of
added mappings: the generated position of the nearest added mapping of that source, on the side asked for, or `None`
if there is none. -/
theorem C70_nearest_added {s src : String} {n : Nat} (hs : c.Knows s n)
    (hn : (firstOccurrences ((gAdded gops).filterMap Mapping.source))[n]? = some src) {l k : Int}
    (hp : IsI32 l ∧ IsI32 k) {b : Option Bias} {r : Option Mapping} {c' : BasicConsumer E}
    (hr : c.generatedPositionFor s l k b = .ok (r, c')) :
    (r = none → Nearest Mapping.origPos ((gAdded gops).filter (·.source = some src)) (l.toNat, k.toNat)
      (b.getD .glb) none) ∧
    (∀ x, r = some x → ∃ m, Nearest Mapping.origPos ((gAdded gops).filter (·.source = some src))
        (l.toNat, k.toNat) (b.getD .glb) (some m) ∧
      x.generated = m.generated ∧ x.source = c.getSources[n]?) := by
  have hlim := E.cfg.vlqLimit_le
  obtain ⟨j, raws, hb, hseg, hroot, hsrcs, _, hsound, hcomplete, _⟩ :=
    generator_built hJ file root skip gops g g' henc hS hN hg hc
  obtain ⟨srcs, s1, s2, _⟩ := C28_sources hb
  rw [hsrcs] at s1
  cases s1
  have hlen : c.getSources.length < 2147483648 := by rw [C28_sources_stable hL hb hrun]; omega
  obtain ⟨hl, -⟩ := generated_report (hL := hL) hb hrun hseg hlen hs hp hr
  obtain ⟨h1, h2⟩ := C33_generated_position hL hb hrun hseg hlen hs hp hr
  obtain ⟨d1, d2⟩ := denoted_source (nodup_firstOccurrences _) hsound hcomplete hn
  obtain ⟨t1, t2⟩ := Nearest.denoted (k := k) hl (b := b.getD .glb) (fun r m h => denotes_origPos h.1 h.2) d2
  refine ⟨fun h => t1 (h1 h), ?_⟩
  intro x hx
  obtain ⟨seg, o, h3, h4, h5, h6, h7, _, h9⟩ := h2 x hx
  obtain ⟨m, hm, hd⟩ := d1 seg (by simp only [Nearest] at h3; exact h3.1)
  refine ⟨m, t2 seg h3 m hm hd, ?_, h9⟩
  have hm' := henc m (List.mem_filter.1 hm).1
  have e := hd.1.1
  have h10 := hm'.line
  have h11 := hm'.column
  rw [h7, e]
  rw [e] at h10 h11
  simp only at h10 h11
  rw [wrap32_of_isI32 (by unfold IsI32; omega), wrap32_of_isI32 (by unfold IsI32; omega)]

/-- C70, that it returns (`_partial`): if there are more names than sources before the one asked about. -/
theorem C70_returns_partial (hT : E.maps.Total) {s : String} {n : Nat} (hs : c.Knows s n)
    (hn : n < (firstOccurrences ((gAdded gops).filterMap Mapping.name)).length) {l k : Int}
    (hp : IsI32 l ∧ IsI32 k) (hl : 1 ≤ l) (hk : 0 ≤ k) (b : Option Bias) :
    ∃ r c', c.generatedPositionFor s l k b = .ok (r, c') := by
  have hlim := E.cfg.vlqLimit_le
  obtain ⟨j, raws, hb, hseg, hroot, hsrcs, hnames, hsound, hcomplete, _⟩ :=
    generator_built hJ file root skip gops g g' henc hS hN hg hc
  obtain ⟨srcs, s1, s2, _⟩ := C28_sources hb
  rw [hsrcs] at s1
  cases s1
  have hlen : c.getSources.length < 2147483648 := by rw [C28_sources_stable hL hb hrun]; omega
  refine C34_returns_partial hL hT hb hrun hseg hlen hs hp hl hk b hnames hn ?_
  intro r hr
  obtain ⟨m, hm, hd⟩ := hsound r hr
  have h10 := (henc m hm).line
  rw [hd.1] at h10
  simp only at h10
  omega

/-- C70 is false of the code when there are not: asked about the original position of an added mapping, the call
panics. So it does for every mapping if no mapping has a name. -/
theorem C70_few_names_refuted (hT : E.maps.Total) {s src : String} {n : Nat} (hs : c.Knows s n)
    (hn : (firstOccurrences ((gAdded gops).filterMap Mapping.source))[n]? = some src)
    (hfew : (firstOccurrences ((gAdded gops).filterMap Mapping.name)).length ≤ n)
    {m : Mapping} (hm : m ∈ gAdded gops) (hsrc : m.source = some src) {p : Position} (ho : m.original = some p)
    (b : Option Bias) : ∃ e, c.generatedPositionFor s p.line p.column b = .error e := by
  have hlim := E.cfg.vlqLimit_le
  obtain ⟨j, raws, hb, hseg, hroot, hsrcs, hnames, hsound, hcomplete, _⟩ :=
    generator_built hJ file root skip gops g g' henc hS hN hg hc
  obtain ⟨srcs, s1, s2, _⟩ := C28_sources hb
  rw [hsrcs] at s1
  cases s1
  have hlen : c.getSources.length < 2147483648 := by rw [C28_sources_stable hL hb hrun]; omega
  obtain ⟨p1, p2, p2b, p3, p4⟩ := (henc m hm).range p ho
  refine C34_too_few_names_refuted hL hT hb hrun hseg hlen hs ⟨by unfold IsI32; omega, by unfold IsI32; omega⟩ p1 p3 b
    ?_ ?_
  · intro names h
    rw [hnames] at h
    cases h
    exact hfew
  · intro h
    obtain ⟨d1, d2⟩ := denoted_source (nodup_firstOccurrences _) hsound hcomplete hn
    obtain ⟨t1, -⟩ := Nearest.denoted (k := p.column) p1 (b := b.getD .glb) (fun r m h => denotes_origPos h.1 h.2) d2
    exact (t1 h m (List.mem_filter.2 ⟨hm, by simpa using hsrc⟩)).1 (by simp [Mapping.origPos, ho])

end

/-- C70 in full for plain sources (`_partial`): without source root and map URL, if there are at least as many names
as sources, the original position of every added mapping is found: the answer has that source, and the generated
position of an added mapping with that source and original position; so it is the mapping itself if no other one
shares them. Missing: fewer names than sources, where the call panics (`C70_few_names_refuted`). -/
theorem C70_found_partial (hJ : E.json.Laws) (hU : E.url.Laws) (hL : E.maps.Laws) (hT : E.maps.Total)
    (file : Option String) (skip : Bool) (gops : List GOp) (henc : ∀ m ∈ gAdded gops, m.Encodable E.cfg)
    (hS : (firstOccurrences ((gAdded gops).filterMap Mapping.source)).length < E.cfg.vlqLimit)
    (hN : (firstOccurrences ((gAdded gops).filterMap Mapping.name)).length < E.cfg.vlqLimit)
    (hplain : ∀ m ∈ gAdded gops, ∀ s, m.source = some s → PlainUrl s.toList s.toList)
    (hnames : (firstOccurrences ((gAdded gops).filterMap Mapping.source)).length ≤
      (firstOccurrences ((gAdded gops).filterMap Mapping.name)).length) :
    ∃ (g g' : Generator) (c₀ : BasicConsumer E), (Generator.new file none skip).run E.url E.cfg gops = .ok g ∧
      BasicConsumer.fromSourceMap g none = .ok (c₀, g') ∧
      ∀ (ops : List Op) (c : BasicConsumer E), c₀.run ops = .ok c →
      ∀ m ∈ gAdded gops, ∀ s, m.source = some s → ∀ p, m.original = some p → ∀ b,
        ∃ x c' m', c.generatedPositionFor s p.line p.column b = .ok (some x, c') ∧ m' ∈ gAdded gops ∧
          m'.source = some s ∧ m'.original = some p ∧ x.generated = m'.generated ∧ x.source = some s ∧
          ((∀ m₁ ∈ gAdded gops, m₁.source = some s → m₁.original = some p → m₁ = m) →
            x.generated = m.generated) := by
  have hlim := E.cfg.vlqLimit_le
  obtain ⟨g, g', c₀, hg, hc, hsame⟩ := C59_returns (E := E) hJ hU file skip gops henc hS hN
    (fun m hm s hs => ⟨_, hplain m hm s hs⟩)
  refine ⟨g, g', c₀, hg, hc, ?_⟩
  intro ops c hrun m hm s hs p ho b
  obtain ⟨j, raws, hb, hseg, hroot, hsrcs, _, hsound, hcomplete, _⟩ :=
    generator_built hJ file none skip gops g g' henc hS hN hg hc
  have hgs : c.getSources = firstOccurrences ((gAdded gops).filterMap Mapping.source) := by
    rw [C28_sources_stable hL hb hrun, hsame hplain]
  have hmem : s ∈ firstOccurrences ((gAdded gops).filterMap Mapping.source) :=
    (mem_firstOccurrences _ s).2 (List.mem_filterMap.2 ⟨m, hm, hs⟩)
  obtain ⟨i, hi⟩ := List.mem_iff_getElem?.1 hmem
  obtain ⟨n, hn, hf⟩ := exists_first hi
  have hk : c.Knows s n := by
    refine .inl ⟨s, ?_, by rw [hgs]; exact hf⟩
    rw [stored_none hb hL hrun]
    have := sourceUrl_plain (E := E) ((hplain m hm s hs).normalize hU)
    rwa [String.ofList_toList] at this
  have hnlt := (List.getElem?_eq_some_iff.1 hf.1).1
  obtain ⟨p1, p2, p2b, p3, p4⟩ := (henc m hm).range p ho
  have hp : IsI32 p.line ∧ IsI32 p.column := ⟨by unfold IsI32; omega, by unfold IsI32; omega⟩
  obtain ⟨r, c', hr⟩ := C70_returns_partial hJ hL file none skip gops g g' henc hS hN hg hc hrun hT hk
    (by omega) hp p1 p3 b
  obtain ⟨h1, h2⟩ := C70_nearest_added hJ hL file none skip gops g g' henc hS hN hg hc hrun hk hf.1 hp hr
  have hmf : m ∈ (gAdded gops).filter (·.source = some s) := List.mem_filter.2 ⟨hm, by simpa using hs⟩
  have hmo : m.origPos = (p.line.toNat, p.column.toNat) := by simp [Mapping.origPos, ho]
  cases r with
  | none => exact absurd hmo (h1 rfl m hmf).1
  | some x =>
    obtain ⟨m', h3, h4, h5⟩ := h2 x rfl
    simp only [Nearest] at h3
    obtain ⟨h6, h7⟩ := h3
    obtain ⟨h6, h8⟩ := List.mem_filter.1 h6
    have h8 : m'.source = some s := by simpa using h8
    have h9 : m'.original = some p := by
      rcases h7 with h7 | ⟨h7, _⟩
      · have h10 := (henc m' h6).orig
        rw [h8] at h10
        obtain ⟨q, hq⟩ := Option.isSome_iff_exists.1 (by simpa using h10)
        obtain ⟨q1, q2, q3, q4⟩ := (henc m' h6).range q hq
        simp only [Mapping.origPos, hq, Prod.mk.injEq] at h7
        rw [hq]
        congr 1
        rcases p with ⟨pl, pc⟩
        rcases q with ⟨ql, qc⟩
        simp only at *
        congr 1 <;> omega
      · exact absurd hmo (h7 m hmf)
    refine ⟨x, c', m', hr, h6, h8, h9, h4, ?_, ?_⟩
    · rw [h5, hgs]; exact hf.1
    · intro huniq
      rw [h4, huniq m' h6 h8 h9]

/-- Two sources, two names: every mapping is found again. -/
def revOps : List GOp :=
  [.add { generated := ⟨1, 5⟩, original := some ⟨3, 1⟩, source := some "b.js", name := some "foo" },
   .add { generated := ⟨4, 0⟩, original := some ⟨1, 0⟩, source := some "a.js" },
   .add { generated := ⟨4, 7⟩, original := some ⟨2, 0⟩, source := some "a.js", name := some "bar" }, .add gxQ]

theorem revOps_enc {cfg : Cfg} : ∀ m ∈ gAdded revOps, m.Encodable cfg := by
  intro m hm
  simp only [gAdded, revOps, List.mem_cons, List.not_mem_nil, or_false] at hm
  rcases hm with rfl | rfl | rfl | rfl
  · exact .small (by decide) (by decide) rfl (by intro p hp; cases hp; decide) (by intro h; cases h)
  · exact .small (by decide) (by decide) rfl (by intro p hp; cases hp; decide) (by intro h; cases h)
  · exact .small (by decide) (by decide) rfl (by intro p hp; cases hp; decide) (by intro h; cases h)
  · exact gxQ_enc

theorem revOps_plain : ∀ m ∈ gAdded revOps, ∀ s, m.source = some s → PlainUrl s.toList s.toList := by
  intro m hm s hs
  simp only [gAdded, revOps, List.mem_cons, List.not_mem_nil, or_false] at hm
  have ha : PlainUrl "a.js".toList "a.js".toList :=
    PlainUrl.ref ⟨[], "a.js".toList⟩ ⟨by simp, by decide⟩ (by decide)
  have hb : PlainUrl "b.js".toList "b.js".toList :=
    PlainUrl.ref ⟨[], "b.js".toList⟩ ⟨by simp, by decide⟩ (by decide)
  rcases hm with rfl | rfl | rfl | rfl <;> cases hs
  · exact hb
  · exact ha
  · exact ha

example : ∃ (g g' : Generator) (c : BasicConsumer demoEnv) (x : Mapping) (c' : BasicConsumer demoEnv),
    (Generator.new (some "min.js") none false).run demoEnv.url demoEnv.cfg revOps = .ok g ∧
    BasicConsumer.fromSourceMap g none = .ok (c, g') ∧
    c.generatedPositionFor "a.js" 2 0 none = .ok (some x, c') ∧ x.generated = ⟨4, 7⟩ ∧ x.source = some "a.js" := by
  obtain ⟨hS, hN⟩ := tables_small (ops := revOps) (by decide)
  obtain ⟨g, g', c, h1, h2, h3⟩ := C70_found_partial (E := demoEnv) demo_json demo_url demo_maps demo_total
    (some "min.js") false revOps revOps_enc hS hN revOps_plain (by decide)
  obtain ⟨x, c', m', h4, _, _, _, _, h8, h9⟩ := h3 [] c rfl
    { generated := ⟨4, 7⟩, original := some ⟨2, 0⟩, source := some "a.js", name := some "bar" } (by decide)
    "a.js" rfl ⟨2, 0⟩ rfl none
  exact ⟨g, g', c, x, c', h1, h2, h4, h9 (by decide), h8⟩

/-- Two sources, one name: the mapping of the second source is not found again, the call panics. -/
example : ∃ (g g' : Generator) (c : BasicConsumer demoEnv) (e : Panic),
    (Generator.new (some "min.js") none false).run demoEnv.url demoEnv.cfg gxOps = .ok g ∧
    BasicConsumer.fromSourceMap g none = .ok (c, g') ∧ gxR.source = some "a.js" ∧ gxR.original = some ⟨1, 0⟩ ∧
    c.generatedPositionFor "a.js" 1 0 none = .error e := by
  have ha : PlainUrl "a.js".toList "a.js".toList :=
    PlainUrl.ref ⟨[], "a.js".toList⟩ ⟨by simp, by decide⟩ (by decide)
  have hp : ∀ m ∈ gAdded gxOps, ∀ s, m.source = some s → PlainUrl s.toList s.toList := by
    intro m hm s hs
    simp only [gAdded, gxOps, List.mem_cons, List.not_mem_nil, or_false] at hm
    have hb : PlainUrl "b.js".toList "b.js".toList :=
      PlainUrl.ref ⟨[], "b.js".toList⟩ ⟨by simp, by decide⟩ (by decide)
    rcases hm with rfl | rfl | rfl | rfl <;> cases hs
    · exact hb
    · exact hb
    · exact ha
  obtain ⟨hS, hN⟩ := tables_small (ops := gxOps) (by decide)
  obtain ⟨g, g', c, h1, h2, h3⟩ := C59_returns (E := demoEnv) demo_json demo_url (some "min.js") false gxOps
    gxOps_enc hS hN (fun m hm s hs => ⟨_, hp m hm s hs⟩)
  have hgs : c.getSources = ["b.js", "a.js"] := (h3 hp).trans (by decide)
  obtain ⟨j, raws, hb, _⟩ := generator_built demo_json (some "min.js") none false gxOps g g' gxOps_enc hS hN h1 h2
  have hk : c.Knows "a.js" 1 := by
    refine .inl ⟨"a.js", ?_, ?_⟩
    · rw [stored_none hb demo_maps (ops := []) (c := c) rfl]
      have := sourceUrl_plain (E := demoEnv) (ha.normalize demo_url)
      rwa [String.ofList_toList] at this
    · rw [hgs]
      refine ⟨rfl, fun j hj => ?_⟩
      obtain rfl : j = 0 := by omega
      decide
  obtain ⟨e, he⟩ := C70_few_names_refuted demo_json demo_maps (some "min.js") none false gxOps g g' gxOps_enc hS hN
    h1 h2 (ops := []) rfl demo_total hk (src := "a.js") (by decide) (by decide) (m := gxR) (by decide) rfl rfl none
  exact ⟨g, g', c, e, h1, h2, rfl, rfl, he⟩

end RSM
