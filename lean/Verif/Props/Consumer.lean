import Verif.Lemmas.Consumer
import Verif.Spec.Consumer
import Verif.Props.ArraySet
import Verif.Dep.Demo
/-! # Properties C28-C39: `BasicConsumer`

All theorems hold for every URL and JSON library and for every mappings library satisfying the
contract, and for consumers after any history of calls that returned.
-/

namespace RSM

variable {E : Env}

namespace BasicConsumer

theorem Built.spec {m : SourceMapJson} {u : Option String} {c : BasicConsumer E} (h : Built m u c) :
    ∃ st srcs urls, m.sources = some srcs ∧
      srcs.mapM (fun s => sourceUrl E m.sourceRoot s u) = .ok urls ∧ c.Fresh ∧
      c.sourceMap = m ∧ c.absoluteSources = ArraySet.fromArray urls true ∧ c.sourceMapUrl = st := by
  rcases h with ⟨raw, hr, h⟩ | h
  · simp only [new, hr, unwrap, Res.ok_bind] at h
    obtain ⟨a, b, h⟩ := build_ok h
    exact ⟨_, a, b, h⟩
  · obtain ⟨a, b, h⟩ := build_ok h
    exact ⟨_, a, b, h⟩

theorem Built.rel {m : SourceMapJson} {u : Option String} {c : BasicConsumer E} (h : Built m u c) :
    Rel c c := by
  obtain ⟨_, _, _, _, _, hf, _⟩ := h.spec
  exact hf.rel

theorem Rel.getSources {c₀ c : BasicConsumer E} (h : Rel c₀ c) : c.getSources = c₀.getSources := by
  simp only [BasicConsumer.getSources, h.abs]

theorem indexOf_first (l : List String) (t : String) (i : Nat) :
    (ArraySet.fromArray l true).indexOf t = some i ↔ IsFirst l t i := by
  have h := (C06_arrayset_refines (l.map fun s => (s, true)) t).2.1 i
  have hrun : ArraySet.new.run (l.map fun s => (s, true)) = ArraySet.fromArray l true := by
    simp [ArraySet.run, ArraySet.fromArray, List.foldl_map]
  rw [hrun, C07_arrayset_duplicates] at h
  exact h

theorem indexOf_none (l : List String) (t : String) :
    (ArraySet.fromArray l true).indexOf t = none ↔ t ∉ l := by
  have h := (C06_arrayset_refines (l.map fun s => (s, true)) t).2.2
  have hrun : ArraySet.new.run (l.map fun s => (s, true)) = ArraySet.fromArray l true := by
    simp [ArraySet.run, ArraySet.fromArray, List.foldl_map]
  rw [hrun] at h
  simpa using h

/-- The uncached lookup does what the specification says. -/
theorem lookup_spec {m : SourceMapJson} {u : Option String} {c : BasicConsumer E} (h : Built m u c)
    (hlen : c.getSources.length < 2147483648) (s : String) :
    (∀ i, c.lookupIndex s = .ok (some i) ↔ ∃ n : Nat, i = n ∧ c.Knows s n) ∧
    (c.lookupIndex s = .ok none ↔ c.Unknown s) := by
  obtain ⟨st, srcs, urls, _, _, _, _, habs, _⟩ := h.spec
  have hgs : c.getSources = urls := by
    simp only [BasicConsumer.getSources, habs, C07_arrayset_duplicates]
  have hw : ∀ (t : String) (n : Nat), IsFirst urls t n → wrap32 n = n := by
    intro t n hn
    have := (List.getElem?_eq_some_iff.mp hn.1).1
    rw [hgs] at hlen
    exact wrap32_of_isI32 (by unfold IsI32; omega)
  have huniq : ∀ t n n', IsFirst urls t n → IsFirst urls t n' → n = n' := by
    intro t n n' h1 h2
    rcases Nat.lt_trichotomy n n' with hl | hl | hl
    · exact absurd h1.1 (h2.2 n hl)
    · exact hl
    · exact absurd h2.1 (h1.2 n' hl)
  have hnm : ∀ t n, IsFirst urls t n → t ∈ urls := by
    intro t n h1
    exact List.mem_of_getElem? h1.1
  simp only [lookupIndex, Knows, Unknown, hgs, habs]
  cases hr : sourceUrl E none s c.sourceMapUrl with
  | error e => simp
  | ok t =>
    simp only [Res.ok_bind]
    cases hi : (ArraySet.fromArray urls true).indexOf t with
    | some n =>
      have hn := (indexOf_first _ _ _).1 hi
      have hmem := hnm t n hn
      simp only [hw t n hn]
      refine ⟨fun i => ⟨?_, ?_⟩, ?_, ?_⟩
      · intro h; cases h; exact ⟨n, rfl, .inl ⟨t, rfl, hn⟩⟩
      · rintro ⟨n', rfl, ⟨t', h1, h2⟩ | ⟨t', _, h1, h2, _⟩⟩
        · cases h1; rw [huniq t n n' hn h2]
        · cases h1; exact absurd hmem h2
      · intro h; simp at h
      · rintro ⟨t', _, h1, h2, _⟩
        cases h1; exact absurd hmem h2
    | none =>
      have hmem := (indexOf_none _ _).1 hi
      have hno : ∀ n, ¬ IsFirst urls t n := fun n hn => hmem (hnm t n hn)
      simp only []
      cases hr2 : sourceUrl E c.sourceMap.sourceRoot s c.sourceMapUrl with
      | error e =>
        refine ⟨fun i => ⟨fun h => by simp at h, ?_⟩, fun h => by simp at h, ?_⟩
        · rintro ⟨n', rfl, ⟨t', h1, h2⟩ | ⟨t', _, h1, h2, h3, _⟩⟩
          · cases h1; exact absurd h2 (hno _)
          · cases h3
        · rintro ⟨t', _, h1, h2, h3, _⟩
          cases h3
      | ok t' =>
        simp only [Res.ok_bind]
        cases hi2 : (ArraySet.fromArray urls true).indexOf t' with
        | some n =>
          have hn := (indexOf_first _ _ _).1 hi2
          have hmem' := hnm t' n hn
          simp only [hw t' n hn]
          refine ⟨fun i => ⟨?_, ?_⟩, ?_, ?_⟩
          · intro h; cases h; exact ⟨n, rfl, .inr ⟨t, t', rfl, hmem, rfl, hn⟩⟩
          · rintro ⟨n', rfl, ⟨_, h1, h2⟩ | ⟨_, _, h1, h2, h3, h4⟩⟩
            · cases h1; exact absurd h2 (hno _)
            · cases h3; rw [huniq t' n n' hn h4]
          · intro h; simp at h
          · rintro ⟨_, _, h1, h2, h3, h4⟩
            cases h3; exact absurd hmem' h4
        | none =>
          have hmem' := (indexOf_none _ _).1 hi2
          have hno' : ∀ n, ¬ IsFirst urls t' n := fun n hn => hmem' (hnm t' n hn)
          refine ⟨fun i => ⟨fun h => by simp at h, ?_⟩, fun _ => ⟨t, t', rfl, hmem, rfl, hmem'⟩, fun _ => rfl⟩
          rintro ⟨n', rfl, ⟨_, h1, h2⟩ | ⟨_, _, h1, h2, h3, h4⟩⟩
          · cases h1; exact absurd h2 (hno _)
          · cases h3; exact absurd h4 (hno' _)

theorem Rel.knows {c₀ c : BasicConsumer E} (h : Rel c₀ c) (s : String) (i : Nat) :
    c.Knows s i ↔ c₀.Knows s i := by
  simp only [Knows, h.url, h.map, h.getSources]

theorem Rel.unknown {c₀ c : BasicConsumer E} (h : Rel c₀ c) (s : String) :
    c.Unknown s ↔ c₀.Unknown s := by
  simp only [Unknown, h.url, h.map, h.getSources]

theorem parsed_segments (hL : E.maps.Laws) {c : BasicConsumer E} {raws : List Spec.RawMapping}
    (h : c.sourceMap.Segments raws) : ∃ M₀, c.parsed = .ok M₀ ∧ (E.maps.core M₀).Perm raws := by
  obtain ⟨t, h1, h2, h3⟩ := h
  obtain ⟨M, h4, h5⟩ := hL.parse _ _ h2 h3
  exact ⟨M, by simp [BasicConsumer.parsed, h1, h4, unwrap], h5⟩

end BasicConsumer

open BasicConsumer

theorem Nearest.congr {α : Type} {pos : α → Nat × Nat} {l l' : List α} {q : Nat × Nat} {b : Bias}
    {r : Option α} (h : ∀ x, x ∈ l ↔ x ∈ l') (hn : Nearest pos l q b r) : Nearest pos l' q b r := by
  cases r <;> cases b <;> simp only [Nearest, h] at hn ⊢ <;> exact hn

/-! ## C28 -/

/-- What a computation that returns satisfies. -/
theorem Res.of_test {α : Type} {r : Res α} (f : α → Bool)
    (h : (match r with | .ok a => f a | .error _ => false) = true) : ∃ a, r = .ok a ∧ f a = true := by
  cases r with
  | error e => simp at h
  | ok a => exact ⟨a, rfl, h⟩

/-- A history with calls of every kind. -/
def demoOps : List Op :=
  [.generated "two.js" 1 11 none, .spans, .content "one.js" none, .original ⟨1, 3⟩ none, .all "one.js" 1 (some 3),
    .each .original]

/-- The segments of the demo map. -/
def demoRaws : List Spec.RawMapping :=
  [⟨0, 1, some ⟨0, 0, 1, none⟩⟩, ⟨0, 5, some ⟨0, 0, 5, none⟩⟩, ⟨0, 9, some ⟨0, 0, 11, none⟩⟩,
    ⟨0, 18, some ⟨0, 0, 21, some 0⟩⟩, ⟨0, 21, some ⟨0, 1, 3, none⟩⟩, ⟨0, 28, some ⟨0, 1, 10, some 1⟩⟩,
    ⟨0, 32, some ⟨0, 1, 14, some 0⟩⟩, ⟨1, 1, some ⟨1, 0, 1, none⟩⟩, ⟨1, 5, some ⟨1, 0, 5, none⟩⟩,
    ⟨1, 9, some ⟨1, 0, 11, none⟩⟩, ⟨1, 18, some ⟨1, 0, 21, some 2⟩⟩, ⟨1, 21, some ⟨1, 1, 3, none⟩⟩,
    ⟨1, 28, some ⟨1, 1, 10, some 2⟩⟩]

/-- The hypotheses of the theorems below hold together: a consumer of a map with two sources, after a
history with calls of every kind. -/
theorem demo_hypotheses : ∃ c₀ c : BasicConsumer demoEnv, Built demoMap none c₀ ∧ c₀.run demoOps = .ok c ∧
    demoMap.Segments demoRaws ∧ c.getSources = ["one.js", "two.js"] ∧ c.Knows "two.js" 1 ∧
    c.Unknown "three.js" ∧ c.hasContentsOfAllSources = .ok true := by
  obtain ⟨c, hc, h⟩ := Res.of_test (r := do let c ← demoConsumer demoMap; c.run demoOps)
    (fun c => decide (c.getSources = ["one.js", "two.js"]) && decide (c.sourceMapUrl = none) &&
      decide (c.sourceMap.sourceRoot = none) && decide (c.hasContentsOfAllSources = .ok true)) (by decide +kernel)
  obtain ⟨c₀, h0, hr⟩ := Res.bind_eq_ok.mp hc
  simp only [Bool.and_eq_true, decide_eq_true_eq] at h
  obtain ⟨⟨⟨h1, h2⟩, h3⟩, h4⟩ := h
  have e1 : sourceUrl demoEnv none "two.js" none = .ok "two.js" := by decide +kernel
  have e2 : sourceUrl demoEnv none "three.js" none = .ok "three.js" := by decide +kernel
  refine ⟨c₀, c, .inr h0, hr, ⟨_, rfl, by decide +kernel, ?_⟩, h1, .inl ⟨"two.js", by rw [h2]; exact e1, ?_⟩,
    ⟨"three.js", "three.js", by rw [h2]; exact e2, ?_, by rw [h2, h3]; exact e2, ?_⟩, h4⟩
  · simp [demoRaws, Spec.RawMapping.U32]
  · rw [h1]
    refine ⟨by decide, fun j hj => ?_⟩
    obtain rfl : j = 0 := by omega
    decide
  · rw [h1]; decide
  · rw [h1]; decide

/-- C28: `get_sources()` of a new consumer, by either constructor, has one entry per entry of the
map's sources, at the same place: that entry resolved against `sourceRoot` and the map URL. -/
theorem C28_sources {m : SourceMapJson} {u : Option String} {c : BasicConsumer E} (h : Built m u c) :
    ∃ srcs : List String, m.sources = some srcs ∧ c.getSources.length = srcs.length ∧
      ∀ (i : Nat) s, srcs[i]? = some s →
        ∃ t, sourceUrl E m.sourceRoot s u = .ok t ∧ c.getSources[i]? = some t := by
  obtain ⟨st, srcs, urls, h1, h2, _, _, habs, _⟩ := h.spec
  refine ⟨srcs, h1, ?_⟩
  have hgs : c.getSources = urls := by
    simp only [BasicConsumer.getSources, habs, C07_arrayset_duplicates]
  rw [hgs]
  clear h1 hgs habs
  induction srcs generalizing urls with
  | nil =>
    simp only [List.mapM_nil, Res.pure_eq, Except.ok.injEq] at h2
    subst h2; simp
  | cons s srcs ih =>
    simp only [List.mapM_cons, Res.bind_eq_ok, Res.pure_eq, Except.ok.injEq] at h2
    obtain ⟨t, ht, ts, hts, rfl⟩ := h2
    obtain ⟨h3, h4⟩ := ih ts hts
    refine ⟨by simp [h3], ?_⟩
    intro i x hx
    cases i with
    | zero => simp only [List.getElem?_cons_zero, Option.some.injEq] at hx ⊢; subst hx; exact ⟨t, ht, rfl⟩
    | succ i => simp only [List.getElem?_cons_succ] at hx ⊢; exact h4 i x hx

example : ((demoConsumer demoRooted).map getSources : Res _) = .ok ["/the/root/one.js", "/the/root/two.js"] := by
  decide +kernel

/-- C28, over histories: no call changes the list. -/
theorem C28_sources_stable (hL : E.maps.Laws) {m : SourceMapJson} {u : Option String}
    {c₀ c : BasicConsumer E} (h : Built m u c₀) {ops : List Op} (hr : c₀.run ops = .ok c) :
    c.getSources = c₀.getSources := (h.rel.run hL hr).getSources

/-! ## C29 -/

/-- C29: after any history, a call answers what it would have answered first of all, apart from the
column spans that `compute_column_spans` adds. -/
theorem C29_history_independent (hL : E.maps.Laws) {m : SourceMapJson} {u : Option String}
    {c₀ c : BasicConsumer E} (h : Built m u c₀) {ops : List Op} (hr : c₀.run ops = .ok c) (op : Op)
    {a b : Ans} {c' c₀' : BasicConsumer E} (ha : c.step op = .ok (a, c'))
    (hb : c₀.step op = .ok (b, c₀')) : a.strip = b.strip :=
  (h.rel.run hL hr).agree hL h.rel ha hb

/-- C29, panics included: if the library's operations return, a call after any history returns or
panics exactly as it would have first of all. -/
theorem C29_history_independent_total (hL : E.maps.Laws) (hT : E.maps.Total) {m : SourceMapJson}
    {u : Option String} {c₀ c : BasicConsumer E} (h : Built m u c₀) {ops : List Op}
    (hr : c₀.run ops = .ok c) (op : Op) :
    (c.step op).map (fun r => r.1.strip) = (c₀.step op).map (fun r => r.1.strip) :=
  (h.rel.run hL hr).agree_total hL hT h.rel op

/-- Asking before and after a history that also computes spans: the same but for the span. -/
example : demoAsk demoMap (fun c => c.generatedPositionFor "two.js" 1 11 none) =
      .ok (some ⟨⟨2, 9⟩, some ⟨0, 11⟩, some "two.js", some "baz", none⟩) ∧
    demoAsk demoMap (fun c => do let c ← c.run demoOps; c.generatedPositionFor "two.js" 1 11 none) =
      .ok (some ⟨⟨2, 9⟩, some ⟨0, 11⟩, some "two.js", some "baz", some 18⟩) :=
  ⟨by decide +kernel, by decide +kernel⟩

/-- C29, the lookup of a source itself: the same index, the same "unknown" and the same panic after
any history. -/
theorem C29_lookup (hL : E.maps.Laws) {m : SourceMapJson} {u : Option String}
    {c₀ c : BasicConsumer E} (h : Built m u c₀) {ops : List Op} (hr : c₀.run ops = .ok c) (s : String) :
    (c.findSourceIndex s).map Prod.fst = (c₀.findSourceIndex s).map Prod.fst := by
  rcases (h.rel.run hL hr).find s with ⟨e, h1, h2⟩ | ⟨r, k, h1, h2, _⟩ <;>
    rcases h.rel.find s with ⟨e', h3, h4⟩ | ⟨r', k', h3, h4, _⟩ <;>
    · rw [h1] at h3
      cases h3
      try (rw [h2, h4]; try rfl)

/-! ## C30, C31 -/

theorem asU32_nonneg {x : Int} (h0 : 0 ≤ x) (h : x < 4294967296) : (asU32 x : Int) = x := by
  unfold asU32; omega

theorem asU32_i32 {x : Int} (h0 : 0 ≤ x) (h : IsI32 x) : asU32 x = x.toNat := by
  unfold asU32; unfold IsI32 at h; omega

theorem original_glb_none (hL : E.maps.Laws) {c₀ c : BasicConsumer E} (hrel : Rel c₀ c)
    {p : Position} (hp : IsI32 p.line ∧ IsI32 p.column) {b : Option Bias} (hb : b.getD .glb = .glb)
    {r : Option Mapping} {c' : BasicConsumer E} (hr : c.originalPositionFor p b = .ok (r, c')) :
    r = none := by
  obtain ⟨hpos, line, M, M₀, x, M', h1, h2, h3, h4, h5, _⟩ := original_ok hrel hr
  rw [hb] at h4
  have hn := hL.orig _ _ _ _ _ _ h4
  have hline : line = p.line - 1 := by
    have : IsI32 (p.line - 1) := by have := hp.1; unfold IsI32 at *; omega
    rw [E.cfg.arith_ok this] at h3
    exact (Except.ok.inj h3).symm
  cases x with
  | none => simp only [reportOriginal, Except.ok.injEq] at h5; exact h5.symm
  | some x =>
    have hle : (x.generatedLine : Int) ≤ p.line - 1 := by
      have hq : asU32 line = (p.line - 1).toNat := by
        rw [hline]; exact asU32_i32 (by omega) (by have := hp.1; unfold IsI32 at *; omega)
      simp only [Option.map_some, Nearest, Spec.RawMapping.genPos, LibMapping.raw, PLt, hq] at hn
      rcases hn with ⟨_, hn | ⟨_, hn, _⟩⟩
      · simp only [Prod.mk.injEq] at hn; omega
      · omega
    have hne : ¬ wrap32 (x.generatedLine : Int) = p.line := by
      rw [wrap32_of_isI32 (by have := hp.1; unfold IsI32 at *; omega)]
      omega
    simp only [reportOriginal] at h5
    rw [if_neg hne] at h5
    exact (Except.ok.inj h5).symm

/-- C30 is false of the code: for every map, every history and every query, with the default bias
`original_position_for` returns `None` if it returns. (The line of the mapping found, counted from 0,
is compared with the line asked for, counted from 1.) -/
theorem C30_default_bias_refuted (hL : E.maps.Laws) {m : SourceMapJson} {u : Option String}
    {c₀ c : BasicConsumer E} (h : Built m u c₀) {ops : List Op} (hrun : c₀.run ops = .ok c)
    {p : Position} (hp : IsI32 p.line ∧ IsI32 p.column) {b : Option Bias} (hb : b.getD .glb = .glb)
    {r : Option Mapping} {c' : BasicConsumer E} (hr : c.originalPositionFor p b = .ok (r, c')) :
    r = none :=
  original_glb_none hL (h.rel.run hL hrun) hp hb hr

/-- A generated position that is exactly that of a segment. -/
example : (⟨1, 5, some ⟨1, 0, 5, none⟩⟩ : Spec.RawMapping) ∈ demoRaws ∧
    demoAsk demoMap (fun c => c.originalPositionFor ⟨2, 5⟩ none) = .ok none := ⟨by decide, by decide +kernel⟩

theorem succU32_wrap {cfg : Cfg} {x y : Nat} (h : cfg.succU32 x = .ok y) :
    wrap32 (y : Int) = wrap32 ((x : Int) + 1) := by
  unfold Cfg.succU32 at h
  split at h
  · have := Except.ok.inj h; subst this; simp
  · split at h
    · cases h
    · have := Except.ok.inj h; subst this
      unfold wrap32; omega

/-- What is found with the bias to the least upper bound. -/
theorem lub_found (hL : E.maps.Laws) {m : SourceMapJson} {u : Option String}
    {c₀ c : BasicConsumer E} (h : Built m u c₀) (hrel : Rel c₀ c)
    {raws : List Spec.RawMapping} (hseg : m.Segments raws)
    {p : Position} (hp : IsI32 p.line ∧ IsI32 p.column)
    {r : Mapping} {c' : BasicConsumer E}
    (hr : c.originalPositionFor p (some .lub) = .ok (some r, c')) :
    (p.line < 2147483647 → r.generated.line = p.line + 1) ∧
    ∃ s o, s ∈ raws ∧ s.original = some o ∧ (s.line : Int) + 1 = p.line + 1 ∧
      r.generated.column = wrap32 s.column ∧
      r.original = some ⟨wrap32 ((o.line : Int) + 1), wrap32 o.column⟩ ∧
      (c.getSources.length < 2147483648 → r.source = c.getSources[o.source]?) ∧
      (o.name = none → r.name = none) ∧
      (∀ i, o.name = some i → ∃ names nm, m.names = some names ∧ names[i]? = some nm ∧ r.name = some nm) ∧
      (∀ x ∈ raws, (x.line : Int) + 1 = p.line → (x.column : Int) < p.column) ∧
      (∀ x ∈ raws, x.line = s.line → s.column ≤ x.column) := by
  obtain ⟨hpos, line, M, M₀, x, M', h1, h2, h3, h4, h5, _⟩ := original_ok hrel hr
  have hn := hL.orig _ _ _ _ _ _ h4
  have hline : line = p.line - 1 := by
    have : IsI32 (p.line - 1) := by have := hp.1; unfold IsI32 at *; omega
    rw [E.cfg.arith_ok this] at h3
    exact (Except.ok.inj h3).symm
  have hmap : c₀.sourceMap = m := by obtain ⟨_, _, _, _, _, _, hm, _⟩ := h.spec; exact hm
  obtain ⟨M₁, hM₁, hperm⟩ := parsed_segments hL (c := c₀) (raws := raws) (by rw [hmap]; exact hseg)
  rw [h1] at hM₁
  cases hM₁
  have hmem : ∀ y, y ∈ E.maps.core M ↔ y ∈ raws := fun y => by rw [h2]; exact hperm.mem_iff
  have hn := Nearest.congr hmem hn
  have hq : asU32 line = (p.line - 1).toNat := by
    rw [hline]; exact asU32_i32 (by omega) (by have := hp.1; unfold IsI32 at *; omega)
  have hq2 : asU32 p.column = p.column.toNat := asU32_i32 hpos.2 hp.2
  cases x with
  | none => simp only [reportOriginal, Except.ok.injEq, reduceCtorEq] at h5
  | some x =>
    simp only [reportOriginal] at h5
    split at h5
    · next hl =>
      cases ho : x.original with
      | none => rw [ho] at h5; simp at h5
      | some o =>
        rw [ho] at h5
        simp only [Res.bind_eq_ok, Res.pure_eq, Except.ok.injEq, Option.some.injEq] at h5
        obtain ⟨nm, hnm, ol, hol, gl, hgl, rfl⟩ := h5
        have hu : x.raw.U32 := hL.u32 M x.raw (by
          simp only [Option.map_some, Nearest] at hn
          exact (hmem _).2 hn.1)
        have hxl : (x.generatedLine : Int) = p.line := by
          have h6 := hu.1
          simp only [LibMapping.raw] at h6
          have h7 := hp.1
          unfold IsI32 at h7
          unfold wrap32 at hl
          omega
        have hord : ∀ y ∈ raws, PLt ((p.line - 1).toNat, p.column.toNat) y.genPos ∨ y.genPos = ((p.line - 1).toNat, p.column.toNat) →
            ¬ PLt y.genPos x.raw.genPos := by
          simp only [Option.map_some, Nearest, hq, hq2, Option.getD_some] at hn
          rcases hn with ⟨_, hn | ⟨hno, hn, hmin⟩⟩
          · exfalso
            simp only [Spec.RawMapping.genPos, LibMapping.raw, Prod.mk.injEq] at hn
            omega
          · rintro y hy (hlt | heq)
            · exact hmin y hy hlt
            · exact absurd heq (hno y hy)
        have hcm : c.sourceMap = m := hrel.map.trans hmap
        refine ⟨?_, x.raw, o, ?_, ho, ?_, rfl, ?_, ?_, ?_, ?_, ?_, ?_⟩
        · intro hlt
          simp only
          have hs : E.cfg.succU32 x.generatedLine = .ok (x.generatedLine + 1) := by
            unfold Cfg.succU32; rw [if_pos (by omega)]
          obtain rfl := Res.ok_inj hgl hs
          rw [wrap32_of_isI32 (by unfold IsI32; omega)]
          omega
        · simp only [Option.map_some, Nearest] at hn
          exact hn.1
        · simp only [LibMapping.raw]; omega
        · simp only [succU32_wrap hol]
        · intro hlen
          have ho32 : o.source < 4294967296 := (hu.2.2 o ho).1
          simp only [C08_arrayset_at _ hlen, BasicConsumer.getSources]
          have hlen' : c.absoluteSources.toVec.length < 2147483648 := hlen
          by_cases hs : o.source < 2147483648
          · rw [wrap32_of_isI32 (by unfold IsI32; omega), if_pos (by omega)]
            simp
          · rw [if_neg (by unfold wrap32; omega), List.getElem?_eq_none (by omega)]
        · intro hno
          rw [hno] at hnm
          cases hnm; rfl
        · intro i hi
          rw [hi] at hnm
          simp only [optName, nameAt, hcm, Res.bind_eq_ok, Res.pure_eq, Except.ok.injEq] at hnm
          obtain ⟨nm', ⟨names, h6, h7⟩, rfl⟩ := hnm
          refine ⟨names, nm', ?_, ?_, rfl⟩
          · cases hx : m.names with
            | none => rw [hx] at h6; cases h6
            | some y => rw [hx] at h6; cases h6; rfl
          · simp only [index] at h7
            split at h7
            · next hx => cases h7; exact hx
            · cases h7
        · intro y hy hyl
          apply Int.not_le.mp
          intro hcol
          have := hord y hy (by
            simp only [PLt, Spec.RawMapping.genPos, Prod.mk.injEq]
            omega)
          simp only [PLt, Spec.RawMapping.genPos, LibMapping.raw] at this
          omega
        · intro y hy hyl
          have := hord y hy (by
            simp only [PLt, Spec.RawMapping.genPos, LibMapping.raw] at hyl ⊢
            omega)
          simp only [PLt, Spec.RawMapping.genPos, LibMapping.raw] at this hyl ⊢
          omega
    · simp at h5

/-- C31 is false of the code: with `LEAST_UPPER_BOUND` only mappings on the line after the queried
one are returned. If a mapping is returned, it is a segment of the map with an original, it lies on
the line after the queried one, and the queried line has no segment at or after the queried column.
What is reported is that segment: its position and its original, 1-based, its source and its name. -/
theorem C31_lub_refuted (hL : E.maps.Laws) {m : SourceMapJson} {u : Option String}
    {c₀ c : BasicConsumer E} (h : Built m u c₀) {ops : List Op} (hrun : c₀.run ops = .ok c)
    {raws : List Spec.RawMapping} (hseg : m.Segments raws)
    {p : Position} (hp : IsI32 p.line ∧ IsI32 p.column)
    {r : Mapping} {c' : BasicConsumer E}
    (hr : c.originalPositionFor p (some .lub) = .ok (some r, c')) :
    (p.line < 2147483647 → r.generated.line = p.line + 1) ∧
    ∃ s o, s ∈ raws ∧ s.original = some o ∧ (s.line : Int) + 1 = p.line + 1 ∧
      r.generated.column = wrap32 s.column ∧
      r.original = some ⟨wrap32 ((o.line : Int) + 1), wrap32 o.column⟩ ∧
      (c.getSources.length < 2147483648 → r.source = c.getSources[o.source]?) ∧
      (o.name = none → r.name = none) ∧
      (∀ i, o.name = some i → ∃ names nm, m.names = some names ∧ names[i]? = some nm ∧ r.name = some nm) ∧
      (∀ x ∈ raws, (x.line : Int) + 1 = p.line → (x.column : Int) < p.column) ∧
      (∀ x ∈ raws, x.line = s.line → s.column ≤ x.column) :=
  lub_found hL h (h.rel.run hL hrun) hseg hp hr

/-- Line 1 has a segment at column 5, which is not reported; past the end of line 1 the first segment
of line 2 is. -/
example : demoAsk demoMap (fun c => c.originalPositionFor ⟨1, 5⟩ (some .lub)) = .ok none ∧
    demoAsk demoMap (fun c => c.originalPositionFor ⟨1, 100⟩ (some .lub)) =
      .ok (some ⟨⟨2, 1⟩, some ⟨1, 1⟩, some "two.js", none, none⟩) := ⟨by decide +kernel, by decide +kernel⟩

/-- When something is found. -/
theorem lub_finds (hL : E.maps.Laws) {m : SourceMapJson} {u : Option String}
    {c₀ c : BasicConsumer E} (h : Built m u c₀) (hrel : Rel c₀ c)
    {raws : List Spec.RawMapping} (hseg : m.Segments raws)
    {p : Position} (hp : IsI32 p.line ∧ IsI32 p.column)
    (hgap : ∀ x ∈ raws, (x.line : Int) + 1 = p.line → (x.column : Int) < p.column)
    {s : Spec.RawMapping} (hs : s ∈ raws) (hsl : (s.line : Int) = p.line)
    (hfirst : ∀ x ∈ raws, x.line = s.line → s.column ≤ x.column)
    (horig : ∀ x ∈ raws, x.line = s.line → x.column = s.column → x.original.isSome)
    {r : Option Mapping} {c' : BasicConsumer E}
    (hr : c.originalPositionFor p (some .lub) = .ok (r, c')) : r.isSome = true := by
  obtain ⟨hpos, line, M, M₀, x, M', h1, h2, h3, h4, h5, _⟩ := original_ok hrel hr
  have hn := hL.orig _ _ _ _ _ _ h4
  have hline : line = p.line - 1 := by
    have : IsI32 (p.line - 1) := by have := hp.1; unfold IsI32 at *; omega
    rw [E.cfg.arith_ok this] at h3
    exact (Except.ok.inj h3).symm
  have hmap : c₀.sourceMap = m := by obtain ⟨_, _, _, _, _, _, hm, _⟩ := h.spec; exact hm
  obtain ⟨M₁, hM₁, hperm⟩ := parsed_segments hL (c := c₀) (raws := raws) (by rw [hmap]; exact hseg)
  rw [h1] at hM₁
  cases hM₁
  have hmem : ∀ y, y ∈ E.maps.core M ↔ y ∈ raws := fun y => by rw [h2]; exact hperm.mem_iff
  have hn := Nearest.congr hmem hn
  have hq : asU32 line = (p.line - 1).toNat := by
    rw [hline]; exact asU32_i32 (by omega) (by have := hp.1; unfold IsI32 at *; omega)
  have hq2 : asU32 p.column = p.column.toNat := asU32_i32 hpos.2 hp.2
  rw [hq, hq2] at hn
  have hgt : PLt ((p.line - 1).toNat, p.column.toNat) s.genPos := by
    simp only [PLt, Spec.RawMapping.genPos]; omega
  cases x with
  | none =>
    simp only [Option.map_none, Nearest, Option.getD_some] at hn
    exact absurd hgt (hn s hs).2
  | some x =>
    simp only [Option.map_some, Nearest, Option.getD_some] at hn
    obtain ⟨hx, hn⟩ := hn
    have hxs : x.raw.line = s.line ∧ x.raw.column = s.column := by
      rcases hn with hn | ⟨_, hn, hmin⟩
      · exfalso
        have := hgap _ hx
        simp only [Spec.RawMapping.genPos, Prod.mk.injEq] at hn
        omega
      · have h6 := hmin s hs hgt
        have h7 := hgap _ hx
        have h8 := hfirst _ hx
        simp only [PLt, Spec.RawMapping.genPos] at h6 hn
        omega
    have ho := horig _ hx hxs.1 hxs.2
    simp only [LibMapping.raw] at hxs ho
    have hl : wrap32 (x.generatedLine : Int) = p.line := by
      rw [wrap32_of_isI32 (by have := hp.1; unfold IsI32 at *; omega)]
      omega
    obtain ⟨o, ho⟩ := Option.isSome_iff_exists.mp ho
    simp only [reportOriginal, hl, if_true, ho, Res.bind_eq_ok, Res.pure_eq, Except.ok.injEq] at h5
    obtain ⟨_, _, _, _, _, _, rfl⟩ := h5
    rfl

/-- C31, the converse: if the queried line has no segment at or after the queried column, the next
line has a segment, and its first segments have originals, then a mapping is returned (if the call
returns). -/
theorem C31_lub_converse (hL : E.maps.Laws) {m : SourceMapJson} {u : Option String}
    {c₀ c : BasicConsumer E} (h : Built m u c₀) {ops : List Op} (hrun : c₀.run ops = .ok c)
    {raws : List Spec.RawMapping} (hseg : m.Segments raws)
    {p : Position} (hp : IsI32 p.line ∧ IsI32 p.column)
    (hgap : ∀ x ∈ raws, (x.line : Int) + 1 = p.line → (x.column : Int) < p.column)
    {s : Spec.RawMapping} (hs : s ∈ raws) (hsl : (s.line : Int) = p.line)
    (hfirst : ∀ x ∈ raws, x.line = s.line → s.column ≤ x.column)
    (horig : ∀ x ∈ raws, x.line = s.line → x.column = s.column → x.original.isSome)
    {r : Option Mapping} {c' : BasicConsumer E}
    (hr : c.originalPositionFor p (some .lub) = .ok (r, c')) : r.isSome = true :=
  lub_finds hL h (h.rel.run hL hrun) hseg hp hgap hs hsl hfirst horig hr


/-- C30, the same as an equation: if the map's mappings are well-formed and the library's operations
return, the call returns `None`. -/
theorem C30_returns_none_refuted (hL : E.maps.Laws) (hT : E.maps.Total) {m : SourceMapJson}
    {u : Option String} {c₀ c : BasicConsumer E} (h : Built m u c₀) {ops : List Op}
    (hrun : c₀.run ops = .ok c) {raws : List Spec.RawMapping} (hseg : m.Segments raws)
    {p : Position} (hp : IsI32 p.line ∧ IsI32 p.column) (hpos : 1 ≤ p.line ∧ 0 ≤ p.column) :
    ∃ c', c.originalPositionFor p none = .ok (none, c') := by
  have hrel := h.rel.run hL hrun
  have hmap : c₀.sourceMap = m := by obtain ⟨_, _, _, _, _, _, hm, _⟩ := h.spec; exact hm
  obtain ⟨M₁, hM₁, _⟩ := parsed_segments hL (c := c₀) (raws := raws) (by rw [hmap]; exact hseg)
  obtain ⟨M, hM⟩ : ∃ M, c.ensureMappings = .ok M := by
    rcases hrel.ensure with ⟨e, he, _⟩ | ⟨M, _, _, he, _⟩
    · rw [hM₁] at he; cases he
    · exact ⟨M, he⟩
  have hc : checkPosition p.line p.column = .ok () := by
    simp only [checkPosition]; rw [if_neg (by omega), if_neg (by omega)]
  have hi : IsI32 (p.line - 1) := by have := hp.1; unfold IsI32 at *; omega
  obtain ⟨⟨x, M'⟩, hx⟩ := hT.orig M (asU32 (p.line - 1)) (asU32 p.column) .glb
  have hn := hL.orig _ _ _ _ _ _ hx
  have hrep : c.reportOriginal p.line x = .ok none := by
    cases x with
    | none => rfl
    | some x =>
      have hq : asU32 (p.line - 1) = (p.line - 1).toNat := asU32_i32 (by omega) hi
      have hle : (x.generatedLine : Int) ≤ p.line - 1 := by
        simp only [Option.map_some, Nearest, Spec.RawMapping.genPos, LibMapping.raw, PLt, hq] at hn
        rcases hn with ⟨_, hn | ⟨_, hn, _⟩⟩
        · simp only [Prod.mk.injEq] at hn; omega
        · omega
      have hne : ¬ wrap32 (x.generatedLine : Int) = p.line := by
        rw [wrap32_of_isI32 (by have := hp.1; unfold IsI32 at *; omega)]
        omega
      simp only [reportOriginal]
      rw [if_neg hne]
  refine ⟨{ c with mappings := some M' }, ?_⟩
  simp only [originalPositionFor, hc, hM, E.cfg.arith_ok hi, Option.getD_none, hx, hrep, Res.ok_bind,
    Res.pure_eq]

/-! ## C32 -/

/-- C32: `original_position_for` panics for a line below 1 or a column below 0. -/
theorem C32_original_guard (c : BasicConsumer E) (p : Position) (b : Option Bias)
    (hp : p.line < 1 ∨ p.column < 0) : ∃ msg, c.originalPositionFor p b = .error (.explicit msg) := by
  simp only [originalPositionFor, checkPosition]
  by_cases h : p.line < 1
  · rw [if_pos h]; exact ⟨_, rfl⟩
  · rw [if_neg h, if_pos (by omega)]; exact ⟨_, rfl⟩

example : demoAsk demoMap (fun c => c.originalPositionFor ⟨0, 5⟩ none) =
    .error (.explicit "Line numbers must be >= 1") := by decide +kernel

/-- C32: so do `generated_position_for` and `all_generated_position_for` for a known source. -/
theorem C32_reverse_guard (hL : E.maps.Laws) {m : SourceMapJson} {u : Option String}
    {c₀ c : BasicConsumer E} (h : Built m u c₀) {ops : List Op} (hrun : c₀.run ops = .ok c)
    (hlen : c.getSources.length < 2147483648) {s : String} {n : Nat} (hs : c.Knows s n) (l k : Int)
    (b : Option Bias) (hp : l < 1 ∨ k < 0) :
    (∃ msg, c.generatedPositionFor s l k b = .error (.explicit msg)) ∧
    (∃ msg, c.allGeneratedPositionFor s l (some k) = .error (.explicit msg)) := by
  have hrel := h.rel.run hL hrun
  have hk := ((lookup_spec h (by rw [← hrel.getSources]; exact hlen) s).1 n).2 ⟨n, rfl, (hrel.knows s n).1 hs⟩
  have hc : ∃ msg, checkPosition l k = .error (.explicit msg) := by
    simp only [checkPosition]
    by_cases h : l < 1
    · rw [if_pos h]; exact ⟨_, rfl⟩
    · rw [if_neg h, if_pos (by omega)]; exact ⟨_, rfl⟩
  obtain ⟨msg, hc⟩ := hc
  rcases hrel.find s with ⟨e, h1, _⟩ | ⟨r, q, h1, h2, _⟩
  · rw [hk] at h1; cases h1
  · rw [hk] at h1; cases h1
    refine ⟨⟨msg, ?_⟩, msg, ?_⟩
    · simp only [generatedPositionFor, h2, Res.ok_bind, hc]; rfl
    · simp only [allGeneratedPositionFor, h2, Res.ok_bind, Option.getD_some]
      rw [if_neg (by omega), hc]; rfl

example : demoAsk demoMap (fun c => c.generatedPositionFor "two.js" 1 (-1) none) =
    .error (.explicit "Column numbers must be >= 0") := by decide +kernel

/-- C32: whatever the source, no value is returned for such arguments except the answer "unknown". -/
theorem C32_reverse_no_value (hL : E.maps.Laws) {m : SourceMapJson} {u : Option String}
    {c₀ c : BasicConsumer E} (h : Built m u c₀) {ops : List Op} (hrun : c₀.run ops = .ok c)
    (s : String) (l k : Int) (b : Option Bias) (hp : l < 1 ∨ k < 0) :
    (∀ r c', c.generatedPositionFor s l k b = .ok (r, c') → r = none) ∧
    (∀ r c', c.allGeneratedPositionFor s l (some k) = .ok (r, c') → r = []) := by
  have hrel := h.rel.run hL hrun
  constructor
  · intro r c' hr
    obtain ⟨i, q, _, _, ⟨_, rfl, _⟩ | ⟨i', line, M, M₀, x, M', _, hpos, _⟩⟩ := generated_ok hrel hr
    · rfl
    · omega
  · intro r c' hr
    obtain ⟨i, q, _, _, ⟨_, rfl, _⟩ | ⟨i', M, M₀, M', _, _, hpos, _⟩⟩ := all_ok hrel hr
    · rfl
    · simp only [Option.getD_some] at hpos; omega

/-! ## C33, C34 -/

/-- What the code reports for a segment found by `generated_position_for`. -/
theorem generated_report {hL : E.maps.Laws} {m : SourceMapJson} {u : Option String}
    {c₀ c : BasicConsumer E} (h : Built m u c₀) {ops : List Op} (hrun : c₀.run ops = .ok c)
    {raws : List Spec.RawMapping} (hseg : m.Segments raws) (hlen : c.getSources.length < 2147483648)
    {s : String} {n : Nat} (hs : c.Knows s n) {l k : Int} (hp : IsI32 l ∧ IsI32 k) {b : Option Bias}
    {r : Option Mapping} {c' : BasicConsumer E} (hr : c.generatedPositionFor s l k b = .ok (r, c')) :
    1 ≤ l ∧ 0 ≤ k ∧ ∃ x : Option LibMapping,
      Nearest Spec.RawMapping.origPos (raws.filter (·.fromSource n)) ((l - 1).toNat, k.toNat)
        (b.getD .glb) (x.map LibMapping.raw) ∧ c.reportGenerated n x = .ok r := by
  have hrel := h.rel.run hL hrun
  have hk := ((lookup_spec h (by rw [← hrel.getSources]; exact hlen) s).1 n).2 ⟨n, rfl, (hrel.knows s n).1 hs⟩
  obtain ⟨i, q, h1, _, ⟨rfl, _⟩ | ⟨i', line, M, M₀, x, M', rfl, hpos, h2, h3, h4, h5, h6, _⟩⟩ :=
    generated_ok hrel hr
  · rw [hk] at h1; cases h1
  · have hin : some (n : Int) = some i' := Except.ok.inj (hk.symm.trans h1)
    cases hin
    have hi : IsI32 (l - 1) := by have := hp.1; unfold IsI32 at *; omega
    have hline : line = l - 1 := by
      rw [E.cfg.arith_ok hi] at h4
      exact (Except.ok.inj h4).symm
    have hmap : c₀.sourceMap = m := by obtain ⟨_, _, _, _, _, _, hm, _⟩ := h.spec; exact hm
    obtain ⟨M₁, hM₁, hperm⟩ := parsed_segments hL (c := c₀) (raws := raws) (by rw [hmap]; exact hseg)
    rw [h2] at hM₁
    cases hM₁
    have hnlt : n < c.getSources.length := by
      rcases hs with ⟨_, _, hf⟩ | ⟨_, _, _, _, _, hf⟩
      · exact (List.getElem?_eq_some_iff.mp hf.1).1
      · exact (List.getElem?_eq_some_iff.mp hf.1).1
    have hn := hL.gen _ _ _ _ _ _ _ h5
    have hq0 : asU32 (n : Int) = n := by unfold asU32; omega
    rw [hline, asU32_i32 (by omega) hi, asU32_i32 hpos.2 hp.2, hq0] at hn
    refine ⟨hpos.1, hpos.2, x, Nearest.congr ?_ hn, h6⟩
    intro y
    simp only [List.mem_filter, h3, hperm.mem_iff]

/-- C33: what `generated_position_for` returns is decided by the segments of the requested source:
`None` if there is none on the side asked for, and otherwise the nearest one (the exact one if there
is one), with its generated position 1-based and the source that was asked for. -/
theorem C33_generated_position (hL : E.maps.Laws) {m : SourceMapJson} {u : Option String}
    {c₀ c : BasicConsumer E} (h : Built m u c₀) {ops : List Op} (hrun : c₀.run ops = .ok c)
    {raws : List Spec.RawMapping} (hseg : m.Segments raws) (hlen : c.getSources.length < 2147483648)
    {s : String} {n : Nat} (hs : c.Knows s n) {l k : Int} (hp : IsI32 l ∧ IsI32 k) {b : Option Bias}
    {r : Option Mapping} {c' : BasicConsumer E} (hr : c.generatedPositionFor s l k b = .ok (r, c')) :
    (r = none → Nearest Spec.RawMapping.origPos (raws.filter (·.fromSource n))
      ((l - 1).toNat, k.toNat) (b.getD .glb) none) ∧
    (∀ x, r = some x → ∃ seg o, Nearest Spec.RawMapping.origPos (raws.filter (·.fromSource n))
        ((l - 1).toNat, k.toNat) (b.getD .glb) (some seg) ∧ seg ∈ raws ∧
      seg.original = some o ∧ o.source = n ∧
      x.generated = ⟨wrap32 ((seg.line : Int) + 1), wrap32 seg.column⟩ ∧
      x.original.map Position.column = some (wrap32 o.column) ∧
      x.source = c.getSources[n]?) := by
  have hnlt : n < c.getSources.length := by
    rcases hs with ⟨_, _, hf⟩ | ⟨_, _, _, _, _, hf⟩
    · exact (List.getElem?_eq_some_iff.mp hf.1).1
    · exact (List.getElem?_eq_some_iff.mp hf.1).1
  obtain ⟨hl, hk, x, hn, h6⟩ := generated_report (hL := hL) h hrun hseg hlen hs hp hr
  cases x with
  | none =>
    simp only [reportGenerated, Except.ok.injEq] at h6
    subst h6
    exact ⟨fun _ => hn, by simp⟩
  | some x =>
    have hmem : x.raw ∈ raws.filter (·.fromSource n) := by
      simp only [Option.map_some, Nearest] at hn; exact hn.1
    have hmem' := List.mem_filter.mp hmem
    obtain ⟨o, ho, hon⟩ : ∃ o, x.original = some o ∧ o.source = n := by
      have := hmem'.2
      simp only [Spec.RawMapping.fromSource, LibMapping.raw] at this
      cases ho : x.original with
      | none => rw [ho] at this; simp at this
      | some o => rw [ho] at this; exact ⟨o, rfl, by simpa using this⟩
    have hif : wrap32 (o.source : Int) = n := by
      rw [hon]; exact wrap32_of_isI32 (by unfold IsI32; omega)
    simp only [reportGenerated, ho, unwrap, Res.ok_bind] at h6
    rw [if_pos hif] at h6
    simp only [Res.bind_eq_ok, Res.pure_eq, Except.ok.injEq] at h6
    obtain ⟨gl, hgl, nm, hnm, rfl⟩ := h6
    refine ⟨by simp, ?_⟩
    intro y hy
    have hy := Option.some.inj hy
    subst hy
    refine ⟨x.raw, o, hn, hmem'.1, ho, hon, ?_, rfl, ?_⟩
    · simp only [LibMapping.raw, succU32_wrap hgl]
    · simp only [hif, C08_arrayset_at _ hlen, BasicConsumer.getSources]
      rw [if_pos (by omega)]
      simp

/-- C34 is false of the code: the original line returned is the 0-based one and the name is the
entry of `names` at the index of the *source*, whatever name the mapping has. -/
theorem C34_name_and_line_refuted (hL : E.maps.Laws) {m : SourceMapJson} {u : Option String}
    {c₀ c : BasicConsumer E} (h : Built m u c₀) {ops : List Op} (hrun : c₀.run ops = .ok c)
    {raws : List Spec.RawMapping} (hseg : m.Segments raws) (hlen : c.getSources.length < 2147483648)
    {s : String} {n : Nat} (hs : c.Knows s n) {l k : Int} (hp : IsI32 l ∧ IsI32 k) {b : Option Bias}
    {x : Mapping} {c' : BasicConsumer E} (hr : c.generatedPositionFor s l k b = .ok (some x, c')) :
    ∃ seg o names nm, Nearest Spec.RawMapping.origPos (raws.filter (·.fromSource n))
        ((l - 1).toNat, k.toNat) (b.getD .glb) (some seg) ∧ seg.original = some o ∧
      x.original.map Position.line = some (wrap32 o.line) ∧
      m.names = some names ∧ names[n]? = some nm ∧ x.name = some nm := by
  have hmap : c.sourceMap = m := by
    obtain ⟨_, _, _, _, _, _, hm, _⟩ := h.spec; exact (h.rel.run hL hrun).map.trans hm
  obtain ⟨hl, hk, x', hn, h6⟩ := generated_report (hL := hL) h hrun hseg hlen hs hp hr
  cases x' with
  | none => simp only [reportGenerated, Except.ok.injEq] at h6; cases h6
  | some x' =>
    have hmem : x'.raw ∈ raws.filter (·.fromSource n) := by
      simp only [Option.map_some, Nearest] at hn; exact hn.1
    have hmem' := List.mem_filter.mp hmem
    obtain ⟨o, ho, hon⟩ : ∃ o, x'.original = some o ∧ o.source = n := by
      have := hmem'.2
      simp only [Spec.RawMapping.fromSource, LibMapping.raw] at this
      cases ho : x'.original with
      | none => rw [ho] at this; simp at this
      | some o => rw [ho] at this; exact ⟨o, rfl, by simpa using this⟩
    simp only [reportGenerated, ho, unwrap, Res.ok_bind] at h6
    split at h6
    · simp only [Res.bind_eq_ok, Res.pure_eq, Except.ok.injEq, Option.some.injEq] at h6
      obtain ⟨gl, hgl, nm, hnm, rfl⟩ := h6
      simp only [nameAt, Res.bind_eq_ok, hmap] at hnm
      obtain ⟨names, hnames, hnm⟩ := hnm
      refine ⟨x'.raw, o, names, nm, hn, ho, rfl, ?_, ?_, rfl⟩
      · cases hx : m.names with
        | none => rw [hx] at hnames; cases hnames
        | some y => rw [hx] at hnames; cases hnames; rfl
      · simp only [index, hon] at hnm
        split at hnm
        · next hx => cases hnm; exact hx
        · cases hnm
    · simp at h6

/-- The segment at line 1 (0-based 0), column 21 of `two.js` has the name `n`; reported are `baz` and line 0. -/
example : (⟨1, 18, some ⟨1, 0, 21, some 2⟩⟩ : Spec.RawMapping) ∈ demoRaws ∧ demoMap.names = some ["bar", "baz", "n"] ∧
    demoAsk demoMap (fun c => c.generatedPositionFor "two.js" 1 21 none) =
      .ok (some ⟨⟨2, 18⟩, some ⟨0, 21⟩, some "two.js", some "baz", none⟩) :=
  ⟨by decide, rfl, by decide +kernel⟩

/-! ## C35 -/

/-- C35, except for the line (`_partial`): if the map has segments of the source at the 0-based line
`l` (that is, on the line after the queried one) and the queried column, exactly those are returned;
otherwise only segments of the source are. With a library whose operations return, the call
returns. -/
theorem C35_all_generated_partial (hL : E.maps.Laws) {m : SourceMapJson} {u : Option String}
    {c₀ c : BasicConsumer E} (h : Built m u c₀) {ops : List Op} (hrun : c₀.run ops = .ok c)
    {raws : List Spec.RawMapping} (hseg : m.Segments raws) (hlen : c.getSources.length < 2147483648)
    {s : String} {n : Nat} (hs : c.Knows s n) {l k : Int} (hp : IsI32 l ∧ IsI32 k)
    (hpos : 1 ≤ l ∧ 0 ≤ k) :
    (∀ r c', c.allGeneratedPositionFor s l (some k) = .ok (r, c') →
      ((∃ x ∈ raws, x.fromSource n = true ∧ x.origPos = (l.toNat, k.toNat)) →
        (r.map LibMapping.raw).Perm
          (raws.filter fun x => x.fromSource n && decide (x.origPos = (l.toNat, k.toNat)))) ∧
      (∀ x ∈ r, x.raw ∈ raws ∧ x.raw.fromSource n = true)) ∧
    (E.maps.Total → ∃ r c', c.allGeneratedPositionFor s l (some k) = .ok (r, c')) := by
  have hrel := h.rel.run hL hrun
  have hk := ((lookup_spec h (by rw [← hrel.getSources]; exact hlen) s).1 n).2 ⟨n, rfl, (hrel.knows s n).1 hs⟩
  have hmap : c₀.sourceMap = m := by obtain ⟨_, _, _, _, _, _, hm, _⟩ := h.spec; exact hm
  obtain ⟨M₁, hM₁, hperm⟩ := parsed_segments hL (c := c₀) (raws := raws) (by rw [hmap]; exact hseg)
  have hnlt : n < c.getSources.length := by
    rcases hs with ⟨_, _, hf⟩ | ⟨_, _, _, _, _, hf⟩
    · exact (List.getElem?_eq_some_iff.mp hf.1).1
    · exact (List.getElem?_eq_some_iff.mp hf.1).1
  have hq0 : asU32 (n : Int) = n := by unfold asU32; omega
  constructor
  · intro r c' hr
    obtain ⟨i, q, h1, _, ⟨hneg, _⟩ | ⟨i', M, M₀, M', rfl, _, _, h2, h3, h4, _⟩⟩ := all_ok hrel hr
    · have hin : some (n : Int) = i := Except.ok.inj (hk.symm.trans h1)
      have := hneg n hin.symm
      omega
    · have hin : some (n : Int) = some i' := Except.ok.inj (hk.symm.trans h1)
      cases hin
      rw [h2] at hM₁
      cases hM₁
      rw [hq0, asU32_i32 (by omega) hp.1, Option.getD_some, asU32_i32 hpos.2 hp.2] at h4
      constructor
      · rintro ⟨x, hx, hx1, hx2⟩
        refine (hL.all _ _ _ _ _ _ h4 ⟨x, ?_, hx1, hx2⟩).trans ?_
        · rw [h3]; exact hperm.mem_iff.mpr hx
        · rw [h3]; exact hperm.filter _
      · intro x hx
        have := hL.all_sub _ _ _ _ _ _ h4 x hx
        rw [h3, hperm.mem_iff] at this
        exact this
  · intro hT
    rcases hrel.find s with ⟨e, h1, _⟩ | ⟨r, q, h1, h2, h3⟩
    · rw [hk] at h1; cases h1
    · have hin : some (n : Int) = r := Except.ok.inj (hk.symm.trans h1)
      subst hin
      rcases h3.ensure with ⟨e, he, _⟩ | ⟨M, _, _, he, _⟩
      · rw [hM₁] at he; cases he
      · obtain ⟨⟨x, M'⟩, hx⟩ := hT.all M (asU32 (n : Int)) (asU32 l) (some (asU32 k))
        refine ⟨x, { c with cache := q, mappings := some M' }, ?_⟩
        have hc : checkPosition l k = .ok () := by
          simp only [checkPosition]; rw [if_neg (by omega), if_neg (by omega)]
        simp only [allGeneratedPositionFor, h2, Res.ok_bind, Option.getD_some]
        rw [if_neg (by omega)]
        simp only [hc, he, hx, Res.ok_bind, Res.pure_eq]

/-- C35, the line part, is false of the code: if the map has segments of the source on the line
after the queried one, at the queried column, then no segment of the queried line is returned. -/
theorem C35_line_refuted (hL : E.maps.Laws) {m : SourceMapJson} {u : Option String}
    {c₀ c : BasicConsumer E} (h : Built m u c₀) {ops : List Op} (hrun : c₀.run ops = .ok c)
    {raws : List Spec.RawMapping} (hseg : m.Segments raws) (hlen : c.getSources.length < 2147483648)
    {s : String} {n : Nat} (hs : c.Knows s n) {l k : Int} (hp : IsI32 l ∧ IsI32 k)
    (hpos : 1 ≤ l ∧ 0 ≤ k)
    (hnext : ∃ x ∈ raws, x.fromSource n = true ∧ x.origPos = (l.toNat, k.toNat))
    {r : List LibMapping} {c' : BasicConsumer E}
    (hr : c.allGeneratedPositionFor s l (some k) = .ok (r, c')) :
    r ≠ [] ∧ ∀ x ∈ r, ∀ o, x.original = some o → (o.line : Int) + 1 ≠ l := by
  have hperm := (((C35_all_generated_partial hL h hrun hseg hlen hs hp hpos).1 r c' hr).1 hnext)
  constructor
  · rintro rfl
    obtain ⟨x, h1, h2, h3⟩ := hnext
    have hx : x ∈ raws.filter fun x => x.fromSource n && decide (x.origPos = (l.toNat, k.toNat)) := by
      simp [h1, h2, h3]
    have := hperm.mem_iff.mpr hx
    simp at this
  · intro x hx o ho
    have := hperm.mem_iff.mp (List.mem_map.mpr ⟨x, hx, rfl⟩)
    simp only [List.mem_filter, Bool.and_eq_true, decide_eq_true_eq, Spec.RawMapping.origPos,
      LibMapping.raw, ho, Prod.mk.injEq] at this
    omega

/-- Asked for line 1, column 3, the answer is the segment of line 2 (0-based 1), column 3. -/
example : demoAsk demoMap (fun c => c.allGeneratedPositionFor "one.js" 1 (some 3)) =
    .ok [⟨0, 21, none, some ⟨0, 1, 3, none⟩⟩] := by decide +kernel

/-- C35: an unknown source has no generated positions, and `generated_position_for` finds nothing. -/
theorem C35_unknown (hL : E.maps.Laws) {m : SourceMapJson} {u : Option String}
    {c₀ c : BasicConsumer E} (h : Built m u c₀) {ops : List Op} (hrun : c₀.run ops = .ok c)
    (hlen : c.getSources.length < 2147483648) {s : String} (hs : c.Unknown s) (l k : Int)
    (b : Option Bias) :
    (∃ c', c.allGeneratedPositionFor s l (some k) = .ok ([], c')) ∧
    (∃ c', c.generatedPositionFor s l k b = .ok (none, c')) := by
  have hrel := h.rel.run hL hrun
  have hk := (lookup_spec h (by rw [← hrel.getSources]; exact hlen) s).2.2 ((hrel.unknown s).1 hs)
  rcases hrel.find s with ⟨e, h1, _⟩ | ⟨r, q, h1, h2, h3⟩
  · rw [hk] at h1; cases h1
  · rw [hk] at h1; cases h1
    constructor
    · exact ⟨{ c with cache := q }, by simp only [allGeneratedPositionFor, h2, Res.ok_bind, Res.pure_eq]⟩
    · exact ⟨{ c with cache := q }, by simp only [generatedPositionFor, h2, Res.ok_bind, Res.pure_eq]⟩

/-- C35: without a column the query is for column 0. -/
theorem C35_default_column (c : BasicConsumer E) (s : String) (l : Int) :
    c.allGeneratedPositionFor s l none = c.allGeneratedPositionFor s l (some 0) := rfl

/-- Of the two mappings with original line 1 (as the code counts) the one in column 0 is found. -/
example : demoAsk { demoMap with mappings := some "AACA,CAAC" }
      (fun c => c.allGeneratedPositionFor "one.js" 1 none) =
    .ok [{ generatedLine := 0, generatedColumn := 0, lastGeneratedColumn := none,
           original := some { source := 0, line := 1, column := 0, name := none } }] := by decide +kernel

/-! ## C36 -/

/-- C36, generated order: every segment once, sorted by generated position; the call always
returns. -/
theorem C36_each_generated (hL : E.maps.Laws) {m : SourceMapJson} {u : Option String}
    {c₀ c : BasicConsumer E} (h : Built m u c₀) {ops : List Op} (hrun : c₀.run ops = .ok c)
    {raws : List Spec.RawMapping} (hseg : m.Segments raws) :
    ∃ l c', c.eachMapping .generated = .ok (l, c') ∧ (l.map LibMapping.raw).Perm raws ∧
      (l.map LibMapping.raw).Pairwise (fun a b => a.line < b.line ∨ (a.line = b.line ∧ a.column ≤ b.column)) := by
  have hrel := h.rel.run hL hrun
  have hmap : c₀.sourceMap = m := by obtain ⟨_, _, _, _, _, _, hm, _⟩ := h.spec; exact hm
  obtain ⟨M₁, hM₁, hperm⟩ := parsed_segments hL (c := c₀) (raws := raws) (by rw [hmap]; exact hseg)
  have hret : ∃ r, c.eachMapping .generated = .ok r := by
    simp only [eachMapping]
    cases hm : c.mappings with
    | some M => exact ⟨_, rfl⟩
    | none =>
      obtain ⟨t, h1, h2, h3⟩ := hseg
      obtain ⟨M, h4, _⟩ := hL.parse _ _ h2 h3
      have : c.parseMappings = .ok (some M) := by
        simp [parseMappings, hrel.map, hmap, h1, h4, unwrap]
      simp only [this, Res.ok_bind, iterate]
      exact ⟨_, rfl⟩
  obtain ⟨⟨l, c'⟩, hr⟩ := hret
  refine ⟨l, c', hr, ?_⟩
  rcases each_ok hrel hr with ⟨t, h1, h2, _⟩ | ⟨M, M₀, M', h1, h2, h3, _⟩
  · simp [BasicConsumer.parsed, h1, h2, unwrap] at hM₁
  · rw [hM₁] at h1; cases h1
    simp only [iterate, Except.ok.injEq, Prod.mk.injEq] at h3
    have hcore : l.map LibMapping.raw = E.maps.core M := by rw [← h3.1]; rfl
    rw [hcore]
    refine ⟨by rw [h2]; exact hperm, (hL.sorted M).imp ?_⟩
    intro a b hab
    simpa [Spec.RawMapping.genLe] using hab

/-- C36, original order: exactly the segments with an original, sorted by source, line and column. -/
theorem C36_each_original (hL : E.maps.Laws) {m : SourceMapJson} {u : Option String}
    {c₀ c : BasicConsumer E} (h : Built m u c₀) {ops : List Op} (hrun : c₀.run ops = .ok c)
    {raws : List Spec.RawMapping} (hseg : m.Segments raws) :
    (∀ l c', c.eachMapping .original = .ok (l, c') →
      (l.map LibMapping.raw).Perm (raws.filter (·.original.isSome)) ∧
      (l.map LibMapping.raw).Pairwise fun a b => ∀ x y, a.original = some x → b.original = some y →
        x.source < y.source ∨ (x.source = y.source ∧
          (x.line < y.line ∨ (x.line = y.line ∧ x.column ≤ y.column)))) ∧
    (E.maps.Total → ∃ r, c.eachMapping .original = .ok r) := by
  have hrel := h.rel.run hL hrun
  have hmap : c₀.sourceMap = m := by obtain ⟨_, _, _, _, _, _, hm, _⟩ := h.spec; exact hm
  obtain ⟨M₁, hM₁, hperm⟩ := parsed_segments hL (c := c₀) (raws := raws) (by rw [hmap]; exact hseg)
  constructor
  · intro l c' hr
    rcases each_ok hrel hr with ⟨t, h1, h2, _⟩ | ⟨M, M₀, M', h1, h2, h3, _⟩
    · simp [BasicConsumer.parsed, h1, h2, unwrap] at hM₁
    · rw [hM₁] at h1; cases h1
      obtain ⟨h4, h5⟩ := hL.byOrig _ _ _ h3
      rw [h2] at h4
      refine ⟨h4.trans (hperm.filter _), h5.imp ?_⟩
      intro a b hab x y hx hy
      simp only [Spec.RawMapping.origLe, hx, hy, decide_eq_true_eq] at hab
      exact hab
  · intro hT
    simp only [eachMapping]
    cases hm : c.mappings with
    | some M =>
      obtain ⟨⟨x, M'⟩, hx⟩ := hT.byOrig M
      simp only [iterate, hx, Res.ok_bind]
      exact ⟨_, rfl⟩
    | none =>
      obtain ⟨t, h1, h2, h3⟩ := hseg
      obtain ⟨M, h4, _⟩ := hL.parse _ _ h2 h3
      have : c.parseMappings = .ok (some M) := by
        simp [parseMappings, hrel.map, hmap, h1, h4, unwrap]
      obtain ⟨⟨x, M'⟩, hx⟩ := hT.byOrig M
      simp only [this, Res.ok_bind, iterate, hx]
      exact ⟨_, rfl⟩

example : (demoAsk demoMap (fun c => c.eachMapping .original)).map (List.map LibMapping.raw) = .ok demoRaws := by
  decide +kernel

theorem undecodable_none (hL : E.maps.Laws) {m : SourceMapJson} {u : Option String}
    {c₀ c : BasicConsumer E} (h : Built m u c₀) {ops : List Op} (hrun : c₀.run ops = .ok c)
    {t : String} (ht : m.mappings = some t) (hbad : E.maps.parse t.toList = none) :
    c.sourceMap = m ∧ c.mappings = none ∧ c.computedColumnSpans = false ∧ c.ensureMappings = .error .unwrap := by
  have hrel := h.rel.run hL hrun
  have hmap : c₀.sourceMap = m := by obtain ⟨_, _, _, _, _, _, hm, _⟩ := h.spec; exact hm
  have hp : c₀.parsed = .error .unwrap := by
    simp [BasicConsumer.parsed, hmap, ht, hbad, unwrap]
  have hm : c.mappings = none := by
    cases hm : c.mappings with
    | none => rfl
    | some M =>
      obtain ⟨M₀, h1, _⟩ := hrel.mappings M hm
      rw [hp] at h1; cases h1
  refine ⟨hrel.map.trans hmap, hm, ?_, ?_⟩
  · cases hc : c.computedColumnSpans with
    | false => rfl
    | true => exact absurd hm (hrel.spans hc)
  · rcases hrel.ensure with ⟨e, he, h2⟩ | ⟨M, _, he, _⟩
    · rw [hp] at he; cases he; exact h2
    · rw [hp] at he; cases he

/-- C36, undecodable mappings: nothing is visited, nothing panics, nothing changes. -/
theorem C36_each_undecodable (hL : E.maps.Laws) {m : SourceMapJson} {u : Option String}
    {c₀ c : BasicConsumer E} (h : Built m u c₀) {ops : List Op} (hrun : c₀.run ops = .ok c)
    {t : String} (ht : m.mappings = some t) (hbad : E.maps.parse t.toList = none) (ord : IterOrd) :
    c.eachMapping ord = .ok ([], c) := by
  obtain ⟨h1, h2, _⟩ := undecodable_none hL h hrun ht hbad
  simp [eachMapping, h2, parseMappings, h1, ht, unwrap, hbad]

example : demoAsk { demoMap with mappings := some "A!" } (fun c => c.eachMapping .generated) = .ok [] := by decide +kernel

/-! ## C37 -/

theorem missing_none (hL : E.maps.Laws) {m : SourceMapJson} {u : Option String}
    {c₀ c : BasicConsumer E} (h : Built m u c₀) {ops : List Op} (hrun : c₀.run ops = .ok c)
    (ht : m.mappings = none) :
    c.sourceMap = m ∧ c.mappings = none ∧ c.computedColumnSpans = false ∧ c.ensureMappings = .error .unwrap := by
  have hrel := h.rel.run hL hrun
  have hmap : c₀.sourceMap = m := by obtain ⟨_, _, _, _, _, _, hm, _⟩ := h.spec; exact hm
  have hp : c₀.parsed = .error .unwrap := by
    simp [BasicConsumer.parsed, hmap, ht, unwrap]
  have hm : c.mappings = none := by
    cases hm : c.mappings with
    | none => rfl
    | some M =>
      obtain ⟨M₀, h1, _⟩ := hrel.mappings M hm
      rw [hp] at h1; cases h1
  refine ⟨hrel.map.trans hmap, hm, ?_, ?_⟩
  · cases hc : c.computedColumnSpans with
    | false => rfl
    | true => exact absurd hm (hrel.spans hc)
  · rcases hrel.ensure with ⟨e, he, h2⟩ | ⟨M, _, he, _⟩
    · rw [hp] at he; cases he; exact h2
    · rw [hp] at he; cases he

/-- C37: on undecodable or missing mappings every in-range lookup panics, and so does
`compute_column_spans`. -/
theorem C37_lookups_panic (hL : E.maps.Laws) {m : SourceMapJson} {u : Option String}
    {c₀ c : BasicConsumer E} (h : Built m u c₀) {ops : List Op} (hrun : c₀.run ops = .ok c)
    (hbad : ∀ t, m.mappings = some t → E.maps.parse t.toList = none) {l k : Int} (hpos : 1 ≤ l ∧ 0 ≤ k)
    (b : Option Bias) :
    c.originalPositionFor ⟨l, k⟩ b = .error .unwrap ∧ c.computeColumnSpans = .error .unwrap ∧
    ∀ s n, c.Knows s n → c.getSources.length < 2147483648 →
      c.generatedPositionFor s l k b = .error .unwrap ∧
      c.allGeneratedPositionFor s l (some k) = .error .unwrap := by
  have hrel := h.rel.run hL hrun
  obtain ⟨h1, h2, h3, h4⟩ : c.sourceMap = m ∧ c.mappings = none ∧ c.computedColumnSpans = false ∧
      c.ensureMappings = .error .unwrap := by
    cases ht : m.mappings with
    | none => exact missing_none hL h hrun ht
    | some t => exact undecodable_none hL h hrun ht (hbad t ht)
  have hc : checkPosition l k = .ok () := by
    simp only [checkPosition]; rw [if_neg (by omega), if_neg (by omega)]
  refine ⟨?_, ?_, ?_⟩
  · simp only [originalPositionFor, hc, h4, Res.ok_bind, Res.error_bind]
  · simp only [computeColumnSpans, h3, h4, Res.error_bind, Bool.false_eq_true, if_false]
  · intro s n hs hlen
    have hk := ((lookup_spec h (by rw [← hrel.getSources]; exact hlen) s).1 n).2 ⟨n, rfl, (hrel.knows s n).1 hs⟩
    rcases hrel.find s with ⟨e, h5, _⟩ | ⟨r, q, h5, h6, _⟩
    · rw [hk] at h5; cases h5
    · rw [hk] at h5; cases h5
      have h7 : BasicConsumer.ensureMappings { c with cache := q } = .error .unwrap := h4
      refine ⟨?_, ?_⟩
      · simp only [generatedPositionFor, h6, Res.ok_bind, hc, h7, Res.error_bind]
      · simp only [allGeneratedPositionFor, h6, Res.ok_bind, Option.getD_some]
        rw [if_neg (by omega)]
        simp only [hc, h7, Res.ok_bind, Res.error_bind]

example : demoAsk { demoMap with mappings := some "A!" } (fun c => c.originalPositionFor ⟨1, 0⟩ none) = .error .unwrap := by
  decide +kernel

/-- C37: without a `mappings` field `each_mapping` panics as well. -/
theorem C37_each_missing (hL : E.maps.Laws) {m : SourceMapJson} {u : Option String}
    {c₀ c : BasicConsumer E} (h : Built m u c₀) {ops : List Op} (hrun : c₀.run ops = .ok c)
    (ht : m.mappings = none) (ord : IterOrd) : c.eachMapping ord = .error .unwrap := by
  obtain ⟨h1, h2, _⟩ := missing_none hL h hrun ht
  simp [eachMapping, h2, parseMappings, h1, ht, unwrap]

/-! ## C38 -/

theorem step_spans {c c' : BasicConsumer E} {op : Op} {a : Ans} (h : c.step op = .ok (a, c'))
    {c₀ : BasicConsumer E} (hrel : Rel c₀ c)
    (hs : c.computedColumnSpans = true) : c'.computedColumnSpans = true := by
  cases op with
  | content s p =>
    simp only [BasicConsumer.step, Res.bind_eq_ok, Res.pure_eq, Except.ok.injEq, Prod.mk.injEq] at h
    obtain ⟨⟨r, c1⟩, hr, -, rfl⟩ := h
    rcases content_ok hrel hr with ⟨_, _, rfl⟩ | ⟨_, _, _, _, _, h3, rfl, _⟩ <;> exact hs
  | original p b =>
    simp only [BasicConsumer.step, Res.bind_eq_ok, Res.pure_eq, Except.ok.injEq, Prod.mk.injEq] at h
    obtain ⟨⟨r, c1⟩, hr, -, rfl⟩ := h
    obtain ⟨_, line, M, M₀, x, M', h1, h2, _, h3, _, rfl⟩ := original_ok hrel hr
    exact hs
  | generated s l k b =>
    simp only [BasicConsumer.step, Res.bind_eq_ok, Res.pure_eq, Except.ok.injEq, Prod.mk.injEq] at h
    obtain ⟨⟨r, c1⟩, hr, -, rfl⟩ := h
    obtain ⟨i, q, _, h1, h2⟩ := generated_ok hrel hr
    rcases h2 with ⟨_, _, rfl⟩ | ⟨i', line, M, M₀, x, M', _, _, h3, h4, _, h5, _, rfl⟩ <;> exact hs
  | all s l k =>
    simp only [BasicConsumer.step, Res.bind_eq_ok, Res.pure_eq, Except.ok.injEq, Prod.mk.injEq] at h
    obtain ⟨⟨r, c1⟩, hr, -, rfl⟩ := h
    obtain ⟨i, q, _, h1, h2⟩ := all_ok hrel hr
    rcases h2 with ⟨_, _, rfl⟩ | ⟨i', M, M₀, M', _, _, _, h3, h4, h5, rfl⟩ <;> exact hs
  | each o =>
    simp only [BasicConsumer.step, Res.bind_eq_ok, Res.pure_eq, Except.ok.injEq, Prod.mk.injEq] at h
    obtain ⟨⟨r, c1⟩, hr, -, rfl⟩ := h
    rcases each_ok hrel hr with ⟨_, _, _, _, rfl⟩ | ⟨M, M₀, M', h1, h2, h3, rfl⟩ <;> exact hs
  | spans =>
    simp only [BasicConsumer.step, Res.bind_eq_ok, Res.pure_eq, Except.ok.injEq, Prod.mk.injEq] at h
    obtain ⟨c1, hr, -, rfl⟩ := h
    rcases spans_ok hrel hr with ⟨_, rfl⟩ | ⟨M, M₀, M', h1, h2, h3, rfl⟩
    · exact hs
    · rfl

theorem run_spans (hL : E.maps.Laws) {c₀ : BasicConsumer E} : ∀ {ops : List Op} {c c' : BasicConsumer E},
    Rel c₀ c → c.run ops = .ok c' → c.computedColumnSpans = true → c'.computedColumnSpans = true := by
  intro ops
  induction ops with
  | nil => intro c c' _ hr hs; cases hr; exact hs
  | cons op ops ih =>
    intro c c' h hr hs
    simp only [BasicConsumer.run, Res.bind_eq_ok] at hr
    obtain ⟨⟨a, c1⟩, h1, h2⟩ := hr
    exact ih (h.step hL h1) h2 (step_spans h1 h hs)

/-- C38: once `compute_column_spans` has been called, calling it again, after any further calls,
returns and changes nothing. -/
theorem C38_spans_idempotent (hL : E.maps.Laws) {m : SourceMapJson} {u : Option String}
    {c₀ c c₁ c₂ : BasicConsumer E} (h : Built m u c₀) {ops ops' : List Op} (hrun : c₀.run ops = .ok c)
    (hsp : c.computeColumnSpans = .ok c₁) (hrun' : c₁.run ops' = .ok c₂) :
    c₂.computeColumnSpans = .ok c₂ := by
  have hrel := h.rel.run hL hrun
  have hstep : c.step .spans = .ok (.unit, c₁) := by simp [BasicConsumer.step, hsp]
  have h1 : c₁.computedColumnSpans = true := by
    rcases spans_ok hrel hsp with ⟨hs, rfl⟩ | ⟨_, _, _, _, _, _, rfl⟩
    · exact hs
    · rfl
  have h2 := run_spans hL (hrel.step hL hstep) hrun' h1
  simp [computeColumnSpans, h2]

/-- C38: calling it changes no answer, spans apart. -/
theorem C38_spans_transparent (hL : E.maps.Laws) {m : SourceMapJson} {u : Option String}
    {c₀ c c₁ : BasicConsumer E} (h : Built m u c₀) {ops : List Op} (hrun : c₀.run ops = .ok c)
    (hsp : c.computeColumnSpans = .ok c₁) (op : Op) {a b : Ans} {c' c₁' : BasicConsumer E}
    (ha : c.step op = .ok (a, c')) (hb : c₁.step op = .ok (b, c₁')) : a.strip = b.strip := by
  have hrel := h.rel.run hL hrun
  have hstep : c.step .spans = .ok (.unit, c₁) := by simp [BasicConsumer.step, hsp]
  exact hrel.agree hL (hrel.step hL hstep) ha hb

/-- C38, panics included. -/
theorem C38_spans_transparent_total (hL : E.maps.Laws) (hT : E.maps.Total) {m : SourceMapJson}
    {u : Option String} {c₀ c c₁ : BasicConsumer E} (h : Built m u c₀) {ops : List Op}
    (hrun : c₀.run ops = .ok c) (hsp : c.computeColumnSpans = .ok c₁) (op : Op) :
    (c₁.step op).map (fun r => r.1.strip) = (c.step op).map (fun r => r.1.strip) := by
  have hrel := h.rel.run hL hrun
  have hstep : c.step .spans = .ok (.unit, c₁) := by simp [BasicConsumer.step, hsp]
  exact (hrel.step hL hstep).agree_total hL hT hrel op

/-! ## C39 -/

/-- C39: `has_contents_of_all_sources` returns whether there are at least as many contents as
sources. -/
theorem C39_has_contents (hL : E.maps.Laws) {m : SourceMapJson} {u : Option String}
    {c₀ c : BasicConsumer E} (h : Built m u c₀) {ops : List Op} (hrun : c₀.run ops = .ok c) :
    ∃ b, c.hasContentsOfAllSources = .ok b ∧ (b = true ↔
      ∃ contents, m.sourcesContent = some contents ∧ c.getSources.length ≤ contents.length) := by
  obtain ⟨srcs, h1, h2, _⟩ := C28_sources h
  have hrel := h.rel.run hL hrun
  have hmap : c₀.sourceMap = m := by obtain ⟨_, _, _, _, _, _, hm, _⟩ := h.spec; exact hm
  rw [hrel.getSources, h2]
  simp only [hasContentsOfAllSources, hrel.map, hmap]
  cases hc : m.sourcesContent with
  | none => exact ⟨false, rfl, by simp⟩
  | some contents => exact ⟨decide (contents.length ≥ srcs.length), by simp [h1, unwrap], by simp⟩

/-- C39: if it is true, the content of a known source is returned: the one at the index of its first
occurrence among the sources. -/
theorem C39_content (hL : E.maps.Laws) {m : SourceMapJson} {u : Option String}
    {c₀ c : BasicConsumer E} (h : Built m u c₀) {ops : List Op} (hrun : c₀.run ops = .ok c)
    (hlen : c.getSources.length < 2147483648) (hall : c.hasContentsOfAllSources = .ok true)
    {s : String} {n : Nat} (hs : c.Knows s n) (p : Option Bool) :
    ∃ contents t c', m.sourcesContent = some contents ∧ contents[n]? = some t ∧
      c.sourceContentFor s p = .ok (some t, c') := by
  obtain ⟨b, hb, hb'⟩ := C39_has_contents hL h hrun
  rw [hall] at hb
  cases hb
  obtain ⟨contents, hc, hl⟩ := hb'.1 rfl
  have hrel := h.rel.run hL hrun
  have hmap : c₀.sourceMap = m := by obtain ⟨_, _, _, _, _, _, hm, _⟩ := h.spec; exact hm
  have hnlt : n < c.getSources.length := by
    rcases hs with ⟨_, _, hf⟩ | ⟨_, _, _, _, _, hf⟩
    · exact (List.getElem?_eq_some_iff.mp hf.1).1
    · exact (List.getElem?_eq_some_iff.mp hf.1).1
  have hk := ((lookup_spec h (by rw [← hrel.getSources]; exact hlen) s).1 n).2 ⟨n, rfl, (hrel.knows s n).1 hs⟩
  obtain ⟨t, ht⟩ : ∃ t, contents[n]? = some t := ⟨contents[n]'(by omega), List.getElem?_eq_getElem _⟩
  have hu : E.cfg.asUsize (n : Int) = n := by
    unfold Cfg.asUsize; split <;> omega
  rcases hrel.find s with ⟨e, h1, _⟩ | ⟨r, q, h1, h2, h3⟩
  · rw [hk] at h1; cases h1
  · rw [hk] at h1; cases h1
    refine ⟨contents, t, { c with cache := q }, hc, ht, ?_⟩
    simp only [sourceContentFor, hrel.map, hmap, hc, h2, Res.ok_bind, hu, index, ht, Res.pure_eq]

example : demoAsk demoRooted (fun c => c.sourceContentFor "two.js" none) = .ok (some "TWO") := by decide +kernel

/-- C39, whatever the number of contents: the content of a known source is the one at the index of
its first occurrence among the sources; if the list of contents ends before it the call panics, also
when asked not to panic on a missing source. -/
theorem C39_content_at (hL : E.maps.Laws) {m : SourceMapJson} {u : Option String}
    {c₀ c : BasicConsumer E} (h : Built m u c₀) {ops : List Op} (hrun : c₀.run ops = .ok c)
    (hlen : c.getSources.length < 2147483648) {contents : List String}
    (hc : m.sourcesContent = some contents) {s : String} {n : Nat} (hs : c.Knows s n) (p : Option Bool) :
    (∀ t, contents[n]? = some t → ∃ c', c.sourceContentFor s p = .ok (some t, c')) ∧
    (contents.length ≤ n → c.sourceContentFor s p = .error .index) := by
  have hrel := h.rel.run hL hrun
  have hmap : c₀.sourceMap = m := by obtain ⟨_, _, _, _, _, _, hm, _⟩ := h.spec; exact hm
  have hnlt : n < c.getSources.length := by
    rcases hs with ⟨_, _, hf⟩ | ⟨_, _, _, _, _, hf⟩
    · exact (List.getElem?_eq_some_iff.mp hf.1).1
    · exact (List.getElem?_eq_some_iff.mp hf.1).1
  have hk := ((lookup_spec h (by rw [← hrel.getSources]; exact hlen) s).1 n).2 ⟨n, rfl, (hrel.knows s n).1 hs⟩
  have hu : E.cfg.asUsize (n : Int) = n := by
    unfold Cfg.asUsize; split <;> omega
  rcases hrel.find s with ⟨e, h1, _⟩ | ⟨r, q, h1, h2, h3⟩
  · rw [hk] at h1; cases h1
  · rw [hk] at h1; cases h1
    constructor
    · intro t ht
      refine ⟨{ c with cache := q }, ?_⟩
      simp only [sourceContentFor, hrel.map, hmap, hc, h2, Res.ok_bind, hu, index, ht, Res.pure_eq]
    · intro hle
      have ht : contents[n]? = none := List.getElem?_eq_none hle
      simp only [sourceContentFor, hrel.map, hmap, hc, h2, Res.ok_bind, hu, index, ht]
      rfl

/-- A map with contents for the first source only. -/
example : demoAsk { demoRooted with sourcesContent := some ["ONE"] }
      (fun c => c.sourceContentFor "one.js" none) = .ok (some "ONE") ∧
    demoAsk { demoRooted with sourcesContent := some ["ONE"] }
      (fun c => c.sourceContentFor "two.js" (some false)) = .error .index :=
  ⟨by decide +kernel, by decide +kernel⟩

/-- C39: for an unknown source the call panics or returns `None`, as requested; the default is to
panic. -/
theorem C39_unknown (hL : E.maps.Laws) {m : SourceMapJson} {u : Option String}
    {c₀ c : BasicConsumer E} (h : Built m u c₀) {ops : List Op} (hrun : c₀.run ops = .ok c)
    (hlen : c.getSources.length < 2147483648) {contents : List String}
    (hc : m.sourcesContent = some contents) {s : String} (hs : c.Unknown s) :
    (∃ msg, c.sourceContentFor s none = .error (.explicit msg)) ∧
    (∃ msg, c.sourceContentFor s (some true) = .error (.explicit msg)) ∧
    (∃ c', c.sourceContentFor s (some false) = .ok (none, c')) := by
  have hrel := h.rel.run hL hrun
  have hmap : c₀.sourceMap = m := by obtain ⟨_, _, _, _, _, _, hm, _⟩ := h.spec; exact hm
  have hk := (lookup_spec h (by rw [← hrel.getSources]; exact hlen) s).2.2 ((hrel.unknown s).1 hs)
  rcases hrel.find s with ⟨e, h1, _⟩ | ⟨r, q, h1, h2, h3⟩
  · rw [hk] at h1; cases h1
  · rw [hk] at h1; cases h1
    simp only [sourceContentFor, hrel.map, hmap, hc, h2, Res.ok_bind, Res.pure_eq]
    exact ⟨⟨_, rfl⟩, ⟨_, rfl⟩, ⟨_, rfl⟩⟩

example : demoAsk demoMap (fun c => c.sourceContentFor "three.js" (some false)) = .ok none := by decide +kernel

/-- C39: a map without contents has none for any source. -/
theorem C39_no_contents (hL : E.maps.Laws) {m : SourceMapJson} {u : Option String}
    {c₀ c : BasicConsumer E} (h : Built m u c₀) {ops : List Op} (hrun : c₀.run ops = .ok c)
    (hc : m.sourcesContent = none) (s : String) (p : Option Bool) :
    c.hasContentsOfAllSources = .ok false ∧ c.sourceContentFor s p = .ok (none, c) := by
  have hmap : c.sourceMap = m := by
    obtain ⟨_, _, _, _, _, _, hm, _⟩ := h.spec; exact (h.rel.run hL hrun).map.trans hm
  simp [hasContentsOfAllSources, sourceContentFor, hmap, hc]

end RSM
