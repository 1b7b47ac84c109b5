import Verif.Props.Sources
import Verif.Props.Indexed
import Verif.Props.Json
/-! # Property C64: when `create_consumer` returns -/

namespace RSM
open Spec BasicConsumer

variable {E : Env}

theorem mapM_ok_of {α β : Type} {f : α → Res β} : ∀ {l : List α}, (∀ a ∈ l, ∃ b, f a = .ok b) →
    ∃ bs, l.mapM f = .ok bs
  | [], _ => ⟨[], rfl⟩
  | a :: l, h => by
    obtain ⟨b, hb⟩ := h a (by simp)
    obtain ⟨bs, hbs⟩ := mapM_ok_of (l := l) (f := f) (fun x hx => h x (by simp [hx]))
    exact ⟨b :: bs, by simp only [List.mapM_cons, hb, hbs, Res.ok_bind, Res.pure_eq]⟩

theorem mapM_error_of {α β : Type} {f : α → Res β} : ∀ {l : List α} {a : α}, a ∈ l → (∀ b, f a ≠ .ok b) →
    ∃ e, l.mapM f = .error e
  | x :: l, a, ha, h => by
    rw [List.mapM_cons]
    cases hx : f x with
    | error e => exact ⟨e, rfl⟩
    | ok b =>
      rcases List.mem_cons.1 ha with rfl | ha
      · exact absurd hx (h b)
      · obtain ⟨e, he⟩ := mapM_error_of (l := l) ha h
        exact ⟨e, by simp only [he, Res.ok_bind, Res.error_bind]⟩

/-- The construction panics if the URL of some source cannot be computed. -/
theorem create_error {schedule : List Nat} {raw : Text} {m : SourceMapJson} {u : Option String}
    (hm : fromStr E.json raw = some m) (hsec : m.sections = none) {srcs : List String}
    (hs : m.sources = some srcs) {s : String} (hmem : s ∈ srcs)
    (h : ∀ y, computeSourceUrl E.url (m.sourceRoot.map String.toList) s.toList (u.map String.toList) ≠ .ok y) :
    ∃ e, createConsumer (E := E) schedule raw u = .error e := by
  obtain ⟨e, he⟩ := mapM_error_of (f := fun s => sourceUrl E m.sourceRoot s u) hmem (by
    intro b hb
    simp only [sourceUrl, Res.bind_eq_ok] at hb
    obtain ⟨y, hy, _⟩ := hb
    exact h y hy)
  refine ⟨e, ?_⟩
  simp only [createConsumer, hm, hsec, Option.isSome_none, Bool.false_eq_true, if_false,
    BasicConsumer.fromSourceMapJson, BasicConsumer.build, hs, unwrap, he, Res.ok_bind, Res.error_bind]

/-- C64 is false of the code: a map without `sources` makes `create_consumer` panic instead of returning an
error. -/
theorem C64_missing_sources_refuted (schedule : List Nat) {raw : Text} {m : SourceMapJson} (u : Option String)
    (hm : fromStr E.json raw = some m) (hsec : m.sections = none) (hs : m.sources = none) :
    createConsumer (E := E) schedule raw u = .error .unwrap := by
  simp only [createConsumer, hm, hsec, Option.isSome_none, Bool.false_eq_true, if_false,
    BasicConsumer.fromSourceMapJson, BasicConsumer.build, hs, unwrap, Res.error_bind]

example : createConsumer (E := demoEnv) [] (toStr demoEnv.json { demoMap with sources := none }) none =
    .error .unwrap :=
  C64_missing_sources_refuted [] none (C26_roundtrip_flat_partial _ demo_json _ (by decide) rfl) rfl rfl

theorem normalize_short_ne {U : UrlLib} {s : Text} (h : s.length < 2) (y : Text) : normalize U s ≠ .ok y := by
  rw [normalize_short s h]; intro h; cases h

/-- C64 is false of the code: a source of fewer than two characters makes it panic, and so does a
`sourceRoot` of fewer than two characters, such as the empty one, if there is any source. -/
theorem C64_short_refuted (schedule : List Nat) {raw : Text} {m : SourceMapJson} (u : Option String)
    (hm : fromStr E.json raw = some m) (hsec : m.sections = none) {srcs : List String}
    (hs : m.sources = some srcs)
    (h : (∃ s ∈ srcs, s.length < 2) ∨ (srcs ≠ [] ∧ ∃ r, m.sourceRoot = some r ∧ r.length < 2)) :
    ∃ e, createConsumer (E := E) schedule raw u = .error e := by
  rcases h with ⟨s, hmem, hl⟩ | ⟨hne, r, hr, hl⟩
  · apply create_error hm hsec hs hmem
    intro y
    cases hr : m.sourceRoot with
    | none =>
      intro h
      simp only [Option.map_none, computeSourceUrl, Res.pure_eq, Res.ok_bind, Res.bind_eq_ok] at h
      obtain ⟨z, hz, _⟩ := h
      exact normalize_short_ne (by rw [String.length_toList]; exact hl) z hz
    | some r => exact C55_short _ _ _ (.inr (by rw [String.length_toList]; exact hl)) y
  · obtain ⟨s, hmem⟩ := List.exists_mem_of_ne_nil _ hne
    apply create_error hm hsec hs hmem
    intro y
    rw [hr]
    exact C55_short _ _ _ (.inl (by rw [String.length_toList]; exact hl)) y

/-- The map of the repository's own tests with the empty source root. -/
example : ∃ e, createConsumer (E := demoEnv) []
    (toStr demoEnv.json { demoMap with sourceRoot := some "" }) none = .error e :=
  C64_short_refuted [] none (C26_roundtrip_flat_partial _ demo_json _ (by decide) rfl) rfl rfl
    (.inr ⟨by decide, "", rfl, by decide⟩)

/-- C64 is false of the code: a map URL that is a plain file name, with or without a leading slash, makes it
panic for every map with sources and without `sourceRoot`. -/
theorem C64_bare_url_refuted (hU : E.url.Laws) (schedule : List Nat) {raw : Text} {m : SourceMapJson}
    (hm : fromStr E.json raw = some m) (hsec : m.sections = none) (hroot : m.sourceRoot = none)
    {srcs : List String} (hs : m.sources = some srcs) (hne : srcs ≠ []) {f : Text} (hf : Name f) :
    (∃ e, createConsumer (E := E) schedule raw (some (String.ofList ('/' :: f))) = .error e) ∧
    (2 ≤ f.length → ¬ dotdot <:+: f →
      ∃ e, createConsumer (E := E) schedule raw (some (String.ofList f)) = .error e) := by
  obtain ⟨s, hmem⟩ := List.exists_mem_of_ne_nil _ hne
  constructor
  · apply create_error hm hsec hs hmem
    intro y
    rw [hroot]
    simp only [Option.map_none, Option.map_some, String.toList_ofList]
    exact C57_root_path_refuted hU hf y
  · intro hl hd
    apply create_error hm hsec hs hmem
    intro y
    rw [hroot]
    simp only [Option.map_none, Option.map_some, String.toList_ofList]
    exact C57_bare_name_refuted hU hf hl hd y

example : ∃ e, createConsumer (E := demoEnv) [] (toStr demoEnv.json demoMap) (some "min.js.map") = .error e :=
  (C64_bare_url_refuted demo_url [] (C26_roundtrip_flat_partial _ demo_json _ (by decide) rfl) rfl rfl rfl (by decide)
    (f := "min.js.map".toList) (by decide)).2 (by decide) (by decide)

/-- A source root and a plain source for which the URL is computed: no root and any plain URL; a relative
or absolute path as root and a relative source; any plain root and an absolute URL. -/
inductive Computable : Option Text → Text → Text → Prop
  | plain {s y : Text} : PlainUrl s y → Computable none s y
  | relative (R p : Ref) : R.Valid → p.Valid → 2 ≤ R.text.length → 2 ≤ p.text.length →
      2 ≤ p.norm.text.length → Computable (some R.text) p.text (R.below p).norm.text
  | path (R p : Ref) : R.Valid → p.Valid → R.text ≠ [] → 2 ≤ p.text.length →
      2 ≤ p.norm.text.length → Computable (some ('/' :: R.text)) p.text (resolve [] (R.below p)).text
  | url (R r : Ref) (t : Tail) (o : Origin) (root : Text) : R.Valid → r.Valid → t.Valid → o.Valid →
      ((root = R.text ∧ 2 ≤ R.text.length) ∨ (root = '/' :: R.text ∧ R.text ≠ []) ∨
        (∃ h : Host, h.Valid ∧ root = ['/', '/'] ++ h.text ++ '/' :: R.text) ∨
        ∃ o' : Origin, o'.Valid ∧ root = o'.text ++ '/' :: R.text) →
      Computable (some root) (o.text ++ '/' :: r.text ++ t.text) (o.text ++ (resolve [] r).text ++ t.text)

theorem Computable.compute {U : UrlLib} (hU : U.Laws) {root : Option Text} {s y : Text}
    (h : Computable root s y) : computeSourceUrl U root s none = .ok y := by
  cases h with
  | plain h => rw [source_plain, h.normalize hU]
  | relative R p hR hp hRl hpl hnl => exact C55_relative_root hU hR hp hRl hpl hnl (.inl rfl) (.inl rfl)
  | path R p hR hp hRl hpl hnl => exact C55_absolute_root hU hR hp hRl hpl hnl (.inl rfl) (.inl rfl)
  | url R r t o root hR hr ht ho hroot =>
    rw [C56_source hU hR ho hr ht hroot, source_plain]
    exact normalize_url hU ho hr ht

/-- C64 for plain sources, without a map URL (`_partial`: see the refutations): `create_consumer` returns a
basic consumer whose sources are, in order, the computed URLs. -/
theorem C64_returns_partial (hU : E.url.Laws) (schedule : List Nat) {raw : Text} {m : SourceMapJson}
    (hm : fromStr E.json raw = some m) (hsec : m.sections = none) {srcs urls : List Text}
    (hs : m.sources = some (srcs.map String.ofList))
    (hurl : List.Forall₂ (Computable (m.sourceRoot.map String.toList)) srcs urls) :
    ∃ c : BasicConsumer E, createConsumer schedule raw none = .ok (some (.basic c)) ∧
      c.getSources = urls.map String.ofList := by
  have hmap : (srcs.map String.ofList).mapM (fun s => sourceUrl E m.sourceRoot s none) =
      .ok (urls.map String.ofList) := by
    clear hs hm
    induction hurl with
    | nil => rfl
    | cons h _ ih =>
      simp only [List.map_cons, List.mapM_cons, sourceUrl, Option.map_none, String.toList_ofList, h.compute hU,
        Res.ok_bind, Res.pure_eq] at ih ⊢
      rw [ih]
      rfl
  obtain ⟨c, hc⟩ : ∃ c : BasicConsumer E, BasicConsumer.fromSourceMapJson m none = .ok c := by
    simp only [BasicConsumer.fromSourceMapJson, BasicConsumer.build, hs, unwrap, hmap, Res.ok_bind, Res.pure_eq]
    exact ⟨_, rfl⟩
  refine ⟨c, ?_, ?_⟩
  · simp only [createConsumer, hm, hsec, Option.isSome_none, Bool.false_eq_true, if_false, hc, Res.ok_bind,
      Res.pure_eq]
  · obtain ⟨srcs', urls', h1, h2, _, _, h5, _⟩ := build_ok hc
    rw [hs] at h1
    cases h1
    rw [BasicConsumer.getSources, h5, C07_arrayset_duplicates, Res.ok_inj h2 hmap]

/-- The two sources of the crate's own test map, under a relative root. -/
example : ∃ c : BasicConsumer demoEnv,
    createConsumer [] (toStr demoEnv.json { demoMap with sourceRoot := some "src/lib" }) none = .ok (some (.basic c)) ∧
      c.getSources = ["src/lib/one.js", "src/lib/two.js"] :=
  C64_returns_partial demo_url [] (C26_roundtrip_flat_partial _ demo_json _ (by decide) rfl) rfl
    (srcs := ["one.js".toList, "two.js".toList])
    (urls := ["src/lib/one.js".toList, "src/lib/two.js".toList]) rfl
    (.cons (.relative ⟨["src".toList], "lib".toList⟩ ⟨[], "one.js".toList⟩ (by decide) (by decide) (by decide)
        (by decide) (by decide))
      (.cons (.relative ⟨["src".toList], "lib".toList⟩ ⟨[], "two.js".toList⟩ (by decide) (by decide) (by decide)
        (by decide) (by decide)) .nil))

end RSM
