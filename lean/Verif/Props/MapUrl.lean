import Verif.Props.Create
/-! # C57 and C64 with a map URL: sources under a source root, located by the URL of the map -/

namespace RSM
open Spec BasicConsumer

/-- What a URL computed without the map URL means in the directories `D` of a map at the origin `o`: a relative
reference is below the directories, a path is at the origin, and an absolute URL is itself. -/
inductive AtMap (o : Origin) (D : List Text) : Text → Text → Prop
  | ref (q : Ref) : q.Valid → 2 ≤ q.norm.text.length → AtMap o D q.norm.text (o.text ++ (resolve D q).text)
  | path (l : Loc) (t : Tail) : l.Valid → t.Valid → 2 ≤ (l.text ++ t.text).length →
      AtMap o D (l.text ++ t.text) (o.text ++ l.text ++ t.text)
  | url (o' : Origin) (l : Loc) (t : Tail) : o'.Valid → l.Valid → t.Valid →
      AtMap o D (o'.text ++ l.text ++ t.text) (o'.text ++ l.text ++ t.text)

theorem source_then_map {U : UrlLib} {root : Option Text} {s y m d : Text}
    (h : computeSourceUrl U root s none = .ok y) (hd : trimFilename U m = .ok d) :
    computeSourceUrl U root s (some m) = joinPaths U d y := by
  cases root with
  | none =>
    simp only [computeSourceUrl, Res.pure_eq, Res.ok_bind] at h ⊢
    cases hn : normalize U s with
    | error e => rw [hn] at h; cases h
    | ok n =>
      rw [hn] at h
      cases h
      simp only [Res.ok_bind, hd]
  | some root =>
    simp only [computeSourceUrl, Res.bind_eq_ok, Res.pure_eq] at h
    obtain ⟨t, h1, s', h2, n, h3, u, h4, h5⟩ := h
    cases h5
    cases h2
    simp only [computeSourceUrl, h1, Res.pure_eq, Res.ok_bind, h3, h4, hd]

section
variable {U : UrlLib} (hU : U.Laws)
include hU

theorem joinPaths_url_path {o : Origin} {R : Ref} {l : Loc} {t : Tail} (ho : o.Valid) (hR : R.Valid) (hl : l.Valid)
    (ht : t.Valid) (hlen : 2 ≤ (l.text ++ t.text).length) :
    joinPaths U (o.text ++ '/' :: R.text) (l.text ++ t.text) = .ok (o.text ++ l.text ++ t.text) := by
  have tR : getUrlType (o.text ++ '/' :: R.text) = .ok .absolute := type_url ho _
  have hr := Loc.Valid.ref hl
  have hlt : l.text = '/' :: Ref.text ⟨l.dirs, l.file⟩ := rfl
  have tp : getUrlType (l.text ++ t.text) = .ok .pathAbsolute := by
    rw [hlt] at hlen ⊢
    exact type_path hr (by simp at hlen ⊢; omega)
  have hd := resolve_valid (B := []) (by simp) (Ref.asDir_valid hR)
  have h5 := withBase_path hU (a := ⟨o, resolve [] R.asDir, {}⟩) ⟨ho, hd, noTail_valid⟩ hr ht
  rw [resolve_loc hl, ← hlt] at h5
  have h7 : o.text ++ (resolve [] R.asDir).text = Addr.text ⟨o, resolve [] R.asDir, {}⟩ := by
    simp only [Addr.text, no_tail]
  have hif : ∀ (a b c : Res Text), (if UrlType.pathAbsolute = .absolute then a
      else if UrlType.absolute = .absolute then b else c) = b := fun _ _ _ => rfl
  rw [joinPaths, tp, Res.ok_bind, tR, Res.ok_bind, ensureDirectory_url hU ho hR, Res.ok_bind, hif, h7, h5]
  rfl

/-- C57 with a source root, for a map at most one directory deep (`_partial`: for deeper maps this is false): the
source under the source root is resolved against the directory of the map. -/
theorem C57_root_partial {o : Origin} {l : Loc} (ho : o.Valid) (hl : l.Valid) (hdepth : l.dirs.length ≤ 1)
    {root : Option Text} {s y z : Text} (hs : Computable root s y) (hy : AtMap o l.dirs y z) :
    computeSourceUrl U root s (some (o.text ++ l.text)) = .ok z := by
  obtain ⟨d, hd, hdj⟩ := trimFilename_url hU ho hl
  have hf : Spec.Plain l.dirs.flatten := by
    rcases flatten_name hl.1 with h | h
    · rw [h]; exact plain_nil
    · exact h.1
  have hR : Ref.Valid ⟨[], l.dirs.flatten⟩ := ⟨by simp, hf⟩
  rw [source_then_map (hs.compute hU) hd, hdj]
  have h1 : Loc.text ⟨[], l.dirs.flatten⟩ = '/' :: Ref.text ⟨[], l.dirs.flatten⟩ := rfl
  rw [h1]
  cases hy with
  | ref q hq hnl =>
    have hnn : q.norm.text ≠ [] := by intro h; rw [h] at hnl; simp at hnl
    have h := C57_shallow_partial hU ho hl (norm_valid hq) hnl (by rw [norm_norm hq]; exact hnl) hdepth
    have hn : normalize U q.norm.text = .ok q.norm.text := by
      have h := normalize_ref hU (t := {}) (norm_valid hq) noTail_valid hnn (by rw [no_tail]; exact hnl)
      rw [no_tail, norm_norm hq] at h
      simpa using h
    rw [source_map hn hd, hdj, h1, resolve_norm hq] at h
    exact h
  | path p t hp ht hlen => exact joinPaths_url_path hU ho hR hp ht hlen
  | url o' p t ho' hp ht =>
    have h0 : getUrlType (o'.text ++ p.text ++ t.text) = .ok .absolute := by
      rw [List.append_assoc]; exact type_url ho' _
    exact (C56_returns hU hR (scheme_of_type h0)).2.2.2 o ho
end

variable {E : Env}

/-- C64 with a map URL (`_partial`: plain URLs of maps at most one directory deep): `create_consumer` returns a
basic consumer whose sources are, in order, the sources resolved against the source root and the map URL. -/
theorem C64_map_url_partial (hU : E.url.Laws) (schedule : List Nat) {raw : Text} {m : SourceMapJson}
    (hm : fromStr E.json raw = some m) (hsec : m.sections = none) {o : Origin} {l : Loc} (ho : o.Valid) (hl : l.Valid)
    (hdepth : l.dirs.length ≤ 1) {srcs urls : List Text} (hs : m.sources = some (srcs.map String.ofList))
    (hurl : List.Forall₂ (fun s z => ∃ y, Computable (m.sourceRoot.map String.toList) s y ∧ AtMap o l.dirs y z)
      srcs urls) :
    ∃ c : BasicConsumer E, createConsumer schedule raw (some (String.ofList (o.text ++ l.text))) =
        .ok (some (.basic c)) ∧ c.getSources = urls.map String.ofList := by
  have hmap : (srcs.map String.ofList).mapM
      (fun s => sourceUrl E m.sourceRoot s (some (String.ofList (o.text ++ l.text)))) =
      .ok (urls.map String.ofList) := by
    clear hs hm
    induction hurl with
    | nil => rfl
    | cons h _ ih =>
      obtain ⟨y, h1, h2⟩ := h
      simp only [List.map_cons, List.mapM_cons, sourceUrl, Option.map_some, String.toList_ofList,
        C57_root_partial hU ho hl hdepth h1 h2, Res.ok_bind, Res.pure_eq] at ih ⊢
      rw [ih]
      rfl
  obtain ⟨c, hc⟩ : ∃ c : BasicConsumer E,
      BasicConsumer.fromSourceMapJson m (some (String.ofList (o.text ++ l.text))) = .ok c := by
    simp only [BasicConsumer.fromSourceMapJson, BasicConsumer.build, hs, unwrap, hmap, Res.ok_bind, Res.pure_eq]
    exact ⟨_, rfl⟩
  refine ⟨c, ?_, ?_⟩
  · simp only [createConsumer, hm, hsec, Option.isSome_none, Bool.false_eq_true, if_false, hc, Res.ok_bind,
      Res.pure_eq]
  · obtain ⟨srcs', urls', h1, h2, _, _, h5, _⟩ := build_ok hc
    rw [hs] at h1
    cases h1
    rw [BasicConsumer.getSources, h5, C07_arrayset_duplicates, Res.ok_inj h2 hmap]

/-- The crate's own test map under a relative root, at a URL. -/
example : ∃ c : BasicConsumer demoEnv,
    createConsumer [] (toStr demoEnv.json { demoMap with sourceRoot := some "../lib" })
      (some "https://example.com/js/app.map") = .ok (some (.basic c)) ∧
      c.getSources = ["https://example.com/lib/one.js", "https://example.com/lib/two.js"] :=
  C64_map_url_partial demo_url [] (C26_roundtrip_flat_partial _ demo_json _ (by decide) rfl) rfl
    (o := ⟨"https".toList, "example.com".toList, none⟩) (l := ⟨["js".toList], "app.map".toList⟩) (by decide +kernel)
    (by decide) (by decide) (srcs := ["one.js".toList, "two.js".toList])
    (urls := ["https://example.com/lib/one.js".toList, "https://example.com/lib/two.js".toList]) rfl
    (.cons ⟨_, .relative ⟨["..".toList], "lib".toList⟩ ⟨[], "one.js".toList⟩ (by decide) (by decide) (by decide)
        (by decide) (by decide), .ref (Ref.below ⟨["..".toList], "lib".toList⟩ ⟨[], "one.js".toList⟩) (by decide)
        (by decide)⟩
      (.cons ⟨_, .relative ⟨["..".toList], "lib".toList⟩ ⟨[], "two.js".toList⟩ (by decide) (by decide) (by decide)
        (by decide) (by decide), .ref (Ref.below ⟨["..".toList], "lib".toList⟩ ⟨[], "two.js".toList⟩) (by decide)
        (by decide)⟩ .nil))

/-- Sources of each kind. -/
example : computeSourceUrl MiniUrl.lib (some "src".toList) "a.js".toList (some "http://h/js/app.map".toList) =
      .ok "http://h/js/src/a.js".toList ∧
    computeSourceUrl MiniUrl.lib (some "/src".toList) "a.js".toList (some "http://h/js/app.map".toList) =
      .ok "http://h/src/a.js".toList ∧
    computeSourceUrl MiniUrl.lib none "/x/a.js".toList (some "http://h/js/app.map".toList) =
      .ok "http://h/x/a.js".toList ∧
    computeSourceUrl MiniUrl.lib (some "src".toList) "http://g/a.js".toList (some "http://h/js/app.map".toList) =
      .ok "http://g/a.js".toList :=
  ⟨by decide +kernel, by decide +kernel, by decide +kernel, by decide +kernel⟩

end RSM
