import Verif.Dep.Demo
import Verif.Props.Consumer
import Verif.Props.UrlJoin
/-! # C58 and C60: looking up the sources of a map

For every URL library satisfying `Verif/Dep/Url.lean` and every mappings library satisfying
`Verif/Dep/Mappings.lean`, after any history of calls.
-/

namespace RSM
open Spec BasicConsumer

/-- A plain URL text and its normal form, for each of the four kinds of URL. -/
inductive PlainUrl : Text → Text → Prop
  | ref (r : Ref) : r.Valid → 2 ≤ r.text.length → PlainUrl r.text r.norm.text
  | path (r : Ref) (t : Tail) : r.Valid → t.Valid → 1 ≤ (r.text ++ t.text).length →
      PlainUrl ('/' :: r.text ++ t.text) ((resolve [] r).text ++ t.text)
  | host (h : Host) (r : Ref) (t : Tail) : h.Valid → r.Valid → t.Valid →
      PlainUrl (['/', '/'] ++ h.text ++ '/' :: r.text ++ t.text) (['/', '/'] ++ h.text ++ (resolve [] r).text ++ t.text)
  | url (o : Origin) (r : Ref) (t : Tail) : o.Valid → r.Valid → t.Valid →
      PlainUrl (o.text ++ '/' :: r.text ++ t.text) (o.text ++ (resolve [] r).text ++ t.text)

section
variable {U : UrlLib} (hU : U.Laws)
include hU

theorem PlainUrl.normalize {s y : Text} (h : PlainUrl s y) : RSM.normalize U s = .ok y := by
  cases h with
  | ref r hr hl =>
    have hne : r.text ≠ [] := by intro h; rw [h] at hl; simp at hl
    have h := normalize_ref hU (t := {}) hr noTail_valid hne (by rw [no_tail]; exact hl)
    rw [no_tail] at h
    simpa using h
  | path r t hr ht hl => exact normalize_path hU hr ht hl
  | host h r t ho hr ht => exact normalize_host hU ho hr ht
  | url o r t ho hr ht => exact normalize_url hU ho hr ht

omit hU in
/-- The normal form is its own normal form. -/
theorem PlainUrl.fixed {s y : Text} (h : PlainUrl s y) (hl : 2 ≤ y.length) : PlainUrl y y := by
  cases h with
  | ref r hr _ =>
    have := PlainUrl.ref r.norm (norm_valid hr) hl
    rwa [norm_norm hr] at this
  | path r t hr ht _ =>
    have hv := resolve_valid (B := []) (by simp) hr
    have := PlainUrl.path ⟨(resolve [] r).dirs, (resolve [] r).file⟩ t (Loc.Valid.ref hv) ht (by
      have e : (resolve [] r).text = '/' :: Ref.text ⟨(resolve [] r).dirs, (resolve [] r).file⟩ := rfl
      rw [e] at hl
      simpa using hl)
    rw [resolve_loc hv] at this
    exact this
  | host h r t ho hr ht =>
    have hv := resolve_valid (B := []) (by simp) hr
    have := PlainUrl.host h ⟨(resolve [] r).dirs, (resolve [] r).file⟩ t ho (Loc.Valid.ref hv) ht
    rw [resolve_loc hv] at this
    exact this
  | url o r t ho hr ht =>
    have hv := resolve_valid (B := []) (by simp) hr
    have := PlainUrl.url o ⟨(resolve [] r).dirs, (resolve [] r).file⟩ t ho (Loc.Valid.ref hv) ht
    rw [resolve_loc hv] at this
    exact this

end

variable {E : Env}

theorem exists_first {l : List String} {t : String} {i : Nat} (h : l[i]? = some t) :
    ∃ n, n ≤ i ∧ IsFirst l t n := by
  induction i using Nat.strong_induction_on with
  | _ i ih =>
    by_cases hj : ∃ j, j < i ∧ l[j]? = some t
    · obtain ⟨j, hj, h'⟩ := hj
      obtain ⟨n, hn, hf⟩ := ih j hj h'
      exact ⟨n, by omega, hf⟩
    · exact ⟨i, le_refl _, h, fun j hj' e => hj ⟨j, hj', e⟩⟩

theorem sourceUrl_plain {s y : Text} (h : normalize E.url s = .ok y) :
    sourceUrl E none (String.ofList s) none = .ok (String.ofList y) := by
  simp only [sourceUrl, Option.map_none, String.toList_ofList, source_plain, h, Res.ok_bind, Res.pure_eq]

/-- What is observed of a known source: its content. -/
def ContentAt (m : SourceMapJson) (c : BasicConsumer E) (s : String) (n : Nat) : Prop :=
  ∀ (contents : List String) (p : Option Bool), m.sourcesContent = some contents →
    c.hasContentsOfAllSources = .ok true →
    ∃ t c', contents[n]? = some t ∧ c.sourceContentFor s p = .ok (some t, c')

theorem contentAt (hL : E.maps.Laws) {m : SourceMapJson} {u : Option String}
    {c₀ c : BasicConsumer E} (h : Built m u c₀) {ops : List Op} (hrun : c₀.run ops = .ok c)
    (hlen : c.getSources.length < 2147483648) {s : String} {n : Nat} (hs : c.Knows s n) : ContentAt m c s n := by
  intro contents p hc hall
  obtain ⟨contents', t, c', h1, h2, h3⟩ := C39_content hL h hrun hlen hall hs p
  rw [hc] at h1
  cases h1
  exact ⟨t, c', h2, h3⟩

theorem stored_none {m : SourceMapJson} {c₀ c : BasicConsumer E} (h : Built m none c₀)
    (hL : E.maps.Laws) {ops : List Op} (hrun : c₀.run ops = .ok c) : c.sourceMapUrl = none := by
  rw [(h.rel.run hL hrun).url]
  rcases h with ⟨raw, _, h⟩ | h
  · simp only [BasicConsumer.new, Res.bind_eq_ok] at h
    obtain ⟨_, _, h⟩ := h
    obtain ⟨_, _, _, _, _, _, _, h⟩ := build_ok h
    exact h
  · obtain ⟨_, _, _, _, _, _, _, h⟩ := build_ok h
    exact h

/-! ## C58 -/

/-- C58, entries of `get_sources()`: every entry that is the normal form of a plain URL is recognised, as
its first occurrence. (Entries are normal forms: C54, C55.) -/
theorem C58_entries (hU : E.url.Laws) (hL : E.maps.Laws) {m : SourceMapJson} {c₀ c : BasicConsumer E}
    (h : Built m none c₀) {ops : List Op} (hrun : c₀.run ops = .ok c)
    (hlen : c.getSources.length < 2147483648) {i : Nat} {s y : Text} (hs : PlainUrl s y) (hl : 2 ≤ y.length)
    (hi : c.getSources[i]? = some (String.ofList y)) :
    ∃ n, n ≤ i ∧ IsFirst c.getSources (String.ofList y) n ∧ c.Knows (String.ofList y) n ∧
      ContentAt m c (String.ofList y) n := by
  obtain ⟨n, hn, hf⟩ := exists_first hi
  have hk : c.Knows (String.ofList y) n := by
    refine .inl ⟨String.ofList y, ?_, hf⟩
    rw [stored_none h hL hrun]
    exact sourceUrl_plain ((hs.fixed hl).normalize hU)
  exact ⟨n, hn, hf, hk, contentAt hL h hrun hlen hk⟩

/-- C58, sources of a map without `sourceRoot`: every entry of `sources`, plain or not, is recognised, as
the first occurrence of its URL. -/
theorem C58_raw (hL : E.maps.Laws) {m : SourceMapJson} {c₀ c : BasicConsumer E}
    (h : Built m none c₀) {ops : List Op} (hrun : c₀.run ops = .ok c)
    (hlen : c.getSources.length < 2147483648) (hroot : m.sourceRoot = none) {srcs : List String}
    (hsrcs : m.sources = some srcs) {i : Nat} {s : String} (hi : srcs[i]? = some s) :
    ∃ t n, c.getSources[i]? = some t ∧ n ≤ i ∧ IsFirst c.getSources t n ∧ c.Knows s n ∧ ContentAt m c s n := by
  obtain ⟨srcs', h1, _, h3⟩ := C28_sources h
  rw [hsrcs] at h1
  cases h1
  obtain ⟨t, h4, h5⟩ := h3 i s hi
  rw [← C28_sources_stable hL h hrun] at h5
  obtain ⟨n, hn, hf⟩ := exists_first h5
  have hk : c.Knows s n := by
    refine .inl ⟨t, ?_, hf⟩
    rw [stored_none h hL hrun]
    rw [hroot] at h4
    exact h4
  exact ⟨t, n, h5, hn, hf, hk, contentAt hL h hrun hlen hk⟩

/-- C58, plain sources of a map with `sourceRoot` (`_partial`): recognised, as the first occurrence of
their URL, if the source read without `sourceRoot` is not the URL of another one. -/
theorem C58_raw_rooted_partial (hU : E.url.Laws) (hL : E.maps.Laws) {m : SourceMapJson} {c₀ c : BasicConsumer E}
    (h : Built m none c₀) {ops : List Op} (hrun : c₀.run ops = .ok c)
    (hlen : c.getSources.length < 2147483648) {srcs : List String}
    (hsrcs : m.sources = some srcs) {i : Nat} {s y : Text} (hs : PlainUrl s y)
    (hi : srcs[i]? = some (String.ofList s)) (hno : String.ofList y ∉ c.getSources) :
    ∃ t n, c.getSources[i]? = some t ∧ n ≤ i ∧ IsFirst c.getSources t n ∧ c.Knows (String.ofList s) n ∧
      ContentAt m c (String.ofList s) n := by
  obtain ⟨srcs', h1, _, h3⟩ := C28_sources h
  rw [hsrcs] at h1
  cases h1
  obtain ⟨t, h4, h5⟩ := h3 i _ hi
  have hmap : c.sourceMap = m := by
    obtain ⟨_, _, _, _, _, _, hm, _⟩ := h.spec; exact (h.rel.run hL hrun).map.trans hm
  rw [← C28_sources_stable hL h hrun] at h5
  obtain ⟨n, hn, hf⟩ := exists_first h5
  have hk : c.Knows (String.ofList s) n := by
    refine .inr ⟨String.ofList y, t, ?_, hno, ?_, hf⟩
    · rw [stored_none h hL hrun]
      exact sourceUrl_plain (hs.normalize hU)
    · rw [stored_none h hL hrun, hmap]
      exact h4
  exact ⟨t, n, h5, hn, hf, hk, contentAt hL h hrun hlen hk⟩

/-- C58 is false of the code under a `sourceRoot`: with root `R` and the sources `p` and `R/p`, looking up
`R/p` finds the source `p`. The two have different URLs. -/
theorem C58_collision_refuted (hU : E.url.Laws) (hL : E.maps.Laws) {D : List Text} {l : Loc}
    (hD : ∀ s ∈ D, Name s) (hDn : D ≠ []) (hl : l.Valid) (hpl : 2 ≤ (pathText l.dirs l.file).length)
    {root source both : Text} (hroot : root = List.intercalate ['/'] D) (hrl : 2 ≤ root.length)
    (hsource : source = pathText l.dirs l.file) (hboth : both = root ++ '/' :: source)
    {m : SourceMapJson} (hm : m.sourceRoot = some (String.ofList root))
    (hsrcs : m.sources = some [String.ofList source, String.ofList both])
    {c₀ c : BasicConsumer E} (h : Built m none c₀) {ops : List Op} (hrun : c₀.run ops = .ok c) :
    c.getSources = [String.ofList both, String.ofList (root ++ '/' :: both)] ∧
    c.Knows (String.ofList both) 0 ∧ ContentAt m c (String.ofList both) 0 := by
  obtain ⟨srcs', h1, hn, h3⟩ := C28_sources h
  rw [hsrcs] at h1
  cases h1
  -- the second source as a location
  obtain ⟨D', d, hDd⟩ : ∃ D' d, D = D' ++ [d] := ⟨_, _, (List.dropLast_append_getLast hDn).symm⟩
  have hbt : both = pathText (D ++ l.dirs) l.file := by
    rw [hboth, hsource, hroot, hDd, intercalate_path]
    simp [pathText]
  have hl2 : Loc.Valid ⟨D ++ l.dirs, l.file⟩ := by
    refine ⟨?_, hl.2⟩
    intro s hs
    rcases List.mem_append.1 hs with h | h
    · exact hD s h
    · exact hl.1 s h
  have hbl : 2 ≤ both.length := by rw [hboth, List.length_append]; omega
  have k1 := (C55_one_slash hU hD hDn hl hpl hroot rfl hsource).1 hrl root (by simp) source (by simp)
  have k2 := (C55_one_slash hU hD hDn hl2 (by rw [← hbt]; exact hbl) hroot rfl hbt).1 hrl root (by simp) both (by simp)
  have hs1 : sourceUrl E m.sourceRoot (String.ofList source) none = .ok (String.ofList both) := by
    simp only [sourceUrl, hm, Option.map_some, Option.map_none, String.toList_ofList, k1, Res.ok_bind, Res.pure_eq, hboth]
  have hs2 : sourceUrl E m.sourceRoot (String.ofList both) none = .ok (String.ofList (root ++ '/' :: both)) := by
    simp only [sourceUrl, hm, Option.map_some, Option.map_none, String.toList_ofList, k2, Res.ok_bind, Res.pure_eq]
  obtain ⟨t1, e1, f1⟩ := h3 0 _ rfl
  obtain ⟨t2, e2, f2⟩ := h3 1 _ rfl
  rw [hs1] at e1
  rw [hs2] at e2
  cases e1
  cases e2
  have hgs : c₀.getSources = [String.ofList both, String.ofList (root ++ '/' :: both)] := by
    match hg : c₀.getSources, hn with
    | [a, b], _ =>
      rw [hg] at f1 f2
      rw [← Option.some.inj f1, ← Option.some.inj f2]
  have hgs' := (C28_sources_stable hL h hrun).trans hgs
  have hk : c.Knows (String.ofList both) 0 := by
    refine .inl ⟨String.ofList both, ?_, ?_⟩
    · rw [stored_none h hL hrun]
      apply sourceUrl_plain
      rw [hbt]
      exact C54_identity hU hl2 (by rw [← hbt]; exact hbl)
    · rw [hgs']; exact ⟨rfl, by intro j hj; omega⟩
  exact ⟨hgs', hk, contentAt hL h hrun (by rw [hgs']; simp) hk⟩

/-- The second source asked for, the content of the first answered. -/
example : demoAsk { demoMap with sourceRoot := some "root", sources := some ["a.js", "root/a.js"] }
    (fun c => c.sourceContentFor "root/a.js" none) = .ok (some "ONE") := by decide +kernel

/-- C58 is false of the code for entries shorter than two characters: looking one up panics, whatever the
map. -/
theorem C58_short_refuted (hL : E.maps.Laws) {m : SourceMapJson} {u : Option String} {c₀ c : BasicConsumer E}
    (h : Built m u c₀) {ops : List Op} (hrun : c₀.run ops = .ok c) {contents : List String}
    (hc : m.sourcesContent = some contents) {s : String} (hs : s.length < 2) (p : Option Bool) :
    c.sourceContentFor s p = .error .unwrap := by
  have hrel := h.rel.run hL hrun
  have hmap : c₀.sourceMap = m := by obtain ⟨_, _, _, _, _, _, hm, _⟩ := h.spec; exact hm
  have hlk : c₀.lookupIndex s = .error .unwrap := by
    have : normalize E.url s.toList = .error .unwrap := normalize_short _ (by rwa [String.length_toList])
    simp only [lookupIndex, sourceUrl, computeSourceUrl, Option.map_none, Res.pure_eq, Res.ok_bind, this, Res.error_bind]
  rcases hrel.find s with ⟨e, h1, h2⟩ | ⟨r, q, h1, h2, h3⟩
  · rw [hlk] at h1; cases h1
    simp only [sourceContentFor, hrel.map, hmap, hc, h2, Res.error_bind]
  · rw [hlk] at h1; cases h1

example : demoAsk demoMap (fun c => c.sourceContentFor "a" (some false)) = .error .unwrap := by decide +kernel

/-! ## C60 -/

/-- C60 for `BasicConsumer::new`: with any map URL, the sources of a map without `sourceRoot` are
recognised. -/
theorem C60_new_partial (hL : E.maps.Laws) {raw : Text} {m : SourceMapJson} (hraw : fromStr E.json raw = some m)
    {u : Option String} {c₀ c : BasicConsumer E} (h : BasicConsumer.new raw u = .ok c₀) {ops : List Op}
    (hrun : c₀.run ops = .ok c) (hlen : c.getSources.length < 2147483648) (hroot : m.sourceRoot = none)
    {srcs : List String} (hsrcs : m.sources = some srcs) {i : Nat} {s : String} (hi : srcs[i]? = some s) :
    ∃ t n, c.getSources[i]? = some t ∧ n ≤ i ∧ IsFirst c.getSources t n ∧ c.Knows s n ∧ ContentAt m c s n := by
  have hb : Built m u c₀ := .inl ⟨raw, hraw, h⟩
  obtain ⟨srcs', h1, _, h3⟩ := C28_sources hb
  rw [hsrcs] at h1
  cases h1
  obtain ⟨t, h4, h5⟩ := h3 i s hi
  rw [← C28_sources_stable hL hb hrun] at h5
  obtain ⟨n, hn, hf⟩ := exists_first h5
  have hst : c.sourceMapUrl = u := by
    rw [(hb.rel.run hL hrun).url]
    simp only [BasicConsumer.new, Res.bind_eq_ok] at h
    obtain ⟨_, _, h⟩ := h
    obtain ⟨_, _, _, _, _, _, _, h⟩ := build_ok h
    exact h
  have hk : c.Knows s n := by
    refine .inl ⟨t, ?_, hf⟩
    rw [hst]
    rw [hroot] at h4
    exact h4
  exact ⟨t, n, h5, hn, hf, hk, contentAt hL hb hrun hlen hk⟩

/-- C60 is false of the code for `from_source_map_json` (`create_consumer`), which forgets the map URL:
none of the map's own relative sources is recognised. -/
theorem C60_create_refuted (hU : E.url.Laws) (hL : E.maps.Laws) {m : SourceMapJson} {o : Origin} {l : Loc}
    (ho : o.Valid) (hl : l.Valid) {c₀ c : BasicConsumer E}
    (h : BasicConsumer.fromSourceMapJson m (some (String.ofList (o.text ++ l.text))) = .ok c₀)
    {ops : List Op} (hrun : c₀.run ops = .ok c) (hroot : m.sourceRoot = none) {ps : List Ref}
    (hps : ∀ p ∈ ps, p.Valid ∧ 2 ≤ p.text.length ∧ 2 ≤ p.norm.text.length)
    (hsrcs : m.sources = some (ps.map fun p => String.ofList p.text)) {p : Ref} (hp : p ∈ ps) :
    c.Unknown (String.ofList p.text) := by
  have hb : Built m (some (String.ofList (o.text ++ l.text))) c₀ := .inr h
  obtain ⟨srcs', h1, hlen, h3⟩ := C28_sources hb
  rw [hsrcs] at h1
  cases h1
  have hst : c.sourceMapUrl = none := by
    rw [(hb.rel.run hL hrun).url]
    obtain ⟨_, _, _, _, _, _, _, h⟩ := build_ok h
    exact h
  have hmap : c.sourceMap = m := by
    obtain ⟨_, _, _, _, _, _, hm, _⟩ := hb.spec; exact (hb.rel.run hL hrun).map.trans hm
  have hgs := C28_sources_stable hL hb hrun
  have hcolon : ∀ t ∈ c.getSources, ':' ∈ t.toList := by
    intro t ht
    rw [hgs] at ht
    obtain ⟨i, hi⟩ := List.mem_iff_getElem?.1 ht
    have hilt : i < ps.length := by
      have := (List.getElem?_eq_some_iff.1 hi).1
      rw [hlen] at this
      simpa using this
    obtain ⟨t', h4, h5⟩ := h3 i (String.ofList (ps[i]).text) (by simp [hilt])
    rw [hi] at h5
    cases h5
    obtain ⟨v1, v2, v3⟩ := hps ps[i] (List.getElem_mem hilt)
    have := C57_actual hU ho hl v1 v2 v3
    simp only [sourceUrl, hroot, Option.map_none, Option.map_some, String.toList_ofList, this, Res.ok_bind,
      Res.pure_eq, Except.ok.injEq] at h4
    subst h4
    rw [String.toList_ofList]
    simp [Origin.text]
  obtain ⟨v1, v2, v3⟩ := hps p hp
  have hnorm : sourceUrl E none (String.ofList p.text) none = .ok (String.ofList p.norm.text) :=
    sourceUrl_plain ((PlainUrl.ref p v1 v2).normalize hU)
  have hnot : String.ofList p.norm.text ∉ c.getSources := by
    intro hm
    have h1 := hcolon _ hm
    rw [String.toList_ofList] at h1
    have h2 := ref_no_colon (norm_valid v1) noTail_valid
    rw [no_tail] at h2
    exact h2 h1
  refine ⟨_, _, ?_, hnot, ?_, hnot⟩
  · rw [hst]; exact hnorm
  · rw [hst, hmap, hroot]; exact hnorm

/-- The map at `http://ex/app.js.map`: its own source is not recognised. -/
example : (do let c ← BasicConsumer.fromSourceMapJson (E := demoEnv) demoMap (some "http://ex/app.js.map")
              let r ← c.sourceContentFor "one.js" (some false)
              pure (c.getSources, r.1) : Res _) = .ok (["http://ex/one.js", "http://ex/two.js"], none) := by
  decide +kernel

end RSM
