import Verif.Props.Generator
import Verif.Props.Url
import Verif.Lemmas.Consumer
/-! # Property C63: source contents of a generator with a source root -/

namespace RSM

open Spec

section
variable {U : UrlLib} (hU : U.Laws)
include hU

/-- C63 is false of the code: with a relative source root, recording the content of a relative source
panics, whatever was called before. -/
theorem C63_relative_refuted {R p : Ref} (hR : R.Valid) (hp : p.Valid) (hRl : 2 ≤ R.text.length)
    (hpl : 2 ≤ p.text.length) {g : Generator} (hg : g.sourceRoot = some (String.ofList R.text))
    (content : Option String) :
    g.setSourceContent U (String.ofList p.text) content = .error .unwrap := by
  simp only [Generator.setSourceContent, hg, Generator.contentKey, relativeString, String.toList_ofList,
    C53_references_refuted hU hR hp hRl hpl, Res.error_bind]

/-- C63 is false of the code: likewise with a root and a source that are absolute paths. -/
theorem C63_path_refuted {R p : Ref} (hR : R.Valid) (hp : p.Valid) (hRn : R.text ≠ []) (hpn : p.text ≠ [])
    {g : Generator} (hg : g.sourceRoot = some (String.ofList ('/' :: R.text))) (content : Option String) :
    g.setSourceContent U (String.ofList ('/' :: p.text)) content = .error .unwrap := by
  simp only [Generator.setSourceContent, hg, Generator.contentKey, relativeString, String.toList_ofList,
    C53_paths_refuted hU hR hp hRn hpn, Res.error_bind]

end

example (c : Option String) :
    (Generator.new none (some "src") false).setSourceContent MiniUrl.lib "one.js" c = .error .unwrap ∧
    (Generator.new none (some "/the/root") false).setSourceContent MiniUrl.lib "/the/root/one.js" c = .error .unwrap :=
  ⟨C63_relative_refuted MiniUrl.laws (R := ⟨[], "src".toList⟩) (p := ⟨[], "one.js".toList⟩) (by decide) (by decide)
      (by decide) (by decide) rfl c,
    C63_path_refuted MiniUrl.laws (R := ⟨["the".toList], "root".toList⟩)
      (p := ⟨["the".toList, "root".toList], "one.js".toList⟩) (by decide) (by decide) (by decide) (by decide) rfl c⟩

/-- Serialising looks up every source when some content is recorded. -/
theorem asJson_key {U : UrlLib} {cfg : Cfg} {g g' : Generator} {j : SourceMapJson}
    (h : g.asJson U cfg = .ok (j, g')) (hne : g.sourceContents.isEmpty = false) {s : String}
    (hs : s ∈ g.sources.array) : ∃ k, Generator.contentKey U g.sourceRoot s = .ok k := by
  obtain ⟨sc, _, _, _, h1, _⟩ := asJson_ok h
  simp only [Generator.sourcesContent, hne, Bool.not_false, if_true, Res.bind_eq_ok] at h1
  obtain ⟨cs, h2, _⟩ := h1
  have key : ∀ (l : List String) (cs : List (Option String)),
      Generator.generateSourcesContents U g g.sourceRoot l = .ok cs → s ∈ l →
      ∃ k, Generator.contentKey U g.sourceRoot s = .ok k := by
    intro l
    induction l with
    | nil => intro cs _ hs; cases hs
    | cons x l ih =>
      intro cs h hs
      simp only [Generator.generateSourcesContents, Generator.contentOf, Res.bind_eq_ok, Res.pure_eq,
        Except.ok.injEq] at h
      obtain ⟨_, ⟨k, hk, _⟩, rest, hrest, _⟩ := h
      rcases List.mem_cons.1 hs with rfl | hs
      · exact ⟨k, hk⟩
      · exact ih rest hrest hs
  exact key g.sources.toVec cs h2 hs

/-- C63 is false of the code: as soon as some content is recorded, serialising panics if a mapping has a
relative source, whether content was set for it or not. -/
theorem C63_serialise_refuted {U : UrlLib} (hU : U.Laws) (cfg : Cfg) {R p : Ref} (hR : R.Valid) (hp : p.Valid)
    (hRl : 2 ≤ R.text.length) (hpl : 2 ≤ p.text.length) (file : Option String) (skip : Bool) (ops : List GOp)
    (g : Generator) (h : (Generator.new file (some (String.ofList R.text)) skip).run U cfg ops = .ok g)
    (m : Mapping) (hm : m ∈ gAdded ops) (hs : m.source = some (String.ofList p.text))
    (hne : g.sourceContents.isEmpty = false) : ∃ e, g.asJson U cfg = .error e := by
  cases hj : g.asJson U cfg with
  | error e => exact ⟨e, rfl⟩
  | ok r =>
    obtain ⟨_, h2, _, h4, _⟩ := gRun_new h
    obtain ⟨k, hk⟩ := asJson_key hj hne (s := String.ofList p.text) (by
      rw [h4, tableOf_array, mem_firstOccurrences, List.mem_filterMap]
      exact ⟨m, hm, hs⟩)
    rw [h2] at hk
    simp only [Generator.contentKey, relativeString, String.toList_ofList,
      C53_references_refuted hU hR hp hRl hpl, Res.error_bind, reduceCtorEq] at hk

/-- A history of calls that all return, after which serialising panics. -/
example : ∃ g, (Generator.new none (some "src") false).run MiniUrl.lib ⟨true, true⟩
    [.setContent "/lib/x.js" (some "x"), .add gxR] = .ok g ∧ g.sourceContents.isEmpty = false ∧
    ∃ e, g.asJson MiniUrl.lib ⟨true, true⟩ = .error e := by
  have h : (Generator.new none (some "src") false).setSourceContent MiniUrl.lib "/lib/x.js" (some "x") =
      .ok { Generator.new none (some "src") false with sourceContents := HMap.empty.insert "/lib/x.js" "x" } := by
    have : Generator.contentKey MiniUrl.lib (some "src") "/lib/x.js" = .ok "/lib/x.js" := by decide +kernel
    simp only [Generator.setSourceContent, Generator.new, this, Res.ok_bind, Res.pure_eq]
  obtain ⟨g, hg⟩ : ∃ g, (Generator.new none (some "src") false).run MiniUrl.lib ⟨true, true⟩
      [.setContent "/lib/x.js" (some "x"), .add gxR] = .ok g :=
    ⟨_, by simp only [Generator.run, Generator.step, h, Res.ok_bind]; rfl⟩
  have he : g.sourceContents.isEmpty = false := by
    simp only [Generator.run, Generator.step, h, Res.ok_bind, Res.bind_eq_ok] at hg
    obtain ⟨g1, h1, h2⟩ := hg
    obtain ⟨l, _, rfl⟩ := addMapping_ok h1
    cases h2
    rfl
  exact ⟨g, hg, he, C63_serialise_refuted MiniUrl.laws ⟨true, true⟩ (R := ⟨[], "src".toList⟩)
    (p := ⟨[], "a.js".toList⟩) (by decide) (by decide) (by decide) (by decide) none false _ g hg gxR
    (by decide) (by decide) he⟩

/-! ## Absolute URLs as roots -/

/-- A source that is a plain absolute URL: on another host than the root, or on the same host and not the
file that an ancestor directory of the root would be. -/
def UrlSource (o : Origin) (R : List Text) (s : String) : Prop :=
  ∃ (o' : Origin) (l : Loc), o'.Valid ∧ l.Valid ∧ s = String.ofList (o'.text ++ l.text) ∧
    (o' = o → l.file = [] ∨ ¬ l.dirs ++ [l.file] <+: R)

/-- The key as a function. -/
def keyOf (U : UrlLib) (root : String) (s : String) : String :=
  match Generator.contentKey U (some root) s with
  | .ok k => k
  | .error _ => s

theorem origin_colon {o : Origin} (ho : o.Valid) : ':' ∈ o.text := by
  obtain ⟨s, h⟩ := o
  simp only [Origin.text, List.mem_append]
  exact .inl (.inr (by decide))

/-- The text of a plain reference determines it. -/
theorem ref_text_inj {r s : Ref} (hr : r.Valid) (hs : s.Valid) (h : r.text = s.text) : r = s := by
  have h1 := splitChar_pathText r.dirs r.file (fun x hx => Plain.no_slash (hr.1 x hx).1) (Plain.no_slash hr.2)
  have h2 := splitChar_pathText s.dirs s.file (fun x hx => Plain.no_slash (hs.1 x hx).1) (Plain.no_slash hs.2)
  have h3 : pathText r.dirs r.file = pathText s.dirs s.file := h
  rw [h3, h2] at h1
  obtain ⟨e1, e2⟩ := List.append_inj' h1 rfl
  simp only [List.cons.injEq, and_true] at e2
  cases r; cases s; simp_all

section
variable {U : UrlLib} (hU : U.Laws)
include hU

/-- With an absolute URL as root the key exists. -/
theorem url_key {o : Origin} {R : List Text} (ho : o.Valid) (hR : ∀ s ∈ R, Name s) {s : String}
    (hs : UrlSource o R s) : Generator.contentKey U (some (String.ofList (o.text ++ Loc.text ⟨R, []⟩))) s =
      .ok (keyOf U (String.ofList (o.text ++ Loc.text ⟨R, []⟩)) s) := by
  obtain ⟨o', l, ho', hl, rfl, hanc⟩ := hs
  have h := C51_relative hU ho hR ho' hl
  have : ∃ k, Generator.contentKey U (some (String.ofList (o.text ++ Loc.text ⟨R, []⟩)))
      (String.ofList (o'.text ++ l.text)) = .ok k := by
    by_cases e : o' = o
    · obtain ⟨r, _, _, h3⟩ := h.1 e (hanc e)
      exact ⟨String.ofList r.text, by simp only [Generator.contentKey, relativeString, String.toList_ofList, h3,
        Res.ok_bind, Res.pure_eq]⟩
    · exact ⟨String.ofList (o'.text ++ l.text), by simp only [Generator.contentKey, relativeString,
        String.toList_ofList, h.2 e, Res.ok_bind, Res.pure_eq]⟩
  obtain ⟨k, hk⟩ := this
  rw [keyOf, hk]

/-- Different sources have different keys. -/
theorem url_key_inj {o : Origin} {R : List Text} (ho : o.Valid) (hR : ∀ s ∈ R, Name s) {s t : String}
    (hs : UrlSource o R s) (ht : UrlSource o R t)
    (h : keyOf U (String.ofList (o.text ++ Loc.text ⟨R, []⟩)) s =
      keyOf U (String.ofList (o.text ++ Loc.text ⟨R, []⟩)) t) : s = t := by
  have hks := url_key hU ho hR hs
  have hkt := url_key hU ho hR ht
  rw [h] at hks
  obtain ⟨k, hk⟩ : ∃ k, k = keyOf U (String.ofList (o.text ++ Loc.text ⟨R, []⟩)) t := ⟨_, rfl⟩
  rw [← hk] at hks hkt
  obtain ⟨o₁, l₁, ho₁, hl₁, rfl, hanc₁⟩ := hs
  obtain ⟨o₂, l₂, ho₂, hl₂, rfl, hanc₂⟩ := ht
  simp only [Generator.contentKey, relativeString, String.toList_ofList, Res.bind_eq_ok, Res.pure_eq,
    Except.ok.injEq] at hks hkt
  obtain ⟨k₁, hk₁, e₁⟩ := hks
  obtain ⟨k₂, hk₂, e₂⟩ := hkt
  have e : k₁ = k₂ := String.ofList_injective (e₁.trans e₂.symm)
  subst e
  have c₁ := C51_relative hU ho hR ho₁ hl₁
  have c₂ := C51_relative hU ho hR ho₂ hl₂
  by_cases d₁ : o₁ = o <;> by_cases d₂ : o₂ = o
  · obtain ⟨r₁, v₁, q₁, p₁⟩ := c₁.1 d₁ (hanc₁ d₁)
    obtain ⟨r₂, v₂, q₂, p₂⟩ := c₂.1 d₂ (hanc₂ d₂)
    have x₁ := Res.ok_inj hk₁ p₁
    have x₂ := Res.ok_inj hk₂ p₂
    have : r₁ = r₂ := ref_text_inj v₁ v₂ (x₁.symm.trans x₂)
    rw [d₁, d₂, ← q₁, ← q₂, this]
  · obtain ⟨r₁, v₁, _, p₁⟩ := c₁.1 d₁ (hanc₁ d₁)
    have x₁ := Res.ok_inj hk₁ p₁
    have x₂ := Res.ok_inj hk₂ (c₂.2 d₂)
    have := ref_no_colon v₁ noTail_valid
    rw [no_tail, ← x₁, x₂] at this
    exact absurd (List.mem_append.2 (.inl (origin_colon ho₂))) this
  · obtain ⟨r₂, v₂, _, p₂⟩ := c₂.1 d₂ (hanc₂ d₂)
    have x₂ := Res.ok_inj hk₂ p₂
    have x₁ := Res.ok_inj hk₁ (c₁.2 d₁)
    have := ref_no_colon v₂ noTail_valid
    rw [no_tail, ← x₂, x₁] at this
    exact absurd (List.mem_append.2 (.inl (origin_colon ho₁))) this
  · have x₁ := Res.ok_inj hk₁ (c₁.2 d₁)
    have x₂ := Res.ok_inj hk₂ (c₂.2 d₂)
    rw [← x₁, ← x₂]

/-- C63 for a root that is no URL and a source of another kind (`_partial`): the content is kept under the
normalised source. -/
theorem C63_other_kind_partial {R p : Ref} (hR : R.Valid) (hp : p.Valid) :
    (2 ≤ R.text.length → p.text ≠ [] → Generator.contentKey U (some (String.ofList R.text))
      (String.ofList ('/' :: p.text)) = .ok (String.ofList (resolve [] p).text)) ∧
    (R.text ≠ [] → 2 ≤ p.text.length → Generator.contentKey U (some (String.ofList ('/' :: R.text)))
      (String.ofList p.text) = .ok (String.ofList p.norm.text)) := by
  have len : ∀ {t : Text}, 2 ≤ t.length → t ≠ [] := by rintro t h rfl; simp at h
  constructor
  · intro hl hn
    have t1 := type_ref hR noTail_valid (len hl) (by rw [no_tail]; exact hl)
    have t2 := type_path (t := {}) hp (by rw [no_tail]; exact List.length_pos_iff.2 hn)
    have n2 := normalize_path hU (t := {}) hp noTail_valid (by rw [no_tail]; exact List.length_pos_iff.2 hn)
    rw [no_tail] at t1 t2 n2
    simp only [no_tail] at n2
    simp only [Generator.contentKey, relativeString, String.toList_ofList, relative, replaceIfPossible, t1, t2,
      Res.ok_bind, ne_eq, reduceCtorEq, not_false_eq_true, if_true, Res.pure_eq, n2]
  · intro hn hl
    have t1 := type_path (t := {}) hR (by rw [no_tail]; exact List.length_pos_iff.2 hn)
    have t2 := type_ref hp noTail_valid (len hl) (by rw [no_tail]; exact hl)
    have n2 := normalize_ref hU hp noTail_valid (len hl) (by rw [no_tail]; exact hl)
    rw [no_tail] at t1 t2 n2
    simp only [Option.getD_none, List.append_nil] at n2
    simp only [Generator.contentKey, relativeString, String.toList_ofList, relative, replaceIfPossible, t1, t2,
      Res.ok_bind, ne_eq, reduceCtorEq, not_false_eq_true, if_true, Res.pure_eq, n2]

end

example : Generator.contentKey MiniUrl.lib (some "/the/root") "a/../one.js" = .ok "one.js" :=
  (C63_other_kind_partial MiniUrl.laws (R := ⟨["the".toList], "root".toList⟩)
    (p := ⟨["a".toList, "..".toList], "one.js".toList⟩) (by decide) (by decide)).2 (by decide) (by decide)

theorem latestContent_congr {key : String → String} {s : String} : ∀ {ops : List GOp},
    (∀ t v, GOp.setContent t v ∈ ops → (key t = key s ↔ t = s)) →
    latestContent key s ops = latestContent id s ops := by
  intro ops h
  unfold latestContent
  generalize (none : Option String) = acc
  induction ops generalizing acc with
  | nil => rfl
  | cons op ops ih =>
    have ih := ih (fun t v hv => h t v (by simp [hv]))
    cases op with
    | add m => exact ih acc
    | asJson => exact ih acc
    | setContent t c =>
      simp only [List.foldl_cons, id_eq, h t c (by simp)]
      exact ih _

theorem latestContent_mem {key : String → String} {s : String} {ops : List GOp}
    (h : latestContent key s ops ≠ none) : ∃ t v, GOp.setContent t v ∈ ops ∧ key t = key s := by
  unfold latestContent at h
  by_contra hno
  have key2 : ∀ (ops : List GOp), (∀ t v, GOp.setContent t v ∈ ops → key t ≠ key s) →
      ops.foldl (fun acc op => match op with
        | .setContent t c => if key t = key s then c else acc
        | _ => acc) (none : Option String) = none := by
    intro ops
    induction ops with
    | nil => intro _; rfl
    | cons op ops ih =>
      intro h
      have ih := ih (fun t v hv => h t v (by simp [hv]))
      cases op with
      | add m => exact ih
      | asJson => exact ih
      | setContent t c =>
        simp only [List.foldl_cons, h t c (by simp), if_false]
        exact ih
  exact h (key2 ops fun t v hv e => hno ⟨t, v, hv, e⟩)

/-- C63 for a root that is an absolute URL of a directory (`_partial`: other roots are missing, see the
refutations): every call returns and the contents emitted are those of the latest call for each source,
exactly as without a root (C22). -/
theorem C63_url_root_partial {U : UrlLib} (hU : U.Laws) (cfg : Cfg) {o : Origin} {R : List Text} (ho : o.Valid)
    (hR : ∀ s ∈ R, Name s) (file : Option String) (skip : Bool) (ops : List GOp)
    (hc : ∀ t v, GOp.setContent t v ∈ ops → UrlSource o R t)
    (hs : ∀ m ∈ gAdded ops, ∀ s, m.source = some s → UrlSource o R s)
    (hval : ∀ m ∈ gAdded ops, m.Valid ∧ 1 ≤ m.generated.line) (hlen : (gAdded ops).length < 2147483648) :
    ∃ g j g', (Generator.new file (some (String.ofList (o.text ++ Loc.text ⟨R, []⟩))) skip).run U cfg ops = .ok g ∧
      g.asJson U cfg = .ok (j, g') ∧
      ((∃ s, latestContent id s ops ≠ none) → j.sourcesContent =
        some ((firstOccurrences ((gAdded ops).filterMap Mapping.source)).filterMap
          fun s => latestContent id s ops)) ∧
      ((∀ s, latestContent id s ops = none) → j.sourcesContent = none) := by
  obtain ⟨root, hroot⟩ : ∃ root, root = String.ofList (o.text ++ Loc.text ⟨R, []⟩) := ⟨_, rfl⟩
  rw [← hroot]
  have k1 : ∀ t v, GOp.setContent t v ∈ ops → Generator.contentKey U (some root) t = .ok (keyOf U root t) := by
    intro t v ht; rw [hroot]; exact url_key hU ho hR (hc t v ht)
  have k2 : ∀ m ∈ gAdded ops, ∀ s, m.source = some s →
      Generator.contentKey U (some root) s = .ok (keyOf U root s) := by
    intro m hm s hm'; rw [hroot]; exact url_key hU ho hR (hs m hm s hm')
  obtain ⟨hS, hN⟩ := tables_limit hlen
  obtain ⟨g, hg⟩ := gRun_total (U := U) (cfg := cfg) (file := file) (root := some root) (skip := skip)
    (keyOf U root) ops [] _ k1 k2 hval hS hN rfl
  obtain ⟨j, g', hj⟩ := asJson_total (keyOf U root) k2 hval hS hN hg
  obtain ⟨c1, c2⟩ := content_output (keyOf U root) k1 k2 hg hj
  have same : ∀ s, UrlSource o R s → latestContent (keyOf U root) s ops = latestContent id s ops := by
    intro s hsrc
    apply latestContent_congr
    intro t v ht
    constructor
    · intro e; rw [hroot] at e; exact url_key_inj hU ho hR (hc t v ht) hsrc e
    · rintro rfl; rfl
  refine ⟨g, j, g', hg, hj, ?_, ?_⟩
  · rintro ⟨s, hne⟩
    obtain ⟨t, v, ht, e⟩ := latestContent_mem hne
    have e : t = s := e
    subst e
    rw [c1 ⟨t, by rw [same t (hc t v ht)]; exact hne⟩]
    congr 1
    apply List.filterMap_congr
    intro x hx
    rw [mem_firstOccurrences, List.mem_filterMap] at hx
    obtain ⟨m, hm, hx⟩ := hx
    exact same x (hs m hm x hx)
  · intro hnone
    apply c2
    intro s
    by_contra hne
    obtain ⟨t, v, ht, e⟩ := latestContent_mem hne
    have : latestContent (keyOf U root) s ops = latestContent (keyOf U root) t ops := by
      unfold latestContent; rw [e]
    rw [this, same t (hc t v ht)] at hne
    exact hne (hnone t)

theorem xOrigin_valid : Origin.Valid ⟨"http".toList, "h".toList, none⟩ ∧ Origin.Valid ⟨"https".toList, "w".toList, none⟩ :=
  ⟨by decide +kernel, by decide +kernel⟩

/-- Two sources under a root, one beside it and one on another host. -/
example : ∃ g j g', (Generator.new none (some "http://h/a/b/") false).run MiniUrl.lib ⟨true, true⟩
    [.add { gxP with source := some "http://h/a/c.js" }, .setContent "http://h/a/c.js" (some "C"),
      .add { gxR with source := some "https://w/d.js" }, .setContent "https://w/d.js" (some "D"),
      .setContent "http://h/a/c.js" none] = .ok g ∧ g.asJson MiniUrl.lib ⟨true, true⟩ = .ok (j, g') ∧
    j.sourcesContent = some ["D"] := by
  have u1 : UrlSource ⟨"http".toList, "h".toList, none⟩ ["a".toList, "b".toList] "http://h/a/c.js" :=
    ⟨⟨"http".toList, "h".toList, none⟩, ⟨["a".toList], "c.js".toList⟩, xOrigin_valid.1, by decide, by decide,
      fun _ => .inr (by decide)⟩
  have u2 : UrlSource ⟨"http".toList, "h".toList, none⟩ ["a".toList, "b".toList] "https://w/d.js" :=
    ⟨⟨"https".toList, "w".toList, none⟩, ⟨[], "d.js".toList⟩, xOrigin_valid.2, by decide, by decide,
      fun h => absurd h (by decide)⟩
  obtain ⟨g, j, g', h1, h2, h3, _⟩ := C63_url_root_partial MiniUrl.laws ⟨true, true⟩
    (o := ⟨"http".toList, "h".toList, none⟩) (R := ["a".toList, "b".toList]) xOrigin_valid.1 (by decide) none false
    [.add { gxP with source := some "http://h/a/c.js" }, .setContent "http://h/a/c.js" (some "C"),
      .add { gxR with source := some "https://w/d.js" }, .setContent "https://w/d.js" (some "D"),
      .setContent "http://h/a/c.js" none]
    (by
      intro t v ht
      simp only [List.mem_cons, reduceCtorEq, List.not_mem_nil, or_false, false_or, GOp.setContent.injEq] at ht
      rcases ht with ⟨rfl, _⟩ | ⟨rfl, _⟩ | ⟨rfl, _⟩
      · exact u1
      · exact u2
      · exact u1)
    (by
      intro m hm s hs
      simp only [gAdded, List.mem_cons, List.not_mem_nil, or_false] at hm
      rcases hm with rfl | rfl
      · cases hs; exact u1
      · cases hs; exact u2)
    (by
      intro m hm
      simp only [gAdded, List.mem_cons, List.not_mem_nil, or_false] at hm
      rcases hm with rfl | rfl
      · exact ⟨⟨by decide, by decide, rfl, by intro p hp; cases hp; decide⟩, by decide⟩
      · exact ⟨⟨by decide, by decide, rfl, by intro p hp; cases hp; decide⟩, by decide⟩)
    (by decide)
  refine ⟨g, j, g', h1, h2, ?_⟩
  rw [h3 ⟨"https://w/d.js", by decide⟩]
  decide

end RSM
