import Verif.Props.RootContents
import Verif.Props.RootKeys
import Verif.Dep.Demo
/-! # C21 and C24, exactly

Where the contents end up if only some sources have one, and when serialising returns under a source root. -/

namespace RSM
open Spec Written

/-! ## C24 -/

theorem generateSourcesContents_iff {U : UrlLib} {g : Generator} {root : Option String} : ∀ {ss : List String},
    (∃ cs, g.generateSourcesContents U root ss = .ok cs) ↔ ∀ s ∈ ss, ∃ k, Generator.contentKey U root s = .ok k := by
  intro ss
  induction ss with
  | nil => simp [Generator.generateSourcesContents]
  | cons s ss ih =>
    simp only [Generator.generateSourcesContents, Generator.contentOf, List.forall_mem_cons, ← ih, Res.bind_eq_ok]
    constructor
    · rintro ⟨cs, a, ⟨k, h1, _⟩, b, h2, _⟩
      exact ⟨⟨k, h1⟩, b, h2⟩
    · rintro ⟨⟨k, h1⟩, b, h2⟩
      exact ⟨_, _, ⟨k, h1, rfl⟩, b, h2, rfl⟩

/-- No content is kept exactly if the latest one for every source is `None`. -/
theorem contents_empty_iff {U : UrlLib} {cfg : Cfg} {file root : Option String} {skip : Bool} {ops : List GOp}
    {g : Generator} {key : String → String}
    (hkey : ∀ t v, GOp.setContent t v ∈ ops → Generator.contentKey U root t = .ok (key t))
    (h : (Generator.new file root skip).run U cfg ops = .ok g) :
    g.sourceContents.isEmpty = true ↔ ∀ s, latestContent key s ops = none := by
  obtain ⟨_, _, _, _, _, h6⟩ := gRun_new h
  have hget : ∀ s, g.sourceContents.get? (key s) = latestContent key s ops :=
    fun s => contentsRun_eq key s ops _ _ hkey h6
  rw [HMap.isEmpty_iff]
  constructor
  · intro he s
    rw [← hget, he]
  · intro hs k
    cases hc : g.sourceContents.get? k with
    | none => rfl
    | some v =>
      rcases contentsRun_keys key ops _ _ hkey h6 k (by rw [hc]; simp) with h1 | ⟨t, w, _, rfl⟩
      · simp at h1
      · rw [hget, hs] at hc; cases hc

/-- C24, exactly, with or without a source root: after a history of valid mappings that returned, serialising returns if
and only if no content is held (the latest for every source is `None`) or every source of an added mapping can be named
relative to the root. -/
theorem C24_returns_iff (U : UrlLib) (cfg : Cfg) (file root : Option String) (skip : Bool) (key : String → String)
    (ops : List GOp) (g : Generator) (hval : ∀ m ∈ gAdded ops, m.Valid ∧ 1 ≤ m.generated.line)
    (hS : (firstOccurrences ((gAdded ops).filterMap Mapping.source)).length < 2147483648)
    (hN : (firstOccurrences ((gAdded ops).filterMap Mapping.name)).length < 2147483648)
    (hkey : ∀ t v, GOp.setContent t v ∈ ops → Generator.contentKey U root t = .ok (key t))
    (h : (Generator.new file root skip).run U cfg ops = .ok g) :
    (∃ j g', g.asJson U cfg = .ok (j, g')) ↔ (∀ s, latestContent key s ops = none) ∨
      ∀ m ∈ gAdded ops, ∀ s, m.source = some s → ∃ k, Generator.contentKey U root s = .ok k := by
  obtain ⟨_, h2, _, h4, _⟩ := gRun_new h
  have hmem : ∀ s, s ∈ g.sources.toVec ↔ ∃ m ∈ gAdded ops, m.source = some s := by
    intro s
    rw [ArraySet.toVec, h4, tableOf_array, mem_firstOccurrences, List.mem_filterMap]
  have hall : (∀ m ∈ gAdded ops, ∀ s, m.source = some s → ∃ k, Generator.contentKey U root s = .ok k) ↔
      ∃ cs, g.generateSourcesContents U g.sourceRoot g.sources.toVec = .ok cs := by
    rw [generateSourcesContents_iff, h2]
    constructor
    · intro hh s hs
      obtain ⟨m, hm, hs⟩ := (hmem s).1 hs
      exact hh m hm s hs
    · intro hh m hm s hs
      exact hh s ((hmem s).2 ⟨m, hm, hs⟩)
  rw [← contents_empty_iff hkey h, hall]
  constructor
  · rintro ⟨j, g', hj⟩
    obtain ⟨sc, _, _, _, k1, _⟩ := asJson_ok hj
    cases he : g.sourceContents.isEmpty with
    | true => exact .inl rfl
    | false =>
      right
      simp only [Generator.sourcesContent, he, Bool.not_false, if_true, Res.bind_eq_ok] at k1
      obtain ⟨cs, hcs, _⟩ := k1
      exact ⟨cs, hcs⟩
  · intro hh
    obtain ⟨out, l, t, r1, r2⟩ := serialize_total hval hS hN h
    cases he : g.sourceContents.isEmpty with
    | true => exact ⟨_, _, asJson_intro (sc := none) (by simp [Generator.sourcesContent, he]) r1 r2⟩
    | false =>
      rw [he] at hh
      obtain ⟨cs, hcs⟩ := hh.resolve_left (by simp)
      exact ⟨_, _, asJson_intro (sc := some (cs.filterMap id)) (by
        simp [Generator.sourcesContent, he, hcs]) r1 r2⟩

/-- C24, under a plain source root, for plain sources of all kinds: serialising panics exactly if some content is held and
some added mapping has a source of the same kind as the root, on the same host and not both full URLs. -/
theorem C24_root {U : UrlLib} (hU : U.Laws) (cfg : Cfg) {R : Written} (hR : R.Valid) (hRl : 2 ≤ R.text.length)
    (file : Option String) (skip : Bool) (key : String → String) (w : String → Written × Tail)
    (ops : List GOp) (g : Generator) (hval : ∀ m ∈ gAdded ops, m.Valid ∧ 1 ≤ m.generated.line)
    (hS : (firstOccurrences ((gAdded ops).filterMap Mapping.source)).length < 2147483648)
    (hN : (firstOccurrences ((gAdded ops).filterMap Mapping.name)).length < 2147483648)
    (hkey : ∀ t v, GOp.setContent t v ∈ ops →
      Generator.contentKey U (some (String.ofList R.text)) t = .ok (key t))
    (hw : ∀ m ∈ gAdded ops, ∀ s, m.source = some s → (w s).1.Valid ∧ (w s).2.Valid ∧ 2 ≤ s.toList.length ∧
      s.toList = (w s).1.text ++ (w s).2.text)
    (h : (Generator.new file (some (String.ofList R.text)) skip).run U cfg ops = .ok g) :
    (∃ e, g.asJson U cfg = .error e) ↔ (∃ s, latestContent key s ops ≠ none) ∧
      ∃ m ∈ gAdded ops, ∃ s, m.source = some s ∧ R.Together (w s).1 := by
  have h1 := C24_returns_iff U cfg file _ skip key ops g hval hS hN hkey h
  have h2 : ∀ m ∈ gAdded ops, ∀ s, m.source = some s →
      ((∃ k, Generator.contentKey U (some (String.ofList R.text)) s = .ok k) ↔ ¬ R.Together (w s).1) := by
    intro m hm s hs
    obtain ⟨a, b, c, d⟩ := hw m hm s hs
    rw [d] at c
    have hg : (Generator.new file (some (String.ofList R.text)) skip).sourceRoot = some (String.ofList R.text) := rfl
    rw [← C63_returns_iff hU hR a b hRl c hg none]
    have hs' : String.ofList ((w s).1.text ++ (w s).2.text) = s := by rw [← d]; simp
    rw [hs']
    simp only [Generator.setSourceContent, hg, Res.bind_eq_ok]
    constructor
    · rintro ⟨k, hk⟩
      exact ⟨_, k, hk, rfl⟩
    · rintro ⟨_, k, hk, _⟩
      exact ⟨k, hk⟩
  have h3 : (∃ e, g.asJson U cfg = .error e) ↔ ¬ ∃ j g', g.asJson U cfg = .ok (j, g') := by
    cases g.asJson U cfg with
    | error e => simp
    | ok r => simp; exact ⟨r.1, r.2, rfl⟩
  rw [h3, h1]
  push Not
  constructor
  · rintro ⟨a, m, hm, s, hs, hk⟩
    refine ⟨a, m, hm, s, hs, ?_⟩
    by_contra hn
    obtain ⟨k, hk'⟩ := (h2 m hm s hs).2 hn
    exact hk k hk'
  · rintro ⟨a, m, hm, s, hs, hk⟩
    exact ⟨a, m, hm, s, hs, fun k hk' => (h2 m hm s hs).1 ⟨k, hk'⟩ hk⟩

/-- Under the root `src`, a history of calls that return: content for a path, and a mapping in the reference `a.js`, which
cannot be named relative to the root. -/
example : ∃ g, (Generator.new none (some "src") false).run MiniUrl.lib ⟨true, true⟩
    [.setContent "/lib/x.js" (some "x"), .add gxR] = .ok g ∧ (∃ e, g.asJson MiniUrl.lib ⟨true, true⟩ = .error e) := by
  have hk : Generator.contentKey MiniUrl.lib (some "src") "/lib/x.js" = .ok "/lib/x.js" := by decide +kernel
  have h : (Generator.new none (some "src") false).setSourceContent MiniUrl.lib "/lib/x.js" (some "x") =
      .ok { Generator.new none (some "src") false with sourceContents := HMap.empty.insert "/lib/x.js" "x" } := by
    simp only [Generator.setSourceContent, Generator.new, hk, Res.ok_bind, Res.pure_eq]
  obtain ⟨g, hg⟩ : ∃ g, (Generator.new none (some "src") false).run MiniUrl.lib ⟨true, true⟩
      [.setContent "/lib/x.js" (some "x"), .add gxR] = .ok g :=
    ⟨_, by simp only [Generator.run, Generator.step, h, Res.ok_bind]; rfl⟩
  refine ⟨g, hg, (C24_root MiniUrl.laws ⟨true, true⟩ (R := .ref ⟨[], "src".toList⟩) (by unfold Written.Valid; decide) (by decide) none false id
    (fun _ => (.ref ⟨[], "a.js".toList⟩, {})) [.setContent "/lib/x.js" (some "x"), .add gxR] g ?_ (by decide) (by decide) ?_ ?_
    hg).2 ⟨⟨"/lib/x.js", by decide⟩, gxR, by simp [gAdded], "a.js", by decide, by simp [Together]⟩⟩
  · intro m hm
    simp only [gAdded, List.mem_cons, List.not_mem_nil, or_false] at hm
    subst hm
    exact ⟨(gxR_enc (cfg := ⟨true, true⟩)).valid, by decide⟩
  · intro t v ht
    simp only [List.mem_cons, GOp.setContent.injEq, reduceCtorEq, List.not_mem_nil, or_false] at ht
    obtain ⟨rfl, _⟩ := ht
    exact hk
  · intro m hm s hs
    simp only [gAdded, List.mem_cons, List.not_mem_nil, or_false] at hm
    subst hm
    cases hs
    exact ⟨by unfold Written.Valid; decide, noTail_valid, by decide, by decide⟩

/-! ## C21 -/

theorem filterMap_getElem? {α β : Type} {f : α → Option β} : ∀ {l : List α} {i : Nat} {a : α} {b : β}, l[i]? = some a →
    f a = some b → (l.filterMap f)[((l.take i).filter fun x => (f x).isSome).length]? = some b := by
  intro l
  induction l with
  | nil => intro i a b h; simp at h
  | cons x l ih =>
    intro i a b h hb
    cases i with
    | zero =>
      simp only [List.getElem?_cons_zero, Option.some.injEq] at h
      subst h
      simp [hb]
    | succ i =>
      simp only [List.getElem?_cons_succ] at h
      cases hx : f x with
      | none => simpa [hx] using ih h hb
      | some y => simpa [hx] using ih h hb

theorem filterMap_length {α β : Type} {f : α → Option β} (l : List α) :
    (l.filterMap f).length = l.length ↔ ∀ a ∈ l, f a ≠ none := by
  induction l with
  | nil => simp
  | cons x l ih =>
    have := List.length_filterMap_le f l
    cases hx : f x with
    | none => simp [hx]; omega
    | some y => simp [hx, ih]

/-- C21 is false of the code: without a source root, the content of a source is emitted at the number of sources before it
that have one; so `sourcesContent` is as long as `sources` only if all have one. -/
theorem C21_shifted (U : UrlLib) (cfg : Cfg) (file : Option String) (skip : Bool)
    (ops : List GOp) (g g' : Generator) (j : SourceMapJson) (S C : List String)
    (h : (Generator.new file none skip).run U cfg ops = .ok g) (hj : g.asJson U cfg = .ok (j, g'))
    (hs : j.sources = some S) (hc : j.sourcesContent = some C) :
    (∀ (i : Nat) s c, S[i]? = some s → latestContent id s ops = some c →
      C[((S.take i).filter fun s => (latestContent id s ops).isSome).length]? = some c) ∧
    (C.length = S.length ↔ ∀ s ∈ S, latestContent id s ops ≠ none) := by
  obtain ⟨h1, h2⟩ := C22_latest_content U cfg file skip ops g g' j h hj
  have hne : ∃ s, latestContent id s ops ≠ none := by
    by_contra hn
    push Not at hn
    rw [h2 hn] at hc
    cases hc
  rw [h1 hne] at hc
  cases hc
  rw [(C16_generator_tables U cfg file none skip ops g g' j h hj).1] at hs
  cases hs
  exact ⟨fun i s c hi hc => filterMap_getElem? hi hc, filterMap_length _⟩

/-- Two sources of which only the second has a content: it is emitted at index 0. -/
example : (do
    let g ← (Generator.new none none false).run demoEnv.url demoEnv.cfg
      [.add gxA, .add gxB, .setContent "b.js" (some "B")]
    let j ← g.asJson demoEnv.url demoEnv.cfg
    pure (j.1.sources, j.1.sourcesContent)) = .ok (some ["a.js", "b.js"], some ["B"]) := by decide +kernel

end RSM
