import Verif.Props.Generator
import Verif.Props.Serialise
import Verif.Dep.Demo
/-! # Source contents whatever the source root: C21, C22 -/

namespace RSM

/-- The contents of two sources are kept in the same place: the sources are the same or, under a source root,
`util::relative` returns the same for both. -/
def SamePlace (U : UrlLib) : Option String → String → String → Prop
  | none, t, s => t = s
  | some r, t, s => ∃ k, relativeString U r t = .ok k ∧ relativeString U r s = .ok k

/-- Among the calls, the last `set_source_content` for the place of `s` gave it the content `c`. -/
def SetFor (U : UrlLib) (root : Option String) (s c : String) (ops : List GOp) : Prop :=
  ∃ pre t post, ops = pre ++ GOp.setContent t (some c) :: post ∧ SamePlace U root t s ∧
    ∀ t' v, GOp.setContent t' v ∈ post → ¬ SamePlace U root t' s

theorem samePlace_iff {U : UrlLib} {root : Option String} {t s : String} : SamePlace U root t s ↔
    ∃ k, Generator.contentKey U root t = .ok k ∧ Generator.contentKey U root s = .ok k := by
  cases root with
  | none =>
    simp only [SamePlace, Generator.contentKey, Except.ok.injEq, exists_eq_left', eq_comm]
  | some r => exact Iff.rfl

/-- The same for a key. -/
def KeySet (U : UrlLib) (root : Option String) (k c : String) (ops : List GOp) : Prop :=
  ∃ pre t post, ops = pre ++ GOp.setContent t (some c) :: post ∧ Generator.contentKey U root t = .ok k ∧
    ∀ t' v, GOp.setContent t' v ∈ post → Generator.contentKey U root t' ≠ .ok k

theorem setFor_iff {U : UrlLib} {root : Option String} {s c : String} {ops : List GOp} : SetFor U root s c ops ↔
    ∃ k, Generator.contentKey U root s = .ok k ∧ KeySet U root k c ops := by
  constructor
  · rintro ⟨pre, t, post, h1, h2, h3⟩
    obtain ⟨k, h4, h5⟩ := samePlace_iff.1 h2
    exact ⟨k, h5, pre, t, post, h1, h4, fun t' v hm hk => h3 t' v hm (samePlace_iff.2 ⟨k, hk, h5⟩)⟩
  · rintro ⟨k, h5, pre, t, post, h1, h4, h3⟩
    refine ⟨pre, t, post, h1, samePlace_iff.2 ⟨k, h4, h5⟩, fun t' v hm hp => ?_⟩
    obtain ⟨k', h6, h7⟩ := samePlace_iff.1 hp
    rw [h5] at h7
    cases h7
    exact h3 t' v hm h6

theorem keySet_cons {U : UrlLib} {root : Option String} {k c : String} {op : GOp} {ops : List GOp} :
    KeySet U root k c (op :: ops) ↔ KeySet U root k c ops ∨
      ∃ t, op = .setContent t (some c) ∧ Generator.contentKey U root t = .ok k ∧
        ∀ t' v, GOp.setContent t' v ∈ ops → Generator.contentKey U root t' ≠ .ok k := by
  constructor
  · rintro ⟨pre, t, post, h1, h2, h3⟩
    cases pre with
    | nil => cases h1; exact .inr ⟨t, rfl, h2, h3⟩
    | cons o pre => cases h1; exact .inl ⟨pre, t, post, rfl, h2, h3⟩
  · rintro (⟨pre, t, post, h1, h2, h3⟩ | ⟨t, h1, h2, h3⟩)
    · exact ⟨op :: pre, t, post, by rw [h1]; rfl, h2, h3⟩
    · exact ⟨[], t, ops, by rw [h1]; rfl, h2, h3⟩

/-- What is kept after a history. -/
theorem contentsRun_get {U : UrlLib} {root : Option String} {k v : String} : ∀ {ops : List GOp} {c c' : HMap String String},
    contentsRun U root c ops = .ok c' → (c'.get? k = some v ↔ KeySet U root k v ops ∨ (c.get? k = some v ∧
      ∀ t' w, GOp.setContent t' w ∈ ops → Generator.contentKey U root t' ≠ .ok k)) := by
  intro ops
  induction ops with
  | nil =>
    intro c c' h
    cases h
    simp [KeySet]
  | cons op ops ih =>
    intro c c' h
    rw [keySet_cons]
    cases op with
    | add m =>
      rw [ih (c := c) h]
      simp
    | asJson =>
      rw [ih (c := c) h]
      simp
    | setContent t w =>
      rw [contentsRun, Res.bind_eq_ok] at h
      obtain ⟨k0, hk0, h⟩ := h
      rw [ih h]
      have hget : (setContents c k0 w).get? k = if k = k0 then w else c.get? k := by
        cases w with
        | none => simp only [setContents, HMap.get?_remove]
        | some w => simp only [setContents, HMap.get?_insert]
      rw [hget]
      by_cases he : k = k0
      · subst he
        simp only [if_true, GOp.setContent.injEq, List.mem_cons]
        constructor
        · rintro (h1 | ⟨h1, h2⟩)
          · exact .inl (.inl h1)
          · exact .inl (.inr ⟨t, ⟨rfl, h1⟩, hk0, h2⟩)
        · rintro ((h1 | ⟨t', ⟨_, h1⟩, _, h2⟩) | ⟨_, h2⟩)
          · exact .inl h1
          · exact .inr ⟨h1, h2⟩
          · exact absurd hk0 (h2 t w (.inl ⟨rfl, rfl⟩))
      · simp only [if_neg he, GOp.setContent.injEq, List.mem_cons]
        constructor
        · rintro (h1 | ⟨h1, h2⟩)
          · exact .inl (.inl h1)
          · refine .inr ⟨h1, fun t' w' hm => ?_⟩
            rcases hm with ⟨rfl, rfl⟩ | hm
            · rw [hk0]
              exact fun hx => he (by cases hx; rfl)
            · exact h2 t' w' hm
        · rintro ((h1 | ⟨t', ⟨h0, h1⟩, h2, _⟩) | ⟨h1, h2⟩)
          · exact .inl h1
          · subst h0
            rw [hk0] at h2
            exact absurd (by cases h2; rfl) he
          · exact .inr ⟨h1, fun t' w' hm => h2 t' w' (.inr hm)⟩

/-- The contents that `as_json` gives, when it returns. -/
theorem generateSourcesContents_some {U : UrlLib} {g : Generator} {root : Option String} : ∀ {ss : List String}
    {l : List (Option String)}, g.generateSourcesContents U root ss = .ok l →
      (∀ s ∈ ss, ∃ k, Generator.contentKey U root s = .ok k) ∧
      l = ss.map fun s => match Generator.contentKey U root s with
        | .ok k => g.sourceContents.get? k
        | .error _ => none := by
  intro ss
  induction ss with
  | nil => intro l h; cases h; simp
  | cons s ss ih =>
    intro l h
    simp only [Generator.generateSourcesContents, Generator.contentOf, Res.bind_eq_ok, Res.pure_eq, Except.ok.injEq] at h
    obtain ⟨c, ⟨k, h1, rfl⟩, l', h2, rfl⟩ := h
    obtain ⟨h3, rfl⟩ := ih h2
    refine ⟨?_, ?_⟩
    · intro x hx
      rcases List.mem_cons.1 hx with rfl | hx
      · exact ⟨k, h1⟩
      · exact h3 x hx
    · rw [List.map_cons, h1]

section

variable {U : UrlLib} {cfg : Cfg} {file root : Option String} {skip : Bool} {ops : List GOp} {g g' : Generator}
  {j : SourceMapJson}

/-- C22, whatever the source root, for every history that returned: there is no `sourcesContent` exactly if no source has
a content; otherwise it consists of the contents of the sources that have one, in the order of `sources`. -/
theorem C22_any_root (h : (Generator.new file root skip).run U cfg ops = .ok g) (hj : g.asJson U cfg = .ok (j, g')) :
    (j.sourcesContent = none ↔ ∀ s c, ¬ SetFor U root s c ops) ∧
    ∀ C, j.sourcesContent = some C → ∃ (S : List String) (f : String → Option String), j.sources = some S ∧
      (∀ s ∈ S, ∀ c, f s = some c ↔ SetFor U root s c ops) ∧ C = S.filterMap f := by
  obtain ⟨_, h2, _, h4, _, h6⟩ := gRun_new h
  obtain ⟨sc, _, _, _, k1, _, _, _, rfl⟩ := asJson_ok hj
  have hget : ∀ k v, g.sourceContents.get? k = some v ↔ KeySet U root k v ops := by
    intro k v
    rw [contentsRun_get h6]
    simp
  have hempty : g.sourceContents.isEmpty = true ↔ ∀ s c, ¬ SetFor U root s c ops := by
    rw [HMap.isEmpty_iff]
    constructor
    · intro hn s c hs
      obtain ⟨k, _, h8⟩ := setFor_iff.1 hs
      rw [← hget, hn] at h8
      cases h8
    · intro hn k
      cases hc : g.sourceContents.get? k with
      | none => rfl
      | some v =>
        have hk := (hget k v).1 hc
        obtain ⟨_, t, _, _, ht, _⟩ := id hk
        exact absurd (setFor_iff.2 ⟨k, ht, hk⟩) (hn t v)
  unfold Generator.sourcesContent at k1
  cases he : g.sourceContents.isEmpty with
  | true =>
    simp only [he, Bool.not_true, Bool.false_eq_true, if_false, Res.pure_eq, Except.ok.injEq] at k1
    subst k1
    exact ⟨⟨fun _ => hempty.1 he, fun _ => rfl⟩, fun C hC => by cases hC⟩
  | false =>
    simp only [he, Bool.not_false, if_true, Res.bind_eq_ok, Res.pure_eq, Except.ok.injEq] at k1
    obtain ⟨l, hl, rfl⟩ := k1
    rw [h2] at hl
    obtain ⟨hk, rfl⟩ := generateSourcesContents_some hl
    refine ⟨⟨(fun hx => nomatch hx), fun hx => absurd (hempty.2 hx) (by rw [he]; simp)⟩, ?_⟩
    rintro C ⟨⟩
    refine ⟨_, _, rfl, ?_, List.filterMap_map ..⟩
    intro s hs c
    obtain ⟨k, hk⟩ := hk s hs
    simp only [Function.comp_apply, hk, id, hget]
    rw [setFor_iff]
    constructor
    · exact fun hx => ⟨k, hk, hx⟩
    · rintro ⟨k', hk', hx⟩
      rw [hk] at hk'
      cases hk'
      exact hx

theorem filterMap_length_iff {f : String → Option String} : ∀ {S : List String}, (S.filterMap f).length ≤ S.length ∧
    ((S.filterMap f).length = S.length ↔ ∀ s ∈ S, f s ≠ none) := by
  intro S
  induction S with
  | nil => simp
  | cons a S ih =>
    cases ha : f a with
    | none =>
      simp only [List.filterMap_cons, ha, List.length_cons]
      refine ⟨by omega, iff_of_false (by omega) fun h => h a (by simp) ha⟩
    | some b =>
      simp only [List.filterMap_cons, ha, List.length_cons, List.mem_cons, forall_eq_or_imp, Nat.add_right_cancel_iff,
        Nat.add_le_add_iff_right, ih]
      simp

/-- C21, exactly, whatever the source root: `sourcesContent`, if present, is as long as `sources` if and only if every
source has a content. -/
theorem C21_any_root (h : (Generator.new file root skip).run U cfg ops = .ok g) (hj : g.asJson U cfg = .ok (j, g'))
    {S C : List String} (hS : j.sources = some S) (hC : j.sourcesContent = some C) :
    C.length = S.length ↔ ∀ s ∈ S, ∃ c, SetFor U root s c ops := by
  obtain ⟨S', f, h1, h2, rfl⟩ := (C22_any_root h hj).2 C hC
  rw [hS] at h1
  cases h1
  rw [filterMap_length_iff.2]
  constructor
  · intro hall s hs
    obtain ⟨c, hc⟩ := Option.ne_none_iff_exists'.1 (hall s hs)
    exact ⟨c, (h2 s hs c).1 hc⟩
  · intro hall s hs
    obtain ⟨c, hc⟩ := hall s hs
    rw [(h2 s hs c).2 hc]
    simp

end

/-- Under a root the content of `a.js` is the one set last under any of its names; taken back, there is none. -/
example : SetFor MiniUrl.lib (some "http://h.com/r/") "http://h.com/r/a.js" "y"
      [.setContent "http://h.com/r/a.js" (some "x"), .setContent "http://h.com/r/b/../a.js" (some "y"), .asJson] ∧
    ¬ ∃ c, SetFor MiniUrl.lib none "a.js" c [.setContent "a.js" (some "x"), .setContent "a.js" none] := by
  constructor
  · refine ⟨[.setContent "http://h.com/r/a.js" (some "x")], "http://h.com/r/b/../a.js", [.asJson], rfl,
      ⟨"a.js", by decide +kernel, by decide +kernel⟩, by simp⟩
  · rintro ⟨c, pre, t, post, h1, h2, h3⟩
    have h2 : t = "a.js" := h2
    subst h2
    match pre, h1 with
    | [], h1 =>
      cases h1
      exact h3 "a.js" none (.head _) rfl
    | [_], h1 => cases h1
    | [_, _], h1 => cases h1
    | _ :: _ :: _ :: _, h1 => cases h1

end RSM
