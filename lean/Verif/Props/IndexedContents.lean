import Verif.Props.IndexedHistory
import Mathlib.Data.List.Forall2
/-! # C46, exactly: the contents an indexed map answers with

Stated on the maps of the sections, as they are written in the indexed map. -/

namespace RSM

variable {E : Env}

/-- `L`: the sources of the map `j`, each located with its `sourceRoot` and the map URL `u`. -/
def LocatedAs (E : Env) (j : SourceMapJson) (u : Option String) (L : List String) : Prop :=
  ∃ srcs, j.sources = some srcs ∧ List.Forall₂ (fun s t => sourceUrl E j.sourceRoot s u = .ok t) srcs L

/-- `s` is the source at index `n` of the map `j` whose located sources are `L`: `s` by itself, or if that is none of
them, `s` under the `sourceRoot`, leads there first. -/
def FoundAt (E : Env) (j : SourceMapJson) (L : List String) (s : String) (n : Nat) : Prop :=
  ∃ t, sourceUrl E none s none = .ok t ∧
    (IsFirst L t n ∨ t ∉ L ∧ ∃ t', sourceUrl E j.sourceRoot s none = .ok t' ∧ IsFirst L t' n)

/-- The map `j` has the content `t` for the source `s`. -/
def Holds (E : Env) (j : SourceMapJson) (u : Option String) (s t : String) : Prop :=
  ∃ L contents n, LocatedAs E j u L ∧ j.sourcesContent = some contents ∧ FoundAt E j L s n ∧ contents[n]? = some t

/-- `s` is not among the sources of the map `j`. -/
def NotASource (E : Env) (j : SourceMapJson) (u : Option String) (s : String) : Prop :=
  ∃ L t t', LocatedAs E j u L ∧ sourceUrl E none s none = .ok t ∧ t ∉ L ∧
    sourceUrl E j.sourceRoot s none = .ok t' ∧ t' ∉ L

theorem forall₂_of_mapM {α β : Type} {f : α → Res β} : ∀ {l : List α} {r : List β}, l.mapM f = .ok r ↔
    List.Forall₂ (fun a b => f a = .ok b) l r := by
  intro l
  induction l with
  | nil => intro r; cases r <;> simp
  | cons a l ih =>
    intro r
    rw [List.mapM_cons]
    simp only [Res.bind_eq_ok, Res.pure_eq, Except.ok.injEq, ih]
    constructor
    · rintro ⟨b, h1, bs, h2, rfl⟩
      exact .cons h1 h2
    · intro h
      cases h with
      | cons h1 h2 => exact ⟨_, h1, _, h2, rfl⟩

namespace IndexedConsumer

/-- `x` is the section of `s`, some calls later. -/
def SectionOf (u : Option String) (s : JsonSection SourceMapJson) (x : IdxSection E) : Prop :=
  ∃ c₀ : BasicConsumer E, BasicConsumer.fromSourceMapJson s.map u = .ok c₀ ∧ BasicConsumer.Rel c₀ x.consumer

theorem section_content {u : Option String} {j : JsonSection SourceMapJson} {x : IdxSection E} (h : SectionOf u j x)
    (hfew : ∀ srcs, j.map.sources = some srcs → srcs.length < 2147483648) (s : String) (p : Option Bool) :
    (∀ t, (∃ c', x.consumer.sourceContentFor s p = .ok (some t, c')) ↔ Holds E j.map u s t) ∧
    ((∃ c', x.consumer.sourceContentFor s p = .ok (none, c')) ↔
      j.map.sourcesContent = none ∨ (p = some false ∧ NotASource E j.map u s)) := by
  obtain ⟨c₀, hb, hrel⟩ := h
  obtain ⟨srcs, urls, h1, h2, _, h4, h5, h6⟩ := BasicConsumer.build_ok hb
  have hL : LocatedAs E j.map u urls := ⟨srcs, h1, forall₂_of_mapM.1 h2⟩
  have huniq : ∀ L, LocatedAs E j.map u L → L = urls := by
    rintro L ⟨srcs', e1, e2⟩
    rw [h1] at e1
    cases e1
    exact Res.ok_inj (forall₂_of_mapM.2 e2) h2
  have hgs : c₀.getSources = urls := by
    simp only [BasicConsumer.getSources, h5, C07_arrayset_duplicates]
  have hlen : c₀.getSources.length < 2147483648 := by
    rw [hgs, ← (forall₂_of_mapM.1 h2).length_eq]
    exact hfew srcs h1
  obtain ⟨k1, k2⟩ := BasicConsumer.lookup_spec (.inr hb) hlen s
  have hK : ∀ n, c₀.Knows s n ↔ FoundAt E j.map urls s n := by
    intro n
    simp only [BasicConsumer.Knows, FoundAt, hgs, h4, h6]
    constructor
    · rintro (⟨t, a, b⟩ | ⟨t, t', a, b, c, d⟩)
      · exact ⟨t, a, .inl b⟩
      · exact ⟨t, a, .inr ⟨b, t', c, d⟩⟩
    · rintro ⟨t, a, b | ⟨b, t', c, d⟩⟩
      · exact .inl ⟨t, a, b⟩
      · exact .inr ⟨t, t', a, b, c, d⟩
  have hU : c₀.Unknown s ↔ NotASource E j.map u s := by
    simp only [BasicConsumer.Unknown, NotASource, hgs, h4, h6]
    constructor
    · rintro ⟨t, t', a⟩
      exact ⟨urls, t, t', hL, a⟩
    · rintro ⟨L, t, t', a, b⟩
      rw [huniq L a] at b
      exact ⟨t, t', b⟩
  have hmap : x.consumer.sourceMap.sourcesContent = j.map.sourcesContent := by rw [hrel.map, h4]
  cases hc : j.map.sourcesContent with
  | none =>
    have : x.consumer.sourceContentFor s p = .ok (none, x.consumer) := by
      simp [BasicConsumer.sourceContentFor, hmap, hc]
    simp only [this, Except.ok.injEq, Prod.mk.injEq, reduceCtorEq, false_and, exists_false, true_and, exists_eq',
      true_or, Holds, hc, and_false, implies_true, and_self]
  | some contents =>
    rcases hrel.find s with ⟨e, g1, g2⟩ | ⟨r, q, g1, g2, _⟩
    · have g3 : x.consumer.sourceContentFor s p = .error e := by
        simp only [BasicConsumer.sourceContentFor, hmap, hc, g2, Res.error_bind]
      simp only [g3, reduceCtorEq, exists_false, false_iff, false_or, not_and, Holds, not_exists]
      refine ⟨?_, ?_⟩
      · intro t L cs n hl _ hf _
        rw [huniq L hl] at hf
        rw [(k1 n).2 ⟨n, rfl, (hK n).2 hf⟩] at g1
        cases g1
      · intro _ hn
        rw [k2.2 (hU.2 hn)] at g1
        cases g1
    · cases r with
      | none =>
        have hn := hU.1 (k2.1 g1)
        have hnh : ∀ t, ¬ Holds E j.map u s t := by
          rintro t ⟨L, cs, n, hl, _, hf, _⟩
          rw [huniq L hl] at hf
          rw [(k1 n).2 ⟨n, rfl, (hK n).2 hf⟩] at g1
          cases g1
        have g3 : x.consumer.sourceContentFor s p = if p.getD true then .error (.explicit "is not in the SourceMap.")
            else .ok (none, { x.consumer with cache := q }) := by
          simp only [BasicConsumer.sourceContentFor, hmap, hc, g2, Res.ok_bind, Res.pure_eq]
        rw [g3]
        refine ⟨fun t => iff_of_false ?_ (hnh t), ?_⟩
        · split <;> simp
        · match p with
          | none => simp
          | some true => simp
          | some false => simp [hn]
      | some i =>
        obtain ⟨n, rfl, hk⟩ := (k1 i).1 g1
        have hf := (hK n).1 hk
        have hlt : n < urls.length := by
          rcases hk with ⟨_, _, hf⟩ | ⟨_, _, _, _, _, hf⟩ <;>
          · rw [hgs] at hf; exact (List.getElem?_eq_some_iff.mp hf.1).1
        have hu : E.cfg.asUsize (n : Int) = n := by
          rw [hgs] at hlen
          unfold Cfg.asUsize; split <;> omega
        have g3 : x.consumer.sourceContentFor s p = (index contents n >>= fun t =>
            .ok (some t, { x.consumer with cache := q })) := by
          simp only [BasicConsumer.sourceContentFor, hmap, hc, g2, Res.ok_bind, Res.pure_eq, hu]
        have hnn : ¬ NotASource E j.map u s := by
          intro hn
          rw [k2.2 (hU.2 hn)] at g1
          cases g1
        rw [g3]
        have hh : ∀ t, Holds E j.map u s t ↔ contents[n]? = some t := by
          intro t
          constructor
          · rintro ⟨L, cs, n', hl, hcs, hf', ht⟩
            rw [hc] at hcs
            cases hcs
            rw [huniq L hl] at hf'
            have := (k1 n').2 ⟨n', rfl, (hK n').2 hf'⟩
            rw [g1] at this
            simp only [Except.ok.injEq, Option.some.injEq] at this
            have e : n = n' := by omega
            rw [e]; exact ht
          · intro ht
            exact ⟨urls, contents, n, hL, hc, hf, ht⟩
        refine ⟨fun t => ?_, ?_⟩
        · rw [hh]
          simp only [index]
          cases contents[n]? with
          | none => simp
          | some t' => simp
        · simp only [index, hnn, and_false, or_false, reduceCtorEq, iff_false]
          cases contents[n]? with
          | none => simp
          | some t' => simp

theorem contentLoop_iff {u : Option String} {s : String} {p : Option Bool} :
    ∀ {secs : List (JsonSection SourceMapJson)} {xs : List (IdxSection E)}, List.Forall₂ (SectionOf u) secs xs →
    (∀ j ∈ secs, ∀ srcs, j.map.sources = some srcs → srcs.length < 2147483648) →
    (∀ t, (∃ ys, contentLoop s p xs = .ok (some t, ys)) ↔ ∃ pre x post, secs = pre ++ x :: post ∧
      (∀ y ∈ pre, y.map.sourcesContent = none ∨ (p = some false ∧ NotASource E y.map u s)) ∧
      Holds E x.map u s t) ∧
    ((∃ ys, contentLoop s p xs = .ok (none, ys)) ↔
      ∀ y ∈ secs, y.map.sourcesContent = none ∨ (p = some false ∧ NotASource E y.map u s)) := by
  intro secs xs h
  induction h with
  | nil => intro _; simp [contentLoop]
  | @cons j x secs xs hx hxs ih =>
    intro hfew
    obtain ⟨i1, i2⟩ := ih fun y hy => hfew y (by simp [hy])
    obtain ⟨k1, k2⟩ := section_content hx (hfew j (by simp)) s p
    have hsplit : ∀ t, (∃ pre y post, j :: secs = pre ++ y :: post ∧
        (∀ z ∈ pre, z.map.sourcesContent = none ∨ (p = some false ∧ NotASource E z.map u s)) ∧
        Holds E y.map u s t) ↔ Holds E j.map u s t ∨
        (j.map.sourcesContent = none ∨ (p = some false ∧ NotASource E j.map u s)) ∧
        ∃ pre y post, secs = pre ++ y :: post ∧
        (∀ z ∈ pre, z.map.sourcesContent = none ∨ (p = some false ∧ NotASource E z.map u s)) ∧
        Holds E y.map u s t := by
      intro t
      constructor
      · rintro ⟨pre, y, post, e, h1, h2⟩
        cases pre with
        | nil => cases e; exact .inl h2
        | cons z pre =>
          cases e
          exact .inr ⟨h1 _ (by simp), pre, y, post, rfl, fun z hz => h1 z (by simp [hz]), h2⟩
      · rintro (h | ⟨h0, pre, y, post, rfl, h1, h2⟩)
        · exact ⟨[], j, secs, rfl, by simp, h⟩
        · exact ⟨j :: pre, y, post, rfl, by
            intro z hz
            rcases List.mem_cons.1 hz with rfl | hz
            · exact h0
            · exact h1 z hz, h2⟩
    simp only [hsplit, List.forall_mem_cons, ← i1, ← i2, ← k1, ← k2]
    simp only [contentLoop]
    cases hr : x.consumer.sourceContentFor s p with
    | error e => simp
    | ok r =>
      obtain ⟨o, c'⟩ := r
      cases o with
      | some t' => simp [eq_comm]
      | none =>
        simp only [Res.ok_bind, Except.ok.injEq, Prod.mk.injEq, reduceCtorEq, false_and, exists_false, false_or,
          true_and, exists_eq']
        cases hq : contentLoop s p xs with
        | error e => simp
        | ok q => obtain ⟨a, b⟩ := q; simp

end IndexedConsumer

open IndexedConsumer in
/-- C46, exactly. `source_content_for` of an indexed map, after any calls, returns the content `t` if and only if some
section has it and each section before that one has no contents at all or, if asked not to panic, does not know the source;
it returns `None` if and only if asked not to panic and no section has contents and knows the source. In all other cases it
panics. -/
theorem C46_exact {E : Env} (hL : E.maps.Laws) {m : SourceMapJson} {u : Option String}
    {secs : List (JsonSection SourceMapJson)} (hs : m.sections = some secs) {sch : List Nat}
    (h1 : IsSchedule secs.length sch) {c₀ c : IndexedConsumer E} (e1 : fromSourceMapJson sch m u = .ok c₀)
    {ops : List Op} (hrun : c₀.run ops = .ok c)
    (hfew : ∀ j ∈ secs, ∀ srcs, j.map.sources = some srcs → srcs.length < 2147483648) (s : String) (p : Option Bool) :
    (∀ t, (∃ c', c.sourceContentFor s p = .ok (some t, c')) ↔ ∃ pre x post, secs = pre ++ x :: post ∧
      (∀ y ∈ pre, y.map.sourcesContent = none ∨ (p = some false ∧ NotASource E y.map u s)) ∧
      Holds E x.map u s t) ∧
    ((∃ c', c.sourceContentFor s p = .ok (none, c')) ↔
      p = some false ∧ ∀ y ∈ secs, y.map.sourcesContent = none ∨ NotASource E y.map u s) := by
  obtain ⟨hl, hsec⟩ := sections_after hL hs h1 e1 hrun
  obtain ⟨_, _, secs', hs', hl'⟩ := from_ok e1
  rw [hs] at hs'
  cases hs'
  obtain ⟨_, a2, _⟩ := collect_ok h1 hl'
  have hall : List.Forall₂ (SectionOf u) secs c.sections := by
    refine List.forall₂_iff_get.2 ⟨hl.symm, fun i hi hi' => ?_⟩
    obtain ⟨s', x₀, g1, g2, _, _, _, g6⟩ := hsec i _ (List.getElem?_eq_getElem hi')
    obtain ⟨x₁, g7, _, _, _, g8⟩ := a2 i _ (List.getElem?_eq_getElem hi)
    rw [g2] at g7
    cases g7
    exact ⟨_, g8, g6⟩
  obtain ⟨k1, k2⟩ := contentLoop_iff (s := s) (p := p) hall hfew
  constructor
  · intro t
    rw [← k1]
    simp only [IndexedConsumer.sourceContentFor]
    cases hq : contentLoop s p c.sections with
    | error e => simp
    | ok q =>
      obtain ⟨a, b⟩ := q
      cases a with
      | none =>
        simp only [Res.ok_bind]
        split <;> simp
      | some t' => simp
  · have hp : (p = some false ∧ ∀ y ∈ secs, y.map.sourcesContent = none ∨ NotASource E y.map u s) ↔
        p = some false ∧ ∃ ys, contentLoop s p c.sections = .ok (none, ys) := by
      rw [k2]
      constructor
      · rintro ⟨a, b⟩
        exact ⟨a, fun y hy => (b y hy).imp id fun h => ⟨a, h⟩⟩
      · rintro ⟨a, b⟩
        exact ⟨a, fun y hy => (b y hy).imp id fun h => h.2⟩
    rw [hp]
    simp only [IndexedConsumer.sourceContentFor]
    cases hq : contentLoop s p c.sections with
    | error e => simp
    | ok q =>
      obtain ⟨a, b⟩ := q
      cases a with
      | some t' => simp
      | none =>
        match p with
        | none => simp
        | some true => simp
        | some false => simp

/-- Two sections: the first has no contents, or has them and does not know the source; the second has the content. -/
example : demoAskIndexed [0, 1] { demoIndexed with sections := demoIndexed.sections.map (fun l =>
      l.mapIdx (fun i x => if i = 0 then { x with map := { x.map with sourcesContent := none } } else x)) }
      (fun c => c.sourceContentFor "/the/root/two.js" none) = .ok (some "TWO") ∧
    demoAskIndexed [0, 1] demoIndexed (fun c => c.sourceContentFor "/the/root/two.js" (some false)) =
      .ok (some "TWO") ∧
    demoAskIndexed [0, 1] demoIndexed (fun c => c.sourceContentFor "/none.js" (some false)) = .ok none :=
  ⟨by decide +kernel, by decide +kernel, by decide +kernel⟩

end RSM
