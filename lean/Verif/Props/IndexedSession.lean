import Verif.Props.Session
import Verif.Props.SectionLocal
import Verif.Props.IndexedContents
/-! # Property C123: which sessions with an indexed consumer end without a panic -/

namespace RSM
open Spec IndexedConsumer

variable {E : Env}

/-- The map of a section has segments that are within the `i32` range and refer to sources and names that exist. -/
def MapFits (j : SourceMapJson) : Prop :=
  ∃ raws N S, j.Segments raws ∧ j.names = some N ∧ j.sources = some S ∧ S.length < 2147483648 ∧ ∀ x ∈ raws, Fits S N 2147483648 x

/-- Sections whose offsets are in order, with such maps. -/
structure SectionsFit (secs : List (JsonSection SourceMapJson)) : Prop where
  len : secs.length < 2147483647
  plain : ∀ s ∈ secs, RSM.Plain s
  sorted : secs.Pairwise fun a b => a.offset.Le b.offset
  maps : ∀ s ∈ secs, MapFits s.map

/-- The positions asked count from line 1 and column 0. -/
def IdxAskable : IndexedConsumer.Op → Prop
  | .original p _ => Askable p
  | _ => True

/-- What a call of an indexed consumer needs in order to return: `original_position_for` and `computed_column_spans` nothing;
`source_content_for` a section with a content for the source, before which there are only sections without contents or, if the caller
puts up with an unknown source, without the source; or that no section has it and the caller puts up with that; the other calls
that there are no sections. -/
def IdxNeeds (E : Env) (u : Option String) (secs : List (JsonSection SourceMapJson)) : IndexedConsumer.Op → Prop
  | .original _ _ => True
  | .spans => True
  | .content s p => (∃ t pre x post, secs = pre ++ x :: post ∧
      (∀ y ∈ pre, y.map.sourcesContent = none ∨ (p = some false ∧ NotASource E y.map u s)) ∧ Holds E x.map u s t) ∨
      (p = some false ∧ ∀ y ∈ secs, y.map.sourcesContent = none ∨ NotASource E y.map u s)
  | .generated _ _ _ _ => secs = []
  | .all _ _ _ => secs = []
  | .each _ => secs = []

theorem map_unit {α β : Type} {r r' : Res (α × β)} {γ : Type} {f : α → γ}
    (h : r.map (fun x => f x.1) = r'.map (fun x => f x.1)) :
    (do let x ← r; pure x.2 : Res β).map (fun _ => ()) = (do let x ← r'; pure x.2 : Res β).map (fun _ => ()) := by
  cases r <;> cases r' <;> simp_all [Except.map]

theorem map_bind_unit {α β γ : Type} {r : Res α} {r' : Res β} {f : α → γ} {g : β → γ}
    (h : r.map (fun _ => ()) = r'.map (fun _ => ())) :
    (do let x ← r; pure (f x) : Res γ).map (fun _ => ()) = (do let x ← r'; pure (g x) : Res γ).map (fun _ => ()) := by
  cases r <;> cases r' <;> simp_all [Except.map]

/-- Two consumers with a common ancestor: a call returns on both, or panics on both in the same way. -/
theorem idx_step_agree (hL : E.maps.Laws) (hT : E.maps.Total) {l₀ : List (IdxSection E)} {c d : IndexedConsumer E}
    (hc : SecRel l₀ c.sections) (hd : SecRel l₀ d.sections) (op : IndexedConsumer.Op) :
    (c.step op).map (fun _ => ()) = (d.step op).map (fun _ => ()) := by
  have h := alike_of_rel hL hT hc hd
  cases op with
  | content s p => exact map_unit (f := id) (h.content s p)
  | original p b => exact map_unit (f := Option.map BasicConsumer.stripMapping) (h.original p b)
  | generated s l k b => exact map_unit (f := id) (h.generated s l k b)
  | all s l k => exact map_unit (f := id) (h.all s l k)
  | each o => exact map_unit (f := id) (h.each o)
  | spans =>
    simp only [IndexedConsumer.step, computedColumnSpans]
    have key : ∀ {l₀ l l' : List (IdxSection E)}, SecRel l₀ l → SecRel l₀ l' →
        (l.mapM (fun s : IdxSection E => do let k ← s.consumer.computeColumnSpans; (pure { s with consumer := k } : Res (IdxSection E)))).map (fun _ => ()) =
        (l'.mapM (fun s : IdxSection E => do let k ← s.consumer.computeColumnSpans; (pure { s with consumer := k } : Res (IdxSection E)))).map (fun _ => ()) := by
      intro l₀ l l' h h'
      induction h generalizing l' with
      | nil => cases h'; rfl
      | cons h1 h2 h3 ih =>
        cases h' with
        | cons g1 g2 g3 =>
          have e := h2.agree_total hL hT g2 .spans
          have ih := ih g3
          simp only [List.mapM_cons]
          simp only [BasicConsumer.step] at e
          revert e
          cases h4 : BasicConsumer.computeColumnSpans _ with
          | error x =>
            cases h5 : BasicConsumer.computeColumnSpans _ with
            | error y => intro e; cases e; rfl
            | ok y => intro e; cases e
          | ok x =>
            cases h5 : BasicConsumer.computeColumnSpans _ with
            | error y => intro e; cases e
            | ok y =>
              intro _
              exact map_bind_unit ih
    exact map_bind_unit (key hc hd)

/-- C123: a session with an indexed consumer ends with the panic of the first call that panics on the new consumer, and
returns if none does. -/
theorem C123_first_panic (hL : E.maps.Laws) (hT : E.maps.Total) {m : SourceMapJson} {u : Option String}
    {secs : List (JsonSection SourceMapJson)} (hs : m.sections = some secs) {sch : List Nat}
    (h1 : IsSchedule secs.length sch) {c₀ : IndexedConsumer E} (e1 : fromSourceMapJson sch m u = .ok c₀)
    (ops : List IndexedConsumer.Op) :
    (c₀.run ops).map (fun _ => ()) = forM ops fun op => (c₀.step op).map fun _ => () := by
  have h₀ := fresh_sections hs h1 e1
  have key : ∀ (ops : List IndexedConsumer.Op) {c : IndexedConsumer E}, SecRel c₀.sections c.sections →
      (c.run ops).map (fun _ => ()) = forM ops fun op => (c₀.step op).map fun _ => () := by
    intro ops
    induction ops with
    | nil => intro c _; rfl
    | cons op ops ih =>
      intro c h
      have ha := idx_step_agree hL hT h h₀ op
      rw [List.forM_cons, ← ha]
      simp only [IndexedConsumer.run]
      cases hc : c.step op with
      | error e => rfl
      | ok c' => exact ih (h.step hL hc).1
  exact key ops h₀

/-- Which calls return. -/
theorem C123_call (hL : E.maps.Laws) (hT : E.maps.Total) {m : SourceMapJson} {u : Option String}
    {secs : List (JsonSection SourceMapJson)} (hs : m.sections = some secs) {sch : List Nat}
    (h1 : IsSchedule secs.length sch) {c₀ : IndexedConsumer E} (e1 : fromSourceMapJson sch m u = .ok c₀)
    (hfit : SectionsFit secs) {op : IndexedConsumer.Op} (hop : IdxAskable op) :
    (∃ c, c₀.step op = .ok c) ↔ IdxNeeds E u secs op := by
  have hrun : c₀.run [] = .ok c₀ := rfl
  have hlen : c₀.sections = [] ↔ secs = [] := by
    rw [← List.length_eq_zero_iff, ← List.length_eq_zero_iff, (C41_sections hs h1 e1).1]
  cases op with
  | content s p =>
    obtain ⟨g1, g2⟩ := C46_exact hL hs h1 e1 hrun (fun j hj srcs hsr => by
      obtain ⟨_, _, S, _, _, e, hS, _⟩ := hfit.maps j hj
      rw [hsr] at e; cases e; exact hS) s p
    simp only [IndexedConsumer.step, IdxNeeds]
    constructor
    · rintro ⟨c, hc⟩
      simp only [Res.bind_eq_ok] at hc
      obtain ⟨⟨r, c'⟩, hc, _⟩ := hc
      cases r with
      | some t => exact .inl ⟨t, (g1 t).1 ⟨c', hc⟩⟩
      | none => exact .inr (g2.1 ⟨c', hc⟩)
    · rintro (⟨t, ht⟩ | hn)
      · obtain ⟨c', hc⟩ := (g1 t).2 ht
        exact ⟨c', by rw [hc]; rfl⟩
      · obtain ⟨c', hc⟩ := g2.2 hn
        exact ⟨c', by rw [hc]; rfl⟩
  | original p b =>
    simp only [IdxNeeds, iff_true]
    have hask : Asked u secs c₀ := ⟨⟨m, sch, c₀, [], hs, h1, e1, rfl⟩, hfit.len, hfit.plain, hfit.sorted⟩
    have : ∃ r, originalAnswer c₀ p b = .ok r := by
      rcases section_or_none hfit.sorted p with ⟨i, s, ha⟩ | hn
      · obtain ⟨k₀, k, g1, g2, g3⟩ := asked_section hL hask hop ha b
        have hb : BasicConsumer.Built s.map u k₀ := .inr g1
        obtain ⟨raws, N, S, f1, f2, f3, f4, f5⟩ := hfit.maps s (List.mem_of_getElem? ha.get)
        obtain ⟨srcs, q1, q2, _⟩ := C28_sources hb
        rw [f3] at q1
        cases q1
        have hp := hfit.plain s (List.mem_of_getElem? ha.get)
        have hbef := ha.before
        have hin : 1 ≤ (withinSection s p).line ∧ 0 ≤ (withinSection s p).column ∧
            IsI32 (withinSection s p).line ∧ IsI32 (withinSection s p).column := by
          obtain ⟨o1, o2, o3, o4⟩ := hop
          obtain ⟨p1, p2, p3, p4⟩ := hp
          unfold Position.Le at hbef
          unfold withinSection IsI32 at *
          dsimp only at *
          refine ⟨by omega, ?_, by omega, ?_⟩ <;> split <;> omega
        have hret := (C122_call hL hT hb f1 f2 (by omega) (fun x hx => by
          have := f5 x hx
          unfold Fits at this ⊢
          rw [q2]; exact this) (op := .original (withinSection s p) b) ⟨hin.2.2.1, hin.2.2.2⟩).2 ⟨hin.1, hin.2.1⟩
        unfold BasicConsumer.answer at hret
        obtain ⟨a, ha'⟩ := hret
        have hag := map_original (g2.agree_total hL hT hb.rel (.original (withinSection s p) b))
        rw [g3, hag]
        simp only [BasicConsumer.step] at ha'
        cases hq : k₀.originalPositionFor (withinSection s p) b with
        | error e => rw [hq] at ha'; cases ha'
        | ok r => exact ⟨_, rfl⟩
      · exact ⟨none, no_section hL hask hop hn b⟩
    obtain ⟨r, hr⟩ := this
    simp only [IndexedConsumer.step]
    unfold originalAnswer at hr
    cases hq : c₀.originalPositionFor p b with
    | error e => rw [hq] at hr; cases hr
    | ok r => exact ⟨_, rfl⟩
  | generated s l k b =>
    simp only [IdxNeeds, IndexedConsumer.step, ← hlen]
    constructor
    · rintro ⟨c, hc⟩
      refine Classical.byContradiction fun hne => ?_
      simp only [generatedPositionFor, find_panics hne] at hc
      cases hc
    · intro he
      simp only [generatedPositionFor, find_empty he, Res.ok_bind]
      exact ⟨_, rfl⟩
  | all s l k =>
    simp only [IdxNeeds, IndexedConsumer.step, ← hlen]
    constructor
    · rintro ⟨c, hc⟩
      refine Classical.byContradiction fun hne => ?_
      simp only [allGeneratedPositionFor, find_panics hne] at hc
      cases hc
    · intro he
      simp only [allGeneratedPositionFor, find_empty he, Res.ok_bind]
      exact ⟨_, rfl⟩
  | each o =>
    simp only [IdxNeeds, IndexedConsumer.step, ← hlen]
    constructor
    · rintro ⟨c, hc⟩
      refine Classical.byContradiction fun hne => ?_
      obtain ⟨e, he⟩ := each_panics hne o
      rw [he] at hc
      cases hc
    · intro he
      simp only [eachMapping, he, BorrowFlag.borrowMut, Res.ok_bind, eachLoop]
      exact ⟨_, rfl⟩
  | spans =>
    simp only [IdxNeeds, iff_true, IndexedConsumer.step]
    refine (C67_spans_returns_iff hL hT hs h1 e1 hrun).2 fun s hsm => ?_
    obtain ⟨raws, N, S, f1, _⟩ := hfit.maps s hsm
    obtain ⟨t, t1, t2, t3⟩ := f1
    obtain ⟨M, t4, _⟩ := hL.parse _ _ t2 t3
    exact ⟨t, M, t1, t4⟩

/-- C123, exactly when: a session ends without a panic if and only if every call has what it needs. -/
theorem C123_returns_iff (hL : E.maps.Laws) (hT : E.maps.Total) {m : SourceMapJson} {u : Option String}
    {secs : List (JsonSection SourceMapJson)} (hs : m.sections = some secs) {sch : List Nat}
    (h1 : IsSchedule secs.length sch) {c₀ : IndexedConsumer E} (e1 : fromSourceMapJson sch m u = .ok c₀)
    (hfit : SectionsFit secs) {ops : List IndexedConsumer.Op} (hop : ∀ op ∈ ops, IdxAskable op) :
    (∃ c, c₀.run ops = .ok c) ↔ ∀ op ∈ ops, IdxNeeds E u secs op := by
  have h := C123_first_panic hL hT hs h1 e1 ops
  have g1 : (∃ c, c₀.run ops = .ok c) ↔ (forM ops fun op => (c₀.step op).map fun _ => ()) = .ok () := by
    rw [← h]
    cases c₀.run ops with
    | error e => exact ⟨fun ⟨_, h⟩ => (by cases h), fun h => (by cases h)⟩
    | ok c => exact ⟨fun _ => rfl, fun _ => ⟨c, rfl⟩⟩
  have g2 : ∀ ops : List IndexedConsumer.Op, (forM ops fun op => (c₀.step op).map fun _ => ()) = .ok () ↔
      ∀ op ∈ ops, ∃ c, c₀.step op = .ok c := by
    intro ops
    induction ops with
    | nil => exact ⟨fun _ _ h => (by cases h), fun _ => rfl⟩
    | cons op ops ih =>
      rw [List.forM_cons, List.forall_mem_cons, ← ih]
      cases c₀.step op with
      | error e => exact ⟨fun h => (by cases h), fun ⟨⟨_, h⟩, _⟩ => (by cases h)⟩
      | ok c => exact ⟨fun h => ⟨⟨c, rfl⟩, h⟩, fun h => h.2⟩
  rw [g1, g2]
  exact forall₂_congr fun op ho => C123_call hL hT hs h1 e1 hfit (hop op ho)

/-- The hypotheses hold together: an indexed map of two sections, a session that returns, and one that ends at the call that
asks back from a source. -/
theorem C123_case : ∃ c : IndexedConsumer demoEnv, IndexedConsumer.fromSourceMapJson [0, 1] demoIndexed none = .ok c ∧
    IsSchedule 2 [0, 1] ∧ SectionsFit [⟨⟨0, 0⟩, demoMap, none⟩, ⟨⟨2, 5⟩, demoRooted, none⟩] ∧
    (∃ d, c.run [.original ⟨3, 100⟩ (some .lub), .content "two.js" none, .spans, .content "four.js" (some false),
      .original ⟨3, 100⟩ none] = .ok d) ∧
    ¬ ∃ d, c.run [.original ⟨3, 100⟩ (some .lub), .generated "two.js" 1 1 none] = .ok d := by
  obtain ⟨c, hc, h⟩ := Res.of_test (r := IndexedConsumer.fromSourceMapJson (E := demoEnv) [0, 1] demoIndexed none)
    (fun c => (c.run [.original ⟨3, 100⟩ (some .lub), .content "two.js" none, .spans, .content "four.js" (some false),
        .original ⟨3, 100⟩ none]).toOption.isSome &&
      (c.run [.original ⟨3, 100⟩ (some .lub), .generated "two.js" 1 1 none]).toOption.isNone) (by decide +kernel)
  simp only [Bool.and_eq_true] at h
  obtain ⟨h1, h2⟩ := h
  have hf : ∀ x ∈ demoRaws, Fits ["one.js", "two.js"] ["bar", "baz", "n"] 2147483648 x := by decide
  have hm : demoMap.Segments demoRaws := ⟨_, rfl, by decide +kernel, by simp [demoRaws, Spec.RawMapping.U32]⟩
  refine ⟨c, hc, .refl _, ⟨by decide, ?_, ?_, ?_⟩, ?_, ?_⟩
  · simp [RSM.Plain, IsI32]
  · simp [Position.Le]
  · intro s hs
    simp only [List.mem_cons, List.not_mem_nil, or_false] at hs
    rcases hs with rfl | rfl <;> exact ⟨demoRaws, _, _, hm, rfl, rfl, by decide, hf⟩
  · revert h1
    cases c.run _ with
    | error e => intro h; cases h
    | ok d => exact fun _ => ⟨d, rfl⟩
  · rintro ⟨d, hd⟩
    rw [hd] at h2
    cases h2

end RSM
