import Verif.Props.IndexedFound
import Verif.Props.IndexedHistory
/-! # Property C119: of an indexed map an answer depends on one section -/

namespace RSM
open Spec IndexedConsumer

variable {E : Env}

/-- An indexed consumer of sections `secs`, after some calls. -/
structure Asked (u : Option String) (secs : List (JsonSection SourceMapJson)) (c : IndexedConsumer E) : Prop where
  made : ∃ m sch c₀ ops, m.sections = some secs ∧ IsSchedule secs.length sch ∧
    fromSourceMapJson sch m u = .ok c₀ ∧ c₀.run ops = .ok c
  len : secs.length < 2147483647
  plain : ∀ s ∈ secs, RSM.Plain s
  sorted : secs.Pairwise fun a b => a.offset.Le b.offset

/-- The position as the section sees it. -/
def withinSection (s : JsonSection SourceMapJson) (p : Position) : Position :=
  ⟨p.line - s.offset.line, if s.offset.line + 1 = p.line then p.column - s.offset.column else p.column⟩

/-- Lines are counted from 1, columns from 0, and both are `i32`. -/
def Askable (p : Position) : Prop := 1 ≤ p.line ∧ 0 ≤ p.column ∧ IsI32 p.line ∧ IsI32 p.column

/-- What `original_position_for` answers, spans apart. -/
def originalAnswer (c : IndexedConsumer E) (p : Position) (b : Option Bias) : Res (Option Mapping) :=
  (c.originalPositionFor p b).map fun r => r.1.map BasicConsumer.stripMapping

/-- The consumer of the section asked, and the one it was before the calls. -/
theorem asked_section (hL : E.maps.Laws) {u : Option String} {secs : List (JsonSection SourceMapJson)} {c : IndexedConsumer E}
    (hc : Asked u secs c) {p : Position} (hp : Askable p) {i : Nat} {s : JsonSection SourceMapJson} (ha : Answers secs p i s)
    (b : Option Bias) : ∃ k₀ k : BasicConsumer E, BasicConsumer.fromSourceMapJson s.map u = .ok k₀ ∧ BasicConsumer.Rel k₀ k ∧
      originalAnswer c p b = (k.originalPositionFor (withinSection s p) b).map fun r => r.1.map BasicConsumer.stripMapping := by
  obtain ⟨⟨m, sch, c₀, ops, h1, h2, h3, h4⟩, h5, h6, h7⟩ := hc
  obtain ⟨x, hx, hq⟩ := (C42_section_partial hL h1 h2 h3 h4 h5 h6 h7 hp b).1 i s ha.get ha.before ha.last ha.first
  obtain ⟨x₀, g1, _, g2⟩ := ((fresh_sections h1 h2 h3).run hL h4).1.get hx
  obtain ⟨_, _, secs1, hs1, hl1⟩ := from_ok h3
  rw [h1] at hs1
  cases hs1
  obtain ⟨y, hy, _, _, _, g3⟩ := (collect_ok h2 hl1).2.1 i s ha.get
  rw [g1] at hy
  cases hy
  refine ⟨_, _, g3, g2, ?_⟩
  unfold originalAnswer
  have key : ∀ {α β : Type} (r : Res (Option Mapping × α)) (r' : Res (Option Mapping × β)),
      r.map Prod.fst = r'.map Prod.fst →
      r.map (fun x => x.1.map BasicConsumer.stripMapping) = r'.map (fun x => x.1.map BasicConsumer.stripMapping) := by
    intro α β r r' h
    cases r <;> cases r' <;> simp_all [Except.map]
  exact key _ _ hq

/-- C119: if in two indexed maps, whatever else is in them, the sections that two queries go to have the same map, and the
positions are the same within the sections, then the answers are the same, after any calls. -/
theorem C119_section_only (hL : E.maps.Laws) (hT : E.maps.Total) {u : Option String}
    {secs secs' : List (JsonSection SourceMapJson)} {c c' : IndexedConsumer E} (hc : Asked u secs c) (hc' : Asked u secs' c')
    {p p' : Position} (hp : Askable p) (hp' : Askable p') {i i' : Nat} {s s' : JsonSection SourceMapJson}
    (ha : Answers secs p i s) (ha' : Answers secs' p' i' s') (hmap : s.map = s'.map) (hin : withinSection s p = withinSection s' p')
    (b : Option Bias) : originalAnswer c p b = originalAnswer c' p' b := by
  obtain ⟨k₀, k, g1, g2, g3⟩ := asked_section hL hc hp ha b
  obtain ⟨k₀', k', g1', g2', g3'⟩ := asked_section hL hc' hp' ha' b
  rw [← hmap, g1] at g1'
  cases g1'
  rw [g3, g3', ← hin]
  exact map_original (g2.agree_total hL hT g2' (.original (withinSection s p) b))

/-- No section begins before the position. -/
theorem no_section (hL : E.maps.Laws) {u : Option String} {secs : List (JsonSection SourceMapJson)} {c : IndexedConsumer E}
    (hc : Asked u secs c) {p : Position} (hp : Askable p)
    (h : ∀ s ∈ secs, ¬ (Position.mk (s.offset.line + 1) (s.offset.column + 1)).Le p) (b : Option Bias) :
    originalAnswer c p b = .ok none := by
  obtain ⟨⟨m, sch, c₀, ops, h1, h2, h3, h4⟩, h5, h6, h7⟩ := hc
  rw [originalAnswer, (C42_section_partial hL h1 h2 h3 h4 h5 h6 h7 hp b).2 h]
  rfl

/-- A section is asked, or none begins before the position. -/
theorem section_or_none {secs : List (JsonSection SourceMapJson)} (hs : secs.Pairwise fun a b => a.offset.Le b.offset)
    (p : Position) : (∃ i s, Answers secs p i s) ∨
      ∀ s ∈ secs, ¬ (Position.mk (s.offset.line + 1) (s.offset.column + 1)).Le p := by
  by_cases h : ∀ s ∈ secs, ¬ (Position.mk (s.offset.line + 1) (s.offset.column + 1)).Le p
  · exact .inr h
  · left
    have key : ∀ {l : List (JsonSection SourceMapJson)}, (l.Pairwise fun a b => a.offset.Le b.offset) →
        (∃ t ∈ l, (Position.mk (t.offset.line + 1) (t.offset.column + 1)).Le p) →
        ∃ s ∈ l, (Position.mk (s.offset.line + 1) (s.offset.column + 1)).Le p ∧
          ∀ t ∈ l, (Position.mk (t.offset.line + 1) (t.offset.column + 1)).Le p → t.offset.Le s.offset := by
      intro l
      induction l with
      | nil => rintro _ ⟨t, ht, _⟩; cases ht
      | cons a l ih =>
        intro hl hex
        rw [List.pairwise_cons] at hl
        by_cases hex' : ∃ t ∈ l, (Position.mk (t.offset.line + 1) (t.offset.column + 1)).Le p
        · obtain ⟨s, g1, g2, g3⟩ := ih hl.2 hex'
          refine ⟨s, List.mem_cons_of_mem _ g1, g2, fun t ht htp => ?_⟩
          rcases List.mem_cons.1 ht with rfl | ht
          · exact hl.1 s g1
          · exact g3 t ht htp
        · obtain ⟨t, ht, htp⟩ := hex
          have hno : ∀ x ∈ l, ¬ (Position.mk (x.offset.line + 1) (x.offset.column + 1)).Le p := fun x hx hxp => hex' ⟨x, hx, hxp⟩
          rcases List.mem_cons.1 ht with rfl | ht
          · refine ⟨t, by simp, htp, fun x hx hxp => ?_⟩
            rcases List.mem_cons.1 hx with rfl | hx
            · unfold Position.Le; omega
            · exact absurd hxp (hno x hx)
          · exact absurd htp (hno t ht)
    have hex : ∃ t ∈ secs, (Position.mk (t.offset.line + 1) (t.offset.column + 1)).Le p := by
      refine Classical.byContradiction fun hn => h fun s hs hle => hn ⟨s, hs, hle⟩
    obtain ⟨s, g1, g2, g3⟩ := key hs hex
    have hi : secs.findIdx (fun x => x.offset = s.offset) < secs.length :=
      List.findIdx_lt_length_of_exists ⟨s, g1, by simp⟩
    have hoff : secs[secs.findIdx (fun x => x.offset = s.offset)].offset = s.offset := by
      have := List.findIdx_getElem (w := hi)
      simpa using this
    refine ⟨_, _, List.getElem?_eq_getElem hi, by rw [hoff]; exact g2, by rw [hoff]; exact g3, ?_⟩
    intro j t hj ht
    refine Classical.byContradiction fun hlt => ?_
    have := List.not_of_lt_findIdx (Nat.lt_of_not_le hlt)
    rw [List.getElem?_eq_some_iff] at hj
    obtain ⟨_, rfl⟩ := hj
    rw [hoff] at ht
    simp [ht] at this

/-- C119, sections put behind: sections that begin after the position change nothing, after any calls. -/
theorem C119_sections_behind (hL : E.maps.Laws) (hT : E.maps.Total) {u : Option String}
    {secs more : List (JsonSection SourceMapJson)} {c c' : IndexedConsumer E} (hc : Asked u secs c)
    (hc' : Asked u (secs ++ more) c') {p : Position} (hp : Askable p)
    (hmore : ∀ t ∈ more, ¬ (Position.mk (t.offset.line + 1) (t.offset.column + 1)).Le p) (b : Option Bias) :
    originalAnswer c' p b = originalAnswer c p b := by
  rcases section_or_none hc.sorted p with ⟨i, s, ha⟩ | hn
  · have hi := (List.getElem?_eq_some_iff.1 ha.get).1
    refine C119_section_only hL hT hc' hc hp hp (s := s) (s' := s) (i := i) ⟨?_, ha.before, ?_, ?_⟩ ha rfl rfl b
    · rw [List.getElem?_append_left hi]; exact ha.get
    · intro t ht htp
      rcases List.mem_append.1 ht with ht | ht
      · exact ha.last t ht htp
      · exact absurd htp (hmore t ht)
    · intro j t hj ht
      by_cases hjl : j < secs.length
      · rw [List.getElem?_append_left hjl] at hj
        exact ha.first j t hj ht
      · omega
  · rw [no_section hL hc hp hn, no_section hL hc' hp]
    intro s hs
    rcases List.mem_append.1 hs with hs | hs
    · exact hn s hs
    · exact hmore s hs

/-- C119, the whole moved down: if all sections begin `k` lines further down, so do the answers' questions: at a position `k`
lines further down the answer is the same. (It gives the generated position within the section, C86.) -/
theorem C119_moved_down (hL : E.maps.Laws) (hT : E.maps.Total) {u : Option String} {k : Nat}
    {secs : List (JsonSection SourceMapJson)} {c c' : IndexedConsumer E} (hc : Asked u secs c)
    (hc' : Asked u (secs.map fun s => { s with offset := ⟨s.offset.line + k, s.offset.column⟩ }) c') {p : Position} (hp : Askable p)
    (hp' : Askable ⟨p.line + k, p.column⟩) (b : Option Bias) :
    originalAnswer c' ⟨p.line + k, p.column⟩ b = originalAnswer c p b := by
  have hle : ∀ s : JsonSection SourceMapJson,
      (Position.mk (s.offset.line + k + 1) (s.offset.column + 1)).Le ⟨p.line + k, p.column⟩ ↔
        (Position.mk (s.offset.line + 1) (s.offset.column + 1)).Le p := by
    intro s; unfold Position.Le; dsimp only; omega
  rcases section_or_none hc.sorted p with ⟨i, s, ha⟩ | hn
  · refine C119_section_only hL hT hc' hc hp' hp (s := { s with offset := ⟨s.offset.line + k, s.offset.column⟩ }) (s' := s)
      (i := i) ⟨?_, (hle s).2 ha.before, ?_, ?_⟩ ha rfl ?_ b
    · rw [List.getElem?_map, ha.get]; rfl
    · intro t ht htp
      obtain ⟨x, hx, rfl⟩ := List.mem_map.1 ht
      have := ha.last x hx ((hle x).1 htp)
      unfold Position.Le at this ⊢
      dsimp only
      omega
    · intro j t hj ht
      rw [List.getElem?_map] at hj
      cases hx : secs[j]? with
      | none => rw [hx] at hj; cases hj
      | some x =>
        rw [hx] at hj
        simp only [Option.map_some, Option.some.injEq] at hj
        subst hj
        refine ha.first j x hx ?_
        simp only [Position.mk.injEq] at ht
        cases hxo : x.offset
        cases hso : s.offset
        simp only [hxo, hso, Position.mk.injEq] at ht ⊢
        omega
    · simp only [withinSection, Position.mk.injEq]
      refine ⟨by omega, ?_⟩
      by_cases h : s.offset.line + 1 = p.line
      · rw [if_pos h, if_pos (by omega)]
      · rw [if_neg h, if_neg (by omega)]
  · rw [no_section hL hc hp hn, no_section hL hc' hp']
    intro s hs
    obtain ⟨x, hx, rfl⟩ := List.mem_map.1 hs
    exact fun h => hn x hx ((hle x).1 h)

/-! ## Cases -/

/-- A third section behind the two of the demo map, and all of them 7 lines further down: (3, 100) and (10, 100) have the
same answer. -/
theorem C119_case :
    (demoAskIndexed [0, 1, 2] { demoIndexed with sections := some [⟨⟨0, 0⟩, demoMap, none⟩, ⟨⟨2, 5⟩, demoRooted, none⟩,
        ⟨⟨3, 0⟩, demoMap, none⟩] } fun c => c.originalPositionFor ⟨3, 100⟩ (some .lub)) =
      .ok (some ⟨⟨2, 1⟩, some ⟨1, 1⟩, some "/the/root/two.js", none, none⟩) ∧
    (demoAskIndexed [0, 1] { demoIndexed with sections := some [⟨⟨7, 0⟩, demoMap, none⟩, ⟨⟨9, 5⟩, demoRooted, none⟩] }
        fun c => c.originalPositionFor ⟨10, 100⟩ (some .lub)) =
      .ok (some ⟨⟨2, 1⟩, some ⟨1, 1⟩, some "/the/root/two.js", none, none⟩) :=
  ⟨by decide +kernel, by decide +kernel⟩

/-- A consumer of the three sections, as the property wants it. -/
example {c : IndexedConsumer demoEnv} (h : fromSourceMapJson [0, 1, 2] { demoIndexed with
      sections := some [⟨⟨0, 0⟩, demoMap, none⟩, ⟨⟨2, 5⟩, demoRooted, none⟩, ⟨⟨3, 0⟩, demoMap, none⟩] } none = .ok c) :
    Asked none ([⟨⟨0, 0⟩, demoMap, none⟩, ⟨⟨2, 5⟩, demoRooted, none⟩] ++ [⟨⟨3, 0⟩, demoMap, none⟩]) c ∧
    Askable ⟨3, 100⟩ ∧ ∀ t ∈ [(⟨⟨3, 0⟩, demoMap, none⟩ : JsonSection SourceMapJson)],
      ¬ (Position.mk (t.offset.line + 1) (t.offset.column + 1)).Le ⟨3, 100⟩ :=
  ⟨⟨⟨_, [0, 1, 2], c, [], rfl, List.Perm.refl _, h, rfl⟩, by decide, by simp [RSM.Plain, IsI32], by simp [Position.Le]⟩,
    by simp [Askable, IsI32], by simp [Position.Le]⟩

end RSM
