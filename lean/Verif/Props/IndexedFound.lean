import Verif.Props.Forward
import Verif.Props.Indexed
/-! # C86: what `original_position_for` of an `IndexedConsumer` finds -/

namespace RSM
open Spec IndexedConsumer

variable {E : Env}

/-- The place in the whole generated file of a segment in a section that begins at `off` (0-based, as the segments are);
lines are counted from 1. -/
def placed (off : Position) (x : RawMapping) : Position :=
  ⟨off.line + x.line + 1, if x.line = 0 then off.column + x.column else x.column⟩

/-- `s`, number `i`, is the section that a query for `p` goes to (C42). -/
structure Answers (secs : List (JsonSection SourceMapJson)) (p : Position) (i : Nat) (s : JsonSection SourceMapJson) :
    Prop where
  get : secs[i]? = some s
  before : (Position.mk (s.offset.line + 1) (s.offset.column + 1)).Le p
  last : ∀ t ∈ secs, (Position.mk (t.offset.line + 1) (t.offset.column + 1)).Le p → t.offset.Le s.offset
  first : ∀ (j : Nat) t, secs[j]? = some t → t.offset = s.offset → i ≤ j

section
variable (hL : E.maps.Laws) {m : SourceMapJson} {u : Option String}
    {secs : List (JsonSection SourceMapJson)} (hs : m.sections = some secs) {sch : List Nat}
    (h1 : IsSchedule secs.length sch) {c₀ c : IndexedConsumer E} (e1 : fromSourceMapJson sch m u = .ok c₀)
    {ops : List Op} (hrun : c₀.run ops = .ok c) (hlen : secs.length < 2147483647)
    (hplain : ∀ s ∈ secs, RSM.Plain s) (hsorted : secs.Pairwise fun a b => a.offset.Le b.offset)
    {p : Position} (hp : 1 ≤ p.line ∧ 0 ≤ p.column ∧ IsI32 p.line ∧ IsI32 p.column)
    {i : Nat} {s : JsonSection SourceMapJson} (ha : Answers secs p i s)
    {raws : List RawMapping} (hseg : s.map.Segments raws)
include hL hs h1 e1 hrun hlen hplain hsorted hp ha

/-- The consumer of the section, and the query it gets. -/
theorem section_asked (b : Option Bias) : ∃ (k₀ k : BasicConsumer E) (q : Position),
    BasicConsumer.Built s.map u k₀ ∧ BasicConsumer.Rel k₀ k ∧
    (c.originalPositionFor p b).map Prod.fst = (k.originalPositionFor q b).map Prod.fst ∧
    q.line = p.line - s.offset.line ∧ (s.offset.line + 1 = p.line → q.column = p.column - s.offset.column) ∧
    (s.offset.line + 1 ≠ p.line → q.column = p.column) ∧ 0 ≤ s.offset.line ∧ s.offset.line + 1 ≤ p.line ∧
    IsI32 q.line ∧ IsI32 q.column ∧ 1 ≤ q.line ∧ 0 ≤ q.column := by
  obtain ⟨hget, hbefore, hlast, hfirst⟩ := ha
  obtain ⟨x, hx, hq⟩ := (C42_section_partial hL hs h1 e1 hrun hlen hplain hsorted hp b).1 i s hget hbefore hlast hfirst
  obtain ⟨_, hsec⟩ := sections_after hL hs h1 e1 hrun
  obtain ⟨s', x₀, g1, _, _, _, g2, g3⟩ := hsec i x hx
  rw [hget] at g1
  cases g1
  obtain ⟨p1, p2, p3, p4⟩ := hplain s (List.mem_of_getElem? hget)
  unfold Position.Le at hbefore
  refine ⟨x₀.consumer, x.consumer, _, g2, g3, hq, rfl, fun h => if_pos h, fun h => if_neg h, p1, ?_, ?_, ?_, ?_, ?_⟩
  · dsimp only at hbefore; omega
  · unfold IsI32 at *; dsimp only at *; omega
  · unfold IsI32 at *; dsimp only at *; split <;> omega
  · dsimp only at *; omega
  · dsimp only at *; split <;> omega

include hseg

/-- C86 is false of the code: with the bias to the least upper bound, a mapping found through an indexed map is one on
the line after the one asked about, the first there, provided that nothing of the section is on the line asked about at
or after the column; and it is reported at its position within the section, not within the generated file. -/
theorem C86_found_refuted {r : Mapping} {c' : IndexedConsumer E}
    (hr : c.originalPositionFor p (some .lub) = .ok (some r, c')) :
    ∃ x o, x ∈ raws ∧ x.original = some o ∧ (placed s.offset x).line = p.line + 1 ∧
      (∀ y ∈ raws, (placed s.offset y).line = p.line → (placed s.offset y).column < p.column) ∧
      (∀ y ∈ raws, (placed s.offset y).line = p.line + 1 → (placed s.offset x).column ≤ (placed s.offset y).column) ∧
      (p.line < 2147483647 → r.generated = ⟨(placed s.offset x).line - s.offset.line, wrap32 (placed s.offset x).column⟩) ∧
      r.original = some ⟨wrap32 ((o.line : Int) + 1), wrap32 o.column⟩ ∧
      (∀ srcs, s.map.sources = some srcs → srcs.length < 2147483648 → ∀ src, srcs[o.source]? = some src →
        ∃ t, sourceUrl E s.map.sourceRoot src u = .ok t ∧ r.source = some t) ∧
      (o.name = none → r.name = none) ∧
      (∀ n, o.name = some n → ∃ names nm, s.map.names = some names ∧ names[n]? = some nm ∧ r.name = some nm) := by
  obtain ⟨k₀, k, q, b1, b2, b3, q1, q2, q3, q4, q5, q6, q7, q8, q9⟩ :=
    section_asked hL hs h1 e1 hrun hlen hplain hsorted hp ha (some .lub)
  obtain ⟨k', hk⟩ : ∃ k', k.originalPositionFor q (some .lub) = .ok (some r, k') := by
    rw [hr] at b3
    cases hk : k.originalPositionFor q (some .lub) with
    | error e => rw [hk] at b3; cases b3
    | ok z =>
      rw [hk] at b3
      obtain ⟨z1, z2⟩ := z
      simp only [Except.map, Except.ok.injEq] at b3
      exact ⟨z2, by rw [← b3]⟩
  obtain ⟨f1, x, o, f2, f3, f4, f5, f6, f7, f8, f9, f10, f11⟩ := lub_found hL b1 b2 hseg ⟨q6, q7⟩ hk
  have hxl : (x.line : Int) = p.line - s.offset.line := by omega
  have hx0 : x.line ≠ 0 := by omega
  obtain ⟨srcs, s1, s2, s3⟩ := C28_sources b1
  have hks : k.getSources = k₀.getSources := by
    show k.absoluteSources.toVec = k₀.absoluteSources.toVec
    rw [b2.abs]
  refine ⟨x, o, f2, f3, ?_, ?_, ?_, ?_, f6, ?_, f8, f9⟩
  · simp only [placed]; omega
  · intro y hy hl
    simp only [placed] at hl ⊢
    have := f10 y hy (by omega)
    by_cases h0 : y.line = 0
    · rw [if_pos h0]
      have := q2 (by omega)
      omega
    · rw [if_neg h0]
      have := q3 (by omega)
      omega
  · intro y hy hl
    simp only [placed] at hl ⊢
    have := f11 y hy (by omega)
    rw [if_neg hx0, if_neg (by omega)]
    omega
  · intro hp
    have := f1 (by omega)
    cases hg : r.generated
    rw [hg] at this f5
    simp only [placed, if_neg hx0] at this f5 ⊢
    rw [f5, this]
    congr 1
    omega
  · intro srcs' e hl src hsrc
    rw [s1] at e
    cases e
    obtain ⟨t, t1, t2⟩ := s3 _ _ hsrc
    refine ⟨t, t1, ?_⟩
    rw [f7 (by rw [hks, s2]; exact hl), hks, t2]

/-- C86 is false of the code: a mapping found in a section that does not begin on the first line is reported on a wrong
line. -/
theorem C86_place_refuted (hoff : s.offset.line ≠ 0) (hpl : p.line < 2147483647) {r : Mapping} {c' : IndexedConsumer E}
    (hr : c.originalPositionFor p (some .lub) = .ok (some r, c')) :
    ∀ x ∈ raws, (placed s.offset x).line = p.line + 1 → r.generated.line ≠ (placed s.offset x).line := by
  obtain ⟨x, o, f2, f3, f4, f5, f6, f7, _⟩ := C86_found_refuted hL hs h1 e1 hrun hlen hplain hsorted hp ha hseg hr
  intro y hy hl
  rw [f7 hpl, hl]
  dsimp only
  omega

/-- C86, for a section that begins on the first line: the place reported is that of the mapping in the generated file. -/
theorem C86_first_line_partial (hoff : s.offset.line = 0) (hpl : p.line < 2147483647)
    (hcols : ∀ x ∈ raws, x.column < 2147483648) {r : Mapping} {c' : IndexedConsumer E}
    (hr : c.originalPositionFor p (some .lub) = .ok (some r, c')) :
    ∃ x ∈ raws, x.original.isSome ∧ r.generated = placed s.offset x := by
  obtain ⟨x, o, f2, f3, f4, f5, f6, f7, _⟩ := C86_found_refuted hL hs h1 e1 hrun hlen hplain hsorted hp ha hseg hr
  refine ⟨x, f2, by simp [f3], ?_⟩
  have hx := hcols x f2
  rw [f7 hpl]
  simp only [placed] at *
  rw [if_neg (by omega)] at *
  rw [wrap32_of_isI32 (by unfold IsI32; omega)]
  congr 1
  omega

/-- C86: when something is found: a segment `x` on the line after the one asked about, the first of its line, with nothing
on the line asked about at or after the column, and with an original position at every segment of its place. -/
theorem C86_finds {x : RawMapping} (hx : x ∈ raws) (hxl : (placed s.offset x).line = p.line + 1)
    (hgap : ∀ y ∈ raws, (placed s.offset y).line = p.line → (placed s.offset y).column < p.column)
    (hfirst : ∀ y ∈ raws, (placed s.offset y).line = p.line + 1 → (placed s.offset x).column ≤ (placed s.offset y).column)
    (horig : ∀ y ∈ raws, placed s.offset y = placed s.offset x → y.original.isSome)
    {r : Option Mapping} {c' : IndexedConsumer E} (hr : c.originalPositionFor p (some .lub) = .ok (r, c')) :
    r.isSome = true := by
  obtain ⟨k₀, k, q, b1, b2, b3, q1, q2, q3, q4, q5, q6, q7, q8, q9⟩ :=
    section_asked hL hs h1 e1 hrun hlen hplain hsorted hp ha (some .lub)
  obtain ⟨k', hk⟩ : ∃ k', k.originalPositionFor q (some .lub) = .ok (r, k') := by
    rw [hr] at b3
    cases hk : k.originalPositionFor q (some .lub) with
    | error e => rw [hk] at b3; cases b3
    | ok z =>
      rw [hk] at b3
      obtain ⟨z1, z2⟩ := z
      simp only [Except.map, Except.ok.injEq] at b3
      exact ⟨z2, by rw [← b3]⟩
  simp only [placed] at hxl
  have hx0 : x.line ≠ 0 := by omega
  refine lub_finds hL b1 b2 hseg ⟨q6, q7⟩ ?_ hx (by omega) ?_ ?_ hk
  · intro y hy hl
    have := hgap y hy (by simp only [placed]; omega)
    simp only [placed] at this
    split at this
    · have := q2 (by omega); omega
    · have := q3 (by omega); omega
  · intro y hy hl
    have := hfirst y hy (by simp only [placed]; omega)
    simp only [placed, if_neg hx0] at this
    rw [if_neg (by omega)] at this
    omega
  · intro y hy h2 h3
    exact horig y hy (by simp only [placed, h2, h3])

/-- C86: it returns, with either bias, if `names` of the section has an entry for every name a segment refers to and the
lines stay below the largest 32-bit number. -/
theorem C86_returns (hT : E.maps.Total) (hlines : ∀ r ∈ raws, r.line < 4294967295)
    (horig : ∀ r ∈ raws, ∀ o, r.original = some o → o.line < 4294967295 ∧
      ∀ n, o.name = some n → ∃ names, s.map.names = some names ∧ n < names.length) (b : Option Bias) :
    ∃ r c', c.originalPositionFor p b = .ok (r, c') := by
  obtain ⟨k₀, k, q, b1, b2, b3, q1, q2, q3, q4, q5, q6, q7, q8, q9⟩ :=
    section_asked hL hs h1 e1 hrun hlen hplain hsorted hp ha b
  obtain ⟨r, k', hk⟩ := original_returns hL hT b1 b2 hseg hlines horig ⟨q6, q7⟩ ⟨q8, q9⟩ b
  rw [hk] at b3
  cases hr : c.originalPositionFor p b with
  | error e => rw [hr] at b3; cases b3
  | ok z => exact ⟨z.1, z.2, rfl⟩

end

/-- The section at `⟨2, 5⟩` answers for the third line, and meets the hypotheses. -/
theorem demo_answers : ∃ (secs : List (JsonSection SourceMapJson)) (s : JsonSection SourceMapJson),
    demoIndexed.sections = some secs ∧ IsSchedule secs.length [0, 1] ∧ (∀ s ∈ secs, RSM.Plain s) ∧
    secs.Pairwise (fun a b => a.offset.Le b.offset) ∧ Answers secs ⟨3, 100⟩ 1 s ∧ s.map.Segments demoRaws ∧
    s.offset.line ≠ 0 := by
  refine ⟨_, _, rfl, List.Perm.refl _, by simp [Plain, IsI32], by simp [Position.Le],
    ⟨rfl, by simp [Position.Le], by simp [Position.Le], ?_⟩,
    ⟨_, rfl, by decide +kernel, by simp [demoRaws, Spec.RawMapping.U32]⟩, by decide⟩
  intro j t h1 h2
  match j with
  | 0 => simp at h1; subst h1; simp at h2
  | j + 1 => omega

/-- What it finds is on line 4 of the generated file, and is reported on line 2. -/
example : (⟨1, 1, some ⟨1, 0, 1, none⟩⟩ : Spec.RawMapping) ∈ demoRaws ∧
    placed ⟨2, 5⟩ ⟨1, 1, some ⟨1, 0, 1, none⟩⟩ = ⟨4, 1⟩ ∧
    demoAskIndexed [0, 1] demoIndexed (fun c => c.originalPositionFor ⟨3, 100⟩ (some .lub)) =
      .ok (some ⟨⟨2, 1⟩, some ⟨1, 1⟩, some "/the/root/two.js", none, none⟩) :=
  ⟨by decide, by decide, by decide +kernel⟩

/-- In the section that begins on the first line the place is right. -/
example : demoAskIndexed [0, 1] demoIndexed (fun c => c.originalPositionFor ⟨1, 100⟩ (some .lub)) =
      .ok (some ⟨⟨2, 1⟩, some ⟨1, 1⟩, some "two.js", none, none⟩) := by decide +kernel

/-! ## Sections made by generators -/

/-- The place in the whole generated file of a mapping added to the generator of a section that begins at `off`. -/
def addedPlace (off : Position) (m : Mapping) : Position :=
  ⟨off.line + m.generated.line, if m.generated.line = 1 then off.column + m.generated.column else m.generated.column⟩

theorem placed_denotes {S N : List String} {x : RawMapping} {m : Mapping} (off : Position) (h : Denotes S N x m) :
    placed off x = addedPlace off m := by
  simp only [placed, addedPlace, h.1]
  congr 1
  · omega
  · by_cases h0 : x.line = 0
    · rw [if_pos h0, if_pos (by omega)]
    · rw [if_neg h0, if_neg (by omega)]

section
variable (hL : E.maps.Laws) {m : SourceMapJson} {u : Option String}
    {secs : List (JsonSection SourceMapJson)} (hs : m.sections = some secs) {sch : List Nat}
    (h1 : IsSchedule secs.length sch) {c₀ c : IndexedConsumer E} (e1 : fromSourceMapJson sch m u = .ok c₀)
    {ops : List Op} (hrun : c₀.run ops = .ok c) (hlen : secs.length < 2147483647)
    (hplain : ∀ s ∈ secs, RSM.Plain s) (hsorted : secs.Pairwise fun a b => a.offset.Le b.offset)
    {p : Position} (hp : 1 ≤ p.line ∧ 0 ≤ p.column ∧ IsI32 p.line ∧ IsI32 p.column)
    {i : Nat} {s : JsonSection SourceMapJson} (ha : Answers secs p i s)
    {file root : Option String} {skip : Bool} {gops : List GOp} {g g' : Generator}
    (henc : ∀ m ∈ gAdded gops, m.Encodable E.cfg)
    (hS : (firstOccurrences ((gAdded gops).filterMap Mapping.source)).length < E.cfg.vlqLimit)
    (hN : (firstOccurrences ((gAdded gops).filterMap Mapping.name)).length < E.cfg.vlqLimit)
    (hg : (Generator.new file root skip).run E.url E.cfg gops = .ok g)
    (hj : g.asJson E.url E.cfg = .ok (s.map, g'))
include hL hs h1 e1 hrun hlen hplain hsorted hp ha henc hS hN hg hj

/-- C86, for a section that a generator wrote: what is found is all of an added mapping, at its position within the
section. -/
theorem C86_generator_found {r : Mapping} {c' : IndexedConsumer E}
    (hr : c.originalPositionFor p (some .lub) = .ok (some r, c')) :
    ∃ a ∈ gAdded gops, (addedPlace s.offset a).line = p.line + 1 ∧
      (∀ b ∈ gAdded gops, (addedPlace s.offset b).line = p.line → (addedPlace s.offset b).column < p.column) ∧
      (∀ b ∈ gAdded gops, (addedPlace s.offset b).line = p.line + 1 →
        (addedPlace s.offset a).column ≤ (addedPlace s.offset b).column) ∧
      (p.line < 2147483647 → r.generated = a.generated) ∧ a.original.isSome ∧ r.original = a.original ∧ r.name = a.name ∧
      ∃ src t, a.source = some src ∧ sourceUrl E root src u = .ok t ∧ r.source = some t := by
  have hlim := E.cfg.vlqLimit_le
  obtain ⟨raws, hseg, hroot, hsrcs, hnames, hsound, hcomplete, _⟩ :=
    generator_segments E.url E.cfg file root skip gops g g' s.map henc hS hN hg hj
  obtain ⟨x, o, f1, f2, f3, f4, f5, f6, f7, f8, f9, f10⟩ :=
    C86_found_refuted hL hs h1 e1 hrun hlen hplain hsorted hp ha hseg hr
  obtain ⟨a, am, hd⟩ := hsound x f1
  have hpl := placed_denotes s.offset hd
  have hd' := hd
  simp only [Denotes, f2] at hd
  obtain ⟨d1, d2, ⟨src, d3, d4⟩, d5⟩ := hd
  have e1 := (henc a am).line
  have e2 := (henc a am).column
  obtain ⟨e3, e4, e5, e6⟩ := (henc a am).range _ d2
  rw [d1] at e1 e2
  simp only at e1 e2 e3 e4 e5 e6
  refine ⟨a, am, by rw [← hpl]; exact f3, ?_, ?_, ?_, by simp [d2], ?_, ?_, ?_⟩
  · intro b hb hl
    obtain ⟨y, hy, hdy⟩ := hcomplete b hb
    rw [← placed_denotes s.offset hdy] at hl ⊢
    exact f4 y hy hl
  · intro b hb hl
    obtain ⟨y, hy, hdy⟩ := hcomplete b hb
    rw [← placed_denotes s.offset hdy] at hl ⊢
    rw [← hpl]
    exact f5 y hy hl
  · intro hlt
    have hx0 : x.line ≠ 0 := by
      have hb := ha.before
      simp only [Position.Le] at hb
      simp only [placed] at f3
      omega
    rw [f6 hlt, d1]
    simp only [placed, if_neg hx0]
    rw [wrap32_of_isI32 (by unfold IsI32; omega)]
    congr 1
    omega
  · rw [f7, d2, wrap32_of_isI32 (by unfold IsI32; omega), wrap32_of_isI32 (by unfold IsI32; omega)]
  · cases hn : o.name with
    | none =>
      rw [hn] at d5
      rw [f9 hn, d5]
    | some n =>
      rw [hn] at d5
      obtain ⟨t, d6, d7⟩ := d5
      obtain ⟨names, nm, n1, n2, n3⟩ := f10 n hn
      rw [hnames] at n1
      cases n1
      rw [d6] at n2
      cases n2
      rw [n3, d7]
  · obtain ⟨t, t1, t2⟩ := f8 _ hsrcs (by omega) src d3
    exact ⟨src, t, d4, by rw [← hroot]; exact t1, t2⟩

/-- C86, for a section that a generator wrote: an added mapping that is the first of its line, with sources at all the
mappings of its place, is found from the line before. -/
theorem C86_generator_finds (hT : E.maps.Total) {a : Mapping} (am : a ∈ gAdded gops)
    (hal : (addedPlace s.offset a).line = p.line + 1)
    (hgap : ∀ b ∈ gAdded gops, (addedPlace s.offset b).line = p.line → (addedPlace s.offset b).column < p.column)
    (hfirst : ∀ b ∈ gAdded gops, (addedPlace s.offset b).line = p.line + 1 →
      (addedPlace s.offset a).column ≤ (addedPlace s.offset b).column)
    (hsrc : ∀ b ∈ gAdded gops, b.generated = a.generated → b.source.isSome) :
    ∃ r c', c.originalPositionFor p (some .lub) = .ok (some r, c') ∧ (p.line < 2147483647 → r.generated = a.generated) := by
  obtain ⟨raws, hseg, hroot, hsrcs, hnames, hsound, hcomplete, _⟩ :=
    generator_segments E.url E.cfg file root skip gops g g' s.map henc hS hN hg hj
  have hlim := E.cfg.vlqLimit_le
  obtain ⟨x, hx, hdx⟩ := hcomplete a am
  have hsomed : ∀ y ∈ raws, y.genPos = x.genPos → y.original.isSome := by
    intro y hy hyx
    obtain ⟨b, hb, hdb⟩ := hsound y hy
    have hgen : b.generated = a.generated := by
      rw [hdb.1, hdx.1]
      simp only [RawMapping.genPos, Prod.mk.injEq] at hyx
      rw [hyx.1, hyx.2]
    have := hsrc b hb hgen
    cases ho : y.original with
    | some o => rfl
    | none =>
      simp only [Denotes, ho] at hdb
      simp_all
  obtain ⟨r, c', hr⟩ := C86_returns hL hs h1 e1 hrun hlen hplain hsorted hp ha hseg hT
    (by
      intro y hy
      obtain ⟨b, hb, hd⟩ := hsound y hy
      have := (henc b hb).line
      rw [hd.1] at this
      simp only at this
      omega)
    (by
      intro y hy o ho
      obtain ⟨b, hb, hd⟩ := hsound y hy
      simp only [Denotes, ho] at hd
      obtain ⟨_, d2, _, d4⟩ := hd
      have := (henc b hb).range _ d2
      refine ⟨by simp only at this; omega, ?_⟩
      intro n hn
      rw [hn] at d4
      obtain ⟨t, d4, _⟩ := d4
      exact ⟨_, hnames, (List.getElem?_eq_some_iff.1 d4).1⟩) (some .lub)
  have hsome := C86_finds hL hs h1 e1 hrun hlen hplain hsorted hp ha hseg hx
    (by rw [placed_denotes s.offset hdx]; exact hal)
    (by
      intro y hy hl
      obtain ⟨b, hb, hd⟩ := hsound y hy
      rw [placed_denotes s.offset hd] at hl ⊢
      exact hgap b hb hl)
    (by
      intro y hy hl
      obtain ⟨b, hb, hd⟩ := hsound y hy
      rw [placed_denotes s.offset hd] at hl ⊢
      rw [placed_denotes s.offset hdx]
      exact hfirst b hb hl)
    (by
      intro y hy hyx
      apply hsomed y hy
      simp only [placed, Position.mk.injEq] at hyx
      have hl : y.line = x.line := by omega
      have hc := hyx.2
      rw [hl] at hc
      simp only [RawMapping.genPos, Prod.mk.injEq]
      refine ⟨hl, ?_⟩
      split at hc <;> omega) hr
  obtain ⟨r, rfl⟩ := Option.isSome_iff_exists.1 hsome
  refine ⟨r, c', hr, ?_⟩
  intro hlt
  obtain ⟨b, bm, f1, f2, f3, f4, _⟩ :=
    C86_generator_found hL hs h1 e1 hrun hlen hplain hsorted hp ha henc hS hN hg hj hr
  rw [f4 hlt]
  have g1 := hfirst b bm f1
  have g2 := f3 a am hal
  have hb := ha.before
  simp only [Position.Le] at hb
  simp only [addedPlace] at g1 g2 f1 hal
  rw [if_neg (by omega), if_neg (by omega)] at g1 g2
  have l : b.generated.line = a.generated.line := by omega
  have k : b.generated.column = a.generated.column := by omega
  generalize a.generated = x, b.generated = y at l k ⊢
  cases x
  cases y
  simp_all

end

/-- A section at `⟨2, 5⟩` written by a generator, asked about the line before its second: the mapping added there is found,
and reported as it was added. -/
example : (do
    let g ← (Generator.new none none false).run demoEnv.url demoEnv.cfg
      [.add ⟨⟨1, 4⟩, some ⟨1, 0⟩, some "a.js", none, none⟩, .add ⟨⟨2, 7⟩, some ⟨5, 2⟩, some "b.js", some "f", none⟩]
    let j ← g.asJson demoEnv.url demoEnv.cfg
    demoAskIndexed [0] { demoIndexed with sections := some [⟨⟨2, 5⟩, j.1, none⟩] }
      (fun c => c.originalPositionFor ⟨3, 100⟩ (some .lub))) =
        .ok (some ⟨⟨2, 7⟩, some ⟨5, 2⟩, some "b.js", some "f", none⟩) ∧
    addedPlace ⟨2, 5⟩ ⟨⟨2, 7⟩, some ⟨5, 2⟩, some "b.js", some "f", none⟩ = ⟨4, 7⟩ := ⟨by decide +kernel, by decide⟩

end RSM
