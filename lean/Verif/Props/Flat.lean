import Verif.Props.Concat
import Verif.Props.Bundle
import Verif.Props.IndexedFound
/-! # Property C117: an indexed map of texts put one below the other, and the map of the whole -/

namespace RSM
open Spec
open BasicConsumer (stripMapping)

variable {E : Env}

/-- The parts begin one below the other, from line `k` on (counted from 0); of each the number of its lines is given. -/
def Stacked : Nat → List (Nat × Part) → Prop
  | _, [] => True
  | k, (n, p) :: rest => p.offset = ⟨k, 0⟩ ∧ 1 ≤ n ∧ Stacked (k + n) rest

/-- The texts with their mappings. -/
def textsOf (texts : List (Nat × Part)) : List (Nat × List Mapping) := texts.map fun t => (t.1, gAdded t.2.ops)

theorem Stacked.at : ∀ {pre post : List (Nat × Part)} {t : Nat × Part} {k : Nat}, Stacked k (pre ++ t :: post) →
    t.2.offset = ⟨k + height (textsOf pre), 0⟩ ∧ 1 ≤ t.1 ∧ (∀ q ∈ pre, q.2.offset.line < k + height (textsOf pre)) ∧
    Stacked (k + height (textsOf pre) + t.1) post := by
  intro pre
  induction pre with
  | nil =>
    intro post t k h
    obtain ⟨n, p⟩ := t
    obtain ⟨h1, h2, h3⟩ := h
    exact ⟨by simpa [textsOf, height] using h1, h2, by simp, by simpa [textsOf, height] using h3⟩
  | cons q pre ih =>
    intro post t k h
    obtain ⟨n, p⟩ := q
    obtain ⟨h1, h2, h3⟩ := h
    obtain ⟨g1, g2, g3, g4⟩ := ih h3
    have e : k + height (textsOf ((n, p) :: pre)) = k + n + height (textsOf pre) := by
      simp only [textsOf, List.map_cons, height]; omega
    have e' : ((k : Int) + (height (textsOf ((n, p) :: pre)) : Nat)) = ((k + n : Nat) : Int) + (height (textsOf pre) : Nat) := by
      rw [← Int.natCast_add, e, Int.natCast_add]
    refine ⟨by rw [g1, e'], g2, ?_, by rw [e]; exact g4⟩
    intro r hr
    rw [e']
    rcases List.mem_cons.1 hr with rfl | hr
    · rw [h1]; dsimp only; omega
    · exact g3 r hr

theorem Stacked.below : ∀ {texts : List (Nat × Part)} {k : Nat}, Stacked k texts → ∀ q ∈ texts, (k : Int) ≤ q.2.offset.line := by
  intro texts
  induction texts with
  | nil => intro k _ q hq; cases hq
  | cons t rest ih =>
    intro k h q hq
    obtain ⟨n, p⟩ := t
    obtain ⟨h1, _, h3⟩ := h
    rcases List.mem_cons.1 hq with rfl | hq
    · rw [h1]; exact Int.le_refl _
    · have := ih h3 q hq; omega

theorem Stacked.sorted : ∀ {texts : List (Nat × Part)} {k : Nat}, Stacked k texts →
    (texts.map fun t => t.2.offset).Pairwise Position.Le := by
  intro texts
  induction texts with
  | nil => intro k _; exact .nil
  | cons t rest ih =>
    intro k h
    obtain ⟨n, p⟩ := t
    obtain ⟨h1, h2, h3⟩ := h
    refine .cons ?_ (ih h3)
    intro o ho
    obtain ⟨q, hq, rfl⟩ := List.mem_map.1 ho
    have := h3.below q hq
    dsimp only
    rw [h1]
    unfold Position.Le
    dsimp only
    omega

/-- What a consumer of a map that a generator wrote knows. -/
theorem written_told (file root : Option String) (skip : Bool) (gops : List GOp) (g g' : Generator) (j : SourceMapJson)
    (henc : ∀ m ∈ gAdded gops, m.Encodable E.cfg)
    (hS : (firstOccurrences ((gAdded gops).filterMap Mapping.source)).length < E.cfg.vlqLimit)
    (hN : (firstOccurrences ((gAdded gops).filterMap Mapping.name)).length < E.cfg.vlqLimit)
    (hg : (Generator.new file root skip).run E.url E.cfg gops = .ok g) (hj : g.asJson E.url E.cfg = .ok (j, g'))
    {u : Option String} {c₀ : BasicConsumer E} (hb : BasicConsumer.Built j u c₀) :
    ∃ raws N, j.Segments raws ∧ j.names = some N ∧ c₀.getSources.length < 2147483648 ∧
      (∀ x ∈ raws, Fits c₀.getSources N 2147483648 x) ∧
      ∀ y, y ∈ raws.map (named c₀.getSources N) ↔ ∃ m ∈ gAdded gops, y = told E root u m := by
  have hl := vlqLimit_le E.cfg
  obtain ⟨raws, hseg, hroot, hsrc, hnam, hsound, hcomplete, _⟩ :=
    generator_segments E.url E.cfg file root skip gops g g' j henc hS hN hg hj
  obtain ⟨_, q1, q2, _⟩ := C28_sources hb
  rw [hsrc] at q1
  cases q1
  refine ⟨raws, _, hseg, hnam, by rw [q2]; omega, ?_, ?_⟩
  · intro x hx
    obtain ⟨m, hm, hden⟩ := hsound x hx
    exact denotes_fits (henc m hm) hden q2
  · intro y
    constructor
    · intro hy
      obtain ⟨x, hx, rfl⟩ := List.mem_map.1 hy
      obtain ⟨m, hm, hden⟩ := hsound x hx
      exact ⟨m, hm, by rw [denotes_told hb hsrc hden, hroot]⟩
    · rintro ⟨m, hm, rfl⟩
      obtain ⟨x, hx, hden⟩ := hcomplete m hm
      exact List.mem_map.2 ⟨x, hx, by rw [denotes_told hb hsrc hden, hroot]⟩

/-- The section of a text is the one that is asked, for its lines other than its first position. -/
theorem stacked_answers {pre post : List (Nat × Part)} {t : Nat × Part} {js : List SourceMapJson}
    (hst : Stacked 0 (pre ++ t :: post))
    (hw : List.Forall₂ (Part.Writes E) ((pre ++ t :: post).map Prod.snd) js) {l col : Int} (hl : 1 ≤ l)
    (hlast : l ≤ t.1 ∨ post = []) (hfirst : 1 < l ∨ 0 < col) :
    ∃ j, Part.Writes E t.2 j ∧
      Answers (bundleSections ((pre ++ t :: post).map Prod.snd) js) ⟨l + height (textsOf pre), col⟩ pre.length
        ⟨t.2.offset, j, none⟩ := by
  have hoff := bundle_offsets hw
  rw [List.map_append, List.map_cons] at hw
  obtain ⟨j₁, j, j₂, _, g1, g2, g3⟩ := bundle_split hw
  obtain ⟨a1, a2, a3, a4⟩ := hst.at
  have a5 := a4.below
  have hlen := bundle_length g1
  rw [List.length_map] at hlen
  have hget : ∀ (i : Nat) (x : JsonSection SourceMapJson),
      (bundleSections ((pre ++ t :: post).map Prod.snd) js)[i]? = some x →
      ∃ q, (pre ++ t :: post)[i]? = some q ∧ x.offset = q.2.offset := by
    intro i x hx
    have := congrArg (·[i]?) hoff
    simp only [List.getElem?_map, hx, Option.map_some, Option.map_map] at this
    cases hq : (pre ++ t :: post)[i]? with
    | none => rw [hq] at this; cases this
    | some q => rw [hq] at this; simp only [Option.map_some, Option.some.injEq, Function.comp] at this; exact ⟨q, rfl, this⟩
  refine ⟨j, g2, ?_, ?_, ?_, ?_⟩
  · rw [List.map_append, List.map_cons, g3, List.getElem?_append_right (by rw [hlen]), hlen]
    simp
  · dsimp only
    rw [a1]
    unfold Position.Le
    dsimp only
    omega
  · intro x hx hle
    obtain ⟨i, hi⟩ := List.getElem?_of_mem hx
    obtain ⟨q, hq, hqx⟩ := hget i x hi
    dsimp only
    rw [hqx] at hle ⊢
    rw [a1]
    unfold Position.Le at hle ⊢
    dsimp only at hle ⊢
    rcases List.mem_append.1 (List.mem_of_getElem? hq) with hq | hq
    · have := a3 q hq; omega
    · rcases List.mem_cons.1 hq with rfl | hq
      · rw [a1]; dsimp only; omega
      · have := a5 q hq
        rcases hlast with h | rfl
        · omega
        · cases hq
  · intro i x hi hx
    obtain ⟨q, hq, hqx⟩ := hget i x hi
    dsimp only at hx
    rw [hqx, a1] at hx
    refine Classical.byContradiction fun hlt => ?_
    rw [List.getElem?_append_left (by omega)] at hq
    have := a3 q (List.mem_of_getElem? hq)
    rw [hx] at this
    dsimp only at this
    omega

/-- C117: let the maps that several generators wrote be the sections of an indexed map, one text below the other, and let one
generator be given the mappings of all the texts, in any order and as often as one likes. Asked on a line of a text other
than its last (on any line, if it is the last text), but not at the first position of the text, the consumer of the indexed map
and that of the whole give the same answer, except that the first gives the generated line within the text. -/
theorem C117_indexed_flat (hJ : E.json.Laws) (hL : E.maps.Laws) (hT : E.maps.Total) (hU : E.url.Laws)
    {pre post : List (Nat × Part)} {t : Nat × Part} {js : List SourceMapJson} (hst : Stacked 0 (pre ++ t :: post))
    (hin : ∀ q ∈ textsOf (pre ++ t :: post), InText q)
    (hgood : ∀ p ∈ (pre ++ t :: post).map Prod.snd, p.Good E)
    (hw : List.Forall₂ (Part.Writes E) ((pre ++ t :: post).map Prod.snd) js)
    (hlen : (pre ++ t :: post).length < 2147483647)
    (honce : GenOnce ((gAdded t.2.ops).map Mapping.bare))
    (file : Option String) {sch : List Nat} (hsch : IsSchedule (pre ++ t :: post).length sch) {c₀ c : IndexedConsumer E}
    (hc : createConsumer sch (toStr E.json (bundle file ((pre ++ t :: post).map Prod.snd) js)) none = .ok (some (.indexed c₀)))
    {ops : List IndexedConsumer.Op} (hrun : c₀.run ops = .ok c)
    {file' : Option String} {skip' : Bool} {gops' : List GOp} {g' g₁' : Generator}
    (henc' : ∀ m ∈ gAdded gops', m.Encodable E.cfg)
    (hS' : (firstOccurrences ((gAdded gops').filterMap Mapping.source)).length < E.cfg.vlqLimit)
    (hN' : (firstOccurrences ((gAdded gops').filterMap Mapping.name)).length < E.cfg.vlqLimit)
    (hsame : ∀ x, x ∈ (gAdded gops').map Mapping.bare ↔ x ∈ (stack (textsOf (pre ++ t :: post))).map Mapping.bare)
    (hg' : (Generator.new file' none skip').run E.url E.cfg gops' = .ok g')
    {d₀ d : BasicConsumer E} (hd : BasicConsumer.fromSourceMap g' none = .ok (d₀, g₁'))
    {ops' : List BasicConsumer.Op} (hrun' : d₀.run ops' = .ok d)
    {l col : Int} {b : Option Bias} (hl : 1 ≤ l ∧ l + height (textsOf pre) ≤ 2147483647)
    (hcol : 0 ≤ col ∧ col ≤ 2147483647) (hlast : l < t.1 ∨ post = []) (hfirst : 1 < l ∨ 0 < col) :
    (d.originalPositionFor ⟨l + height (textsOf pre), col⟩ b).map (fun r => r.1.map stripMapping) =
      (c.originalPositionFor ⟨l + height (textsOf pre), col⟩ b).map
        (fun r => r.1.map fun x => (stripMapping x).down (height (textsOf pre))) := by
  have hlast' : l ≤ t.1 ∨ post = [] := hlast.imp_left fun h => by omega
  obtain ⟨j, hj, hans⟩ := stacked_answers hst hw hl.1 hlast' hfirst
  have e1 := (bundle_create hJ hU hgood hw file sch c₀).1 hc
  have hslen := bundle_length hw
  rw [List.length_map] at hslen
  have hoff := (hst.at).1
  have hplain : ∀ s ∈ bundleSections ((pre ++ t :: post).map Prod.snd) js, Plain s := by
    intro s hs
    obtain ⟨p, hp, _, h2, _⟩ := mem_bundle hw hs
    have h3 := (hgood p hp).line
    have h4 := (hgood p hp).column
    unfold Plain IsI32
    rw [h2]
    omega
  have hsorted : (bundleSections ((pre ++ t :: post).map Prod.snd) js).Pairwise fun a b => a.offset.Le b.offset := by
    have := hst.sorted
    rw [← List.pairwise_map (f := fun s : JsonSection SourceMapJson => s.offset), bundle_offsets hw, List.map_map]
    exact this
  obtain ⟨k₀, k, q, b1, b2, b3, q1, q2, q3, _⟩ :=
    section_asked hL (m := bundle file ((pre ++ t :: post).map Prod.snd) js) rfl (by rw [hslen]; exact hsch) e1 hrun
      (by rw [hslen]; exact hlen) hplain hsorted (p := ⟨l + height (textsOf pre), col⟩)
      ⟨by dsimp only; omega, hcol.1, by unfold IsI32; dsimp only; omega, by unfold IsI32; dsimp only; omega⟩ hans b
  dsimp only at q1 q2 q3
  rw [hoff] at q1 q2 q3
  dsimp only at q1 q2 q3
  have hq : q = ⟨l, col⟩ := by
    obtain ⟨ql, qc⟩ := q
    simp only [Position.mk.injEq] at *
    refine ⟨by omega, ?_⟩
    by_cases h : ((0 : Nat) : Int) + (height (textsOf pre) : Nat) + 1 = l + (height (textsOf pre) : Nat)
    · have := q2 h; omega
    · exact q3 h
  subst hq
  have hgt := hgood t.2 (List.mem_map.2 ⟨t, by simp, rfl⟩)
  obtain ⟨g, g₁, hg, hgj⟩ := hj
  obtain ⟨raws, N, hseg, hnam, hlen1, hfit, hmem⟩ :=
    written_told t.2.file none t.2.skip t.2.ops g g₁ j hgt.enc hgt.few hgt.names hg hgj b1
  obtain ⟨j', raws', N', hb', hseg', hnam', hlen', hfit', hmem'⟩ :=
    generator_told hJ file' none skip' gops' g' g₁' henc' hS' hN' hg' hd
  have hst1 := b2.getSources
  have hst' := C28_sources_stable hL hb' hrun'
  have hwin : WindowSame l (height (textsOf pre)) ((gAdded t.2.ops).map Mapping.bare)
      ((stack (textsOf (pre ++ t :: post))).map Mapping.bare) := by
    have e : textsOf (pre ++ t :: post) = textsOf pre ++ (t.1, gAdded t.2.ops) :: textsOf post := by
      simp [textsOf]
    rw [e] at hin ⊢
    exact (stack_window hl.1 (hlast.imp_right fun h => by rw [h]; rfl) hin).bare
  have hkey := window_original hL hT b1 hb' hseg hseg' hnam hnam' b2 (hb'.rel.run hL hrun') (by rw [hst1]; exact hlen1)
    (by rw [hst']; exact hlen') (by rw [hst1]; exact hfit) (by rw [hst']; exact hfit') (p := ⟨l, col⟩)
    (k := height (textsOf pre)) (b := b) (by
      rw [hst1]
      intro a ha b hb hab
      obtain ⟨x, hx, rfl⟩ := (hmem a).1 ha
      obtain ⟨y, hy, rfl⟩ := (hmem b).1 hb
      have := honce _ (List.mem_map.2 ⟨x, hx, rfl⟩) _ (List.mem_map.2 ⟨y, hy, rfl⟩) hab
      rw [← told_bare, this, told_bare]) (by
      rw [hst1, hst']
      intro y h1 h2
      rw [hmem']
      constructor
      · rintro ⟨m', hm', rfl⟩
        obtain ⟨x, hx, he⟩ := (hwin m'.bare h1 h2).1 ((hsame _).1 (List.mem_map.2 ⟨m', hm', rfl⟩))
        obtain ⟨m, hm, rfl⟩ := List.mem_map.1 hx
        exact ⟨told E none none m, (hmem _).2 ⟨m, hm, rfl⟩, by rw [← told_bare, he]; rfl⟩
      · rintro ⟨x, hx, rfl⟩
        obtain ⟨m, hm, rfl⟩ := (hmem x).1 hx
        obtain ⟨m', hm', he⟩ := List.mem_map.1 ((hsame _).2 ((hwin (m.bare.down (height (textsOf pre))) h1 h2).2
          ⟨m.bare, List.mem_map.2 ⟨m, hm, rfl⟩, rfl⟩))
        exact ⟨m', hm', by rw [← told_bare E none none m', he]; rfl⟩) hl hcol
  have hmap : ∀ {α β γ : Type} (r : Res (α × β)) (f : α → γ), r.map (fun x => f x.1) = (r.map Prod.fst).map f := by
    intro α β γ r f; cases r <;> rfl
  rw [hkey, hmap (k.originalPositionFor _ b) (fun r => r.map fun x => (stripMapping x).down (height (textsOf pre))),
    hmap (c.originalPositionFor _ b) (fun r => r.map fun x => (stripMapping x).down (height (textsOf pre))), b3]

/-! ## A case -/

/-- The two texts of C116 as parts. -/
def stackedParts : List (Nat × Part) :=
  [(2, { offset := ⟨0, 0⟩, ops := upperText.map .add }), (3, { offset := ⟨2, 0⟩, ops := lowerText.map .add })]

example : Stacked 0 stackedParts ∧ (∀ q ∈ textsOf stackedParts, InText q) ∧ (∀ p ∈ stackedParts.map Prod.snd, p.Good demoEnv) ∧
    GenOnce ((gAdded (lowerText.map GOp.add)).map Mapping.bare) := by
  have h1 : PlainUrl "one.js".toList "one.js".toList := PlainUrl.ref ⟨[], "one.js".toList⟩ ⟨by simp, by decide⟩ (by decide)
  have h2 : PlainUrl "two.js".toList "two.js".toList := PlainUrl.ref ⟨[], "two.js".toList⟩ ⟨by simp, by decide⟩ (by decide)
  refine ⟨⟨rfl, by decide, rfl, by decide, trivial⟩, ?_, ?_, ?_⟩
  · intro q hq
    simp only [stackedParts, textsOf, List.map_cons, List.map_nil, List.mem_cons, List.not_mem_nil, or_false] at hq
    rcases hq with rfl | rfl <;> (unfold InText; decide)
  · have hpl : ∀ p ∈ stackedParts.map Prod.snd, ∀ s ∈ p.sources, s = "one.js" ∨ s = "two.js" := by decide
    have hcount : ∀ p ∈ stackedParts.map Prod.snd, (gAdded p.ops).length < 1073741824 := by decide
    intro p hp
    obtain ⟨hS, hN⟩ := tables_small (cfg := demoEnv.cfg) (ops := p.ops) (hcount p hp)
    refine ⟨?_, hS, hN, fun s hs => ?_, ?_, ?_⟩
    · simp only [stackedParts, List.map_cons, List.map_nil, List.mem_cons, List.not_mem_nil, or_false] at hp
      intro m hm
      rcases hp with rfl | rfl
      · simp only [upperText, List.map_cons, List.map_nil, gAdded, List.mem_cons,
          List.not_mem_nil, or_false] at hm
        rcases hm with rfl | rfl <;> exact ⟨by decide, by decide, rfl, by simp [Cfg.vlqLimit], by simp⟩
      · simp only [lowerText, List.map_cons, List.map_nil, gAdded, List.mem_cons,
          List.not_mem_nil, or_false] at hm
        rcases hm with rfl | rfl | rfl <;> exact ⟨by decide, by decide, rfl, by simp [Cfg.vlqLimit], by simp⟩
    · rcases hpl p hp s hs with rfl | rfl
      · exact h1
      · exact h2
    · revert p; decide
    · revert p; decide
  · unfold GenOnce; decide

/-- What a consumer of the maps of these texts, as sections, says. -/
def askSections (n : Nat) (upper lower : List Mapping) (p : Position) : Res (Option Mapping) := do
  let g ← (Generator.new none none false).run demoEnv.url demoEnv.cfg (upper.map .add)
  let (j, _) ← g.asJson demoEnv.url demoEnv.cfg
  let g' ← (Generator.new none none false).run demoEnv.url demoEnv.cfg (lower.map .add)
  let (j', _) ← g'.asJson demoEnv.url demoEnv.cfg
  demoAskIndexed [0, 1] { version := 3, sections := some [⟨⟨0, 0⟩, j, none⟩, ⟨⟨n, 0⟩, j', none⟩] }
    fun c => c.originalPositionFor p (some .lub)

example : askSections 2 upperText lowerText ⟨4, 6⟩ = .ok (some ⟨⟨3, 7⟩, some ⟨2, 1⟩, some "two.js", none, none⟩) ∧
    askAdded (stack [(2, upperText), (3, lowerText)]) ⟨4, 6⟩ =
      .ok (some ⟨⟨5, 7⟩, some ⟨2, 1⟩, some "two.js", none, none⟩) := by
  constructor <;> decide +kernel

/-- C117, why the last line of a text is left out: the map of the whole finds a mapping of the next text. -/
theorem C117_last_line : askSections 2 upperText lowerText ⟨2, 5⟩ = .ok none ∧
    askAdded (stack [(2, upperText), (3, lowerText)]) ⟨2, 5⟩ =
      .ok (some ⟨⟨3, 2⟩, some ⟨5, 0⟩, some "two.js", some "k", none⟩) := by
  constructor <;> decide +kernel

/-- C117, why the first position of a text is left out: the section before is asked (C42). -/
theorem C117_first_position :
    askSections 2 upperText [{ generated := ⟨2, 7⟩, original := some ⟨2, 1⟩, source := some "two.js" }] ⟨3, 0⟩ = .ok none ∧
    askAdded (stack [(2, upperText), (3, [{ generated := ⟨2, 7⟩, original := some ⟨2, 1⟩, source := some "two.js" }])]) ⟨3, 0⟩ =
      .ok (some ⟨⟨4, 7⟩, some ⟨2, 1⟩, some "two.js", none, none⟩) := by
  constructor <;> decide +kernel

end RSM
