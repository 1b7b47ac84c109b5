import Verif.Props.Session
import Verif.Props.Concat
/-! # Property C125: which programs that build a map and ask it end without a panic -/

namespace RSM
open Spec BasicConsumer

variable {E : Env}

/-- The source a call names, if it names one. -/
def BasicConsumer.Op.asked : Op → Option String
  | .generated s _ _ _ => some s
  | .all s _ _ => some s
  | .content s _ => some s
  | _ => none

/-- What a call needs in order to return, of a consumer of the map a generator wrote after the calls `gops`, in terms of
these calls only: positions that count from 1 and 0, if the source asked is one of the map; for `generated_position_for` that fewer
sources than there are names came up before the source asked, unless there is no mapping of it on the side asked; for
`source_content_for`, if some content is held, that fewer sources than have a content came up before the source asked, or that the
caller put up with a source that is not in the map. -/
def EndNeeds (gops : List GOp) : Op → Prop
  | .each _ => True
  | .spans => True
  | .original p _ => 1 ≤ p.line ∧ 0 ≤ p.column
  | .generated s l k b =>
    let sources := firstOccurrences ((gAdded gops).filterMap Mapping.source)
    s ∈ sources → 1 ≤ l ∧ 0 ≤ k ∧
      (sources.idxOf s < (firstOccurrences ((gAdded gops).filterMap Mapping.name)).length ∨
        Nearest Mapping.origPos ((gAdded gops).filter (·.source = some s)) (l.toNat, k.toNat) (b.getD .glb) none)
  | .all s l k => s ∈ (gAdded gops).filterMap Mapping.source → 1 ≤ l ∧ 0 ≤ k.getD 0
  | .content s p =>
    let sources := firstOccurrences ((gAdded gops).filterMap Mapping.source)
    (∃ t, latestContent id t gops ≠ none) →
      if s ∈ sources then sources.idxOf s < (sources.filter fun t => (latestContent id t gops).isSome).length
      else p = some false

theorem idxOf_first {l : List String} {t : String} {n : Nat} (h : IsFirst l t n) : l.idxOf t = n := by
  obtain ⟨h1, h2⟩ := h
  obtain ⟨hn, e⟩ := List.getElem?_eq_some_iff.1 h1
  have hle : l.idxOf t ≤ n := Nat.le_of_not_lt fun hlt => by
    have := List.not_of_lt_findIdx (p := (· == t)) (xs := l) (i := n) hlt
    simp [e] at this
  have hm : t ∈ l := e ▸ List.getElem_mem hn
  refine Nat.le_antisymm hle (Nat.le_of_not_lt fun hlt => h2 _ hlt ?_)
  rw [List.getElem?_eq_getElem (by omega), List.getElem_idxOf]

theorem first_idxOf {l : List String} {t : String} (h : t ∈ l) : IsFirst l t (l.idxOf t) := by
  obtain ⟨i, hi⟩ := List.mem_iff_getElem?.1 h
  obtain ⟨n, _, hf⟩ := exists_first hi
  rw [idxOf_first hf]
  exact hf

theorem nearest_none_iff {raws : List RawMapping} {ms : List Mapping} {l k : Int} (hl : 1 ≤ l) {b : Bias}
    {R : RawMapping → Mapping → Prop} (hR : ∀ r m, R r m → m.origPos = (r.origPos.1 + 1, r.origPos.2))
    (h1 : ∀ r ∈ raws, ∃ m ∈ ms, R r m) (h2 : ∀ m ∈ ms, ∃ r ∈ raws, R r m) :
    Nearest RawMapping.origPos raws ((l - 1).toNat, k.toNat) b none ↔
      Nearest Mapping.origPos ms (l.toNat, k.toNat) b none := by
  refine ⟨(Nearest.denoted hl hR h2).1, fun h r hr => ?_⟩
  obtain ⟨m, hm, hrm⟩ := h1 r hr
  obtain ⟨h3, h4⟩ := h m hm
  rw [hR r m hrm] at h3
  refine ⟨fun e => h3 ?_, ?_⟩
  · rw [e]
    show ((l - 1).toNat + 1, k.toNat) = (l.toNat, k.toNat)
    congr 1
    omega
  · cases b <;> simp only [PLt, hR r m hrm] at h4 ⊢ <;> omega

/-- C125: a program that builds a map without source root and asks it ends without a panic if and only if every call of it has
what it needs, in terms of what was added and set. -/
theorem C125_returns_iff (hJ : E.json.Laws) (hU : E.url.Laws) (hL : E.maps.Laws) (hT : E.maps.Total) (file : Option String)
    (skip : Bool) (gops : List GOp) (henc : ∀ m ∈ gAdded gops, m.Encodable E.cfg)
    (hS : (firstOccurrences ((gAdded gops).filterMap Mapping.source)).length < E.cfg.vlqLimit)
    (hN : (firstOccurrences ((gAdded gops).filterMap Mapping.name)).length < E.cfg.vlqLimit)
    (hplain : ∀ m ∈ gAdded gops, ∀ s, m.source = some s → PlainUrl s.toList s.toList) :
    ∃ (g g' : Generator) (c : BasicConsumer E), (Generator.new file none skip).run E.url E.cfg gops = .ok g ∧
      BasicConsumer.fromSourceMap g none = .ok (c, g') ∧
      ∀ ops : List Op, (∀ op ∈ ops, op.InRange ∧ ∀ s, op.asked = some s → PlainUrl s.toList s.toList) →
        ((∃ l, c.session ops = .ok l) ↔ ∀ op ∈ ops, EndNeeds gops op) := by
  have hlim := E.cfg.vlqLimit_le
  obtain ⟨g, g', c, hg, hc, hsame⟩ := C59_returns (E := E) hJ hU file skip gops henc hS hN
    (fun m hm s hs => ⟨_, hplain m hm s hs⟩)
  refine ⟨g, g', c, hg, hc, fun ops hops => ?_⟩
  obtain ⟨j, hj, hb'⟩ := generator_json hJ hc
  obtain ⟨j', raws, hb, hseg, hroot, hsrcs, hnam, hsound, hcomplete, _⟩ :=
    generator_built hJ file none skip gops g g' henc hS hN hg hc
  have hgs := hsame hplain
  have hjj : j' = j := by
    obtain ⟨_, _, _, _, _, _, h1, _⟩ := hb.spec
    obtain ⟨_, _, _, _, _, _, h2, _⟩ := hb'.spec
    rw [← h1, ← h2]
  subst hjj
  have hcont := C22_latest_content E.url E.cfg file skip gops g g' j' hg hj
  have hlen : c.getSources.length < 2147483648 := by rw [hgs]; omega
  rw [C122_returns_iff hL hT hb hseg hnam hlen (fun x hx => by
    obtain ⟨m, hm, hden⟩ := hsound x hx
    exact denotes_fits (henc m hm) hden (by rw [hgs])) (fun op hop => (hops op hop).1)]
  refine forall₂_congr fun op hop => ?_
  have hurl : c.sourceMapUrl = none := stored_none hb hL (ops := []) rfl
  have hsm : c.sourceMap.sourceRoot = none := by
    obtain ⟨_, _, _, _, _, _, hm, _⟩ := hb.spec
    rw [hm, hroot]
  have hsrc : ∀ s, op.asked = some s → sourceUrl E none s none = .ok s := by
    intro s hs
    have := sourceUrl_plain (E := E) (((hops op hop).2 s hs).normalize hU)
    rwa [String.ofList_toList] at this
  obtain ⟨S, hSd⟩ : ∃ S, S = firstOccurrences ((gAdded gops).filterMap Mapping.source) := ⟨_, rfl⟩
  have hmem : ∀ s, s ∈ (gAdded gops).filterMap Mapping.source ↔ s ∈ S := fun s => by rw [hSd, mem_firstOccurrences]
  have hunk : ∀ s, op.asked = some s → (c.Unknown s ↔ s ∉ S) := by
    intro s hs
    unfold BasicConsumer.Unknown
    rw [hurl, hsm, hgs, hsrc s hs, ← hSd]
    exact ⟨fun ⟨t, t', e, h, _⟩ => by cases e; exact h, fun h => ⟨s, s, rfl, h, rfl, h⟩⟩
  have hkn : ∀ s, op.asked = some s → ∀ n, c.Knows s n ↔ s ∈ S ∧ S.idxOf s = n := by
    intro s hs n
    unfold BasicConsumer.Knows
    rw [hurl, hsm, hgs, hsrc s hs, ← hSd]
    constructor
    · rintro (⟨t, e, h⟩ | ⟨t, t', e, h, e', h'⟩)
      · cases e
        exact ⟨List.mem_iff_getElem?.2 ⟨n, h.1⟩, idxOf_first h⟩
      · cases e; cases e'
        exact absurd (List.mem_iff_getElem?.2 ⟨n, h'.1⟩) h
    · rintro ⟨h, rfl⟩
      exact .inl ⟨s, rfl, first_idxOf h⟩
  cases op with
  | each o => exact Iff.rfl
  | spans => exact Iff.rfl
  | original p b => exact Iff.rfl
  | generated s l k b =>
    simp only [BasicConsumer.Needs, EndNeeds, hunk s rfl, hkn s rfl]
    rw [← hSd]
    by_cases hs : s ∈ S
    · simp only [hs, not_true_eq_false, false_or, true_and, exists_eq_left', forall_const]
      refine and_congr_right fun hl => and_congr_right fun hk => or_congr_right ?_
      have hn : S[S.idxOf s]? = some s := (first_idxOf hs).1
      rw [← hSd] at hsound hcomplete
      have hd := denoted_source (by rw [hSd]; exact nodup_firstOccurrences _) hsound hcomplete hn
      exact nearest_none_iff hl (fun r m h => denotes_origPos h.1 h.2) hd.1 hd.2
    · simp [hs]
  | all s l k =>
    simp only [BasicConsumer.Needs, EndNeeds, hunk s rfl, hkn s rfl, hmem]
    by_cases hs : s ∈ S
    · simp [hs]
    · simp [hs]
  | content s p =>
    simp only [BasicConsumer.Needs, EndNeeds, hunk s rfl, hkn s rfl]
    rw [← hSd] at hcont ⊢
    by_cases hh : ∃ t, latestContent id t gops ≠ none
    · rw [hcont.1 hh]
      have hfl : ∀ l : List String, (l.filterMap fun s => latestContent id s gops).length =
          (l.filter fun t => (latestContent id t gops).isSome).length := by
        intro l
        induction l with
        | nil => rfl
        | cons a l ih =>
          cases h : latestContent id a gops <;> simp [h, ih]
      simp only [Option.some.injEq, forall_eq', hfl, hh, forall_const]
      by_cases hs : s ∈ S
      · simp [hs]
      · simp [hs]
    · rw [hcont.2 (fun t => Classical.byContradiction fun h => hh ⟨t, h⟩)]
      simp [hh]

/-- Two sources, one of them with a content, and two names. -/
def endOps : List GOp := revOps ++ [.setContent "a.js" (some "x")]

/-- Calls of every kind that have what they need. -/
def endAsk : List Op :=
  [.each .original, .original ⟨1, 6⟩ none, .generated "a.js" 1 3 none, .generated "no.js" 0 0 none, .spans,
    .all "b.js" 3 none, .content "b.js" none, .content "no.js" (some false)]

/-- The hypotheses hold together, of a program with calls of every kind that have what they need; of the same program with the content
asked for that was set, which has not: the only content is that of the second source. -/
theorem C125_case : (∀ m ∈ gAdded endOps, m.Encodable demoEnv.cfg) ∧
    (firstOccurrences ((gAdded endOps).filterMap Mapping.source)).length < demoEnv.cfg.vlqLimit ∧
    (firstOccurrences ((gAdded endOps).filterMap Mapping.name)).length < demoEnv.cfg.vlqLimit ∧
    (∀ m ∈ gAdded endOps, ∀ s, m.source = some s → PlainUrl s.toList s.toList) ∧
    (∀ op ∈ endAsk ++ [.content "a.js" none], op.InRange ∧ ∀ s, op.asked = some s → PlainUrl s.toList s.toList) ∧
    (∀ op ∈ endAsk, EndNeeds endOps op) ∧ ¬ EndNeeds endOps (.content "a.js" none) := by
  refine ⟨revOps_enc, by decide +kernel, by decide +kernel, revOps_plain, ?_, ?_, ?_⟩
  · have ha : PlainUrl "a.js".toList "a.js".toList :=
      PlainUrl.ref ⟨[], "a.js".toList⟩ ⟨by simp, by decide⟩ (by decide)
    have hb : PlainUrl "b.js".toList "b.js".toList :=
      PlainUrl.ref ⟨[], "b.js".toList⟩ ⟨by simp, by decide⟩ (by decide)
    have hn : PlainUrl "no.js".toList "no.js".toList :=
      PlainUrl.ref ⟨[], "no.js".toList⟩ ⟨by simp, by decide⟩ (by decide)
    intro op hop
    simp only [endAsk, List.cons_append, List.nil_append, List.mem_cons, List.not_mem_nil, or_false] at hop
    rcases hop with rfl | rfl | rfl | rfl | rfl | rfl | rfl | rfl | rfl <;>
      refine ⟨by simp [BasicConsumer.Op.InRange, IsI32], fun s hs => ?_⟩ <;> cases hs <;> assumption
  · have e1 : firstOccurrences ((gAdded endOps).filterMap Mapping.source) = ["b.js", "a.js"] := by decide +kernel
    have e2 : firstOccurrences ((gAdded endOps).filterMap Mapping.name) = ["foo", "bar"] := by decide +kernel
    intro op hop
    simp only [endAsk, List.mem_cons, List.not_mem_nil, or_false] at hop
    rcases hop with rfl | rfl | rfl | rfl | rfl | rfl | rfl | rfl
    · trivial
    · exact ⟨by decide, by decide⟩
    · simp only [EndNeeds, e1, e2]
      exact fun _ => ⟨by decide, by decide, .inl (by decide +kernel)⟩
    · simp only [EndNeeds, e1]
      intro h; simp at h
    · trivial
    · exact fun _ => ⟨by decide, by decide⟩
    · simp only [EndNeeds, e1]
      exact fun _ => by decide +kernel
    · simp only [EndNeeds, e1]
      exact fun _ => by decide +kernel
  · intro h
    simp only [EndNeeds] at h
    have := h ⟨"a.js", by decide +kernel⟩
    revert this
    decide +kernel

end RSM
