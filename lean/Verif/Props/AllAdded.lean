import Mathlib.Data.List.Perm.Basic
import Verif.Props.Forward
import Verif.Props.Order
import Verif.Props.Output
/-! # C76 to C78: what a consumer made from a generator lists, and what the emitted map determines -/

namespace RSM
open Spec BasicConsumer

variable {E : Env}

/-- The segments of the emitted map and mappings that were added, one by one. -/
theorem emitted_pairs {U : UrlLib} {cfg : Cfg} {file root : Option String} {skip : Bool} {ops : List GOp}
    {g g' : Generator} {j : SourceMapJson} (henc : ∀ m ∈ gAdded ops, m.Encodable cfg)
    (hS : (firstOccurrences ((gAdded ops).filterMap Mapping.source)).length < cfg.vlqLimit)
    (hN : (firstOccurrences ((gAdded ops).filterMap Mapping.name)).length < cfg.vlqLimit)
    (h : (Generator.new file root skip).run U cfg ops = .ok g) (hj : g.asJson U cfg = .ok (j, g')) :
    ∃ text raws ms, j.sources = some (firstOccurrences ((gAdded ops).filterMap Mapping.source)) ∧
      j.names = some (firstOccurrences ((gAdded ops).filterMap Mapping.name)) ∧ j.mappings = some text ∧
      decodeMappings text.toList = some raws ∧
      List.Forall₂ (Denotes (firstOccurrences ((gAdded ops).filterMap Mapping.source))
        (firstOccurrences ((gAdded ops).filterMap Mapping.name))) raws ms ∧
      (∀ m ∈ ms, m ∈ gAdded ops) ∧ (∀ m ∈ gAdded ops, ∃ m' ∈ ms, SameKey m m') ∧
      ((gAdded ops).Pairwise (fun a b => ¬ SameKey a b) → ms.Perm (gAdded ops)) := by
  obtain ⟨S, N, out, t, _, _, j1, j2, j3, hk, hp, hs, hd⟩ := output_spec henc hS hN h hj
  obtain ⟨k1, k2⟩ := C16_generator_tables U cfg file root skip ops g _ j h hj
  have e1 : S.array = firstOccurrences ((gAdded ops).filterMap Mapping.source) := Option.some.inj (j1.symm.trans k1)
  have e2 : N.array = firstOccurrences ((gAdded ops).filterMap Mapping.name) := Option.some.inj (j2.symm.trans k2)
  have hsub := dropRepeats_sublist out none
  refine ⟨String.ofList t, _, dropRepeats none out, k1, k2, j3, by simpa using hd, ?_, ?_, ?_, ?_⟩
  · rw [← e1, ← e2]
    refine forall₂_toRaw ?_
    intro m hm
    have := hsub.subset hm
    exact denotes_toRaw (henc m (hp.mem_iff.1 this)) (hk m this)
  · exact fun m hm => hp.mem_iff.1 (hsub.subset hm)
  · intro m hm
    rcases dropRepeats_covers out none m (hp.mem_iff.2 hm) with h1 | ⟨q, h1, _⟩
    · exact h1
    · cases h1
  · intro hpw
    rw [dropRepeats_eq_self out none (hp.symm.pairwise hpw (fun h1 h2 => h1 h2.symm)) (by intro q hq; cases hq)]
    exact hp

/-- The same for a consumer made from the generator. -/
theorem generator_pairs (hJ : E.json.Laws) (file root : Option String) (skip : Bool)
    (gops : List GOp) (g g' : Generator) (henc : ∀ m ∈ gAdded gops, m.Encodable E.cfg)
    (hS : (firstOccurrences ((gAdded gops).filterMap Mapping.source)).length < E.cfg.vlqLimit)
    (hN : (firstOccurrences ((gAdded gops).filterMap Mapping.name)).length < E.cfg.vlqLimit)
    (hg : (Generator.new file root skip).run E.url E.cfg gops = .ok g) {u : Option String}
    {c₀ : BasicConsumer E} (hc : BasicConsumer.fromSourceMap g u = .ok (c₀, g')) :
    ∃ j raws ms, Built j u c₀ ∧ j.Segments raws ∧
      j.sources = some (firstOccurrences ((gAdded gops).filterMap Mapping.source)) ∧
      List.Forall₂ (Denotes (firstOccurrences ((gAdded gops).filterMap Mapping.source))
        (firstOccurrences ((gAdded gops).filterMap Mapping.name))) raws ms ∧
      (∀ m ∈ ms, m ∈ gAdded gops) ∧ (∀ m ∈ gAdded gops, ∃ m' ∈ ms, SameKey m m') ∧
      ((gAdded gops).Pairwise (fun a b => ¬ SameKey a b) → ms.Perm (gAdded gops)) := by
  obtain ⟨j, hj, hb⟩ := generator_json hJ hc
  obtain ⟨text, raws, ms, h1, _, h3, h4, h5, h6, h7, h8⟩ := emitted_pairs henc hS hN hg hj
  refine ⟨j, raws, ms, hb, ⟨text, h3, h4, ?_⟩, h1, h5, h6, h7, h8⟩
  intro r hr
  obtain ⟨i, hi⟩ := List.mem_iff_getElem?.1 hr
  have hlt := (List.getElem?_eq_some_iff.1 hi).1
  have hlt' : i < ms.length := by rw [← h5.length_eq]; exact hlt
  have := h5.get hlt hlt'
  simp only [List.get_eq_getElem, (List.getElem?_eq_some_iff.1 hi).2] at this
  exact denotes_u32 (henc _ (h6 _ (List.getElem_mem hlt'))) this hS hN

/-- Without source root and map URL, plain sources in normal form are known, at their places in the order of first
use. -/
theorem generator_knows (hJ : E.json.Laws) (hU : E.url.Laws) (hL : E.maps.Laws) (file : Option String) (skip : Bool)
    (gops : List GOp) (g g' : Generator) (henc : ∀ m ∈ gAdded gops, m.Encodable E.cfg)
    (hS : (firstOccurrences ((gAdded gops).filterMap Mapping.source)).length < E.cfg.vlqLimit)
    (hN : (firstOccurrences ((gAdded gops).filterMap Mapping.name)).length < E.cfg.vlqLimit)
    (hplain : ∀ m ∈ gAdded gops, ∀ s, m.source = some s → PlainUrl s.toList s.toList)
    (hg : (Generator.new file none skip).run E.url E.cfg gops = .ok g)
    {c₀ c : BasicConsumer E} (hc : BasicConsumer.fromSourceMap g none = .ok (c₀, g'))
    (hsame : c₀.getSources = firstOccurrences ((gAdded gops).filterMap Mapping.source)) {ops : List Op}
    (hrun : c₀.run ops = .ok c) {s : String} (hs : ∃ m ∈ gAdded gops, m.source = some s) :
    ∃ n, c.Knows s n ∧ (firstOccurrences ((gAdded gops).filterMap Mapping.source))[n]? = some s := by
  obtain ⟨j, raws, hb, _⟩ := generator_built hJ file none skip gops g g' henc hS hN hg hc
  have hgs : c.getSources = firstOccurrences ((gAdded gops).filterMap Mapping.source) := by
    rw [C28_sources_stable hL hb hrun, hsame]
  obtain ⟨m, hm, hs⟩ := hs
  have hmem : s ∈ firstOccurrences ((gAdded gops).filterMap Mapping.source) :=
    (mem_firstOccurrences _ s).2 (List.mem_filterMap.2 ⟨m, hm, hs⟩)
  obtain ⟨i, hi⟩ := List.mem_iff_getElem?.1 hmem
  obtain ⟨n, hn, hf⟩ := exists_first hi
  refine ⟨n, .inl ⟨s, ?_, by rw [hgs]; exact hf⟩, hf.1⟩
  rw [stored_none hb hL hrun]
  have := sourceUrl_plain (E := E) ((hplain m hm s hs).normalize hU)
  rwa [String.ofList_toList] at this

/-- Rearranging the segments and keeping some of them. -/
theorem pairs_filter {S N : List String} {raws l : List Spec.RawMapping} {ms : List Mapping}
    (h : List.Forall₂ (Denotes S N) raws ms) {p : Spec.RawMapping → Bool} {q : Mapping → Bool}
    (hpq : ∀ r m, Denotes S N r m → (p r = q m)) (hl : l.Perm (raws.filter p)) :
    ∃ ms', List.Forall₂ (Denotes S N) l ms' ∧ ms'.Perm (ms.filter q) := by
  have h1 : List.Forall₂ (Denotes S N) (raws.filter p) (ms.filter q) :=
    List.rel_filter (fun r m hd => by show p r = true ↔ q m = true; rw [hpq r m hd]) h
  exact List.perm_comp_forall₂ hl h1

section
variable (hJ : E.json.Laws) (hL : E.maps.Laws) (file root : Option String) (skip : Bool)
    (gops : List GOp) (g g' : Generator) (henc : ∀ m ∈ gAdded gops, m.Encodable E.cfg)
    (hS : (firstOccurrences ((gAdded gops).filterMap Mapping.source)).length < E.cfg.vlqLimit)
    (hN : (firstOccurrences ((gAdded gops).filterMap Mapping.name)).length < E.cfg.vlqLimit)
    (hg : (Generator.new file root skip).run E.url E.cfg gops = .ok g) {u : Option String}
    {c₀ c : BasicConsumer E} (hc : BasicConsumer.fromSourceMap g u = .ok (c₀, g')) {ops : List Op}
    (hrun : c₀.run ops = .ok c)
include hJ hL henc hS hN hg hc hrun

/-! ## C76 -/

/-- C76, except for the line (`_partial`): if mappings were added whose source is the one asked about and whose
original position is the column asked about on the line after the one asked about, the answers denote, one by one,
mappings added there, all of them, and each once if no two added mappings agree in all compared fields. -/
theorem C76_all_added_partial {s src : String} {n : Nat} (hs : c.Knows s n)
    (hn : (firstOccurrences ((gAdded gops).filterMap Mapping.source))[n]? = some src) {l k : Int}
    (hp : IsI32 l ∧ IsI32 k) (hpos : 1 ≤ l ∧ 0 ≤ k)
    (hthere : ∃ m ∈ gAdded gops, m.source = some src ∧ m.original = some ⟨l + 1, k⟩)
    {r : List LibMapping} {c' : BasicConsumer E} (hr : c.allGeneratedPositionFor s l (some k) = .ok (r, c')) :
    ∃ ms, List.Forall₂ (Denotes (firstOccurrences ((gAdded gops).filterMap Mapping.source))
        (firstOccurrences ((gAdded gops).filterMap Mapping.name))) (r.map LibMapping.raw) ms ∧
      (∀ m ∈ ms, m ∈ gAdded gops ∧ m.source = some src ∧ m.original = some ⟨l + 1, k⟩) ∧
      (∀ m ∈ gAdded gops, m.source = some src → m.original = some ⟨l + 1, k⟩ → ∃ m' ∈ ms, SameKey m m') ∧
      ((gAdded gops).Pairwise (fun a b => ¬ SameKey a b) →
        ms.Perm ((gAdded gops).filter fun m => m.source = some src ∧ m.original = some ⟨l + 1, k⟩)) := by
  have hlim := E.cfg.vlqLimit_le
  obtain ⟨j, raws, ms, hb, hseg, hsrcs, h5, h6, h7, h8⟩ :=
    generator_pairs hJ file root skip gops g g' henc hS hN hg hc
  obtain ⟨srcs, s1, s2, _⟩ := C28_sources hb
  rw [hsrcs] at s1
  cases s1
  have hlen : c.getSources.length < 2147483648 := by rw [C28_sources_stable hL hb hrun]; omega
  have hpq : ∀ x m, Denotes (firstOccurrences ((gAdded gops).filterMap Mapping.source))
      (firstOccurrences ((gAdded gops).filterMap Mapping.name)) x m →
      ((x.fromSource n && decide (x.origPos = (l.toNat, k.toNat))) =
        decide (m.source = some src ∧ m.original = some ⟨l + 1, k⟩)) := by
    intro x m hd
    have h1 := denotes_source (nodup_firstOccurrences _) hd hn
    rw [Bool.eq_iff_iff]
    simp only [Bool.and_eq_true, decide_eq_true_eq]
    rw [h1]
    refine and_congr_right fun hsrc => ?_
    have hd2 := hd.2
    cases ho : x.original with
    | none =>
      rw [ho] at hd2
      rw [hd2.2.1] at hsrc
      cases hsrc
    | some o =>
      rw [ho] at hd2
      rw [hd2.1]
      simp only [Spec.RawMapping.origPos, ho, Prod.mk.injEq, Option.some.injEq, Position.mk.injEq]
      omega
  obtain ⟨m₀, hm₀, g1, g2⟩ := hthere
  obtain ⟨m₁, hm₁, hk₁⟩ := h7 m₀ hm₀
  have hex : ∃ x ∈ raws, x.fromSource n = true ∧ x.origPos = (l.toNat, k.toNat) := by
    obtain ⟨i, hi⟩ := List.mem_iff_getElem?.1 hm₁
    obtain ⟨hlt, hi⟩ := List.getElem?_eq_some_iff.1 hi
    have hlt' : i < raws.length := by rw [h5.length_eq]; exact hlt
    have hd := h5.get hlt' hlt
    simp only [List.get_eq_getElem, hi] at hd
    refine ⟨_, List.getElem_mem hlt', ?_⟩
    have := hpq _ _ hd
    rw [show decide (m₁.source = some src ∧ m₁.original = some ⟨l + 1, k⟩) = true by
      simp only [decide_eq_true_eq]; exact ⟨hk₁.2.1 ▸ g1, hk₁.2.2.1 ▸ g2⟩] at this
    simpa using this
  have hperm := ((C35_all_generated_partial hL hb hrun hseg hlen hs hp hpos).1 r c' hr).1 hex
  obtain ⟨ms', p1, p2⟩ := pairs_filter h5 hpq hperm
  refine ⟨ms', p1, ?_, ?_, ?_⟩
  · intro m hm
    obtain ⟨q1, q2⟩ := List.mem_filter.1 (p2.mem_iff.1 hm)
    exact ⟨h6 m q1, by simpa using q2⟩
  · intro m hm g3 g4
    obtain ⟨m', q1, q2⟩ := h7 m hm
    exact ⟨m', p2.mem_iff.2 (List.mem_filter.2 ⟨q1, by
      simp only [decide_eq_true_eq]; exact ⟨q2.2.1 ▸ g3, q2.2.2.1 ▸ g4⟩⟩), q2⟩
  · intro hpw
    exact p2.trans ((h8 hpw).filter _)

/-- C76 is false of the code: asked about the original position of an added mapping, with another one in the same
column of the next line, the answers leave it out. -/
theorem C76_line_refuted {s src : String} {n : Nat} (hs : c.Knows s n)
    (hn : (firstOccurrences ((gAdded gops).filterMap Mapping.source))[n]? = some src) {m : Mapping} {p : Position}
    (hm : m ∈ gAdded gops) (ho : m.original = some p)
    (hthere : ∃ m' ∈ gAdded gops, m'.source = some src ∧ m'.original = some ⟨p.line + 1, p.column⟩)
    {r : List LibMapping} {c' : BasicConsumer E}
    (hr : c.allGeneratedPositionFor s p.line (some p.column) = .ok (r, c')) :
    r ≠ [] ∧ ∀ x ∈ r, ¬ Denotes (firstOccurrences ((gAdded gops).filterMap Mapping.source))
        (firstOccurrences ((gAdded gops).filterMap Mapping.name)) x.raw m := by
  have hlim := E.cfg.vlqLimit_le
  obtain ⟨p1, p2, p2b, p3, p4⟩ := (henc m hm).range p ho
  obtain ⟨ms, h1, h2, h3, _⟩ := C76_all_added_partial hJ hL file root skip gops g g' henc hS hN hg hc hrun hs hn
    ⟨by unfold IsI32; omega, by unfold IsI32; omega⟩ ⟨p1, p3⟩ hthere hr
  constructor
  · rintro rfl
    cases h1
    obtain ⟨m', k1, k2, k3⟩ := hthere
    obtain ⟨_, k4, _⟩ := h3 m' k1 k2 k3
    cases k4
  · intro x hx hd
    obtain ⟨i, hi⟩ := List.mem_iff_getElem?.1 (List.mem_map.2 ⟨x, hx, rfl⟩ : x.raw ∈ r.map LibMapping.raw)
    obtain ⟨hlt, hi⟩ := List.getElem?_eq_some_iff.1 hi
    have hlt' : i < ms.length := by rw [← h1.length_eq]; exact hlt
    have hd' := h1.get hlt hlt'
    simp only [List.get_eq_getElem, hi] at hd'
    have hk := denotes_sameKey hd hd'
    have := (h2 _ (List.getElem_mem hlt')).2.2
    rw [← hk.2.2.1, ho, Option.some.injEq] at this
    have := congrArg Position.line this
    simp only at this
    omega

/-- C76, that it returns. -/
theorem C76_returns (hT : E.maps.Total) {s : String} {n : Nat} (hs : c.Knows s n) {l k : Int}
    (hp : IsI32 l ∧ IsI32 k) (hpos : 1 ≤ l ∧ 0 ≤ k) : ∃ r c', c.allGeneratedPositionFor s l (some k) = .ok (r, c') := by
  have hlim := E.cfg.vlqLimit_le
  obtain ⟨j, raws, ms, hb, hseg, hsrcs, _⟩ := generator_pairs hJ file root skip gops g g' henc hS hN hg hc
  obtain ⟨srcs, s1, s2, _⟩ := C28_sources hb
  rw [hsrcs] at s1
  cases s1
  have hlen : c.getSources.length < 2147483648 := by rw [C28_sources_stable hL hb hrun]; omega
  exact (C35_all_generated_partial hL hb hrun hseg hlen hs hp hpos).2 hT

/-! ## C77 -/

/-- C77: iterating in original order, the consumer visits, one by one, the added mappings that have an original
position, by source in order of first use, then by original line and column; each once if no two added mappings agree
in all compared fields. -/
theorem C77_each_original {l : List LibMapping} {c' : BasicConsumer E} (hr : c.eachMapping .original = .ok (l, c')) :
    ∃ ms, List.Forall₂ (Denotes (firstOccurrences ((gAdded gops).filterMap Mapping.source))
        (firstOccurrences ((gAdded gops).filterMap Mapping.name))) (l.map LibMapping.raw) ms ∧
      (∀ m ∈ ms, m ∈ gAdded gops ∧ m.original.isSome) ∧
      (∀ m ∈ gAdded gops, m.original.isSome → ∃ m' ∈ ms, SameKey m m') ∧
      ms.Pairwise (fun a b => ∀ s t p q, a.source = some s → b.source = some t → a.original = some p →
        b.original = some q →
        (firstOccurrences ((gAdded gops).filterMap Mapping.source)).idxOf s <
          (firstOccurrences ((gAdded gops).filterMap Mapping.source)).idxOf t ∨
        (s = t ∧ (p.line < q.line ∨ (p.line = q.line ∧ p.column ≤ q.column)))) ∧
      ((gAdded gops).Pairwise (fun a b => ¬ SameKey a b) →
        ms.Perm ((gAdded gops).filter (·.original.isSome))) := by
  obtain ⟨j, raws, ms, hb, hseg, hsrcs, h5, h6, h7, h8⟩ :=
    generator_pairs hJ file root skip gops g g' henc hS hN hg hc
  obtain ⟨k1, k2⟩ := (C36_each_original hL hb hrun hseg).1 l c' hr
  obtain ⟨ms', p1, p2⟩ := pairs_filter (q := fun m => m.original.isSome) h5 (by
    intro x m hd
    have hd2 := hd.2
    cases ho : x.original with
    | none => rw [ho] at hd2; simp [hd2.1]
    | some o => rw [ho] at hd2; simp [hd2.1]) k1
  refine ⟨ms', p1, ?_, ?_, ?_, fun hpw => p2.trans ((h8 hpw).filter _)⟩
  · intro m hm
    obtain ⟨q1, q2⟩ := List.mem_filter.1 (p2.mem_iff.1 hm)
    exact ⟨h6 m q1, q2⟩
  · intro m hm ho
    obtain ⟨m', q1, q2⟩ := h7 m hm
    exact ⟨m', p2.mem_iff.2 (List.mem_filter.2 ⟨q1, by rw [← q2.2.2.1]; exact ho⟩), q2⟩
  · rw [List.pairwise_iff_getElem] at k2 ⊢
    intro i i' hi hi' hlt s t p q e1 e2 e3 e4
    have hi₀ : i < (l.map LibMapping.raw).length := by rw [p1.length_eq]; exact hi
    have hi₀' : i' < (l.map LibMapping.raw).length := by rw [p1.length_eq]; exact hi'
    have d1 := (p1.get hi₀ hi).2
    have d2 := (p1.get hi₀' hi').2
    have h9 := k2 i i' hi₀ hi₀' hlt
    simp only [List.get_eq_getElem] at d1 d2
    cases o1 : ((l.map LibMapping.raw)[i]).original with
    | none => rw [o1] at d1; rw [d1.1] at e3; cases e3
    | some x =>
      cases o2 : ((l.map LibMapping.raw)[i']).original with
      | none => rw [o2] at d2; rw [d2.1] at e4; cases e4
      | some y =>
        rw [o1] at d1
        rw [o2] at d2
        obtain ⟨d1, ⟨s', a1, a2⟩, _⟩ := d1
        obtain ⟨d2, ⟨t', b1, b2⟩, _⟩ := d2
        rw [e1] at a2; cases a2
        rw [e2] at b2; cases b2
        rw [e3] at d1; cases d1
        rw [e4] at d2; cases d2
        have hidx : ∀ (i : Nat) (s : String),
            (firstOccurrences ((gAdded gops).filterMap Mapping.source))[i]? = some s →
            (firstOccurrences ((gAdded gops).filterMap Mapping.source)).idxOf s = i := by
          intro i s h
          obtain ⟨hi, rfl⟩ := List.getElem?_eq_some_iff.1 h
          exact (nodup_firstOccurrences _).idxOf_getElem i hi
        rw [hidx _ _ a1, hidx _ _ b1]
        rcases h9 x y o1 o2 with h10 | ⟨h10, h11⟩
        · exact .inl h10
        · rw [h10, b1] at a1
          cases a1
          refine .inr ⟨rfl, ?_⟩
          simp only
          omega

/-- C77, that it returns. -/
theorem C77_returns (hT : E.maps.Total) : ∃ l c', c.eachMapping .original = .ok (l, c') := by
  obtain ⟨j, raws, ms, hb, hseg, _⟩ := generator_pairs hJ file root skip gops g g' henc hS hN hg hc
  obtain ⟨⟨l, c'⟩, h⟩ := (C36_each_original hL hb hrun hseg).2 hT
  exact ⟨l, c', h⟩

end

/-! Mappings of `b.js` with the same original column on neighbouring lines, one of them twice. -/

def allOps : List GOp :=
  [.add { generated := ⟨2, 0⟩, original := some ⟨2, 4⟩, source := some "b.js", name := some "foo" },
   .add { generated := ⟨1, 3⟩, original := some ⟨1, 4⟩, source := some "b.js" },
   .add { generated := ⟨3, 9⟩, original := some ⟨2, 4⟩, source := some "b.js" }, .add gxQ, .add gxR]

theorem allOps_enc {cfg : Cfg} : ∀ m ∈ gAdded allOps, m.Encodable cfg := by
  intro m hm
  simp only [gAdded, allOps, List.mem_cons, List.not_mem_nil, or_false] at hm
  rcases hm with rfl | rfl | rfl | rfl | rfl
  · exact .small (by decide) (by decide) rfl (by intro p hp; cases hp; decide) (by intro h; cases h)
  · exact .small (by decide) (by decide) rfl (by intro p hp; cases hp; decide) (by intro h; cases h)
  · exact .small (by decide) (by decide) rfl (by intro p hp; cases hp; decide) (by intro h; cases h)
  · exact gxQ_enc
  · exact gxR_enc

theorem allOps_plain : ∀ m ∈ gAdded allOps, ∀ s, m.source = some s → PlainUrl s.toList s.toList := by
  intro m hm s hs
  simp only [gAdded, allOps, List.mem_cons, List.not_mem_nil, or_false] at hm
  have ha : PlainUrl "a.js".toList "a.js".toList :=
    PlainUrl.ref ⟨[], "a.js".toList⟩ ⟨by simp, by decide⟩ (by decide)
  have hb : PlainUrl "b.js".toList "b.js".toList :=
    PlainUrl.ref ⟨[], "b.js".toList⟩ ⟨by simp, by decide⟩ (by decide)
  rcases hm with rfl | rfl | rfl | rfl | rfl <;> cases hs
  · exact hb
  · exact hb
  · exact hb
  · exact ha

/-- Asked about line 1, column 4 of `b.js`, the consumer answers with the two mappings of line 2. -/
example : ∃ (g g' : Generator) (c c' : BasicConsumer demoEnv) (r : List LibMapping),
    (Generator.new none none false).run demoEnv.url demoEnv.cfg allOps = .ok g ∧
    BasicConsumer.fromSourceMap g none = .ok (c, g') ∧
    c.allGeneratedPositionFor "b.js" 1 (some 4) = .ok (r, c') ∧ r.length = 2 ∧
    ∀ x ∈ r, ¬ Denotes ["b.js", "a.js"] ["foo"] x.raw
      { generated := ⟨1, 3⟩, original := some ⟨1, 4⟩, source := some "b.js" } := by
  obtain ⟨hS, hN⟩ := tables_small (cfg := demoEnv.cfg) (ops := allOps) (by decide)
  obtain ⟨g, g', c, hg, hc, hsame⟩ := C59_returns (E := demoEnv) demo_json demo_url none false allOps allOps_enc hS hN
    (fun m hm s hs => ⟨_, allOps_plain m hm s hs⟩)
  obtain ⟨n, hk, hn⟩ := generator_knows demo_json demo_url demo_maps none false allOps g g' allOps_enc hS hN
    allOps_plain hg hc (hsame allOps_plain) (ops := []) rfl (s := "b.js") (by decide)
  obtain ⟨r, c', hr⟩ := C76_returns demo_json demo_maps none none false allOps g g' allOps_enc hS hN hg hc (ops := [])
    rfl demo_total hk (l := 1) (k := 4) (by decide) (by decide)
  obtain ⟨ms, h1, _, _, h4⟩ := C76_all_added_partial demo_json demo_maps none none false allOps g g' allOps_enc hS hN
    hg hc (ops := []) rfl hk hn (l := 1) (k := 4) (by decide) (by decide) (by decide) hr
  obtain ⟨_, h6⟩ := C76_line_refuted demo_json demo_maps none none false allOps g g' allOps_enc hS hN hg hc (ops := [])
    rfl hk hn (m := { generated := ⟨1, 3⟩, original := some ⟨1, 4⟩, source := some "b.js" }) (p := ⟨1, 4⟩) (by decide)
    rfl (by decide) hr
  refine ⟨g, g', c, c', r, hg, hc, hr, ?_, h6⟩
  have h5 := h1.length_eq
  rw [List.length_map] at h5
  rw [h5, (h4 (by unfold SameKey; decide)).length_eq]
  decide

/-- In original order: `b.js` before `a.js`, and the mapping without original left out. -/
example : ∃ (g g' : Generator) (c c' : BasicConsumer demoEnv) (l : List LibMapping) (ms : List Mapping),
    (Generator.new none none false).run demoEnv.url demoEnv.cfg allOps = .ok g ∧
    BasicConsumer.fromSourceMap g none = .ok (c, g') ∧ c.eachMapping .original = .ok (l, c') ∧
    List.Forall₂ (Denotes ["b.js", "a.js"] ["foo"]) (l.map LibMapping.raw) ms ∧ ms.length = 4 ∧
    gxQ ∉ ms := by
  obtain ⟨hS, hN⟩ := tables_small (cfg := demoEnv.cfg) (ops := allOps) (by decide)
  obtain ⟨g, g', c, hg, hc, hsame⟩ := C59_returns (E := demoEnv) demo_json demo_url none false allOps allOps_enc hS hN
    (fun m hm s hs => ⟨_, allOps_plain m hm s hs⟩)
  obtain ⟨l, c', hl⟩ := C77_returns demo_json demo_maps none none false allOps g g' allOps_enc hS hN hg hc (ops := [])
    rfl demo_total
  obtain ⟨ms, h1, h2, _, _, h5⟩ := C77_each_original demo_json demo_maps none none false allOps g g' allOps_enc hS hN
    hg hc (ops := []) rfl hl
  refine ⟨g, g', c, c', l, ms, hg, hc, hl, h1, ?_, ?_⟩
  · rw [(h5 (by unfold SameKey; decide)).length_eq]; decide
  · intro h; exact absurd (h2 _ h).2 (by decide)

/-! ## C78 -/

theorem forall₂_mem {α β : Type} {R : α → β → Prop} {l : List α} {l' : List β} (h : List.Forall₂ R l l') :
    (∀ a ∈ l, ∃ b ∈ l', R a b) ∧ ∀ b ∈ l', ∃ a ∈ l, R a b := by
  induction h with
  | nil => simp
  | cons h _ ih =>
    refine ⟨?_, ?_⟩
    · intro a ha
      rcases List.mem_cons.1 ha with rfl | ha
      · exact ⟨_, by simp, h⟩
      · obtain ⟨b, h1, h2⟩ := ih.1 a ha
        exact ⟨b, by simp [h1], h2⟩
    · intro b hb
      rcases List.mem_cons.1 hb with rfl | hb
      · exact ⟨_, by simp, h⟩
      · obtain ⟨a, h1, h2⟩ := ih.2 b hb
        exact ⟨a, by simp [h1], h2⟩

/-- C78: two histories, of generators with any options, that end in the same text were given the same file and source
root, the same sources and names in the same order of first use, and the same mappings up to repetition and order. -/
theorem C78_text_determines (hJ : E.json.Laws) (file₁ root₁ file₂ root₂ : Option String) (skip₁ skip₂ : Bool)
    (ops₁ ops₂ : List GOp) (g₁ g₁' g₂ g₂' : Generator) (t : Text)
    (henc₁ : ∀ m ∈ gAdded ops₁, m.Encodable E.cfg) (henc₂ : ∀ m ∈ gAdded ops₂, m.Encodable E.cfg)
    (hlen : (gAdded ops₁).length < 1073741824 ∧ (gAdded ops₂).length < 1073741824)
    (h₁ : (Generator.new file₁ root₁ skip₁).run E.url E.cfg ops₁ = .ok g₁)
    (h₂ : (Generator.new file₂ root₂ skip₂).run E.url E.cfg ops₂ = .ok g₂)
    (ht₁ : g₁.asString E = .ok (t, g₁')) (ht₂ : g₂.asString E = .ok (t, g₂')) :
    file₁ = file₂ ∧ root₁ = root₂ ∧
    firstOccurrences ((gAdded ops₁).filterMap Mapping.source) = firstOccurrences ((gAdded ops₂).filterMap Mapping.source) ∧
    firstOccurrences ((gAdded ops₁).filterMap Mapping.name) = firstOccurrences ((gAdded ops₂).filterMap Mapping.name) ∧
    (∀ m ∈ gAdded ops₁, ∃ m' ∈ gAdded ops₂, SameKey m m') ∧ (∀ m ∈ gAdded ops₂, ∃ m' ∈ gAdded ops₁, SameKey m m') := by
  simp only [Generator.asString, Res.bind_eq_ok, Res.pure_eq, Except.ok.injEq, Prod.mk.injEq, Prod.exists] at ht₁ ht₂
  obtain ⟨j₁, _, hj₁, e₁, rfl⟩ := ht₁
  obtain ⟨j₂, _, hj₂, e₂, rfl⟩ := ht₂
  obtain ⟨a1, a2, a3, a4⟩ := C61_fixed_fields _ _ _ _ _ _ _ _ _ h₁ hj₁
  obtain ⟨b1, b2, b3, b4⟩ := C61_fixed_fields _ _ _ _ _ _ _ _ _ h₂ hj₂
  have hj : j₁ = j₂ := by
    have r₁ := C26_roundtrip_flat_partial E.json hJ j₁ (by rw [a1]; decide) a4
    have r₂ := C26_roundtrip_flat_partial E.json hJ j₂ (by rw [b1]; decide) b4
    rw [e₁] at r₁
    rw [e₂, r₁] at r₂
    exact Option.some.inj r₂
  subst hj
  obtain ⟨hS₁, hN₁⟩ := tables_small (cfg := E.cfg) hlen.1
  obtain ⟨hS₂, hN₂⟩ := tables_small (cfg := E.cfg) hlen.2
  obtain ⟨t₁, raws₁, ms₁, p1, p2, p3, p4, p5, p6, p7, _⟩ := emitted_pairs henc₁ hS₁ hN₁ h₁ hj₁
  obtain ⟨t₂, raws₂, ms₂, q1, q2, q3, q4, q5, q6, q7, _⟩ := emitted_pairs henc₂ hS₂ hN₂ h₂ hj₂
  have hs := Option.some.inj (p1.symm.trans q1)
  have hn := Option.some.inj (p2.symm.trans q2)
  rw [q3] at p3
  cases p3
  rw [q4] at p4
  cases p4
  rw [hs, hn] at p5
  refine ⟨a2.symm.trans b2, a3.symm.trans b3, hs, hn, ?_, ?_⟩
  · intro m hm
    obtain ⟨m₁, k1, k2⟩ := p7 m hm
    obtain ⟨r, k3, k4⟩ := (forall₂_mem p5).2 m₁ k1
    obtain ⟨m₂, k5, k6⟩ := (forall₂_mem q5).1 r k3
    exact ⟨m₂, q6 m₂ k5, k2.trans (denotes_sameKey k4 k6)⟩
  · intro m hm
    obtain ⟨m₁, k1, k2⟩ := q7 m hm
    obtain ⟨r, k3, k4⟩ := (forall₂_mem q5).2 m₁ k1
    obtain ⟨m₂, k5, k6⟩ := (forall₂_mem p5).1 r k3
    exact ⟨m₂, p6 m₂ k5, k2.trans (denotes_sameKey k4 k6)⟩

/-- The same text: a generator before and after it was serialised once more. The conclusion with it. -/
example : ∃ (g₁ g₁' g₂ g₂' : Generator) (t : Text),
    (Generator.new none none false).run demoEnv.url demoEnv.cfg allOps = .ok g₁ ∧
    (Generator.new none none false).run demoEnv.url demoEnv.cfg (allOps ++ [.asJson]) = .ok g₂ ∧
    g₁.asString demoEnv = .ok (t, g₁') ∧ g₂.asString demoEnv = .ok (t, g₂') ∧
    ∀ m ∈ gAdded allOps, ∃ m' ∈ gAdded (allOps ++ [.asJson]), SameKey m m' := by
  obtain ⟨hS, hN⟩ := tables_small (cfg := demoEnv.cfg) (ops := allOps) (by decide)
  obtain ⟨g, j, g', h1, h2⟩ := serialize_encodable demoEnv.url demoEnv.cfg none false allOps allOps_enc hS hN
  have h3 : (Generator.new none none false).run demoEnv.url demoEnv.cfg (allOps ++ [.asJson]) = .ok g' := by
    rw [gRun_append _ _ _ _ h1]
    simp only [Generator.run, Generator.step, h2, Res.ok_bind, Res.pure_eq]
  have e1 : g.asString demoEnv = .ok (toStr demoEnv.json j, g') := by
    simp only [Generator.asString, h2, Res.ok_bind, Res.pure_eq]
  have e2 : g'.asString demoEnv = .ok (toStr demoEnv.json j, g') := by
    simp only [Generator.asString, C19_serialize_twice _ _ _ _ _ h2, Res.ok_bind, Res.pure_eq]
  obtain ⟨_, _, _, _, h5, _⟩ := C78_text_determines demo_json _ _ _ _ _ _ _ _ _ _ _ _ _ allOps_enc
    (by rw [gAdded_append]; simpa [gAdded] using allOps_enc) ⟨by decide, by decide⟩ h1 h3 e1 e2
  exact ⟨g, g', g', g', _, h1, h3, e1, e2, h5⟩

/-- Different mappings, different texts. -/
example : ∃ (g₁ g₁' g₂ g₂' : Generator) (t₁ t₂ : Text),
    (Generator.new none none false).run demoEnv.url demoEnv.cfg allOps = .ok g₁ ∧
    (Generator.new none none false).run demoEnv.url demoEnv.cfg gxOps = .ok g₂ ∧
    g₁.asString demoEnv = .ok (t₁, g₁') ∧ g₂.asString demoEnv = .ok (t₂, g₂') ∧ t₁ ≠ t₂ := by
  obtain ⟨hS, hN⟩ := tables_small (cfg := demoEnv.cfg) (ops := allOps) (by decide)
  obtain ⟨hS', hN'⟩ := tables_small (cfg := demoEnv.cfg) (ops := gxOps) (by decide)
  obtain ⟨g₁, j₁, g₁', h1, h2⟩ := serialize_encodable demoEnv.url demoEnv.cfg none false allOps allOps_enc hS hN
  obtain ⟨g₂, j₂, g₂', h3, h4⟩ := serialize_encodable demoEnv.url demoEnv.cfg none false gxOps gxOps_enc hS' hN'
  have e1 : g₁.asString demoEnv = .ok (toStr demoEnv.json j₁, g₁') := by
    simp only [Generator.asString, h2, Res.ok_bind, Res.pure_eq]
  have e2 : g₂.asString demoEnv = .ok (toStr demoEnv.json j₂, g₂') := by
    simp only [Generator.asString, h4, Res.ok_bind, Res.pure_eq]
  refine ⟨g₁, g₁', g₂, g₂', _, _, h1, h3, e1, e2, ?_⟩
  intro he
  rw [he] at e1
  obtain ⟨_, _, _, _, _, h5⟩ := C78_text_determines demo_json _ _ _ _ _ _ _ _ _ _ _ _ _ allOps_enc gxOps_enc
    ⟨by decide, by decide⟩ h1 h3 e1 e2
  obtain ⟨m, h6, h7⟩ := h5 gxP (by decide)
  revert m
  unfold SameKey
  decide

end RSM
