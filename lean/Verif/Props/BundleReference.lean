import Verif.Props.BundleSession
import Verif.Props.Reference
import Verif.Props.SectionLocal
/-! # Property C129: from the calls of several generators to the answers of an indexed consumer -/

namespace RSM
open Spec IndexedConsumer

variable {E : Env}

/-- The part begins before the position (which counts lines from 1, columns from 0; the column asked must be greater than the first
one of the part, C42). -/
def Part.Before (t : Part) (p : Position) : Prop := (Position.mk (t.offset.line + 1) (t.offset.column + 1)).Le p

/-- The part with number `i` is the one asked for a position: of those that begin before it the last, and of several with one
offset the first. -/
structure PartAsked (parts : List Part) (p : Position) (i : Nat) (t : Part) : Prop where
  get : parts[i]? = some t
  before : t.Before p
  last : ∀ q ∈ parts, q.Before p → q.offset.Le t.offset
  first : ∀ j q, parts[j]? = some q → q.offset = t.offset → i ≤ j

/-- The position within the part. -/
def Part.within (t : Part) (p : Position) : Position :=
  ⟨p.line - t.offset.line, if t.offset.line + 1 = p.line then p.column - t.offset.column else p.column⟩

/-- What may be found for a position: nothing, if no part begins before it; otherwise what may be found in the map of the part asked,
for the position within the part. -/
def BundleFinds (parts : List Part) (p : Position) (b : Option Bias) (r : Option Mapping) : Prop :=
  ((∀ t ∈ parts, ¬ t.Before p) ∧ r = none) ∨
  ∃ i t, PartAsked parts p i t ∧ EndAnswers t.ops (.original (t.within p) b) (.mapping r)

/-- What a call of an indexed consumer returns (for `each`, what the callback gets). -/
inductive IndexedConsumer.Ans where
  | content (r : Option String)
  | mapping (r : Option Mapping)
  | position (r : Option Position)
  | mappings (r : List LibMapping)
  | unit

/-- One call, with its answer. -/
def IndexedConsumer.reply (c : IndexedConsumer E) : Op → Res (Ans × IndexedConsumer E)
  | .content s p => do let r ← c.sourceContentFor s p; pure (.content r.1, r.2)
  | .original p b => do let r ← c.originalPositionFor p b; pure (.mapping r.1, r.2)
  | .generated s l k b => do let r ← c.generatedPositionFor s l k b; pure (.position r.1, r.2)
  | .all s l k => do let r ← c.allGeneratedPositionFor s l k; pure (.mappings r.1, r.2)
  | .each o => do let r ← c.eachMapping o; pure (.mappings r.1, r.2)
  | .spans => do let c' ← c.computedColumnSpans; pure (.unit, c')

/-- Calls one after the other, with their answers. -/
def IndexedConsumer.session (c : IndexedConsumer E) : List Op → Res (List Ans)
  | [] => .ok []
  | op :: ops => do
    let r ← c.reply op
    let l ← r.2.session ops
    pure (r.1 :: l)

/-- What may be answered to a call; the ends of spans apart. -/
def BundleAnswers (parts : List Part) : Op → Ans → Prop
  | .content s q, .content r => bundleContent s q parts = some r
  | .original p b, .mapping r => BundleFinds parts p b (r.map BasicConsumer.stripMapping)
  | .generated _ _ _ _, .position r => parts = [] ∧ r = none
  | .all _ _ _, .mappings r => parts = [] ∧ r = []
  | .each _, .mappings r => parts = [] ∧ r = []
  | .spans, .unit => True
  | _, _ => False

theorem reply_step {c c' : IndexedConsumer E} {op : Op} {a : IndexedConsumer.Ans} (h : c.reply op = .ok (a, c')) :
    c.step op = .ok c' := by
  cases op <;> simp only [IndexedConsumer.reply, IndexedConsumer.step, Res.bind_eq_ok, Res.pure_eq, Except.ok.injEq, Prod.mk.injEq] at h ⊢
  case spans => obtain ⟨_, h1, _, rfl⟩ := h; exact h1
  all_goals
    obtain ⟨r, h1, _, h2⟩ := h
    exact ⟨r, h1, h2⟩

theorem step_reply {c c' : IndexedConsumer E} {op : Op} (h : c.step op = .ok c') : ∃ a, c.reply op = .ok (a, c') := by
  cases op <;> simp only [IndexedConsumer.reply, IndexedConsumer.step, Res.bind_eq_ok, Res.pure_eq, Except.ok.injEq, Prod.mk.injEq] at h ⊢
  case spans => exact ⟨_, _, h, rfl, rfl⟩
  all_goals
    obtain ⟨r, h1, h2⟩ := h
    exact ⟨_, r, h1, rfl, h2⟩

theorem session_run {c : IndexedConsumer E} {ops : List Op} : (∃ l, c.session ops = .ok l) ↔ ∃ c', c.run ops = .ok c' := by
  induction ops generalizing c with
  | nil => exact ⟨fun _ => ⟨c, rfl⟩, fun _ => ⟨[], rfl⟩⟩
  | cons op ops ih =>
    constructor
    · rintro ⟨l, h⟩
      simp only [IndexedConsumer.session, Res.bind_eq_ok] at h
      obtain ⟨⟨a, c1⟩, h1, l', h2, _⟩ := h
      obtain ⟨c', hc'⟩ := ih.1 ⟨l', h2⟩
      exact ⟨c', by simp only [IndexedConsumer.run, reply_step h1, Res.ok_bind, hc']⟩
    · rintro ⟨c', h⟩
      simp only [IndexedConsumer.run, Res.bind_eq_ok] at h
      obtain ⟨c1, h1, h2⟩ := h
      obtain ⟨a, ha⟩ := step_reply h1
      obtain ⟨l, hl⟩ := ih.2 ⟨c', h2⟩
      exact ⟨a :: l, by simp only [IndexedConsumer.session, ha, Res.ok_bind, hl, Res.pure_eq]⟩

theorem idx_run_snoc {op : Op} {ops : List Op} {c d d' : IndexedConsumer E} (h : c.run ops = .ok d) (h' : d.step op = .ok d') :
    c.run (ops ++ [op]) = .ok d' := by
  induction ops generalizing c with
  | nil => cases h; simp only [List.nil_append, IndexedConsumer.run, h', Res.ok_bind]
  | cons o ops ih =>
    simp only [IndexedConsumer.run, Res.bind_eq_ok] at h
    obtain ⟨c1, h1, h2⟩ := h
    simp only [List.cons_append, IndexedConsumer.run, h1, Res.ok_bind, ih h2]

theorem found_unique {cfg : Cfg} {gops : List GOp} (henc : ∀ m ∈ gAdded gops, m.Encodable cfg)
    (hgen : GenOnce ((gAdded gops).map Mapping.bare)) {p : Position} {b : Option Bias} {r r' : Option Mapping}
    (h : EndAnswers gops (.original p b) (.mapping r)) (h' : EndAnswers gops (.original p b) (.mapping r')) : r = r' := by
  obtain ⟨o, n1, rfl⟩ := h
  obtain ⟨o', n2, rfl⟩ := h'
  rw [Nearest.unique (fun a ha b hb' hab => hgen a ha b hb' ?_) n1 n2]
  obtain ⟨a', ha', rfl⟩ := List.mem_map.1 ha
  obtain ⟨b', hb'', rfl⟩ := List.mem_map.1 hb'
  have q1 := (henc a' ha').line
  have q2 := (henc b' hb'').line
  have q3 := (henc a' ha').column
  have q4 := (henc b' hb'').column
  obtain ⟨⟨a1, a2⟩, a3, a4, a5, a6⟩ := a'
  obtain ⟨⟨b1, b2⟩, b3, b4, b5, b6⟩ := b'
  simp only [Mapping.bare, Mapping.genAt, Prod.mk.injEq, Position.mk.injEq] at hab q1 q2 q3 q4 ⊢
  omega

theorem bundle_get {parts : List Part} {js : List SourceMapJson} (hw : List.Forall₂ (Part.Writes E) parts js) (i : Nat) :
    (∀ x, (bundleSections parts js)[i]? = some x → ∃ t, parts[i]? = some t ∧ Part.Writes E t x.map ∧ x.offset = t.offset) ∧
    (∀ t, parts[i]? = some t → ∃ x, (bundleSections parts js)[i]? = some x ∧ Part.Writes E t x.map ∧ x.offset = t.offset) := by
  induction hw generalizing i with
  | nil => simp [bundleSections]
  | @cons p j parts js hp _ ih =>
    have hb : bundleSections (p :: parts) (j :: js) = ⟨p.offset, j, none⟩ :: bundleSections parts js := rfl
    rw [hb]
    cases i with
    | zero =>
      simp only [List.getElem?_cons_zero, Option.some.injEq]
      exact ⟨fun x e => ⟨p, rfl, by subst e; exact hp, by subst e; rfl⟩, fun t e => ⟨_, rfl, by subst e; exact hp, by subst e; rfl⟩⟩
    | succ i =>
      simp only [List.getElem?_cons_succ]
      exact ih i

theorem bundle_plain {parts : List Part} {js : List SourceMapJson} (hgood : ∀ p ∈ parts, p.Good E)
    (hw : List.Forall₂ (Part.Writes E) parts js) : ∀ x ∈ bundleSections parts js, RSM.Plain x := by
  intro x hx
  obtain ⟨p, hp, _, h2, _⟩ := mem_bundle hw hx
  have hl := (hgood p hp).line
  have hc := (hgood p hp).column
  rw [← h2] at hl hc
  exact ⟨hl.1, hc.1, by unfold IsI32; omega, by unfold IsI32; omega⟩

/-- The map of a part, asked for a position. -/
theorem Part.Writes.original (hU : E.url.Laws) (hL : E.maps.Laws) (hT : E.maps.Total) {t : Part} (ht : t.Good E)
    {j : SourceMapJson} (h : Part.Writes E t j) {k : BasicConsumer E} (hk : BasicConsumer.Built j none k) {q : Position}
    (hq : Askable q) {b : Option Bias} {r : Option Mapping} {k' : BasicConsumer E} (hr : k.originalPositionFor q b = .ok (r, k')) :
    EndAnswers t.ops (.original q b) (.mapping (r.map BasicConsumer.stripMapping)) := by
  have hlim := E.cfg.vlqLimit_le
  obtain ⟨_, _, a3, a4, a5, a6, a7⟩ := h.spec hU ht
  obtain ⟨g, g', hg, hj⟩ := h
  obtain ⟨text, raws, ms, h1, h2, h3, h4, h5, h6, h7, h8⟩ := emitted_pairs ht.enc ht.few ht.names hg hj
  obtain ⟨raws', hseg, _, _, hnam, hsound, hcomplete, _⟩ := generator_segments E.url E.cfg t.file none t.skip t.ops g g' j
    ht.enc ht.few ht.names hg hj
  have hrr : raws' = raws := by
    obtain ⟨_, e1, e2, _⟩ := hseg
    rw [h3] at e1
    cases e1
    rw [h4] at e2
    exact (Option.some.inj e2).symm
  subst hrr
  have hgs : k.getSources = t.sources := by
    obtain ⟨srcs, s1, s2, s3⟩ := C28_sources hk
    rw [a4] at s1
    cases s1
    refine List.ext_getElem? fun i => ?_
    cases hi : t.sources[i]? with
    | none => rw [List.getElem?_eq_none_iff] at hi ⊢; omega
    | some s =>
      obtain ⟨s', e1, e2⟩ := s3 i s hi
      rw [a3, plain_url hU (ht.plain s (List.mem_of_getElem? hi))] at e1
      cases e1
      exact e2
  have ha : k.answer (.original q b) = .ok (.mapping (r.map BasicConsumer.stripMapping)) := by
    simp only [BasicConsumer.answer, BasicConsumer.step, hr, Res.ok_bind, Res.pure_eq]
    rfl
  have hfew := ht.few
  unfold Part.sources at hfew
  have := may_answer hL hT hk id hseg hnam (nodup_firstOccurrences _) hgs (by omega)
      (fun x hx => by
        obtain ⟨m, hm, hden⟩ := hsound x hx
        exact denotes_fits (ht.enc m hm) hden rfl) (C := t.sources.filterMap fun s => latestContent id s t.ops) ?_
        (List.length_filterMap_le _ _) (L := (gAdded t.ops).map Mapping.bare) ?_ ?_ (op := .original q b) ⟨hq.2.2.1, hq.2.2.2⟩ (by intro s e; cases e)
        (by intro s e; cases e) ha
  · exact this
  · by_cases hh : ∃ s, latestContent id s t.ops ≠ none
    · exact .inl (a6 hh)
    · have hh' : ∀ s, latestContent id s t.ops = none := fun t => Classical.byContradiction fun h => hh ⟨t, h⟩
      exact .inr ⟨a7 hh', by simp [hh']⟩
  · intro y
    constructor
    · intro hy
      obtain ⟨x, hx, rfl⟩ := List.mem_map.1 hy
      obtain ⟨m, hm, hden⟩ := hsound x hx
      exact List.mem_map.2 ⟨m, hm, denotes_named (m := m.bare) hden rfl⟩
    · intro hy
      obtain ⟨m, hm, rfl⟩ := List.mem_map.1 hy
      obtain ⟨x, hx, hden⟩ := hcomplete m hm
      exact List.mem_map.2 ⟨x, hx, (denotes_named (m := m.bare) hden rfl).symm⟩
  · intro hn
    rw [perm_named h5]
    refine (h8 ?_).map _
    refine (List.pairwise_map.1 hn).imp fun {a b} hab hk => hab ?_
    obtain ⟨k1, k2, k3, k4⟩ := hk
    obtain ⟨a1, a2, a3, a4, a5⟩ := a
    obtain ⟨b1, b2, b3, b4, b5⟩ := b
    simp only at k1 k2 k3 k4
    simp only [Mapping.bare, k1, k2, k3, k4]

/-- C129, positions: what `original_position_for` of an indexed map of generated parts finds, after any calls. -/
theorem C129_original (hL : E.maps.Laws) (hT : E.maps.Total) (hJ : E.json.Laws) (hU : E.url.Laws) {parts : List Part}
    {js : List SourceMapJson} (hlen : parts.length < 2147483647) (hgood : ∀ p ∈ parts, p.Good E)
    (hord : (parts.map Part.offset).Pairwise Position.Le) (hw : List.Forall₂ (Part.Writes E) parts js)
    (file : Option String) {sch : List Nat} (hsch : IsSchedule parts.length sch) {c₀ c : IndexedConsumer E}
    (h : createConsumer sch (toStr E.json (bundle file parts js)) none = .ok (some (.indexed c₀)))
    {ops : List IndexedConsumer.Op} (hrun : c₀.run ops = .ok c) {p : Position} (hp : Askable p) {b : Option Bias}
    {r : Option Mapping} {c' : IndexedConsumer E} (hr : c.originalPositionFor p b = .ok (r, c')) :
    BundleFinds parts p b (r.map BasicConsumer.stripMapping) := by
  have e1 := (bundle_create hJ hU hgood hw file sch c₀).1 h
  have hsorted : (bundleSections parts js).Pairwise fun a b => a.offset.Le b.offset := by
    have := hord
    rw [← bundle_offsets hw, List.pairwise_map] at this
    exact this
  have hc : Asked none (bundleSections parts js) c :=
    ⟨⟨_, sch, c₀, ops, rfl, by rwa [bundle_length hw], e1, hrun⟩, by rwa [bundle_length hw], bundle_plain hgood hw, hsorted⟩
  have hor : originalAnswer c p b = .ok (r.map BasicConsumer.stripMapping) := by
    rw [originalAnswer, hr]; rfl
  rcases section_or_none hsorted p with ⟨i, s, ha⟩ | hno
  · right
    obtain ⟨t, t1, t2, t3⟩ := (bundle_get hw i).1 s ha.get
    refine ⟨i, t, ⟨t1, ?_, ?_, ?_⟩, ?_⟩
    · have := ha.before
      rwa [t3] at this
    · intro q hq hb
      obtain ⟨n, hn⟩ := List.mem_iff_getElem?.1 hq
      obtain ⟨x, x1, _, x3⟩ := (bundle_get hw n).2 q hn
      have := ha.last x (List.mem_of_getElem? x1) (by rw [x3]; exact hb)
      rwa [t3, x3] at this
    · intro n q hn hq
      obtain ⟨x, x1, _, x3⟩ := (bundle_get hw n).2 q hn
      exact ha.first n x x1 (by rw [x3, t3, hq])
    · obtain ⟨k₀, k, g1, g2, g3⟩ := asked_section hL hc hp ha b
      have hbu : BasicConsumer.Built s.map none k₀ := .inr g1
      have hrel : BasicConsumer.Rel k₀ k₀ := hbu.rel
      have heq := map_original (g2.agree_total hL hT hrel (.original (withinSection s p) b))
      rw [← g3, hor] at heq
      have hin : withinSection s p = t.within p := by simp only [withinSection, Part.within, t3]
      cases hk : k₀.originalPositionFor (withinSection s p) b with
      | error e => rw [hk] at heq; cases heq
      | ok z =>
        rw [hk] at heq
        obtain ⟨z1, z2⟩ := z
        simp only [Except.map, Except.ok.injEq] at heq
        rw [heq, ← hin]
        refine t2.original hU hL hT (hgood t (List.mem_of_getElem? t1)) hbu ?_ hk
        have h1 := bundle_plain hgood hw s (List.mem_of_getElem? ha.get)
        have h2 := ha.before
        obtain ⟨p1, p2, p3, p4⟩ := h1
        obtain ⟨q1, q2, q3, q4⟩ := hp
        unfold Position.Le at h2
        unfold IsI32 at *
        unfold Askable withinSection IsI32
        dsimp only at *
        refine ⟨?_, ?_, ?_, ?_⟩ <;> try split
        all_goals omega
  · left
    have := no_section hL hc hp hno b
    rw [hor] at this
    refine ⟨fun q hq hb => ?_, Except.ok.inj this⟩
    obtain ⟨n, hn⟩ := List.mem_iff_getElem?.1 hq
    obtain ⟨x, x1, _, x3⟩ := (bundle_get hw n).2 q hn
    exact hno x (List.mem_of_getElem? x1) (by rw [x3]; exact hb)

/-- C129: a program lets several generators each write a map, puts the maps together and asks the whole. It ends without a panic if
and only if every call has what it needs (C126), and then every answer is one that what was added and set in the parts allows. -/
theorem C129_answers (hL : E.maps.Laws) (hT : E.maps.Total) (hJ : E.json.Laws) (hU : E.url.Laws) {parts : List Part}
    {js : List SourceMapJson} (hlen : parts.length < 2147483647) (hgood : ∀ p ∈ parts, p.Good E)
    (hord : (parts.map Part.offset).Pairwise Position.Le) (hw : List.Forall₂ (Part.Writes E) parts js)
    (file : Option String) {sch : List Nat} (hsch : IsSchedule parts.length sch) {c : IndexedConsumer E}
    (h : createConsumer sch (toStr E.json (bundle file parts js)) none = .ok (some (.indexed c)))
    {ops : List IndexedConsumer.Op} (hop : ∀ op ∈ ops, IdxAskable op)
    (hplain : ∀ s q, IndexedConsumer.Op.content s q ∈ ops → PlainUrl s.toList s.toList) :
    ((∃ l, c.session ops = .ok l) ↔ ∀ op ∈ ops, BundleNeeds parts op) ∧
    ∀ l, c.session ops = .ok l → List.Forall₂ (BundleAnswers parts) ops l := by
  refine ⟨session_run.trans (C126_returns_iff hL hT hJ hU hlen hgood hord hw file hsch h hop hplain), ?_⟩
  have e1 := (bundle_create hJ hU hgood hw file sch c).1 h
  have key : ∀ (op : IndexedConsumer.Op) (before : List IndexedConsumer.Op) (d d' : IndexedConsumer E)
      (a : IndexedConsumer.Ans), IdxAskable op → (∀ s q, op = .content s q → PlainUrl s.toList s.toList) → c.run before = .ok d →
      d.reply op = .ok (a, d') → BundleAnswers parts op a := by
    intro op before d d' a hop hpl hrun hr
    obtain ⟨hl, _⟩ := sections_after hL (secs := bundleSections parts js) rfl (by rwa [bundle_length hw]) e1 hrun
    have hnil : d.sections = [] → parts = [] := fun e => by
      rw [e, bundle_length hw] at hl
      exact List.length_eq_zero_iff.1 hl.symm
    cases op with
    | spans =>
      simp only [IndexedConsumer.reply, Res.bind_eq_ok, Res.pure_eq, Except.ok.injEq, Prod.mk.injEq] at hr
      obtain ⟨_, _, rfl, _⟩ := hr
      trivial
    | content s q =>
      simp only [IndexedConsumer.reply, Res.bind_eq_ok, Res.pure_eq, Except.ok.injEq, Prod.mk.injEq] at hr
      obtain ⟨⟨r, d1⟩, hr, rfl, _⟩ := hr
      exact (C126_content hL hJ hU hgood hw file hsch h hrun (hpl s q rfl) q r).1 ⟨d1, hr⟩
    | original p b =>
      simp only [IndexedConsumer.reply, Res.bind_eq_ok, Res.pure_eq, Except.ok.injEq, Prod.mk.injEq] at hr
      obtain ⟨⟨r, d1⟩, hr, rfl, _⟩ := hr
      exact C129_original hL hT hJ hU hlen hgood hord hw file hsch h hrun hop hr
    | generated s l k b =>
      simp only [IndexedConsumer.reply, Res.bind_eq_ok, Res.pure_eq, Except.ok.injEq, Prod.mk.injEq] at hr
      obtain ⟨⟨r, d1⟩, hr, rfl, _⟩ := hr
      by_cases hd : d.sections = []
      · rw [(C44_no_sections d hd s l k none b .generated ⟨1, 0⟩).1] at hr
        cases hr
        exact ⟨hnil hd, rfl⟩
      · simp only [generatedPositionFor, find_panics hd, Res.error_bind, reduceCtorEq] at hr
    | all s l k =>
      simp only [IndexedConsumer.reply, Res.bind_eq_ok, Res.pure_eq, Except.ok.injEq, Prod.mk.injEq] at hr
      obtain ⟨⟨r, d1⟩, hr, rfl, _⟩ := hr
      by_cases hd : d.sections = []
      · rw [(C44_no_sections d hd s l 0 k none .generated ⟨1, 0⟩).2.1] at hr
        cases hr
        exact ⟨hnil hd, rfl⟩
      · simp only [allGeneratedPositionFor, find_panics hd, Res.error_bind, reduceCtorEq] at hr
    | each o =>
      simp only [IndexedConsumer.reply, Res.bind_eq_ok, Res.pure_eq, Except.ok.injEq, Prod.mk.injEq] at hr
      obtain ⟨⟨r, d1⟩, hr, rfl, _⟩ := hr
      by_cases hd : d.sections = []
      · rw [(C44_no_sections d hd "" 1 0 none none o ⟨1, 0⟩).2.2.1] at hr
        cases hr
        exact ⟨hnil hd, rfl⟩
      · obtain ⟨e, he⟩ := each_panics hd o
        rw [he] at hr
        cases hr
  have all : ∀ (ops before : List IndexedConsumer.Op) (d : IndexedConsumer E) (l : List IndexedConsumer.Ans),
      (∀ op ∈ ops, IdxAskable op) → (∀ s q, IndexedConsumer.Op.content s q ∈ ops → PlainUrl s.toList s.toList) →
      c.run before = .ok d → d.session ops = .ok l → List.Forall₂ (BundleAnswers parts) ops l := by
    intro ops
    induction ops with
    | nil => intro before d l _ _ _ hl; cases hl; exact .nil
    | cons op ops ih =>
      intro before d l ho hp hb hl
      simp only [IndexedConsumer.session, Res.bind_eq_ok, Res.pure_eq, Except.ok.injEq] at hl
      obtain ⟨⟨a, d'⟩, h1, l', h2, rfl⟩ := hl
      refine .cons (key op before d d' a (ho op (by simp)) (fun s q e => hp s q (by simp [e])) hb h1) ?_
      refine ih (before ++ [op]) d' l' (fun o h => ho o (by simp [h])) (fun s q h => hp s q (by simp [h])) ?_ h2
      exact idx_run_snoc hb (reply_step h1)
  exact fun l hl => all ops [] c l hop hplain rfl hl

theorem Position.Le.antisymm {a b : Position} (h : a.Le b) (h' : b.Le a) : a = b := by
  obtain ⟨a1, a2⟩ := a
  obtain ⟨b1, b2⟩ := b
  simp only [Position.Le] at h h'
  rw [Position.mk.injEq]
  omega

/-- Only one part is asked. -/
theorem PartAsked.unique {parts : List Part} {p : Position} {i i' : Nat} {t t' : Part} (h : PartAsked parts p i t)
    (h' : PartAsked parts p i' t') : t = t' := by
  have he : t.offset = t'.offset := (h'.last t (List.mem_of_getElem? h.get) h.before).antisymm
    (h.last t' (List.mem_of_getElem? h'.get) h'.before)
  have hi : i = i' := Nat.le_antisymm (h.first i' t' h'.get he.symm) (h'.first i t h.get he)
  have := h.get
  rw [hi, h'.get] at this
  exact (Option.some.inj this).symm

theorem finds_unique {cfg : Cfg} {parts : List Part} (henc : ∀ t ∈ parts, ∀ m ∈ gAdded t.ops, m.Encodable cfg)
    (hgen : ∀ t ∈ parts, GenOnce ((gAdded t.ops).map Mapping.bare)) {p : Position} {b : Option Bias} {r r' : Option Mapping}
    (h : BundleFinds parts p b r) (h' : BundleFinds parts p b r') : r = r' := by
  rcases h with ⟨h1, rfl⟩ | ⟨i, t, ht, h1⟩ <;> rcases h' with ⟨h2, rfl⟩ | ⟨i', t', ht', h2⟩
  · rfl
  · exact absurd ht'.before (h1 t' (List.mem_of_getElem? ht'.get))
  · exact absurd ht.before (h2 t (List.mem_of_getElem? ht.get))
  · obtain rfl := ht.unique ht'
    have hm := List.mem_of_getElem? ht.get
    exact found_unique (henc t hm) (hgen t hm) h1 h2

/-- The answer without the ends of spans. -/
def IndexedConsumer.Ans.strip : IndexedConsumer.Ans → IndexedConsumer.Ans
  | .mapping r => .mapping (r.map BasicConsumer.stripMapping)
  | a => a

/-- C129, what is determined: if in no part two different mappings were added for one generated position, then only one answer is
allowed to a call, span ends apart. -/
theorem C129_unique {cfg : Cfg} {parts : List Part} (henc : ∀ t ∈ parts, ∀ m ∈ gAdded t.ops, m.Encodable cfg)
    (hgen : ∀ t ∈ parts, GenOnce ((gAdded t.ops).map Mapping.bare)) {op : IndexedConsumer.Op} {a a' : IndexedConsumer.Ans}
    (h : BundleAnswers parts op a) (h' : BundleAnswers parts op a') : a.strip = a'.strip := by
  cases op <;> cases a <;> (try exact False.elim h) <;> cases a' <;> (try exact False.elim h')
  case content.content.content s q r r' =>
    have e : some r = some r' := Eq.trans (Eq.symm h) h'
    cases e
    rfl
  case original.mapping.mapping p b r r' =>
    exact congrArg IndexedConsumer.Ans.mapping (finds_unique henc hgen h h')
  case spans.unit.unit => rfl
  all_goals
    obtain ⟨_, rfl⟩ := h
    obtain ⟨_, rfl⟩ := h'
    rfl

/-- Two parts; the second begins on the fifth line and has two lines. -/
def refParts : List Part :=
  [{ offset := ⟨0, 0⟩, ops := endOps },
   { offset := ⟨4, 12⟩, ops := [.add { generated := ⟨1, 0⟩, original := some ⟨1, 0⟩, source := some "c.js" },
       .add { generated := ⟨2, 5⟩, original := some ⟨7, 1⟩, source := some "c.js", name := some "foo" }, .setContent "c.js" (some "C")] }]

theorem refParts_good : ∀ p ∈ refParts, p.Good demoEnv := by
  have ha : PlainUrl "a.js".toList "a.js".toList :=
    PlainUrl.ref ⟨[], "a.js".toList⟩ ⟨by simp, by decide⟩ (by decide)
  have hb : PlainUrl "b.js".toList "b.js".toList :=
    PlainUrl.ref ⟨[], "b.js".toList⟩ ⟨by simp, by decide⟩ (by decide)
  have hc : PlainUrl "c.js".toList "c.js".toList :=
    PlainUrl.ref ⟨[], "c.js".toList⟩ ⟨by simp, by decide⟩ (by decide)
  have hpl : ∀ p ∈ refParts, ∀ s ∈ p.sources, s = "a.js" ∨ s = "b.js" ∨ s = "c.js" := by decide
  have hcount : ∀ p ∈ refParts, (gAdded p.ops).length < 1073741824 := by decide
  intro p hp
  obtain ⟨hS, hN⟩ := tables_small (cfg := demoEnv.cfg) (ops := p.ops) (hcount p hp)
  refine ⟨?_, hS, hN, fun s hs => ?_, ?_, ?_⟩
  · simp only [refParts, List.mem_cons, List.not_mem_nil, or_false] at hp
    rcases hp with rfl | rfl
    · exact revOps_enc
    · intro m hm
      simp only [gAdded, List.mem_cons, List.not_mem_nil, or_false] at hm
      rcases hm with rfl | rfl
      · exact .small (by decide) (by decide) rfl (by intro p hp; cases hp; decide) (by intro h; rfl)
      · exact .small (by decide) (by decide) rfl (by intro p hp; cases hp; decide) (by intro h; cases h)
  · rcases hpl p hp s hs with rfl | rfl | rfl
    · exact ha
    · exact hb
    · exact hc
  · have : ∀ p ∈ refParts, 0 ≤ p.offset.line ∧ p.offset.line < 2147483647 := by decide
    exact this p hp
  · have : ∀ p ∈ refParts, 0 ≤ p.offset.column ∧ p.offset.column < 2147483647 := by decide
    exact this p hp

/-- The hypotheses hold together, and what is allowed: from the first line of the second part the mapping on its second line is found,
and given with the position within the part; from the very first position of the second part the first part is asked, which has
nothing there; no other answer is allowed. -/
theorem C129_case : (∃ (js : List SourceMapJson) (c : IndexedConsumer demoEnv), List.Forall₂ (Part.Writes demoEnv) refParts js ∧
      createConsumer [0, 1] (toStr demoEnv.json (bundle none refParts js)) none = .ok (some (.indexed c))) ∧
    (∀ p ∈ refParts, p.Good demoEnv) ∧ (refParts.map Part.offset).Pairwise Position.Le ∧ IsSchedule refParts.length [0, 1] ∧
    (∀ t ∈ refParts, GenOnce ((gAdded t.ops).map Mapping.bare)) ∧
    (∀ r, BundleFinds refParts ⟨5, 20⟩ (some .lub) r ↔ r = some ⟨⟨2, 5⟩, some ⟨7, 1⟩, some "c.js", some "foo", none⟩) ∧
    (∀ r, BundleFinds refParts ⟨5, 12⟩ (some .lub) r ↔ r = none) := by
  have henc : ∀ t ∈ refParts, ∀ m ∈ gAdded t.ops, m.Encodable demoEnv.cfg := fun t ht => (refParts_good t ht).enc
  have hgen : ∀ t ∈ refParts, GenOnce ((gAdded t.ops).map Mapping.bare) := by unfold GenOnce; decide +kernel
  have hu : ∀ {p b r}, BundleFinds refParts p b r → ∀ r', BundleFinds refParts p b r' ↔ r' = r :=
    fun h r' => ⟨fun h' => finds_unique henc hgen h' h, fun e => e ▸ h⟩
  refine ⟨?_, refParts_good, by simp [refParts, Position.Le], List.Perm.refl _, hgen, hu ?_, hu ?_⟩
  · obtain ⟨js, hw⟩ := C90_writes demo_json demo_url refParts_good
    obtain ⟨c, hc⟩ := C90_accepted demo_json demo_url refParts_good hw none (by simp [refParts, Position.Le])
    exact ⟨js, c, hw, hc⟩
  · refine .inr ⟨1, _, ⟨rfl, ?_, ?_, ?_⟩, ?_⟩
    · simp [Part.Before, Position.Le]
    · simp [refParts, Part.Before, Position.Le]
    · intro j q hj hq
      match j with
      | 0 => cases hj; cases hq
      | j + 1 => omega
    · simp only [EndAnswers, MayAnswer]
      refine ⟨some ⟨⟨2, 5⟩, some ⟨7, 1⟩, some "c.js", some "foo", none⟩, ?_, by decide +kernel⟩
      simp only [Nearest, Option.getD, Part.within]
      decide +kernel
  · refine .inr ⟨0, _, ⟨rfl, ?_, ?_, ?_⟩, ?_⟩
    · simp [Part.Before, Position.Le]
    · simp [refParts, Part.Before, Position.Le]
    · intro j q hj hq
      omega
    · simp only [EndAnswers, MayAnswer]
      refine ⟨none, ?_, by decide +kernel⟩
      simp only [Nearest, Option.getD, Part.within]
      decide +kernel

end RSM
