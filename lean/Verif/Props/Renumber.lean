import Verif.Props.ConsumerEdit
import Verif.Props.Copy
import Verif.Props.LastColumn
/-! # Property C113: the numbering of sources and names does not matter -/

namespace RSM
open Spec BasicConsumer

variable {E : Env}

/-- Two lists of segments, one through the sources `S` and names `N`, the other through `S'` and `N'`, say the same: the
mappings they stand for are the same ones. -/
structure SaysSame (S N S' N' : List String) (raws raws' : List RawMapping) : Prop where
  fits : ∀ x ∈ raws, Fits S N 2147483648 x
  fits' : ∀ x ∈ raws', Fits S' N' 2147483648 x
  same : ∀ y, y ∈ raws'.map (named S' N') ↔ y ∈ raws.map (named S N)

/-- No two different mappings of the list are about the same generated position. -/
def GenOnce (l : List Mapping) : Prop := ∀ a ∈ l, ∀ b ∈ l, a.generated = b.generated → a = b

/-- No two different mappings of the list are about the same position of the same source. -/
def OrigOnce (l : List Mapping) : Prop :=
  ∀ a ∈ l, ∀ b ∈ l, a.original.isSome → a.source = b.source → a.original = b.original → a = b

/-- The answer without its name and without column span. -/
def Mapping.unnamed (m : Mapping) : Mapping := { m with name := none, lastGeneratedColumn := none }

theorem Nearest.mapped {α β : Type} {pos : α → Nat × Nat} {pos' : β → Nat × Nat} {l : List α} {q : Nat × Nat} {b : Bias}
    {r : Option α} (f : α → β) (hf : ∀ a ∈ l, pos' (f a) = pos a) (hr : Nearest pos l q b r) :
    Nearest pos' (l.map f) q b (r.map f) := by
  have hs : ∀ P : Nat × Nat → Prop, (∀ s ∈ l.map f, P (pos' s)) ↔ ∀ s ∈ l, P (pos s) := by
    intro P
    rw [List.forall_mem_map]
    exact ⟨fun h s hm => hf s hm ▸ h s hm, fun h s hm => (hf s hm).symm ▸ h s hm⟩
  cases r with
  | none =>
    cases b <;> simp only [Nearest, Option.map_none] at hr ⊢
    · rw [hs fun p => p ≠ q ∧ ¬ PLt p q]; exact hr
    · rw [hs fun p => p ≠ q ∧ ¬ PLt q p]; exact hr
  | some r =>
    cases b <;> simp only [Nearest, Option.map_some] at hr ⊢ <;> rw [hf r hr.1]
    · rw [hs fun p => p ≠ q, hs fun p => PLt p q → ¬ PLt (pos r) p]
      exact ⟨List.mem_map.2 ⟨_, hr.1, rfl⟩, hr.2⟩
    · rw [hs fun p => p ≠ q, hs fun p => PLt q p → ¬ PLt p (pos r)]
      exact ⟨List.mem_map.2 ⟨_, hr.1, rfl⟩, hr.2⟩

/-- Generated position, from zero. -/
def Mapping.genAt (m : Mapping) : Nat × Nat := ((m.generated.line - 1).toNat, m.generated.column.toNat)

/-- Original position, from zero. -/
def Mapping.origAt (m : Mapping) : Nat × Nat :=
  match m.original with
  | some p => ((p.line - 1).toNat, p.column.toNat)
  | none => (0, 0)

theorem named_genAt (S N : List String) (x : RawMapping) : (named S N x).genAt = x.genPos := by
  simp only [Mapping.genAt, named, RawMapping.genPos, Prod.mk.injEq]
  omega

theorem named_origAt (S N : List String) (x : RawMapping) : (named S N x).origAt = x.origPos := by
  obtain ⟨a, b, o⟩ := x
  cases o with
  | none => rfl
  | some o =>
    simp only [Mapping.origAt, named, RawMapping.origPos, Option.map_some, Prod.mk.injEq]
    omega

theorem named_gen_eq {S N S' N' : List String} {x y : RawMapping} (h : (named S N x).genAt = (named S' N' y).genAt) :
    (named S N x).generated = (named S' N' y).generated := by
  rw [named_genAt, named_genAt] at h
  simp only [RawMapping.genPos, Prod.mk.injEq] at h
  simp only [named, h.1, h.2]

/-- What `original_position_for` reports for a mapping. -/
def answerOriginal (line : Int) (m : Mapping) : Option Mapping :=
  if m.generated.line - 1 = line ∧ m.original.isSome then some m else none

/-- What `generated_position_for` reports for a mapping. -/
def answerGenerated (m : Mapping) : Mapping :=
  { m with name := none, original := m.original.map fun p => ⟨p.line - 1, p.column⟩ }

theorem reportOriginal_named {c : BasicConsumer E} {S N : List String} (ha : c.absoluteSources.array = S)
    (hS : S.length < 2147483648) (hN : c.sourceMap.names = some N) {line : Int} {x : Option LibMapping}
    (hx : ∀ z, x = some z → Fits S N 2147483648 z.raw) :
    (c.reportOriginal line x).map (·.map stripMapping) =
      .ok (((x.map LibMapping.raw).map (named S N)).bind (answerOriginal line)) := by
  cases x with
  | none => rfl
  | some z =>
    obtain ⟨f1, f2, f3⟩ := hx z rfl
    obtain ⟨a1, a2, a3, a4⟩ := z
    simp only [LibMapping.raw] at f1 f2 f3
    have w0 : wrap32 (a1 : Int) = a1 := wrap32_of_isI32 (by unfold IsI32; omega)
    simp only [reportOriginal, Option.map_some, Option.bind_some, answerOriginal, named, LibMapping.raw, w0]
    by_cases hl : (a1 : Int) = line
    · rw [if_pos hl]
      cases a4 with
      | none => simp [Except.map]
      | some o =>
        obtain ⟨g1, g2, _, g3, g4⟩ := f3 o rfl
        have s1 := succU32_lt E.cfg (show o.line + 1 < 4294967296 by omega)
        have s2 := succU32_lt E.cfg (show a1 + 1 < 4294967296 by omega)
        have w1 : wrap32 ((o.line + 1 : Nat) : Int) = (o.line + 1 : Nat) := wrap32_of_isI32 (by unfold IsI32; omega)
        have w2 : wrap32 (o.column : Int) = o.column := wrap32_of_isI32 (by unfold IsI32; omega)
        have w3 : wrap32 ((a1 + 1 : Nat) : Int) = (a1 + 1 : Nat) := wrap32_of_isI32 (by unfold IsI32; omega)
        have w4 : wrap32 (a2 : Int) = a2 := wrap32_of_isI32 (by unfold IsI32; omega)
        have at1 := atIdx_source (a := c.absoluteSources) (by rw [ha]; exact hS) (i := o.source) (by omega)
        rw [ha] at at1
        have hnm : c.optName o.name = .ok (o.name.bind fun n => N[n]?) := by
          cases hn : o.name with
          | none => rfl
          | some n =>
            have := g4 n hn
            simp [optName, nameAt, hN, unwrap, index, this, Res.pure_eq]
        rw [if_pos (by simp; omega)]
        simp only [hnm, s1, s2, Res.ok_bind, Res.pure_eq, Except.map, Option.map_some, stripMapping, w1, w2, w3, w4, at1,
          Option.bind_some]
        simp
    · rw [if_neg hl, if_neg (by simp; omega)]
      simp [Except.map]

theorem reportGenerated_named {c : BasicConsumer E} {S N : List String} (ha : c.absoluteSources.array = S)
    (hS : S.length < 2147483648) {n : Nat} {x : Option LibMapping}
    (hx : ∀ z, x = some z → Fits S N 2147483648 z.raw ∧ z.raw.fromSource n = true) {r : Option Mapping}
    (hr : c.reportGenerated n x = .ok r) :
    r.map Mapping.unnamed = ((x.map LibMapping.raw).map (named S N)).map answerGenerated := by
  cases x with
  | none => simp only [reportGenerated, Except.ok.injEq] at hr; subst hr; rfl
  | some z =>
    obtain ⟨⟨f1, f2, f3⟩, f4⟩ := hx z rfl
    obtain ⟨a1, a2, a3, a4⟩ := z
    simp only [LibMapping.raw] at f1 f2 f3 f4
    cases a4 with
    | none => simp [RawMapping.fromSource] at f4
    | some o =>
      simp only [RawMapping.fromSource, beq_iff_eq] at f4
      obtain ⟨g1, g2, _, g3, g4⟩ := f3 o rfl
      have s2 := succU32_lt E.cfg (show a1 + 1 < 4294967296 by omega)
      have w1 : wrap32 (o.line : Int) = o.line := wrap32_of_isI32 (by unfold IsI32; omega)
      have w2 : wrap32 (o.column : Int) = o.column := wrap32_of_isI32 (by unfold IsI32; omega)
      have w3 : wrap32 ((a1 + 1 : Nat) : Int) = (a1 + 1 : Nat) := wrap32_of_isI32 (by unfold IsI32; omega)
      have w4 : wrap32 (a2 : Int) = a2 := wrap32_of_isI32 (by unfold IsI32; omega)
      have w5 : wrap32 (o.source : Int) = o.source := wrap32_of_isI32 (by unfold IsI32; omega)
      have at1 := atIdx_source (a := c.absoluteSources) (by rw [ha]; exact hS) (i := o.source) (Nat.lt_trans (Nat.lt_trans g1 hS) (by decide))
      rw [ha, w5] at at1
      have hi : wrap32 (o.source : Int) = (n : Int) := by rw [w5]; omega
      simp only [reportGenerated, unwrap, Res.ok_bind, s2] at hr
      rw [if_pos hi] at hr
      simp only [Res.bind_eq_ok, Res.pure_eq, Except.ok.injEq] at hr
      obtain ⟨nm, _, hr⟩ := hr
      rw [← hr, Option.map_some, Mapping.unnamed]
      simp only [w1, w2, w3, w4, w5, at1]
      simp [answerGenerated, named, LibMapping.raw]

/-- C113, `original_position_for`: two maps that say the same through their own sources and names answer the same, or fail
the same way. -/
theorem C113_original (hL : E.maps.Laws) (hT : E.maps.Total) {m m' : SourceMapJson} {raws raws' : List RawMapping}
    {u u' : Option String} {c₀ c d₀ d : BasicConsumer E} (h : Built m u c₀) (hd : Built m' u' d₀)
    (hseg : m.Segments raws) (hseg' : m'.Segments raws') {N N' : List String} (hN : m.names = some N)
    (hN' : m'.names = some N') {ops ops' : List Op} (hrun : c₀.run ops = .ok c) (hrun' : d₀.run ops' = .ok d)
    (hlen : c.getSources.length < 2147483648) (hlen' : d.getSources.length < 2147483648)
    (hsame : SaysSame c.getSources N d.getSources N' raws raws') (honce : GenOnce (raws.map (named c.getSources N)))
    {p : Position} {b : Option Bias} (hp : IsI32 p.line ∧ IsI32 p.column) :
    (d.originalPositionFor p b).map (fun r => r.1.map stripMapping) =
      (c.originalPositionFor p b).map (fun r => r.1.map stripMapping) := by
  have hrel := h.rel.run hL hrun
  have hrel' := hd.rel.run hL hrun'
  obtain ⟨M, hM, pM⟩ := ensure_segments hL h hrel hseg
  obtain ⟨Q, hQ, pQ⟩ := ensure_segments hL hd hrel' hseg'
  have hcm : c.sourceMap = m := by obtain ⟨_, _, _, _, _, _, hm, _⟩ := h.spec; exact hrel.map.trans hm
  have hdm : d.sourceMap = m' := by obtain ⟨_, _, _, _, _, _, hm, _⟩ := hd.spec; exact hrel'.map.trans hm
  by_cases hc : p.line < 1 ∨ p.column < 0
  · obtain ⟨msg, e1⟩ : ∃ msg, checkPosition p.line p.column = .error (.explicit msg) := by
      simp only [checkPosition]
      by_cases hl : p.line < 1
      · rw [if_pos hl]; exact ⟨_, rfl⟩
      · rw [if_neg hl, if_pos (by omega)]; exact ⟨_, rfl⟩
    simp only [originalPositionFor, e1]
    rfl
  have e1 : checkPosition p.line p.column = .ok () := by
    simp only [checkPosition]; rw [if_neg (by omega), if_neg (by omega)]
  have i1 : IsI32 (p.line - 1) := by have := hp.1; unfold IsI32 at *; omega
  obtain ⟨⟨x, M'⟩, hx⟩ := hT.orig M (asU32 (p.line - 1)) (asU32 p.column) (b.getD .glb)
  obtain ⟨⟨y, Q'⟩, hy⟩ := hT.orig Q (asU32 (p.line - 1)) (asU32 p.column) (b.getD .glb)
  have nx := Nearest.congr (fun z => pM.mem_iff) (hL.orig _ _ _ _ _ _ hx)
  have ny := Nearest.congr (fun z => pQ.mem_iff) (hL.orig _ _ _ _ _ _ hy)
  have nx' := nx.mapped (pos' := Mapping.genAt) (named c.getSources N) (fun a _ => named_genAt _ _ a)
  have ny' := Nearest.congr hsame.same
    (ny.mapped (pos' := Mapping.genAt) (named d.getSources N') (fun a _ => named_genAt _ _ a))
  have hxy := Nearest.unique (fun a ha b hb hab => by
    obtain ⟨a', _, rfl⟩ := List.mem_map.1 ha
    obtain ⟨b', _, rfl⟩ := List.mem_map.1 hb
    exact honce _ ha _ hb (named_gen_eq hab)) ny' nx'
  have r1 := reportOriginal_named (c := c) (S := c.getSources) (N := N) rfl hlen (by rw [hcm]; exact hN) (line := p.line)
    (x := x) (fun z hz => by
      subst hz; simp only [Option.map_some, Nearest] at nx; exact hsame.fits _ nx.1)
  have r2 := reportOriginal_named (c := d) (S := d.getSources) (N := N') rfl hlen' (by rw [hdm]; exact hN') (line := p.line)
    (x := y) (fun z hz => by
      subst hz; simp only [Option.map_some, Nearest] at ny; exact hsame.fits' _ ny.1)
  rw [hxy, ← r1] at r2
  simp only [originalPositionFor, e1, Res.ok_bind, hM, hQ, E.cfg.arith_ok i1, hx, hy]
  revert r2
  cases c.reportOriginal p.line x <;> cases d.reportOriginal p.line y <;>
    simp [Except.map, Res.pure_eq, bind, Except.bind]

theorem mem_named_filter {S N : List String} {raws : List RawMapping} (hfit : ∀ x ∈ raws, Fits S N 2147483648 x)
    (hnd : S.Nodup) {n : Nat} {t : String} (hn : S[n]? = some t) (y : Mapping) :
    y ∈ (raws.filter (·.fromSource n)).map (named S N) ↔ y ∈ raws.map (named S N) ∧ y.source = some t := by
  have key : ∀ x ∈ raws, x.fromSource n = true ↔ (named S N x).source = some t := by
    intro x hx
    obtain ⟨_, _, f3⟩ := hfit x hx
    obtain ⟨a, b, o⟩ := x
    cases o with
    | none => simp [RawMapping.fromSource, named]
    | some o =>
      obtain ⟨g1, _⟩ := f3 o rfl
      simp only [RawMapping.fromSource, named, Option.bind_some, beq_iff_eq]
      constructor
      · rintro rfl; exact hn
      · intro e
        obtain ⟨l1, _⟩ := List.getElem?_eq_some_iff.mp hn
        exact (List.getElem?_inj g1 hnd).1 (e.trans hn.symm)
  constructor
  · intro hy
    obtain ⟨x, hx, rfl⟩ := List.mem_map.1 hy
    obtain ⟨h1, h2⟩ := List.mem_filter.1 hx
    exact ⟨List.mem_map.2 ⟨x, h1, rfl⟩, (key x h1).1 h2⟩
  · rintro ⟨hy, hs⟩
    obtain ⟨x, hx, rfl⟩ := List.mem_map.1 hy
    exact List.mem_map.2 ⟨x, List.mem_filter.2 ⟨hx, (key x hx).2 hs⟩, rfl⟩

/-- The two consumers list the same sources, in whatever order, and look sources up alike. -/
structure SourcesAlike (c d : BasicConsumer E) : Prop where
  sources : ∀ t, t ∈ d.getSources ↔ t ∈ c.getSources
  root : d.sourceMap.sourceRoot = c.sourceMap.sourceRoot
  url : d.sourceMapUrl = c.sourceMapUrl

theorem isFirst_of_mem : ∀ {l : List String} {t : String}, t ∈ l → ∃ n, IsFirst l t n := by
  intro l
  induction l with
  | nil => intro t h; simp at h
  | cons a l ih =>
    intro t h
    by_cases e : a = t
    · exact ⟨0, by simp [e], by intro j hj; omega⟩
    · have hm : t ∈ l := by
        rcases List.mem_cons.1 h with h | h
        · exact absurd h.symm e
        · exact h
      obtain ⟨n, h1, h2⟩ := ih hm
      refine ⟨n + 1, by simpa using h1, ?_⟩
      intro j hj
      cases j with
      | zero => simpa using e
      | succ j => simpa using h2 j (by omega)

theorem SourcesAlike.knows {c d : BasicConsumer E} (h : SourcesAlike c d) {s : String} {n : Nat} (hs : c.Knows s n) :
    ∃ n', d.Knows s n' ∧ d.getSources[n']? = c.getSources[n]? := by
  rcases hs with ⟨t, h1, h2⟩ | ⟨t, t', h1, h2, h3, h4⟩
  · obtain ⟨n', hn⟩ := isFirst_of_mem ((h.sources t).2 (List.mem_of_getElem? h2.1))
    exact ⟨n', .inl ⟨t, by rw [h.url]; exact h1, hn⟩, by rw [hn.1, h2.1]⟩
  · obtain ⟨n', hn⟩ := isFirst_of_mem ((h.sources t').2 (List.mem_of_getElem? h4.1))
    exact ⟨n', .inr ⟨t, t', by rw [h.url]; exact h1, fun hm => h2 ((h.sources t).1 hm), by rw [h.url, h.root]; exact h3, hn⟩,
      by rw [hn.1, h4.1]⟩

theorem SourcesAlike.unknown {c d : BasicConsumer E} (h : SourcesAlike c d) {s : String} (hs : c.Unknown s) : d.Unknown s := by
  obtain ⟨t, t', h1, h2, h3, h4⟩ := hs
  exact ⟨t, t', by rw [h.url]; exact h1, fun hm => h2 ((h.sources t).1 hm), by rw [h.url, h.root]; exact h3,
    fun hm => h4 ((h.sources t').1 hm)⟩

/-- C113, `generated_position_for`: for every source, position and bias the same answer, apart from its name, which the code
looks up under the number of the source (C34) and which therefore does depend on the numbering. -/
theorem C113_generated_partial (hL : E.maps.Laws) {m m' : SourceMapJson} {raws raws' : List RawMapping}
    {u u' : Option String} {c₀ c d₀ d : BasicConsumer E} (h : Built m u c₀) (hd : Built m' u' d₀)
    (hseg : m.Segments raws) (hseg' : m'.Segments raws') {N N' : List String}
    {ops ops' : List Op} (hrun : c₀.run ops = .ok c) (hrun' : d₀.run ops' = .ok d)
    (hlen : c.getSources.length < 2147483648) (hlen' : d.getSources.length < 2147483648)
    (hsame : SaysSame c.getSources N d.getSources N' raws raws') (honce : OrigOnce (raws.map (named c.getSources N)))
    (halike : SourcesAlike c d) (hnd : c.getSources.Nodup) (hnd' : d.getSources.Nodup)
    {s : String} {l k : Int} {b : Option Bias} (hp : IsI32 l ∧ IsI32 k) {r r' : Option Mapping} {c' d' : BasicConsumer E}
    (hr : c.generatedPositionFor s l k b = .ok (r, c')) (hr' : d.generatedPositionFor s l k b = .ok (r', d')) :
    r'.map Mapping.unnamed = r.map Mapping.unnamed := by
  have hrel := h.rel.run hL hrun
  obtain ⟨i, _, hi, _⟩ := generated_ok hrel hr
  have hlen0 : c₀.getSources.length < 2147483648 := by rw [← hrel.getSources]; exact hlen
  cases i with
  | none =>
    have hs := (hrel.unknown s).2 ((lookup_spec h hlen0 s).2.1 hi)
    obtain ⟨_, e1⟩ := (C35_unknown hL h hrun hlen hs l k b).2
    obtain ⟨_, e2⟩ := (C35_unknown hL hd hrun' hlen' (halike.unknown hs) l k b).2
    rw [hr] at e1
    rw [hr'] at e2
    cases e1
    cases e2
    rfl
  | some i =>
    obtain ⟨n, rfl, hs⟩ := ((lookup_spec h hlen0 s).1 i).1 hi
    rw [← hrel.knows] at hs
    obtain ⟨n', hs', hnn⟩ := halike.knows hs
    obtain ⟨t, ht⟩ : ∃ t, c.getSources[n]? = some t := by
      rcases hs with ⟨t, _, hf⟩ | ⟨_, t, _, _, _, hf⟩ <;> exact ⟨t, hf.1⟩
    rw [ht] at hnn
    obtain ⟨_, _, x, nx, hx⟩ := generated_report (hL := hL) h hrun hseg hlen hs hp hr
    obtain ⟨_, _, y, ny, hy⟩ := generated_report (hL := hL) hd hrun' hseg' hlen' hs' hp hr'
    have memc := mem_named_filter (S := c.getSources) (N := N) hsame.fits hnd ht
    have memd := mem_named_filter (S := d.getSources) (N := N') hsame.fits' hnd' hnn
    have nx' := nx.mapped (pos' := Mapping.origAt) (named c.getSources N) (fun a _ => named_origAt _ _ a)
    have ny' := Nearest.congr (l' := (raws.filter (·.fromSource n)).map (named c.getSources N))
      (fun z => by rw [memd, memc, hsame.same])
      (ny.mapped (pos' := Mapping.origAt) (named d.getSources N') (fun a _ => named_origAt _ _ a))
    have hxy := Nearest.unique (fun a ha b hb hab => by
      have a1 := (memc a).1 ha
      have b1 := (memc b).1 hb
      obtain ⟨a', a2, rfl⟩ := List.mem_map.1 ha
      obtain ⟨b', b2, rfl⟩ := List.mem_map.1 hb
      have fa := (List.mem_filter.1 a2).2
      have fb := (List.mem_filter.1 b2).2
      refine honce _ a1.1 _ b1.1 ?_ (a1.2.trans b1.2.symm) ?_
      · obtain ⟨_, _, o⟩ := a'
        cases o with
        | none => simp [RawMapping.fromSource] at fa
        | some o => rfl
      · rw [named_origAt, named_origAt] at hab
        obtain ⟨_, _, o⟩ := a'
        obtain ⟨_, _, o'⟩ := b'
        cases o with
        | none => simp [RawMapping.fromSource] at fa
        | some o =>
          cases o' with
          | none => simp [RawMapping.fromSource] at fb
          | some o' =>
            simp only [RawMapping.origPos, Prod.mk.injEq] at hab
            simp only [named, Option.map_some, hab.1, hab.2]) ny' nx'
    have r1 := reportGenerated_named (c := c) (S := c.getSources) (N := N) rfl hlen (fun z hz => by
      subst hz
      simp only [Option.map_some, Nearest] at nx
      obtain ⟨m1, m2⟩ := List.mem_filter.1 nx.1
      exact ⟨hsame.fits _ m1, m2⟩) hx
    have r2 := reportGenerated_named (c := d) (S := d.getSources) (N := N') rfl hlen' (fun z hz => by
      subst hz
      simp only [Option.map_some, Nearest] at ny
      obtain ⟨m1, m2⟩ := List.mem_filter.1 ny.1
      exact ⟨hsame.fits' _ m1, m2⟩) hy
    rw [r1, r2, hxy]

/-- C113, `each_mapping` in generated order: the callback is told the same, mapping by mapping, if each is there as often. -/
theorem C113_each (hL : E.maps.Laws) {m m' : SourceMapJson} {raws raws' : List RawMapping}
    {u u' : Option String} {c₀ c d₀ d : BasicConsumer E} (h : Built m u c₀) (hd : Built m' u' d₀)
    (hseg : m.Segments raws) (hseg' : m'.Segments raws') {N N' : List String}
    {ops ops' : List Op} (hrun : c₀.run ops = .ok c) (hrun' : d₀.run ops' = .ok d)
    (hsame : (raws'.map (named d.getSources N')).Perm (raws.map (named c.getSources N)))
    (honce : GenOnce (raws.map (named c.getSources N))) {r r' : List LibMapping} {c' d' : BasicConsumer E}
    (hr : c.eachMapping .generated = .ok (r, c')) (hr' : d.eachMapping .generated = .ok (r', d')) :
    (r'.map fun x => named d.getSources N' x.raw) = r.map fun x => named c.getSources N x.raw := by
  obtain ⟨l, _, e1, p1, s1⟩ := C36_each_generated hL h hrun hseg
  obtain ⟨l', _, e2, p2, s2⟩ := C36_each_generated hL hd hrun' hseg'
  rw [hr] at e1
  rw [hr'] at e2
  cases e1
  cases e2
  have q1 : (r.map fun x => named c.getSources N x.raw) = (r.map LibMapping.raw).map (named c.getSources N) := by simp
  have q2 : (r'.map fun x => named d.getSources N' x.raw) = (r'.map LibMapping.raw).map (named d.getSources N') := by simp
  rw [q1, q2]
  have hperm := ((p2.map (named d.getSources N')).trans hsame).trans (p1.map (named c.getSources N)).symm
  refine hperm.eq_of_pairwise (le := fun a b => ¬ PLt b.genAt a.genAt) ?_ ?_ ?_
  · intro a b ha hb h1 h2
    have ha' := (p1.map (named c.getSources N)).mem_iff.1 (hperm.mem_iff.1 ha)
    have hb' := (p1.map (named c.getSources N)).mem_iff.1 hb
    obtain ⟨x, _, rfl⟩ := List.mem_map.1 ha'
    obtain ⟨y, _, rfl⟩ := List.mem_map.1 hb'
    refine honce _ ha' _ hb' (named_gen_eq ?_)
    rcases PLt.trichotomy (named c.getSources N x).genAt (named c.getSources N y).genAt with h3 | h3 | h3
    · exact absurd h3 h2
    · exact h3
    · exact absurd h3 h1
  · rw [List.pairwise_map]
    refine s2.imp ?_
    intro a b hab
    rw [named_genAt, named_genAt]
    unfold PLt RawMapping.genPos
    simp only
    omega
  · rw [List.pairwise_map]
    refine s1.imp ?_
    intro a b hab
    rw [named_genAt, named_genAt]
    unfold PLt RawMapping.genPos
    simp only
    omega

/-! ## Generators -/

/-- The mapping as a consumer with this root and map URL tells it. -/
def told (E : Env) (root u : Option String) (m : Mapping) : Mapping :=
  { m.bare with source := m.source.bind fun s => (sourceUrl E root s u).toOption }

theorem denotes_told {j : SourceMapJson} {u : Option String} {c₀ : BasicConsumer E} (hb : Built j u c₀) {S N : List String}
    (hS : j.sources = some S) {x : RawMapping} {m : Mapping} (h : Denotes S N x m) :
    named c₀.getSources N x = told E j.sourceRoot u m := by
  obtain ⟨srcs, e1, _, e3⟩ := C28_sources hb
  rw [hS] at e1
  cases e1
  obtain ⟨h1, h2⟩ := h
  obtain ⟨g, o, s, n, lg⟩ := m
  simp only at h1 h2
  cases ho : x.original with
  | none =>
    rw [ho] at h2
    obtain ⟨rfl, rfl, rfl⟩ := h2
    simp [named, ho, told, Mapping.bare, h1]
  | some q =>
    rw [ho] at h2
    obtain ⟨rfl, ⟨s', hs, rfl⟩, h3⟩ := h2
    obtain ⟨t, ht, hget⟩ := e3 _ _ hs
    cases hn : q.name with
    | none =>
      rw [hn] at h3
      subst h3
      simp [named, ho, hn, hget, told, Mapping.bare, h1, ht, Except.toOption]
    | some i =>
      rw [hn] at h3
      obtain ⟨t', ht', rfl⟩ := h3
      simp [named, ho, hn, hget, told, Mapping.bare, h1, ht, ht', Except.toOption]

theorem told_bare (E : Env) (root u : Option String) (m : Mapping) : told E root u m.bare = told E root u m := rfl

theorem denotes_fits {cfg : Cfg} {S N S' : List String} {x : RawMapping} {m : Mapping} (hm : m.Encodable cfg)
    (h : Denotes S N x m) (hlen : S'.length = S.length) : Fits S' N 2147483648 x := by
  have hl := vlqLimit_le cfg
  obtain ⟨h1, h2⟩ := h
  obtain ⟨m1, m2, m3, m4, m5⟩ := hm
  rw [h1] at m1 m2
  simp only at m1 m2
  refine ⟨by omega, by omega, ?_⟩
  intro o ho
  have ho' : x.original = some o := ho
  rw [ho'] at h2
  obtain ⟨k1, ⟨s, k2, _⟩, k3⟩ := h2
  have := m4 _ k1
  simp only at this
  refine ⟨?_, by omega, by omega, by omega, ?_⟩
  · rw [hlen]; exact (List.getElem?_eq_some_iff.mp k2).1
  · intro n hn
    have hn' : o.name = some n := hn
    rw [hn'] at k3
    obtain ⟨t, k4, _⟩ := k3
    exact (List.getElem?_eq_some_iff.mp k4).1

/-- C113, generators: the consumers of two generators to which the same mappings were added, in whatever order, as often as
one likes, with other calls between, answer `original_position_for` the same. The files may differ, and so may the order of
the sources and names. -/
theorem C113_added (hJ : E.json.Laws) (hL : E.maps.Laws) (hT : E.maps.Total) (file file' root : Option String)
    (skip skip' : Bool) (gops gops' : List GOp) (g g₁ g' g₁' : Generator)
    (henc : ∀ m ∈ gAdded gops, m.Encodable E.cfg)
    (hS : (firstOccurrences ((gAdded gops).filterMap Mapping.source)).length < E.cfg.vlqLimit)
    (hN : (firstOccurrences ((gAdded gops).filterMap Mapping.name)).length < E.cfg.vlqLimit)
    (hsame : ∀ x, x ∈ (gAdded gops').map Mapping.bare ↔ x ∈ (gAdded gops).map Mapping.bare)
    (honce : GenOnce ((gAdded gops).map Mapping.bare))
    (hg : (Generator.new file root skip).run E.url E.cfg gops = .ok g)
    (hg' : (Generator.new file' root skip').run E.url E.cfg gops' = .ok g') {u : Option String}
    {c₀ c d₀ d : BasicConsumer E} (hc : BasicConsumer.fromSourceMap g u = .ok (c₀, g₁))
    (hd : BasicConsumer.fromSourceMap g' u = .ok (d₀, g₁')) {ops ops' : List Op} (hrun : c₀.run ops = .ok c)
    (hrun' : d₀.run ops' = .ok d) {p : Position} {b : Option Bias} (hp : IsI32 p.line ∧ IsI32 p.column) :
    (d.originalPositionFor p b).map (fun r => r.1.map stripMapping) =
      (c.originalPositionFor p b).map (fun r => r.1.map stripMapping) := by
  have hl := vlqLimit_le E.cfg
  have hmem : ∀ m' ∈ gAdded gops', ∃ m ∈ gAdded gops, m.bare = m'.bare := by
    intro m' hm'
    obtain ⟨m, h1, h2⟩ := List.mem_map.1 ((hsame _).1 (List.mem_map.2 ⟨m', hm', rfl⟩))
    exact ⟨m, h1, h2⟩
  have hmem' : ∀ m ∈ gAdded gops, ∃ m' ∈ gAdded gops', m'.bare = m.bare := by
    intro m hm
    obtain ⟨m', h1, h2⟩ := List.mem_map.1 ((hsame _).2 (List.mem_map.2 ⟨m, hm, rfl⟩))
    exact ⟨m', h1, h2⟩
  have henc' : ∀ m ∈ gAdded gops', m.Encodable E.cfg := by
    intro m' hm'
    obtain ⟨m, h1, h2⟩ := hmem m' hm'
    obtain ⟨e1, e2, e3, e4, e5⟩ := henc m h1
    simp only [Mapping.bare, Mapping.mk.injEq] at h2
    obtain ⟨k1, k2, k3, k4, _⟩ := h2
    rw [k1] at e1 e2
    rw [k2] at e3 e4
    rw [k3] at e3 e5
    rw [k4] at e5
    exact ⟨e1, e2, e3, e4, e5⟩
  have hcount : ∀ f : Mapping → Option String, (∀ m, f m.bare = f m) →
      (firstOccurrences ((gAdded gops').filterMap f)).length = (firstOccurrences ((gAdded gops).filterMap f)).length := by
    intro f hf
    refine List.Perm.length_eq ((List.perm_ext_iff_of_nodup (nodup_firstOccurrences _) (nodup_firstOccurrences _)).2 ?_)
    intro s
    rw [mem_firstOccurrences, mem_firstOccurrences, List.mem_filterMap, List.mem_filterMap]
    constructor
    · rintro ⟨m', h1, h2⟩
      obtain ⟨m, h3, h4⟩ := hmem m' h1
      exact ⟨m, h3, by rw [← hf, h4, hf]; exact h2⟩
    · rintro ⟨m, h1, h2⟩
      obtain ⟨m', h3, h4⟩ := hmem' m h1
      exact ⟨m', h3, by rw [← hf, h4, hf]; exact h2⟩
  have hS' := hS
  rw [← hcount Mapping.source (fun _ => rfl)] at hS'
  have hN' := hN
  rw [← hcount Mapping.name (fun _ => rfl)] at hN'
  obtain ⟨j, raws, hb, hseg, hroot, hsrc, hnam, hsound, hcomplete, _⟩ :=
    generator_built hJ file root skip gops g g₁ henc hS hN hg hc
  obtain ⟨j', raws', hb', hseg', hroot', hsrc', hnam', hsound', hcomplete', _⟩ :=
    generator_built hJ file' root skip' gops' g' g₁' henc' hS' hN' hg' hd
  have hst := C28_sources_stable hL hb hrun
  have hst' := C28_sources_stable hL hb' hrun'
  obtain ⟨_, q1, q2, _⟩ := C28_sources hb
  rw [hsrc] at q1
  cases q1
  obtain ⟨_, q1, q2', _⟩ := C28_sources hb'
  rw [hsrc'] at q1
  cases q1
  have hmap : ∀ y, y ∈ raws.map (named c₀.getSources (firstOccurrences ((gAdded gops).filterMap Mapping.name))) ↔
      ∃ m ∈ gAdded gops, y = told E root u m := by
    intro y
    constructor
    · intro hy
      obtain ⟨x, hx, rfl⟩ := List.mem_map.1 hy
      obtain ⟨m, hm, hden⟩ := hsound x hx
      exact ⟨m, hm, by rw [denotes_told hb hsrc hden, hroot]⟩
    · rintro ⟨m, hm, rfl⟩
      obtain ⟨x, hx, hden⟩ := hcomplete m hm
      exact List.mem_map.2 ⟨x, hx, by rw [denotes_told hb hsrc hden, hroot]⟩
  have hmap' : ∀ y, y ∈ raws'.map (named d₀.getSources (firstOccurrences ((gAdded gops').filterMap Mapping.name))) ↔
      ∃ m ∈ gAdded gops', y = told E root u m := by
    intro y
    constructor
    · intro hy
      obtain ⟨x, hx, rfl⟩ := List.mem_map.1 hy
      obtain ⟨m, hm, hden⟩ := hsound' x hx
      exact ⟨m, hm, by rw [denotes_told hb' hsrc' hden, hroot']⟩
    · rintro ⟨m, hm, rfl⟩
      obtain ⟨x, hx, hden⟩ := hcomplete' m hm
      exact List.mem_map.2 ⟨x, hx, by rw [denotes_told hb' hsrc' hden, hroot']⟩
  refine C113_original hL hT hb hb' hseg hseg' hnam hnam' hrun hrun' (by rw [hst, q2]; omega) (by rw [hst', q2']; omega)
    ?_ ?_ hp
  · rw [hst, hst']
    refine ⟨?_, ?_, ?_⟩
    · intro x hx
      obtain ⟨m, hm, hden⟩ := hsound x hx
      exact denotes_fits (henc m hm) hden q2
    · intro x hx
      obtain ⟨m, hm, hden⟩ := hsound' x hx
      exact denotes_fits (henc' m hm) hden q2'
    · intro y
      rw [hmap, hmap']
      constructor
      · rintro ⟨m', h1, rfl⟩
        obtain ⟨m, h3, h4⟩ := hmem m' h1
        exact ⟨m, h3, by rw [← told_bare, ← h4, told_bare]⟩
      · rintro ⟨m, h1, rfl⟩
        obtain ⟨m', h3, h4⟩ := hmem' m h1
        exact ⟨m', h3, by rw [← told_bare, ← h4, told_bare]⟩
  · rw [hst]
    intro a ha b hb hab
    obtain ⟨x, hx, rfl⟩ := (hmap a).1 ha
    obtain ⟨y, hy, rfl⟩ := (hmap b).1 hb
    have := honce _ (List.mem_map.2 ⟨x, hx, rfl⟩) _ (List.mem_map.2 ⟨y, hy, rfl⟩) hab
    rw [← told_bare, this, told_bare]

/-! ## A case -/

/-- `demoMap` with its sources and names listed in the other order and numbered accordingly. -/
def swappedMap : SourceMapJson :=
  { demoMap with
    sources := some ["two.js", "one.js"], names := some ["n", "baz", "bar"]
    mappings := some "CCAC,IAAI,IAAM,SAAUE,GAClB,OAAOD,IAAIC;CDDb,IAAI,IAAM,SAAUF,GAClB,OAAOA" }

/-- The segments of `swappedMap`. -/
def swappedRaws : List RawMapping := demoRaws.map fun r =>
  { r with original := r.original.map fun o => { o with source := 1 - o.source, name := o.name.map (2 - ·) } }

theorem swapped_segments : swappedMap.Segments swappedRaws := ⟨_, rfl, by decide +kernel, by decide +kernel⟩

theorem swapped_same : SaysSame ["one.js", "two.js"] ["bar", "baz", "n"] ["two.js", "one.js"] ["n", "baz", "bar"] demoRaws
    swappedRaws where
  fits := by decide
  fits' := by decide
  same := by
    have : swappedRaws.map (named ["two.js", "one.js"] ["n", "baz", "bar"]) =
        demoRaws.map (named ["one.js", "two.js"] ["bar", "baz", "n"]) := by decide +kernel
    intro y
    rw [this]

/-- The hypotheses of the theorems hold for the two maps. -/
example : GenOnce (demoRaws.map (named ["one.js", "two.js"] ["bar", "baz", "n"])) ∧
    OrigOnce (demoRaws.map (named ["one.js", "two.js"] ["bar", "baz", "n"])) ∧ demoRaws ≠ swappedRaws ∧
    (∃ c d : BasicConsumer demoEnv, Built demoMap none c ∧ Built swappedMap none d ∧
      c.getSources = ["one.js", "two.js"] ∧ d.getSources = ["two.js", "one.js"] ∧ SourcesAlike c d) := by
  refine ⟨by unfold GenOnce; decide, by unfold OrigOnce; decide, by decide, ?_⟩
  obtain ⟨c, hc, c1⟩ := Res.of_test (r := demoConsumer demoMap)
    (fun c => decide (c.getSources = ["one.js", "two.js"]) && decide (c.sourceMapUrl = none) &&
      decide (c.sourceMap.sourceRoot = none)) (by decide +kernel)
  obtain ⟨d, hd, d1⟩ := Res.of_test (r := demoConsumer swappedMap)
    (fun c => decide (c.getSources = ["two.js", "one.js"]) && decide (c.sourceMapUrl = none) &&
      decide (c.sourceMap.sourceRoot = none)) (by decide +kernel)
  simp only [Bool.and_eq_true, decide_eq_true_eq] at c1 d1
  refine ⟨c, d, .inr hc, .inr hd, c1.1.1, d1.1.1, ?_, by rw [c1.2, d1.2], by rw [c1.1.2, d1.1.2]⟩
  intro t
  rw [c1.1.1, d1.1.1]
  simp [or_comm]

/-- C113, why the name is left out: the same question about the same source of the same mappings, two names. -/
theorem C113_name_depends_refuted : SaysSame ["one.js", "two.js"] ["bar", "baz", "n"] ["two.js", "one.js"] ["n", "baz", "bar"]
      demoRaws swappedRaws ∧
    demoAsk demoMap (fun c => c.generatedPositionFor "two.js" 2 3 none) =
      .ok (some ⟨⟨2, 21⟩, some ⟨1, 3⟩, some "two.js", some "baz", none⟩) ∧
    demoAsk swappedMap (fun c => c.generatedPositionFor "two.js" 2 3 none) =
      .ok (some ⟨⟨2, 21⟩, some ⟨1, 3⟩, some "two.js", some "n", none⟩) :=
  ⟨swapped_same, by decide +kernel, by decide +kernel⟩

/-- An answer of `original_position_for` with a source that is the second of one map and the first of the other, the same for both. -/
example : demoAsk demoMap (fun c => c.originalPositionFor ⟨1, 33⟩ (some .lub)) =
      .ok (some ⟨⟨2, 1⟩, some ⟨1, 1⟩, some "two.js", none, none⟩) ∧
    demoAsk swappedMap (fun c => c.originalPositionFor ⟨1, 33⟩ (some .lub)) =
      .ok (some ⟨⟨2, 1⟩, some ⟨1, 1⟩, some "two.js", none, none⟩) := by
  constructor <;> decide +kernel

end RSM
