import Verif.Props.ConsumerSpread
/-! # Property C111: text moved in the original sources -/

namespace RSM
open Spec BasicConsumer

variable {E : Env}

/-- What is further down or further right in the text stays so. Positions are lines and columns, counted from zero. -/
def KeepsOrder (f : Nat × Nat → Nat × Nat) : Prop := ∀ x y, PLt x y → PLt (f x) (f y)

/-- The segment with its original position at its new place; `F i` moves the positions of source number `i`. -/
def _root_.RSM.Spec.RawMapping.edit (F : Nat → Nat × Nat → Nat × Nat) (r : RawMapping) : RawMapping :=
  { r with original := r.original.map fun o =>
      { o with line := (F o.source (o.line, o.column)).1, column := (F o.source (o.line, o.column)).2 } }

/-- The mapping with its original position at its new place; `base` is what the first line is called. -/
def Mapping.editFrom (base : Nat) (f : Option String → Nat × Nat → Nat × Nat) (m : Mapping) : Mapping :=
  { m with original := m.original.map fun o =>
      let p := f m.source ((o.line - (base : Int)).toNat, o.column.toNat)
      ⟨(p.1 + base : Nat), p.2⟩ }

/-- Two maps with the same sources and names, `raws` the segments of one and these, their original positions moved, those
of the other. -/
structure EditOf (F : Nat → Nat × Nat → Nat × Nat) (m m' : SourceMapJson) (raws : List RawMapping) : Prop where
  sources : m'.sources = m.sources
  names : m'.names = m.names
  root : m'.sourceRoot = m.sourceRoot
  segments : m.Segments raws
  moved : m'.Segments (raws.map (RawMapping.edit F))
  room : ∀ r ∈ raws, ∀ o, r.original = some o → o.line + 1 < 2147483648 ∧ o.column < 2147483648 ∧
    (F o.source (o.line, o.column)).1 + 1 < 2147483648 ∧ (F o.source (o.line, o.column)).2 < 2147483648

theorem KeepsOrder.plt {f : Nat × Nat → Nat × Nat} (h : KeepsOrder f) (x y : Nat × Nat) : PLt (f x) (f y) ↔ PLt x y := by
  refine ⟨fun h1 => ?_, h x y⟩
  rcases PLt.trichotomy x y with h2 | h2 | h2
  · exact h2
  · subst h2; exact absurd h1 (PLt.irrefl _)
  · have h3 := h _ _ h2; unfold PLt at h1 h3; omega

theorem KeepsOrder.inj {f : Nat × Nat → Nat × Nat} (h : KeepsOrder f) {x y : Nat × Nat} (e : f x = f y) : x = y := by
  rcases PLt.trichotomy x y with h2 | h2 | h2
  · have := h _ _ h2; rw [e] at this; exact absurd this (PLt.irrefl _)
  · exact h2
  · have := h _ _ h2; rw [e] at this; exact absurd this (PLt.irrefl _)

theorem GenDistinct.edit {raws : List RawMapping} (h : GenDistinct raws) (F : Nat → Nat × Nat → Nat × Nat) :
    GenDistinct (raws.map (RawMapping.edit F)) := by
  unfold GenDistinct at *
  rw [List.pairwise_map]
  exact h

theorem fromSource_edit (F : Nat → Nat × Nat → Nat × Nat) (n : Nat) (r : RawMapping) :
    (r.edit F).fromSource n = r.fromSource n := by
  obtain ⟨a, b, o⟩ := r
  cases o <;> rfl

theorem origPos_edit {F : Nat → Nat × Nat → Nat × Nat} {n : Nat} {r : RawMapping} (h : r.fromSource n = true) :
    (r.edit F).origPos = F n r.origPos := by
  obtain ⟨a, b, o⟩ := r
  cases o with
  | none => simp [RawMapping.fromSource] at h
  | some o =>
    simp only [RawMapping.fromSource, beq_iff_eq] at h
    subst h
    rfl

theorem filter_edit (F : Nat → Nat × Nat → Nat × Nat) (n : Nat) (raws : List RawMapping) :
    (raws.map (RawMapping.edit F)).filter (·.fromSource n) = (raws.filter (·.fromSource n)).map (RawMapping.edit F) := by
  rw [List.filter_map]
  congr 2
  funext r
  exact fromSource_edit F n r

theorem OrigDistinct.edit {raws : List RawMapping} (h : OrigDistinct raws) {F : Nat → Nat × Nat → Nat × Nat}
    (hF : ∀ n, KeepsOrder (F n)) : OrigDistinct (raws.map (RawMapping.edit F)) := by
  unfold OrigDistinct at *
  rw [List.pairwise_map]
  refine h.imp ?_
  intro a b hab n ha hb e
  rw [fromSource_edit] at ha hb
  rw [origPos_edit ha, origPos_edit hb] at e
  exact hab n ha hb ((hF n).inj e)

theorem EditOf.absolute {F : Nat → Nat × Nat → Nat × Nat} {m m' : SourceMapJson} {raws : List RawMapping}
    (hs : EditOf F m m' raws) {u : Option String} {c₀ d₀ : BasicConsumer E} (h : Built m u c₀) (hd : Built m' u d₀) :
    d₀.absoluteSources = c₀.absoluteSources := by
  obtain ⟨_, s1, u1, a1, a2, _, _, a3, _⟩ := h.spec
  obtain ⟨_, s2, u2, b1, b2, _, _, b3, _⟩ := hd.spec
  rw [hs.sources, a1] at b1
  cases b1
  rw [hs.root, a2] at b2
  cases b2
  rw [a3, b3]

/-- As `Nearest.moved`, with the positions moved as said in the list only. -/
theorem Nearest.movedOn {α : Type} {pos : α → Nat × Nat} {l : List α} {q : Nat × Nat} {b : Bias} {r : Option α} (f : α → α)
    (g : Nat × Nat → Nat × Nat) (hg : ∀ a ∈ l, pos (f a) = g (pos a)) (hlt : ∀ x y, PLt (g x) (g y) ↔ PLt x y)
    (hr : Nearest pos l q b r) : Nearest pos (l.map f) (g q) b (r.map f) := by
  have hinj : ∀ x y, g x = g y ↔ x = y := by
    intro x y
    refine ⟨fun h => ?_, fun h => by rw [h]⟩
    rcases PLt.trichotomy x y with h1 | h1 | h1
    · exact absurd ((hlt x y).2 h1) (by rw [h]; exact PLt.irrefl _)
    · exact h1
    · exact absurd ((hlt y x).2 h1) (by rw [h]; exact PLt.irrefl _)
  have hs : ∀ P : Nat × Nat → Prop, (∀ s ∈ l.map f, P (pos s)) ↔ ∀ s ∈ l, P (g (pos s)) := by
    intro P
    rw [List.forall_mem_map]
    exact ⟨fun h s hm => hg s hm ▸ h s hm, fun h s hm => (hg s hm).symm ▸ h s hm⟩
  cases r with
  | none =>
    cases b <;> simp only [Nearest, Option.map_none] at hr ⊢
    · rw [hs fun p => p ≠ g q ∧ ¬ PLt p (g q)]; simpa only [hlt, hinj, ne_eq] using hr
    · rw [hs fun p => p ≠ g q ∧ ¬ PLt (g q) p]; simpa only [hlt, hinj, ne_eq] using hr
  | some r =>
    cases b <;> simp only [Nearest, Option.map_some] at hr ⊢ <;> rw [hg r hr.1]
    · rw [hs fun p => p ≠ g q, hs fun p => PLt p (g q) → ¬ PLt (g (pos r)) p]
      exact ⟨List.mem_map.2 ⟨_, hr.1, rfl⟩, by simpa only [hlt, hinj, ne_eq] using hr.2⟩
    · rw [hs fun p => p ≠ g q, hs fun p => PLt (g q) p → ¬ PLt p (g (pos r))]
      exact ⟨List.mem_map.2 ⟨_, hr.1, rfl⟩, by simpa only [hlt, hinj, ne_eq] using hr.2⟩

theorem reportOriginal_edit {c d : BasicConsumer E} {F : Nat → Nat × Nat → Nat × Nat} {f : Option String → Nat × Nat → Nat × Nat}
    (hn : d.sourceMap.names = c.sourceMap.names)
    (ha : d.absoluteSources = c.absoluteSources) {line : Int} {x y : Option LibMapping}
    (hx : ∀ z, x = some z → ∀ o, z.original = some o → f (c.absoluteSources.atIdx (wrap32 o.source)) = F o.source ∧
      o.line + 1 < 2147483648 ∧ o.column < 2147483648 ∧
      (F o.source (o.line, o.column)).1 + 1 < 2147483648 ∧ (F o.source (o.line, o.column)).2 < 2147483648)
    (h : y.map LibMapping.raw = (x.map LibMapping.raw).map (RawMapping.edit F)) :
    (d.reportOriginal line y).map (·.map stripMapping) =
      (c.reportOriginal line x).map (·.map fun r => (stripMapping r).editFrom 1 f) := by
  cases x with
  | none =>
    cases y with
    | none => rfl
    | some y => simp at h
  | some x =>
    cases y with
    | none => simp at h
    | some y =>
      have hb := hx x rfl
      clear hx
      obtain ⟨a1, a2, a3, a4⟩ := x
      obtain ⟨b1, b2, b3, b4⟩ := y
      simp only [Option.map_some, LibMapping.raw, RawMapping.edit, Option.some.injEq, Spec.RawMapping.mk.injEq] at h hb
      obtain ⟨rfl, rfl, rfl⟩ := h
      simp only [reportOriginal]
      by_cases hl : wrap32 (b1 : Int) = line
      · rw [if_pos hl, if_pos hl]
        cases a4 with
        | none => simp only [Except.map, Option.map_none]
        | some o =>
          obtain ⟨hf, r1, r2, r3, r4⟩ := hb o rfl
          have : d.optName o.name = c.optName o.name := by
            cases o.name <;> simp only [optName, nameAt, hn]
          simp only [Option.map_some, this]
          have s1 := succU32_lt E.cfg (show o.line + 1 < 4294967296 by omega)
          have s2 := succU32_lt E.cfg (show (F o.source (o.line, o.column)).1 + 1 < 4294967296 by omega)
          have w1 : wrap32 ((o.line + 1 : Nat) : Int) = (o.line + 1 : Nat) := wrap32_of_isI32 (by unfold IsI32; omega)
          have w2 : wrap32 (o.column : Int) = o.column := wrap32_of_isI32 (by unfold IsI32; omega)
          have w3 : wrap32 (((F o.source (o.line, o.column)).1 + 1 : Nat) : Int) = ((F o.source (o.line, o.column)).1 + 1 : Nat) :=
            wrap32_of_isI32 (by unfold IsI32; omega)
          have w4 : wrap32 ((F o.source (o.line, o.column)).2 : Int) = (F o.source (o.line, o.column)).2 :=
            wrap32_of_isI32 (by unfold IsI32; omega)
          have w5 : (((o.line + 1 : Nat) : Int) - ((1 : Nat) : Int)).toNat = o.line := by omega
          simp only [s1, s2]
          generalize c.optName o.name = q1
          generalize E.cfg.succU32 b1 = q2
          cases q1 with
          | error e => simp only [Res.ok_bind, Res.error_bind]; simp only [Except.map]
          | ok q1 =>
            cases q2 with
            | error e => simp only [Res.ok_bind, Res.error_bind]; simp only [Except.map]
            | ok q2 =>
              simp only [Res.ok_bind, Res.pure_eq, Except.map, Option.map_some, stripMapping, Mapping.editFrom, ha, w1, w2, w3,
                w4, w5, hf, Int.toNat_natCast]
      · rw [if_neg hl, if_neg hl]
        simp only [Except.map, Option.map_none]

theorem reportGenerated_edit {c d : BasicConsumer E} {F : Nat → Nat × Nat → Nat × Nat} {n : Nat}
    (hn : d.sourceMap.names = c.sourceMap.names)
    (ha : d.absoluteSources = c.absoluteSources) {x y : Option LibMapping}
    (hx : ∀ z, x = some z → ∀ o, z.original = some o → o.source = n ∧ o.line + 1 < 2147483648 ∧ o.column < 2147483648 ∧
      (F o.source (o.line, o.column)).1 + 1 < 2147483648 ∧ (F o.source (o.line, o.column)).2 < 2147483648)
    (h : y.map LibMapping.raw = (x.map LibMapping.raw).map (RawMapping.edit F)) :
    (d.reportGenerated n y).map (·.map stripMapping) =
      (c.reportGenerated n x).map (·.map fun r => (stripMapping r).editFrom 0 fun _ => F n) := by
  cases x with
  | none =>
    cases y with
    | none => rfl
    | some y => simp at h
  | some x =>
    cases y with
    | none => simp at h
    | some y =>
      have hb := hx x rfl
      clear hx
      obtain ⟨a1, a2, a3, a4⟩ := x
      obtain ⟨b1, b2, b3, b4⟩ := y
      simp only [Option.map_some, LibMapping.raw, RawMapping.edit, Option.some.injEq, Spec.RawMapping.mk.injEq] at h hb
      obtain ⟨rfl, rfl, rfl⟩ := h
      simp only [reportGenerated]
      cases a4 with
      | none => simp only [Option.map_none, unwrap, Res.error_bind, Except.map]
      | some o =>
        obtain ⟨hf, r1, r2, r3, r4⟩ := hb o rfl
        have w1 : wrap32 (o.line : Int) = o.line := wrap32_of_isI32 (by unfold IsI32; omega)
        have w2 : wrap32 (o.column : Int) = o.column := wrap32_of_isI32 (by unfold IsI32; omega)
        have w3 : wrap32 ((F o.source (o.line, o.column)).1 : Int) = (F o.source (o.line, o.column)).1 :=
          wrap32_of_isI32 (by unfold IsI32; omega)
        have w4 : wrap32 ((F o.source (o.line, o.column)).2 : Int) = (F o.source (o.line, o.column)).2 :=
          wrap32_of_isI32 (by unfold IsI32; omega)
        simp only [Option.map_some, unwrap, Res.ok_bind]
        split
        · have : d.nameAt o.source = c.nameAt o.source := by simp only [nameAt, hn]
          simp only [this]
          generalize c.nameAt o.source = q1
          generalize E.cfg.succU32 b1 = q2
          cases q1 with
          | error e => cases q2 <;> simp only [Res.ok_bind, Res.error_bind] <;> simp only [Except.map]
          | ok q1 =>
            cases q2 with
            | error e => simp only [Res.ok_bind, Res.error_bind]; simp only [Except.map]
            | ok q2 =>
              simp only [Res.ok_bind, Res.pure_eq, Except.map, Option.map_some, stripMapping, Mapping.editFrom, ha, w1, w2, w3,
                w4, ← hf, Int.toNat_natCast, Nat.add_zero, Int.natCast_zero, Int.sub_zero]
        · simp only [Except.map, Option.map_none]

theorem atIdx_source {a : ArraySet} (hlen : a.array.length < 2147483648) {i : Nat} (hi : i < 4294967296) :
    a.atIdx (wrap32 i) = a.array[i]? := by
  have hw : wrap32 (a.array.length : Int) = a.array.length := wrap32_of_isI32 (by unfold IsI32; omega)
  simp only [ArraySet.atIdx, hw]
  by_cases h : i < 2147483648
  · have h1 : wrap32 (i : Int) = i := wrap32_of_isI32 (by unfold IsI32; omega)
    rw [h1]
    by_cases h2 : i < a.array.length
    · rw [if_pos (by omega)]; rfl
    · rw [if_neg (by omega), List.getElem?_eq_none (by omega)]
  · have h1 : wrap32 (i : Int) < 0 := by unfold wrap32; omega
    rw [if_neg (by omega), List.getElem?_eq_none (by omega)]

/-- C111, `original_position_for`: the same answer, with its original position moved. `f` says for each source, as listed
by `get_sources`, where its positions go; the order of positions need not be kept. -/
theorem C111_original (hL : E.maps.Laws) (hT : E.maps.Total) {f : Option String → Nat × Nat → Nat × Nat} {m m' : SourceMapJson}
    {raws : List RawMapping} {u : Option String} {c₀ c d₀ d : BasicConsumer E} (h : Built m u c₀) (hd : Built m' u d₀)
    (hsp : EditOf (fun i => f c₀.getSources[i]?) m m' raws) {ops ops' : List Op}
    (hrun : c₀.run ops = .ok c) (hrun' : d₀.run ops' = .ok d) (hdist : GenDistinct raws)
    (hlen : c.getSources.length < 2147483648) {p : Position} {b : Option Bias} (hp : IsI32 p.line ∧ IsI32 p.column) :
    (d.originalPositionFor p b).map (fun r => r.1.map stripMapping) =
      (c.originalPositionFor p b).map (fun r => r.1.map fun x => (stripMapping x).editFrom 1 f) := by
  have hrel := h.rel.run hL hrun
  have hrel' := hd.rel.run hL hrun'
  have hseg := hsp.segments
  have hseg' := hsp.moved
  obtain ⟨M, hM, pM⟩ := ensure_segments hL h hrel hseg
  obtain ⟨N, hN, pN⟩ := ensure_segments hL hd hrel' hseg'
  have hcm : c.sourceMap = m := by obtain ⟨_, _, _, _, _, _, hm, _⟩ := h.spec; exact hrel.map.trans hm
  have hdm : d.sourceMap = m' := by obtain ⟨_, _, _, _, _, _, hm, _⟩ := hd.spec; exact hrel'.map.trans hm
  have hn : d.sourceMap.names = c.sourceMap.names := by rw [hcm, hdm]; exact hsp.names
  have ha : d.absoluteSources = c.absoluteSources := by
    rw [hrel.abs, hrel'.abs]; exact hsp.absolute h hd
  by_cases hc : p.line < 1 ∨ p.column < 0
  · obtain ⟨msg, e1⟩ : ∃ msg, checkPosition p.line p.column = .error (.explicit msg) := by
      simp only [checkPosition]
      by_cases hl : p.line < 1
      · rw [if_pos hl]; exact ⟨_, rfl⟩
      · rw [if_neg hl, if_pos (by omega)]; exact ⟨_, rfl⟩
    simp only [originalPositionFor, e1]
    rfl
  have e1 : checkPosition p.line p.column = .ok () := by
    simp only [checkPosition]; rw [if_neg (by omega), if_neg (by omega)]
  have i1 : IsI32 (p.line - 1) := by have := hp.1; unfold IsI32 at *; omega
  obtain ⟨⟨x, M'⟩, hx⟩ := hT.orig M (asU32 (p.line - 1)) (asU32 p.column) (b.getD .glb)
  obtain ⟨⟨y, N'⟩, hy⟩ := hT.orig N (asU32 (p.line - 1)) (asU32 p.column) (b.getD .glb)
  have nx := Nearest.congr (fun z => pM.mem_iff) (hL.orig _ _ _ _ _ _ hx)
  have ny := Nearest.congr (fun z => pN.mem_iff) (hL.orig _ _ _ _ _ _ hy)
  have nx' := nx.moved (RawMapping.edit fun i => f c₀.getSources[i]?) id (fun _ => rfl) (fun _ _ => Iff.rfl)
  have hxy := Nearest.unique (injOn_of_pairwise (hdist.edit _)) ny nx'
  have hrep := reportOriginal_edit (f := f) hn ha (line := p.line) (fun z hz o ho => by
    subst hz
    simp only [Option.map_some, Nearest] at nx
    refine ⟨?_, hsp.room _ nx.1 o ho⟩
    obtain ⟨_, _, _, hu⟩ := hseg
    have := (hu _ nx.1).2.2 o ho
    rw [atIdx_source (by simpa [getSources, ArraySet.toVec] using hlen) this.1, hrel.abs]
    rfl) hxy
  simp only [originalPositionFor, e1, Res.ok_bind, hM, hN, E.cfg.arith_ok i1, hx, hy]
  revert hrep
  cases c.reportOriginal p.line x <;> cases d.reportOriginal p.line y <;>
    simp [Except.map, Res.pure_eq, bind, Except.bind]

/-- C111, `generated_position_for`: for the position moved the same answer, its original position moved (the code reports
it counting lines from zero, C34). -/
theorem C111_generated (hL : E.maps.Laws) (hT : E.maps.Total) {F : Nat → Nat × Nat → Nat × Nat} (hF : ∀ i, KeepsOrder (F i))
    {m m' : SourceMapJson} {raws : List RawMapping} (hsp : EditOf F m m' raws) {u : Option String}
    {c₀ c d₀ d : BasicConsumer E} (h : Built m u c₀) (hd : Built m' u d₀) {ops ops' : List Op}
    (hrun : c₀.run ops = .ok c) (hrun' : d₀.run ops' = .ok d) (hdist : OrigDistinct raws)
    (hlen : c.getSources.length < 2147483648) {s : String} {n : Nat} (hs : c.Knows s n) (hs' : d.Knows s n)
    {l col : Int} (hp : IsI32 l ∧ IsI32 col) (hpos : 1 ≤ l ∧ 0 ≤ col)
    (hroom : (F n ((l - 1).toNat, col.toNat)).1 + 1 < 2147483648 ∧ (F n ((l - 1).toNat, col.toNat)).2 < 2147483648)
    {b : Option Bias} :
    (d.generatedPositionFor s ((F n ((l - 1).toNat, col.toNat)).1 + 1 : Nat) (F n ((l - 1).toNat, col.toNat)).2 b).map
        (fun r => r.1.map stripMapping) =
      (c.generatedPositionFor s l col b).map (fun r => r.1.map fun x => (stripMapping x).editFrom 0 fun _ => F n) := by
  have hrel := h.rel.run hL hrun
  have hrel' := hd.rel.run hL hrun'
  have hseg := hsp.segments
  have hseg' := hsp.moved
  have hcm : c.sourceMap = m := by obtain ⟨_, _, _, _, _, _, hm, _⟩ := h.spec; exact hrel.map.trans hm
  have hdm : d.sourceMap = m' := by obtain ⟨_, _, _, _, _, _, hm, _⟩ := hd.spec; exact hrel'.map.trans hm
  have hn : d.sourceMap.names = c.sourceMap.names := by rw [hcm, hdm]; exact hsp.names
  have ha0 := hsp.absolute h hd
  have ha : d.absoluteSources = c.absoluteSources := by rw [hrel.abs, hrel'.abs]; exact ha0
  have hlen0 : c₀.getSources.length < 2147483648 := by rw [← hrel.getSources]; exact hlen
  have hlen0' : d₀.getSources.length < 2147483648 := by
    simp only [BasicConsumer.getSources] at hlen0 ⊢; rw [ha0]; exact hlen0
  have hnlt : n < c.getSources.length := by
    rcases hs with ⟨_, _, hf⟩ | ⟨_, _, _, _, _, hf⟩
    · exact (List.getElem?_eq_some_iff.mp hf.1).1
    · exact (List.getElem?_eq_some_iff.mp hf.1).1
  have hq0 : asU32 (n : Int) = n := by unfold asU32; omega
  have kc := ((lookup_spec h hlen0 s).1 n).2 ⟨n, rfl, (hrel.knows s n).1 hs⟩
  have kd := ((lookup_spec hd hlen0' s).1 n).2 ⟨n, rfl, (hrel'.knows s n).1 hs'⟩
  rcases hrel.find s with ⟨e, h1, _⟩ | ⟨r, q, h1, h2, h3⟩
  · rw [kc] at h1; cases h1
  rw [kc] at h1; cases h1
  rcases hrel'.find s with ⟨e, h1', _⟩ | ⟨r', q', h1', h2', h3'⟩
  · rw [kd] at h1'; cases h1'
  rw [kd] at h1'; cases h1'
  obtain ⟨M, hM, pM⟩ := ensure_segments hL h h3 hseg
  obtain ⟨N, hN, pN⟩ := ensure_segments hL hd h3' hseg'
  have i1 : IsI32 (l - 1) := by have := hp.1; unfold IsI32 at *; omega
  have q1 : asU32 (l - 1) = (l - 1).toNat := asU32_i32 (by omega) i1
  have q2 : asU32 col = col.toNat := asU32_i32 hpos.2 hp.2
  have e1 : checkPosition l col = .ok () := by
    simp only [checkPosition]; rw [if_neg (by omega), if_neg (by omega)]
  generalize hP : F n ((l - 1).toNat, col.toNat) = P at hroom ⊢
  have e2 : checkPosition ((P.1 + 1 : Nat) : Int) P.2 = .ok () := by
    simp only [checkPosition]; rw [if_neg (by omega), if_neg (by omega)]
  have i2 : IsI32 (((P.1 + 1 : Nat) : Int) - 1) := by unfold IsI32; omega
  have q3 : asU32 (((P.1 + 1 : Nat) : Int) - 1) = P.1 := by rw [asU32_i32 (by omega) i2]; omega
  have q4 : asU32 (P.2 : Int) = P.2 := by rw [asU32_i32 (by omega) (by unfold IsI32; omega)]; omega
  obtain ⟨⟨x, M'⟩, hx⟩ := hT.gen M (asU32 n) (asU32 (l - 1)) (asU32 col) (b.getD .glb)
  obtain ⟨⟨y, N'⟩, hy⟩ := hT.gen N (asU32 n) (asU32 (((P.1 + 1 : Nat) : Int) - 1)) (asU32 P.2) (b.getD .glb)
  have nx := Nearest.congr (fun z => (pM.filter _).mem_iff) (hL.gen _ _ _ _ _ _ _ hx)
  have ny := Nearest.congr (fun z => (pN.filter _).mem_iff) (hL.gen _ _ _ _ _ _ _ hy)
  have nx' := nx.movedOn (RawMapping.edit F) (F n) (fun z hz => origPos_edit (by
    have := (List.mem_filter.1 hz).2
    rwa [hq0] at this)) (hF n).plt
  rw [← filter_edit, q1, q2, hP] at nx'
  rw [q3, q4] at ny
  have hxy := Nearest.unique ((hdist.edit hF).inj _) ny nx'
  have hrep := reportGenerated_edit (c := { c with cache := q }) (d := { d with cache := q' }) (n := n) hn ha
    (fun z hz o ho => by
      subst hz
      simp only [Option.map_some, Nearest] at nx
      obtain ⟨m1, m2⟩ := List.mem_filter.1 nx.1
      refine ⟨?_, hsp.room _ m1 o ho⟩
      have ho' : (LibMapping.raw z).original = some o := ho
      simp only [RawMapping.fromSource, ho', beq_iff_eq, hq0] at m2
      exact m2) hxy
  simp only [generatedPositionFor, h2, h2', e1, e2, Res.ok_bind, hM, hN, E.cfg.arith_ok i1, E.cfg.arith_ok i2, hx, hy]
  revert hrep
  generalize BasicConsumer.reportGenerated _ _ x = a1
  generalize BasicConsumer.reportGenerated _ _ y = a2
  cases a1 <;> cases a2 <;> simp [Except.map, Res.pure_eq, bind, Except.bind]

theorem origLe_edit {F : Nat → Nat × Nat → Nat × Nat} (hF : ∀ i, KeepsOrder (F i)) {a b : RawMapping} (h : a.origLe b = true) :
    (a.edit F).origLe (b.edit F) = true := by
  obtain ⟨a1, a2, ao⟩ := a
  obtain ⟨b1, b2, bo⟩ := b
  cases ao with
  | none => rfl
  | some x =>
    cases bo with
    | none => rfl
    | some y =>
      simp only [RawMapping.edit, RawMapping.origLe, Option.map_some, decide_eq_true_eq] at h ⊢
      rcases h with h | ⟨h1, h2⟩
      · exact .inl h
      · refine .inr ⟨h1, ?_⟩
        rw [h1]
        rcases h2 with h2 | ⟨h2, h3⟩
        · have := hF y.source (x.line, x.column) (y.line, y.column) (.inl h2)
          unfold PLt at this; omega
        · rcases Nat.lt_or_eq_of_le h3 with h3 | h3
          · have := hF y.source (x.line, x.column) (y.line, y.column) (.inr ⟨h2, h3⟩)
            unfold PLt at this; omega
          · rw [h2, h3]; omega

/-- C111, `each_mapping`: in either order the callback gets the same sequence of mappings, each with its original position
moved. -/
theorem C111_each (hL : E.maps.Laws) {F : Nat → Nat × Nat → Nat × Nat} (hF : ∀ i, KeepsOrder (F i)) {m m' : SourceMapJson}
    {raws : List RawMapping} (hsp : EditOf F m m' raws) {u : Option String}
    {c₀ c d₀ d : BasicConsumer E} (h : Built m u c₀) (hd : Built m' u d₀) {ops ops' : List Op}
    (hrun : c₀.run ops = .ok c) (hrun' : d₀.run ops' = .ok d) {o : IterOrd}
    (hdist : o = .generated → GenDistinct raws) (hdist' : o = .original → OrigDistinct raws) {r r' : List LibMapping}
    {c' d' : BasicConsumer E} (hr : c.eachMapping o = .ok (r, c')) (hr' : d.eachMapping o = .ok (r', d')) :
    r'.map LibMapping.raw = r.map fun x => x.raw.edit F := by
  have hrel := h.rel.run hL hrun
  have hrel' := hd.rel.run hL hrun'
  have hseg := hsp.segments
  have hseg' := hsp.moved
  have hmap : c₀.sourceMap = m := by obtain ⟨_, _, _, _, _, _, hm, _⟩ := h.spec; exact hm
  have hmap' : d₀.sourceMap = m' := by obtain ⟨_, _, _, _, _, _, hm, _⟩ := hd.spec; exact hm
  obtain ⟨M₁, hM₁, pM⟩ := parsed_segments hL (c := c₀) (raws := raws) (by rw [hmap]; exact hseg)
  obtain ⟨N₁, hN₁, pN⟩ := parsed_segments hL (c := d₀) (raws := raws.map (RawMapping.edit F)) (by rw [hmap']; exact hseg')
  have main : ∀ {c₀ c c' : BasicConsumer E} {r : List LibMapping} {M₁ : E.maps.M}, Rel c₀ c → c₀.parsed = .ok M₁ →
      c.eachMapping o = .ok (r, c') → ∃ M M', E.maps.core M = E.maps.core M₁ ∧ iterate M o = .ok (r, M') := by
    intro c₀ c c' r M₁ hrel hp hr
    rcases each_ok hrel hr with ⟨t, h1, h2, _⟩ | ⟨M, M₀, M', h1, h2, h3, _⟩
    · simp [BasicConsumer.parsed, h1, h2, unwrap] at hp
    · rw [hp] at h1; cases h1
      exact ⟨M, M', h2, h3⟩
  obtain ⟨M, M', e1, i1⟩ := main hrel hM₁ hr
  obtain ⟨N, N', e2, i2⟩ := main hrel' hN₁ hr'
  rw [← e1] at pM
  rw [← e2] at pN
  have hmm : (r.map fun x => x.raw.edit F) = (r.map LibMapping.raw).map (RawMapping.edit F) := by simp
  rw [hmm]
  cases o with
  | generated =>
    simp only [iterate, Except.ok.injEq, Prod.mk.injEq] at i1 i2
    obtain ⟨rfl, _⟩ := i1
    obtain ⟨rfl, _⟩ := i2
    have hperm : (E.maps.core N).Perm ((E.maps.core M).map (RawMapping.edit F)) := pN.trans (pM.map _).symm
    refine hperm.eq_of_pairwise (le := fun a b => a.genLe b = true) ?_ (hL.sorted N) ?_
    · intro a b ha hb h1 h2
      refine injOn_of_pairwise ((hdist rfl).edit F) a (pN.mem_iff.1 ha) b (pN.mem_iff.1 (hperm.mem_iff.2 hb)) ?_
      simp only [RawMapping.genLe, decide_eq_true_eq, RawMapping.genPos, Prod.mk.injEq] at h1 h2 ⊢
      omega
    · rw [List.pairwise_map]
      exact hL.sorted M
  | original =>
    simp only [iterate] at i1 i2
    obtain ⟨p1, s1⟩ := hL.byOrig _ _ _ i1
    obtain ⟨p2, s2⟩ := hL.byOrig _ _ _ i2
    have hf : ∀ l : List RawMapping, (l.map (RawMapping.edit F)).filter (·.original.isSome) =
        (l.filter (·.original.isSome)).map (RawMapping.edit F) := fun l => by
      rw [List.filter_map]
      congr 2
      funext x
      simp [RawMapping.edit]
    have hperm : (r'.map LibMapping.raw).Perm ((r.map LibMapping.raw).map (RawMapping.edit F)) := by
      refine p2.trans ?_
      refine (pN.filter _).trans ?_
      rw [hf]
      exact ((pM.filter _).symm.map _).trans (p1.symm.map _)
    refine hperm.eq_of_pairwise (le := fun a b => a.origLe b = true) ?_ s2 ?_
    · intro a b ha hb h1 h2
      have ha' := List.mem_filter.1 (p2.mem_iff.1 ha)
      have hb' := List.mem_filter.1 (p2.mem_iff.1 (hperm.mem_iff.2 hb))
      obtain ⟨a1, a2, ao⟩ := a
      obtain ⟨b1, b2, bo⟩ := b
      cases ao with
      | none => simp at ha'
      | some x =>
        cases bo with
        | none => simp at hb'
        | some y =>
          simp only [RawMapping.origLe, decide_eq_true_eq] at h1 h2
          have hx : x.source = y.source := by omega
          refine ((hdist' rfl).edit hF).inj y.source _ (List.mem_filter.2 ⟨pN.mem_iff.1 ha'.1, ?_⟩) _
            (List.mem_filter.2 ⟨pN.mem_iff.1 hb'.1, ?_⟩) ?_
          · simp [RawMapping.fromSource, hx]
          · simp [RawMapping.fromSource]
          · simp only [RawMapping.origPos, Prod.mk.injEq]; omega
    · rw [List.pairwise_map]
      exact s1.imp fun hab => origLe_edit hF hab

/-- C111, `all_generated_position_for`, where it finds anything at the position asked for (the code compares its argument
with lines counted from zero, C35). -/
theorem C111_all (hL : E.maps.Laws) {F : Nat → Nat × Nat → Nat × Nat} (hF : ∀ i, KeepsOrder (F i)) {m m' : SourceMapJson}
    {raws : List RawMapping} (hsp : EditOf F m m' raws) {u : Option String}
    {c₀ c d₀ d : BasicConsumer E} (h : Built m u c₀) (hd : Built m' u d₀) {ops ops' : List Op}
    (hrun : c₀.run ops = .ok c) (hrun' : d₀.run ops' = .ok d)
    (hlen : c.getSources.length < 2147483648) {s : String} {n : Nat} (hs : c.Knows s n) (hs' : d.Knows s n)
    {l col : Nat} (hp : 1 ≤ l ∧ l < 2147483648 ∧ col < 2147483648)
    (hq : 1 ≤ (F n (l, col)).1 ∧ (F n (l, col)).1 < 2147483648 ∧ (F n (l, col)).2 < 2147483648)
    (hfound : ∃ x ∈ raws, x.fromSource n = true ∧ x.origPos = (l, col)) {r r' : List LibMapping}
    {c' d' : BasicConsumer E} (hr : c.allGeneratedPositionFor s l (some (col : Int)) = .ok (r, c'))
    (hr' : d.allGeneratedPositionFor s (F n (l, col)).1 (some ((F n (l, col)).2 : Int)) = .ok (r', d')) :
    (r'.map LibMapping.raw).Perm (r.map fun x => x.raw.edit F) := by
  have hseg := hsp.segments
  have hseg' := hsp.moved
  have ha : d.absoluteSources = c.absoluteSources := by
    rw [(h.rel.run hL hrun).abs, (hd.rel.run hL hrun').abs]; exact hsp.absolute h hd
  have hlen' : d.getSources.length < 2147483648 := by
    simp only [BasicConsumer.getSources] at hlen ⊢; rw [ha]; exact hlen
  have p1 := ((C35_all_generated_partial hL h hrun hseg hlen hs ⟨by unfold IsI32; omega, by unfold IsI32; omega⟩
    ⟨by omega, by omega⟩).1 r c' hr).1 (by simpa using hfound)
  have p2 := ((C35_all_generated_partial hL hd hrun' hseg' hlen' hs' ⟨by unfold IsI32; omega, by unfold IsI32; omega⟩
    ⟨by omega, by omega⟩).1 r' d' hr').1 (by
      obtain ⟨x, h1, h2, h3⟩ := hfound
      exact ⟨x.edit F, List.mem_map.2 ⟨x, h1, rfl⟩, by rw [fromSource_edit]; exact h2, by
        rw [origPos_edit h2, h3]; simp⟩)
  have hmm : (r.map fun x => x.raw.edit F) = (r.map LibMapping.raw).map (RawMapping.edit F) := by simp
  rw [hmm]
  refine p2.trans (List.Perm.trans ?_ (p1.symm.map _))
  rw [List.filter_map]
  refine List.Perm.of_eq ?_
  congr 2
  funext x
  simp only [Function.comp, fromSource_edit, Int.toNat_natCast]
  cases hx : x.fromSource n with
  | false => rfl
  | true =>
    rw [origPos_edit hx]
    simp only [Bool.true_and, decide_eq_decide]
    exact ⟨fun e => (hF n).inj e, fun e => by rw [e]⟩

/-! ## Cases -/

/-- Lines inserted into a source before line `n` (lines count from zero). -/
theorem C111_lines_inserted (n k : Nat) : KeepsOrder fun p => (if n ≤ p.1 then p.1 + k else p.1, p.2) := by
  intro x y h
  unfold PLt at *
  simp only
  split <;> split <;> omega

/-- Three lines put before `two.js`: `CCDb` becomes `CCEb`, and the rest of the map is relative to it. -/
def demoEdit : SourceMapJson :=
  { demoMap with mappings := some "CAAC,IAAI,IAAM,SAAUA,GAClB,OAAOC,IAAID;CCEb,IAAI,IAAM,SAAUE,GAClB,OAAOA" }

example : EditOf (fun i p => if i = 1 then (p.1 + 3, p.2) else p) demoMap demoEdit demoRaws :=
  ⟨rfl, rfl, rfl, ⟨_, rfl, by decide +kernel, by simp [demoRaws, RawMapping.U32]⟩,
    ⟨_, rfl, by decide +kernel, by simp [demoRaws, RawMapping.U32, RawMapping.edit]⟩, by simp [demoRaws]⟩

example : demoAsk demoMap (fun c => c.originalPositionFor ⟨1, 100⟩ (some .lub)) =
      .ok (some ⟨⟨2, 1⟩, some ⟨1, 1⟩, some "two.js", none, none⟩) ∧
    demoAsk demoEdit (fun c => c.originalPositionFor ⟨1, 100⟩ (some .lub)) =
      .ok (some ⟨⟨2, 1⟩, some ⟨4, 1⟩, some "two.js", none, none⟩) := ⟨by decide +kernel, by decide +kernel⟩

end RSM
