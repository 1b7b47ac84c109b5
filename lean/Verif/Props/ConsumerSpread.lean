import Verif.Props.ConsumerShift
import Verif.Props.ColumnShift
/-! # Property C109: generated text spread out within its lines -/

namespace RSM
open Spec BasicConsumer

variable {E : Env}

/-- Where the columns of the generated text go if it is spread out within its lines: of the columns of a line one further
right stays further right. Lines count from zero. -/
def Spreads (φ : Nat → Nat → Nat) : Prop := ∀ l a b, a < b → φ l a < φ l b

/-- The segment at its new place. -/
def _root_.RSM.Spec.RawMapping.spread (φ : Nat → Nat → Nat) (r : RawMapping) : RawMapping :=
  { r with column := φ r.line r.column }

/-- The mapping at its new place. -/
def Mapping.spread (φ : Nat → Nat → Nat) (m : Mapping) : Mapping :=
  { m with generated := ⟨m.generated.line, φ (m.generated.line - 1).toNat m.generated.column.toNat⟩ }

/-- Two maps with the same sources and names, `raws` the segments of one and these at their new places those of the other. -/
structure SpreadOf (φ : Nat → Nat → Nat) (m m' : SourceMapJson) (raws : List RawMapping) : Prop where
  sources : m'.sources = m.sources
  names : m'.names = m.names
  root : m'.sourceRoot = m.sourceRoot
  segments : m.Segments raws
  moved : m'.Segments (raws.map (RawMapping.spread φ))
  room : ∀ r ∈ raws, r.line + 1 < 2147483648 ∧ r.column < 2147483648 ∧ φ r.line r.column < 2147483648

theorem Spreads.plt {φ : Nat → Nat → Nat} (h : Spreads φ) (x y : Nat × Nat) :
    PLt (x.1, φ x.1 x.2) (y.1, φ y.1 y.2) ↔ PLt x y := by
  obtain ⟨x1, x2⟩ := x
  obtain ⟨y1, y2⟩ := y
  unfold PLt
  simp only
  constructor
  · rintro (h1 | ⟨rfl, h1⟩)
    · exact .inl h1
    · refine .inr ⟨rfl, Decidable.byContradiction fun hn => ?_⟩
      rcases Nat.lt_or_eq_of_le (Nat.not_lt.1 hn) with h2 | h2
      · have := h x1 _ _ h2; omega
      · subst h2; omega
  · rintro (h1 | ⟨rfl, h1⟩)
    · exact .inl h1
    · exact .inr ⟨rfl, h x1 _ _ h1⟩

theorem GenDistinct.spread {φ : Nat → Nat → Nat} (hφ : Spreads φ) {raws : List RawMapping} (h : GenDistinct raws) :
    GenDistinct (raws.map (RawMapping.spread φ)) := by
  unfold GenDistinct at *
  rw [List.pairwise_map]
  refine h.imp ?_
  intro a b hab e
  apply hab
  rcases PLt.trichotomy a.genPos b.genPos with h1 | h1 | h1
  · have h2 : PLt (a.spread φ).genPos (b.spread φ).genPos := (hφ.plt _ _).2 h1
    rw [e] at h2
    exact absurd h2 (PLt.irrefl _)
  · exact h1
  · have h2 : PLt (b.spread φ).genPos (a.spread φ).genPos := (hφ.plt _ _).2 h1
    rw [e] at h2
    exact absurd h2 (PLt.irrefl _)

theorem OrigDistinct.spread {raws : List RawMapping} (h : OrigDistinct raws) (φ : Nat → Nat → Nat) :
    OrigDistinct (raws.map (RawMapping.spread φ)) := by
  unfold OrigDistinct at *
  rw [List.pairwise_map]
  exact h

theorem filter_spread (φ : Nat → Nat → Nat) (n : Nat) (raws : List RawMapping) :
    (raws.map (RawMapping.spread φ)).filter (·.fromSource n) = (raws.filter (·.fromSource n)).map (RawMapping.spread φ) := by
  rw [List.filter_map]; rfl

theorem SpreadOf.absolute {φ : Nat → Nat → Nat} {m m' : SourceMapJson} {raws : List RawMapping} (hs : SpreadOf φ m m' raws)
    {u : Option String} {c₀ d₀ : BasicConsumer E} (h : Built m u c₀) (hd : Built m' u d₀) :
    d₀.absoluteSources = c₀.absoluteSources := by
  obtain ⟨_, s1, u1, a1, a2, _, _, a3, _⟩ := h.spec
  obtain ⟨_, s2, u2, b1, b2, _, _, b3, _⟩ := hd.spec
  rw [hs.sources, a1] at b1
  cases b1
  rw [hs.root, a2] at b2
  cases b2
  rw [a3, b3]

theorem reportOriginal_spread {c d : BasicConsumer E} {φ : Nat → Nat → Nat} (hn : d.sourceMap.names = c.sourceMap.names)
    (ha : d.absoluteSources = c.absoluteSources) {line : Int} {x y : Option LibMapping}
    (hx : ∀ z, x = some z → z.generatedLine + 1 < 2147483648 ∧ z.generatedColumn < 2147483648 ∧
      φ z.generatedLine z.generatedColumn < 2147483648)
    (h : y.map LibMapping.raw = (x.map LibMapping.raw).map (RawMapping.spread φ)) :
    (d.reportOriginal line y).map (·.map stripMapping) =
      (c.reportOriginal line x).map (·.map fun r => (stripMapping r).spread φ) := by
  cases x with
  | none =>
    cases y with
    | none => rfl
    | some y => simp at h
  | some x =>
    cases y with
    | none => simp at h
    | some y =>
      have hb := hx x rfl
      clear hx
      obtain ⟨a1, a2, a3, a4⟩ := x
      obtain ⟨b1, b2, b3, b4⟩ := y
      simp only [Option.map_some, LibMapping.raw, RawMapping.spread, Option.some.injEq, Spec.RawMapping.mk.injEq] at h hb
      obtain ⟨rfl, rfl, rfl⟩ := h
      have w3 : wrap32 ((φ b1 a2 : Nat) : Int) = (φ b1 a2 : Nat) := wrap32_of_isI32 (by unfold IsI32; omega)
      have w4 : wrap32 ((b1 + 1 : Nat) : Int) = (b1 + 1 : Nat) := wrap32_of_isI32 (by unfold IsI32; omega)
      have w5 : wrap32 (a2 : Int) = a2 := wrap32_of_isI32 (by unfold IsI32; omega)
      have w6 : ((b1 + 1 : Nat) - 1 : Int).toNat = b1 := by omega
      have s2 := succU32_lt E.cfg (show b1 + 1 < 4294967296 by omega)
      simp only [reportOriginal]
      by_cases hl : wrap32 (b1 : Int) = line
      · rw [if_pos hl, if_pos hl]
        cases b4 with
        | none => simp only [Except.map, Option.map_none]
        | some o =>
          have : d.optName o.name = c.optName o.name := by
            cases o.name <;> simp only [optName, nameAt, hn]
          simp only [this, s2]
          generalize c.optName o.name = q1
          generalize E.cfg.succU32 o.line = q2
          cases q1 with
          | error e => simp only [Res.ok_bind, Res.error_bind]; simp only [Except.map]
          | ok q1 =>
            cases q2 with
            | error e => simp only [Res.ok_bind, Res.error_bind]; simp only [Except.map]
            | ok q2 =>
              simp only [Res.ok_bind, Res.pure_eq, Except.map, Option.map_some, stripMapping, Mapping.spread, ha, w3, w4, w5, w6,
                Int.toNat_natCast]
      · rw [if_neg hl, if_neg hl]
        simp only [Except.map, Option.map_none]

theorem reportGenerated_spread {c d : BasicConsumer E} {φ : Nat → Nat → Nat} (hn : d.sourceMap.names = c.sourceMap.names)
    (ha : d.absoluteSources = c.absoluteSources) {src : Int} {x y : Option LibMapping}
    (hx : ∀ z, x = some z → z.generatedLine + 1 < 2147483648 ∧ z.generatedColumn < 2147483648 ∧
      φ z.generatedLine z.generatedColumn < 2147483648)
    (h : y.map LibMapping.raw = (x.map LibMapping.raw).map (RawMapping.spread φ)) :
    (d.reportGenerated src y).map (·.map stripMapping) =
      (c.reportGenerated src x).map (·.map fun r => (stripMapping r).spread φ) := by
  cases x with
  | none =>
    cases y with
    | none => rfl
    | some y => simp at h
  | some x =>
    cases y with
    | none => simp at h
    | some y =>
      have hb := hx x rfl
      clear hx
      obtain ⟨a1, a2, a3, a4⟩ := x
      obtain ⟨b1, b2, b3, b4⟩ := y
      simp only [Option.map_some, LibMapping.raw, RawMapping.spread, Option.some.injEq, Spec.RawMapping.mk.injEq] at h hb
      obtain ⟨rfl, rfl, rfl⟩ := h
      have w3 : wrap32 ((φ b1 a2 : Nat) : Int) = (φ b1 a2 : Nat) := wrap32_of_isI32 (by unfold IsI32; omega)
      have w4 : wrap32 ((b1 + 1 : Nat) : Int) = (b1 + 1 : Nat) := wrap32_of_isI32 (by unfold IsI32; omega)
      have w5 : wrap32 (a2 : Int) = a2 := wrap32_of_isI32 (by unfold IsI32; omega)
      have w6 : ((b1 + 1 : Nat) - 1 : Int).toNat = b1 := by omega
      have s2 := succU32_lt E.cfg (show b1 + 1 < 4294967296 by omega)
      simp only [reportGenerated]
      cases b4 with
      | none => simp only [unwrap, Res.error_bind, Except.map]
      | some o =>
        simp only [unwrap, Res.ok_bind]
        split
        · have : d.nameAt o.source = c.nameAt o.source := by simp only [nameAt, hn]
          simp only [this, s2]
          generalize c.nameAt o.source = q1
          cases q1 with
          | error e => simp only [Res.ok_bind, Res.error_bind]; simp only [Except.map]
          | ok q1 =>
            simp only [Res.ok_bind, Res.pure_eq, Except.map, Option.map_some, stripMapping, Mapping.spread, ha, w3, w4, w5, w6,
              Int.toNat_natCast]
        · simp only [Except.map, Option.map_none]

/-- C109, `original_position_for`. -/
theorem C109_original (hL : E.maps.Laws) (hT : E.maps.Total) {φ : Nat → Nat → Nat} (hφ : Spreads φ) {m m' : SourceMapJson}
    {raws : List RawMapping} (hsp : SpreadOf φ m m' raws) {u : Option String}
    {c₀ c d₀ d : BasicConsumer E} (h : Built m u c₀) (hd : Built m' u d₀) {ops ops' : List Op}
    (hrun : c₀.run ops = .ok c) (hrun' : d₀.run ops' = .ok d) (hdist : GenDistinct raws) {p : Position} {b : Option Bias}
    (hp : IsI32 p.line ∧ IsI32 p.column)
    (hpos : 1 ≤ p.line ∧ 0 ≤ p.column) (hroom : φ (p.line - 1).toNat p.column.toNat < 2147483648) :
    (d.originalPositionFor ⟨p.line, φ (p.line - 1).toNat p.column.toNat⟩ b).map (fun r => r.1.map stripMapping) =
      (c.originalPositionFor p b).map (fun r => r.1.map fun x => (stripMapping x).spread φ) := by
  have hrel := h.rel.run hL hrun
  have hrel' := hd.rel.run hL hrun'
  have hseg := hsp.segments
  have hseg' := hsp.moved
  obtain ⟨M, hM, pM⟩ := ensure_segments hL h hrel hseg
  obtain ⟨N, hN, pN⟩ := ensure_segments hL hd hrel' hseg'
  have hcm : c.sourceMap = m := by obtain ⟨_, _, _, _, _, _, hm, _⟩ := h.spec; exact hrel.map.trans hm
  have hdm : d.sourceMap = m' := by obtain ⟨_, _, _, _, _, _, hm, _⟩ := hd.spec; exact hrel'.map.trans hm
  have hn : d.sourceMap.names = c.sourceMap.names := by rw [hcm, hdm]; exact hsp.names
  have ha : d.absoluteSources = c.absoluteSources := by
    rw [hrel.abs, hrel'.abs]; exact hsp.absolute h hd
  have e1 : checkPosition p.line p.column = .ok () := by
    simp only [checkPosition]; rw [if_neg (by omega), if_neg (by omega)]
  have e2 : checkPosition p.line (φ (p.line - 1).toNat p.column.toNat) = .ok () := by
    simp only [checkPosition]; rw [if_neg (by omega), if_neg (by omega)]
  have i1 : IsI32 (p.line - 1) := by have := hp.1; unfold IsI32 at *; omega
  have q1 : asU32 (p.line - 1) = (p.line - 1).toNat := asU32_i32 (by omega) i1
  have q2 : asU32 p.column = p.column.toNat := asU32_i32 hpos.2 hp.2
  have q3 : asU32 (φ (p.line - 1).toNat p.column.toNat) = φ (p.line - 1).toNat p.column.toNat := by
    rw [asU32_i32 (by omega) (by unfold IsI32; omega)]; omega
  obtain ⟨⟨x, M'⟩, hx⟩ := hT.orig M (asU32 (p.line - 1)) (asU32 p.column) (b.getD .glb)
  obtain ⟨⟨y, N'⟩, hy⟩ := hT.orig N (asU32 (p.line - 1)) (asU32 (φ (p.line - 1).toNat p.column.toNat)) (b.getD .glb)
  have nx := Nearest.congr (fun z => pM.mem_iff) (hL.orig _ _ _ _ _ _ hx)
  have ny := Nearest.congr (fun z => pN.mem_iff) (hL.orig _ _ _ _ _ _ hy)
  have nx' := nx.moved (RawMapping.spread φ) (fun q => (q.1, φ q.1 q.2)) (fun _ => rfl) hφ.plt
  rw [q1, q2] at nx'
  rw [q1, q3] at ny
  have hxy := Nearest.unique (injOn_of_pairwise (hdist.spread hφ)) ny nx'
  have hrep := reportOriginal_spread hn ha (line := p.line) (fun z hz => by
    subst hz
    simp only [Option.map_some, Nearest] at nx
    exact hsp.room _ nx.1) hxy
  simp only [originalPositionFor, e1, e2, Res.ok_bind, hM, hN, E.cfg.arith_ok i1, hx, hy]
  revert hrep
  cases c.reportOriginal p.line x <;> cases d.reportOriginal p.line y <;>
    simp [Except.map, Res.pure_eq, bind, Except.bind]

/-- C109, `generated_position_for`. -/
theorem C109_generated (hL : E.maps.Laws) (hT : E.maps.Total) {φ : Nat → Nat → Nat} {m m' : SourceMapJson}
    {raws : List RawMapping} (hsp : SpreadOf φ m m' raws) {u : Option String}
    {c₀ c d₀ d : BasicConsumer E} (h : Built m u c₀) (hd : Built m' u d₀) {ops ops' : List Op}
    (hrun : c₀.run ops = .ok c) (hrun' : d₀.run ops' = .ok d) (hdist : OrigDistinct raws)
    (hlen : c.getSources.length < 2147483648) {s : String} {n : Nat} (hs : c.Knows s n) (hs' : d.Knows s n)
    {l col : Int} (hp : IsI32 l ∧ IsI32 col) {b : Option Bias} :
    (d.generatedPositionFor s l col b).map (fun r => r.1.map stripMapping) =
      (c.generatedPositionFor s l col b).map (fun r => r.1.map fun x => (stripMapping x).spread φ) := by
  have hrel := h.rel.run hL hrun
  have hrel' := hd.rel.run hL hrun'
  have hseg := hsp.segments
  have hseg' := hsp.moved
  have hcm : c.sourceMap = m := by obtain ⟨_, _, _, _, _, _, hm, _⟩ := h.spec; exact hrel.map.trans hm
  have hdm : d.sourceMap = m' := by obtain ⟨_, _, _, _, _, _, hm, _⟩ := hd.spec; exact hrel'.map.trans hm
  have hn : d.sourceMap.names = c.sourceMap.names := by rw [hcm, hdm]; exact hsp.names
  have ha0 := hsp.absolute h hd
  have ha : d.absoluteSources = c.absoluteSources := by rw [hrel.abs, hrel'.abs]; exact ha0
  have hlen0 : c₀.getSources.length < 2147483648 := by rw [← hrel.getSources]; exact hlen
  have hlen0' : d₀.getSources.length < 2147483648 := by
    simp only [BasicConsumer.getSources] at hlen0 ⊢; rw [ha0]; exact hlen0
  have kc := ((lookup_spec h hlen0 s).1 n).2 ⟨n, rfl, (hrel.knows s n).1 hs⟩
  have kd := ((lookup_spec hd hlen0' s).1 n).2 ⟨n, rfl, (hrel'.knows s n).1 hs'⟩
  rcases hrel.find s with ⟨e, h1, _⟩ | ⟨r, q, h1, h2, h3⟩
  · rw [kc] at h1; cases h1
  rw [kc] at h1; cases h1
  rcases hrel'.find s with ⟨e, h1', _⟩ | ⟨r', q', h1', h2', h3'⟩
  · rw [kd] at h1'; cases h1'
  rw [kd] at h1'; cases h1'
  obtain ⟨M, hM, pM⟩ := ensure_segments hL h h3 hseg
  obtain ⟨N, hN, pN⟩ := ensure_segments hL hd h3' hseg'
  by_cases hc : l < 1 ∨ col < 0
  · obtain ⟨msg, e1⟩ : ∃ msg, checkPosition l col = .error (.explicit msg) := by
      simp only [checkPosition]
      by_cases hl : l < 1
      · rw [if_pos hl]; exact ⟨_, rfl⟩
      · rw [if_neg hl, if_pos (by omega)]; exact ⟨_, rfl⟩
    simp only [generatedPositionFor, h2, h2', Res.ok_bind, e1]
    rfl
  · have e1 : checkPosition l col = .ok () := by
      simp only [checkPosition]; rw [if_neg (by omega), if_neg (by omega)]
    have i1 : IsI32 (l - 1) := by have := hp.1; unfold IsI32 at *; omega
    obtain ⟨⟨x, M'⟩, hx⟩ := hT.gen M (asU32 n) (asU32 (l - 1)) (asU32 col) (b.getD .glb)
    obtain ⟨⟨y, N'⟩, hy⟩ := hT.gen N (asU32 n) (asU32 (l - 1)) (asU32 col) (b.getD .glb)
    have nx := Nearest.congr (fun z => (pM.filter _).mem_iff) (hL.gen _ _ _ _ _ _ _ hx)
    have ny := Nearest.congr (fun z => (pN.filter _).mem_iff) (hL.gen _ _ _ _ _ _ _ hy)
    have nx' := nx.moved (RawMapping.spread φ) id (fun _ => rfl) (fun _ _ => Iff.rfl)
    rw [← filter_spread] at nx'
    have hxy := Nearest.unique ((hdist.spread φ).inj _) ny nx'
    have hrep := reportGenerated_spread (c := { c with cache := q }) (d := { d with cache := q' }) hn ha (src := n)
      (fun z hz => by
        subst hz
        simp only [Option.map_some, Nearest] at nx
        exact hsp.room _ (List.mem_filter.1 nx.1).1) hxy
    simp only [generatedPositionFor, h2, h2', e1, Res.ok_bind, hM, hN, E.cfg.arith_ok i1, hx, hy]
    revert hrep
    generalize BasicConsumer.reportGenerated _ _ x = a1
    generalize BasicConsumer.reportGenerated _ _ y = a2
    cases a1 <;> cases a2 <;> simp [Except.map, Res.pure_eq, bind, Except.bind]

/-- C109, `each_mapping`: in generated order the callback gets the same sequence of mappings, in original order the same
mappings, each at its new place. -/
theorem C109_each (hL : E.maps.Laws) {φ : Nat → Nat → Nat} (hφ : Spreads φ) {m m' : SourceMapJson}
    {raws : List RawMapping} (hsp : SpreadOf φ m m' raws) {u : Option String}
    {c₀ c d₀ d : BasicConsumer E} (h : Built m u c₀) (hd : Built m' u d₀) {ops ops' : List Op}
    (hrun : c₀.run ops = .ok c) (hrun' : d₀.run ops' = .ok d) (hdist : GenDistinct raws) {o : IterOrd} {r r' : List LibMapping}
    {c' d' : BasicConsumer E} (hr : c.eachMapping o = .ok (r, c')) (hr' : d.eachMapping o = .ok (r', d')) :
    (r'.map LibMapping.raw).Perm (r.map fun x => x.raw.spread φ) ∧
    (o = .generated → r'.map LibMapping.raw = r.map fun x => x.raw.spread φ) := by
  have hrel := h.rel.run hL hrun
  have hrel' := hd.rel.run hL hrun'
  have hseg := hsp.segments
  have hseg' := hsp.moved
  have hmap : c₀.sourceMap = m := by obtain ⟨_, _, _, _, _, _, hm, _⟩ := h.spec; exact hm
  have hmap' : d₀.sourceMap = m' := by obtain ⟨_, _, _, _, _, _, hm, _⟩ := hd.spec; exact hm
  obtain ⟨M₁, hM₁, pM⟩ := parsed_segments hL (c := c₀) (raws := raws) (by rw [hmap]; exact hseg)
  obtain ⟨N₁, hN₁, pN⟩ := parsed_segments hL (c := d₀) (raws := raws.map (RawMapping.spread φ)) (by rw [hmap']; exact hseg')
  have main : ∀ {c₀ c c' : BasicConsumer E} {r : List LibMapping} {M₁ : E.maps.M}, Rel c₀ c → c₀.parsed = .ok M₁ →
      c.eachMapping o = .ok (r, c') → ∃ M M', E.maps.core M = E.maps.core M₁ ∧ iterate M o = .ok (r, M') := by
    intro c₀ c c' r M₁ hrel hp hr
    rcases each_ok hrel hr with ⟨t, h1, h2, _⟩ | ⟨M, M₀, M', h1, h2, h3, _⟩
    · simp [BasicConsumer.parsed, h1, h2, unwrap] at hp
    · rw [hp] at h1; cases h1
      exact ⟨M, M', h2, h3⟩
  obtain ⟨M, M', e1, i1⟩ := main hrel hM₁ hr
  obtain ⟨N, N', e2, i2⟩ := main hrel' hN₁ hr'
  rw [← e1] at pM
  rw [← e2] at pN
  have hmm : (r.map fun x => x.raw.spread φ) = (r.map LibMapping.raw).map (RawMapping.spread φ) := by simp
  rw [hmm]
  cases o with
  | generated =>
    simp only [iterate, Except.ok.injEq, Prod.mk.injEq] at i1 i2
    obtain ⟨rfl, _⟩ := i1
    obtain ⟨rfl, _⟩ := i2
    have hperm : (E.maps.core N).Perm ((E.maps.core M).map (RawMapping.spread φ)) := pN.trans (pM.map _).symm
    refine ⟨hperm, fun _ => ?_⟩
    refine hperm.eq_of_pairwise (le := fun a b => a.genLe b = true) ?_ (hL.sorted N) ?_
    · intro a b ha hb h1 h2
      refine injOn_of_pairwise (hdist.spread hφ) a (pN.mem_iff.1 ha) b (pN.mem_iff.1 (hperm.mem_iff.2 hb)) ?_
      simp only [RawMapping.genLe, decide_eq_true_eq, RawMapping.genPos, Prod.mk.injEq] at h1 h2 ⊢
      omega
    · rw [List.pairwise_map]
      refine (hL.sorted M).imp ?_
      intro a b hab
      simp only [RawMapping.genLe, decide_eq_true_eq] at hab ⊢
      show a.line < b.line ∨ a.line = b.line ∧ φ a.line a.column ≤ φ b.line b.column
      rcases hab with hab | ⟨h1, h2⟩
      · exact .inl hab
      · refine .inr ⟨h1, ?_⟩
        rw [h1]
        rcases Nat.lt_or_eq_of_le h2 with h2 | h2
        · exact Nat.le_of_lt (hφ _ _ _ h2)
        · rw [h2]; exact Nat.le_refl _
  | original =>
    simp only [iterate] at i1 i2
    have p1 := (hL.byOrig _ _ _ i1).1
    have p2 := (hL.byOrig _ _ _ i2).1
    refine ⟨?_, by simp⟩
    have hf : ∀ l : List RawMapping, (l.map (RawMapping.spread φ)).filter (·.original.isSome) =
        (l.filter (·.original.isSome)).map (RawMapping.spread φ) := fun l => by rw [List.filter_map]; rfl
    refine p2.trans ?_
    refine (pN.filter _).trans ?_
    rw [hf]
    exact ((pM.filter _).symm.map _).trans (p1.symm.map _)

/-- C109, `all_generated_position_for`, where it finds anything at the position asked for. -/
theorem C109_all (hL : E.maps.Laws) {φ : Nat → Nat → Nat} {m m' : SourceMapJson}
    {raws : List RawMapping} (hsp : SpreadOf φ m m' raws) {u : Option String}
    {c₀ c d₀ d : BasicConsumer E} (h : Built m u c₀) (hd : Built m' u d₀) {ops ops' : List Op}
    (hrun : c₀.run ops = .ok c) (hrun' : d₀.run ops' = .ok d)
    (hlen : c.getSources.length < 2147483648) {s : String} {n : Nat} (hs : c.Knows s n) (hs' : d.Knows s n)
    {l col : Int} (hp : IsI32 l ∧ IsI32 col) (hpos : 1 ≤ l ∧ 0 ≤ col)
    (hfound : ∃ x ∈ raws, x.fromSource n = true ∧ x.origPos = (l.toNat, col.toNat)) {r r' : List LibMapping}
    {c' d' : BasicConsumer E} (hr : c.allGeneratedPositionFor s l (some col) = .ok (r, c'))
    (hr' : d.allGeneratedPositionFor s l (some col) = .ok (r', d')) :
    (r'.map LibMapping.raw).Perm (r.map fun x => x.raw.spread φ) := by
  have hseg := hsp.segments
  have hseg' := hsp.moved
  have ha : d.absoluteSources = c.absoluteSources := by
    rw [(h.rel.run hL hrun).abs, (hd.rel.run hL hrun').abs]; exact hsp.absolute h hd
  have hlen' : d.getSources.length < 2147483648 := by
    simp only [BasicConsumer.getSources] at hlen ⊢; rw [ha]; exact hlen
  have p1 := ((C35_all_generated_partial hL h hrun hseg hlen hs hp hpos).1 r c' hr).1 hfound
  have p2 := ((C35_all_generated_partial hL hd hrun' hseg' hlen' hs' hp hpos).1 r' d' hr').1 (by
    obtain ⟨x, h1, h2, h3⟩ := hfound
    exact ⟨x.spread φ, List.mem_map.2 ⟨x, h1, rfl⟩, h2, h3⟩)
  have hmm : (r.map fun x => x.raw.spread φ) = (r.map LibMapping.raw).map (RawMapping.spread φ) := by simp
  rw [hmm]
  refine p2.trans (List.Perm.trans ?_ (p1.symm.map _))
  rw [List.filter_map]
  exact List.Perm.refl _

/-! ## Cases -/

/-- Characters put before one line are a case of it: the segments of `C108_segments`. -/
theorem C109_text_before_line (n k : Nat) : Spreads (fun l c => if l = n then c + k else c) ∧
    ∀ r : RawMapping, r.right n k = r.spread (fun l c => if l = n then c + k else c) :=
  ⟨fun l a b h => by dsimp only; split <;> omega, fun _ => rfl⟩

/-- The demonstration map with four characters put before the second line: `CCDb` becomes `KCDb`. -/
def demoSpread : SourceMapJson :=
  { demoMap with mappings := some "CAAC,IAAI,IAAM,SAAUA,GAClB,OAAOC,IAAID;KCDb,IAAI,IAAM,SAAUE,GAClB,OAAOA" }

example : SpreadOf (fun l c => if l = 1 then c + 4 else c) demoMap demoSpread demoRaws :=
  ⟨rfl, rfl, rfl, ⟨_, rfl, by decide +kernel, by simp [demoRaws, RawMapping.U32]⟩,
    ⟨_, rfl, by decide +kernel, by simp [demoRaws, RawMapping.U32, RawMapping.spread]⟩, by simp [demoRaws]⟩

example : demoAsk demoMap (fun c => c.originalPositionFor ⟨1, 100⟩ (some .lub)) =
      .ok (some ⟨⟨2, 1⟩, some ⟨1, 1⟩, some "two.js", none, none⟩) ∧
    demoAsk demoSpread (fun c => c.originalPositionFor ⟨1, 100⟩ (some .lub)) =
      .ok (some ⟨⟨2, 5⟩, some ⟨1, 1⟩, some "two.js", none, none⟩) := ⟨by decide +kernel, by decide +kernel⟩

end RSM
