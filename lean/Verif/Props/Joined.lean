import Verif.Props.Visits
/-! # Property C131: a map of texts put one right after the other -/

namespace RSM
open Spec BasicConsumer

variable {E : Env}

/-- Where a position of a text is when the text is put after one with `e.1` line ends and `e.2` characters after the last of
them. -/
def Position.after (e : Nat × Nat) (p : Position) : Position :=
  ⟨p.line + e.1, p.column + if p.line = 1 then (e.2 : Int) else 0⟩

/-- The mapping in the text put there. -/
def Mapping.after (e : Nat × Nat) (m : Mapping) : Mapping := { m with generated := m.generated.after e }

/-- Line ends, and characters after the last of them, of two texts put one after the other. -/
def extentPlus (a b : Nat × Nat) : Nat × Nat := (a.1 + b.1, if b.1 = 0 then a.2 + b.2 else b.2)

/-- Texts one right after the other: of each its line ends and the characters after the last of them, and the mappings into
it. -/
def sequence : List ((Nat × Nat) × List Mapping) → List Mapping
  | [] => []
  | (e, ms) :: rest => ms ++ (sequence rest).map (Mapping.after e)

/-- Line ends of all of them, and characters after the last. -/
def extent : List ((Nat × Nat) × List Mapping) → Nat × Nat
  | [] => (0, 0)
  | (e, _) :: rest => extentPlus e (extent rest)

/-- The mappings are into the characters of the text. -/
def InExtent (t : (Nat × Nat) × List Mapping) : Prop := ∀ m ∈ t.2, 1 ≤ m.generated.line ∧ 0 ≤ m.generated.column ∧
  (m.generated.line ≤ t.1.1 ∨ m.generated.line = t.1.1 + 1 ∧ m.generated.column < t.1.2)

theorem Position.after_zero (p : Position) : p.after (0, 0) = p := by
  obtain ⟨l, c⟩ := p
  simp [Position.after]

theorem Mapping.after_zero (m : Mapping) : m.after (0, 0) = m := by
  simp only [Mapping.after, Position.after_zero]

theorem Position.after_after {a b : Nat × Nat} {p : Position} (h : 1 ≤ p.line) :
    (p.after a).after b = p.after (extentPlus b a) := by
  obtain ⟨l, c⟩ := p
  obtain ⟨a1, a2⟩ := a
  obtain ⟨b1, b2⟩ := b
  simp only at h
  simp only [Position.after, extentPlus, Position.mk.injEq]
  refine ⟨by omega, ?_⟩
  by_cases h1 : l = 1
  · by_cases h2 : a1 = 0
    · subst h1; subst h2; simp; omega
    · rw [if_pos h1, if_neg (by omega), if_pos h1, if_neg h2]; omega
  · rw [if_neg h1, if_neg (by omega), if_neg h1]; omega

theorem Mapping.after_after {a b : Nat × Nat} {m : Mapping} (h : 1 ≤ m.generated.line) :
    (m.after a).after b = m.after (extentPlus b a) := by
  simp only [Mapping.after, Position.after_after h]

/-- Positions keep their order. -/
theorem Position.after_le {e : Nat × Nat} {p q : Position} : (p.after e).Le (q.after e) ↔ p.Le q := by
  obtain ⟨l, c⟩ := p
  obtain ⟨l', c'⟩ := q
  simp only [Position.after, Position.Le]
  by_cases h : l = l'
  · subst h; omega
  · by_cases h' : l < l'
    · constructor <;> intro _ <;> left <;> omega
    · constructor <;> intro h <;> omega

theorem Position.after_valid {e : Nat × Nat} {p : Position} (h : 1 ≤ p.line ∧ 0 ≤ p.column) :
    1 ≤ (p.after e).line ∧ 0 ≤ (p.after e).column := by
  obtain ⟨l, c⟩ := p
  simp only [Position.after]
  simp only at h
  split <;> omega

theorem Position.Le.antisymm' {p q : Position} (h : p.Le q) (h' : q.Le p) : p = q := by
  obtain ⟨l, c⟩ := p
  obtain ⟨l', c'⟩ := q
  simp only [Position.Le] at h h'
  simp only [Position.mk.injEq]
  omega

/-- From a position on to the end of the next line the second list has the mappings of the first, in the text put after
another. -/
def WindowAfter (p : Position) (e : Nat × Nat) (l l' : List Mapping) : Prop :=
  ∀ y : Mapping, (p.after e).Le y.generated → y.generated.line ≤ p.line + e.1 + 1 → (y ∈ l' ↔ ∃ x ∈ l, y = x.after e)

theorem onSide_lub {p : Position} {m : Mapping} (hp : 1 ≤ p.line ∧ 0 ≤ p.column)
    (hm : 1 ≤ m.generated.line ∧ 0 ≤ m.generated.column) :
    OnSide .lub ((p.line - 1).toNat, p.column.toNat) m.genAt ↔ p.Le m.generated := by
  obtain ⟨l, c⟩ := p
  obtain ⟨⟨ml, mc⟩⟩ := m
  simp only [OnSide, PLt, Mapping.genAt, Position.Le] at *
  omega

theorem notNearer_lub {m m' : Mapping} (hm : 1 ≤ m.generated.line ∧ 0 ≤ m.generated.column)
    (hm' : 1 ≤ m'.generated.line ∧ 0 ≤ m'.generated.column) :
    NotNearer .lub m.genAt m'.genAt ↔ m'.generated.Le m.generated := by
  obtain ⟨⟨l, c⟩⟩ := m
  obtain ⟨⟨l', c'⟩⟩ := m'
  simp only [NotNearer, PLt, Mapping.genAt, Position.Le] at *
  omega

/-- The mapping with its generated position moved. -/
def Mapping.moved (φ : Position → Position) (m : Mapping) : Mapping := { m with generated := φ m.generated }

/-- From a position on positions are moved by `k` lines and keep their order. -/
structure Carries (φ : Position → Position) (p : Position) (k : Int) : Prop where
  le : ∀ {a b : Position}, p.Le a → p.Le b → ((φ a).Le (φ b) ↔ a.Le b)
  line : ∀ {a : Position}, p.Le a → (φ a).line = a.line + k
  valid : ∀ {a : Position}, p.Le a → 1 ≤ a.line ∧ 0 ≤ a.column → 1 ≤ (φ a).line ∧ 0 ≤ (φ a).column

/-- From a position on to the end of the next line the second list has the mappings of the first, moved. -/
def WindowMoved (φ : Position → Position) (p : Position) (l l' : List Mapping) : Prop :=
  ∀ y : Mapping, (φ p).Le y.generated → y.generated.line ≤ (φ p).line + 1 →
    (y ∈ l' ↔ ∃ x ∈ l, p.Le x.generated ∧ y = x.moved φ)

theorem Position.Le.refl' (p : Position) : p.Le p := by unfold Position.Le; omega

theorem after_carries (e : Nat × Nat) (p : Position) : Carries (Position.after e) p e.1 :=
  ⟨fun _ _ => Position.after_le, fun _ => rfl, fun _ => Position.after_valid⟩

theorem WindowAfter.moved {p : Position} {e : Nat × Nat} {l l' : List Mapping} (h : WindowAfter p e l l') :
    WindowMoved (Position.after e) p l l' := by
  intro y h1 h2
  rw [h y h1 h2]
  constructor
  · rintro ⟨x, hx, rfl⟩
    exact ⟨x, hx, Position.after_le.1 h1, rfl⟩
  · rintro ⟨x, hx, -, rfl⟩
    exact ⟨x, hx, rfl⟩

/-- Two searches with the upper bias in lists that agree from the position asked for to the end of the next line. -/
theorem nearest_moved {φ : Position → Position} {k : Int} {p : Position} (hc : Carries φ p k) {l l' : List Mapping} (hp : 1 ≤ p.line ∧ 0 ≤ p.column)
    (honce : GenOnce l) (hpos : ∀ m ∈ l, 1 ≤ m.generated.line ∧ 0 ≤ m.generated.column)
    (hpos' : ∀ m ∈ l', 1 ≤ m.generated.line ∧ 0 ≤ m.generated.column) (hw : WindowMoved φ p l l')
    {x y : Option Mapping} (hx : Nearest Mapping.genAt l ((p.line - 1).toNat, p.column.toNat) .lub x)
    (hy : Nearest Mapping.genAt l' (((φ p).line - 1).toNat, (φ p).column.toNat) .lub y) :
    y.bind (answerOriginal (φ p).line) = (x.bind (answerOriginal p.line)).map (Mapping.moved φ) := by
  have sx := hx.side
  have sy := hy.side
  have hpp := Position.Le.refl' p
  have hp' := hc.valid hpp hp
  have hpl : (φ p).line = p.line + k := hc.line hpp
  have hml : ∀ m : Mapping, p.Le m.generated → (m.moved φ).generated.line = m.generated.line + k := fun _ h => hc.line h
  have fwd : ∀ m, x = some m → m.generated.line ≤ p.line + 1 → y = some (m.moved φ) := by
    rintro m rfl hm
    obtain ⟨m1, m2, m3⟩ := sx
    have p1 := hpos m m1
    have m4 := (onSide_lub hp p1).1 m2
    have m2' : (φ p).Le (m.moved φ).generated := (hc.le hpp m4).2 m4
    have hd : m.moved φ ∈ l' := (hw (m.moved φ) m2' (by rw [hml m m4]; omega)).2 ⟨m, m1, m4, rfl⟩
    have hds := (onSide_lub hp' (hpos' _ hd)).2 m2'
    cases y with
    | none => exact absurd hds (sy _ hd)
    | some m' =>
      obtain ⟨n1, n2, n3⟩ := sy
      have q1 := hpos' m' n1
      have n2' := (onSide_lub hp' q1).1 n2
      have hn := (notNearer_lub (hpos' _ hd) q1).1 (n3 _ hd hds)
      have hle : m'.generated.line ≤ (φ p).line + 1 := by
        have := hml m m4
        unfold Position.Le at hn
        omega
      obtain ⟨z, z1, z2, rfl⟩ := (hw m' n2' hle).1 n1
      have pz := hpos z z1
      have hz := (notNearer_lub pz p1).1 (m3 z z1 ((onSide_lub hp pz).2 z2))
      rw [honce m m1 z z1 (hz.antisymm' ((hc.le z2 m4).1 hn))]
  have bwd : ∀ m', y = some m' → m'.generated.line ≤ (φ p).line + 1 → ∃ m, x = some m ∧ m.generated.line ≤ p.line + 1 := by
    rintro m' rfl hm'
    obtain ⟨n1, n2, n3⟩ := sy
    have n2' := (onSide_lub hp' (hpos' m' n1)).1 n2
    obtain ⟨z, z1, z2, rfl⟩ := (hw m' n2' hm').1 n1
    have pz := hpos z z1
    have hzs := (onSide_lub hp pz).2 z2
    cases x with
    | none => exact absurd hzs (sx z z1)
    | some m =>
      obtain ⟨m1, m2, m3⟩ := sx
      refine ⟨m, rfl, ?_⟩
      have := (notNearer_lub pz (hpos m m1)).1 (m3 z z1 hzs)
      rw [hml z z2] at hm'
      unfold Position.Le at this
      omega
  cases x with
  | none =>
    cases y with
    | none => rfl
    | some m' =>
      by_cases hm' : m'.generated.line ≤ (φ p).line + 1
      · obtain ⟨m, hm, _⟩ := bwd m' rfl hm'
        cases hm
      · simp only [Option.bind_some, Option.bind_none, Option.map_none, answerOriginal]
        rw [if_neg (by omega)]
  | some m =>
    by_cases hm : m.generated.line ≤ p.line + 1
    · have m4 : p.Le m.generated := (onSide_lub hp (hpos m sx.1)).1 sx.2.1
      rw [fwd m rfl hm]
      simp only [Option.bind_some, answerOriginal]
      by_cases ha : m.generated.line - 1 = p.line ∧ m.original.isSome = true
      · rw [if_pos ha, if_pos ⟨by rw [hml m m4]; omega, ha.2⟩]; rfl
      · rw [if_neg ha, if_neg (fun h => ha ⟨by have := h.1; rw [hml m m4] at this; omega, h.2⟩)]; rfl
    · have h1 : ¬ (m.generated.line - 1 = p.line ∧ m.original.isSome = true) := fun h => hm (by omega)
      simp only [Option.bind_some, answerOriginal, if_neg h1, Option.map_none]
      cases y with
      | none => rfl
      | some m' =>
        by_cases hm' : m'.generated.line ≤ (φ p).line + 1
        · obtain ⟨z, hz, h2⟩ := bwd m' rfl hm'
          cases hz
          exact absurd h2 hm
        · simp only [Option.bind_some, answerOriginal]
          rw [if_neg (by omega)]

/-! ## Maps -/

/-- Original positions are told otherwise, at the same places. -/
def Retells (g : Mapping → Mapping) : Prop :=
  ∀ m, (g m).generated = m.generated ∧ (g m).original.isSome = m.original.isSome

theorem moved_original {g : Mapping → Mapping} (hg : Retells g) (hL : E.maps.Laws) (hT : E.maps.Total)
    {m m' : SourceMapJson} {raws raws' : List RawMapping}
    {u u' : Option String} {c₀ c d₀ d : BasicConsumer E} (h : Built m u c₀) (hd : Built m' u' d₀)
    (hseg : m.Segments raws) (hseg' : m'.Segments raws') {N N' : List String} (hN : m.names = some N)
    (hN' : m'.names = some N') (hrel : Rel c₀ c) (hrel' : Rel d₀ d)
    (hlen : c.getSources.length < 2147483648) (hlen' : d.getSources.length < 2147483648)
    (hfit : ∀ x ∈ raws, Fits c.getSources N 2147483648 x) (hfit' : ∀ x ∈ raws', Fits d.getSources N' 2147483648 x)
    (honce : GenOnce (raws.map (named c.getSources N))) {p : Position}
    {φ : Position → Position} {k : Int} (hc : Carries φ p k)
    (hsame : WindowMoved φ p ((raws.map (named c.getSources N)).map g) (raws'.map (named d.getSources N')))
    {b : Option Bias} (hp : 1 ≤ p.line ∧ 0 ≤ p.column)
    (hi : p.line ≤ 2147483647 ∧ p.column ≤ 2147483647)
    (hi'' : (φ p).line ≤ 2147483647 ∧ (φ p).column ≤ 2147483647) :
    (d.originalPositionFor (φ p) b).map (fun r => r.1.map stripMapping) =
      (c.originalPositionFor p b).map (fun r => r.1.map fun x => (g (stripMapping x)).moved φ) := by
  obtain ⟨M, hM, pM⟩ := ensure_segments hL h hrel hseg
  obtain ⟨Q, hQ, pQ⟩ := ensure_segments hL hd hrel' hseg'
  have hcm : c.sourceMap = m := by obtain ⟨_, _, _, _, _, _, hm, _⟩ := h.spec; exact hrel.map.trans hm
  have hdm : d.sourceMap = m' := by obtain ⟨_, _, _, _, _, _, hm, _⟩ := hd.spec; exact hrel'.map.trans hm
  have hp' := hc.valid (Position.Le.refl' p) hp
  have e1 : checkPosition p.line p.column = .ok () := by
    simp only [checkPosition]; rw [if_neg (by omega), if_neg (by omega)]
  have e2 : checkPosition (φ p).line (φ p).column = .ok () := by
    simp only [checkPosition]; rw [if_neg (by omega), if_neg (by omega)]
  have i1 : IsI32 (p.line - 1) := by unfold IsI32; omega
  have i2 : IsI32 ((φ p).line - 1) := by unfold IsI32; omega
  have u1 : asU32 (p.line - 1) = (p.line - 1).toNat := by unfold asU32; omega
  have u2 : asU32 ((φ p).line - 1) = ((φ p).line - 1).toNat := by unfold asU32; omega
  have u3 : asU32 p.column = p.column.toNat := by unfold asU32; omega
  have u4 : asU32 (φ p).column = (φ p).column.toNat := by unfold asU32; omega
  obtain ⟨⟨x, M'⟩, hx⟩ := hT.orig M (asU32 (p.line - 1)) (asU32 p.column) (b.getD .glb)
  obtain ⟨⟨y, Q'⟩, hy⟩ := hT.orig Q (asU32 ((φ p).line - 1)) (asU32 (φ p).column) (b.getD .glb)
  have nx := Nearest.congr (fun z => pM.mem_iff) (hL.orig _ _ _ _ _ _ hx)
  have ny := Nearest.congr (fun z => pQ.mem_iff) (hL.orig _ _ _ _ _ _ hy)
  have r1 := reportOriginal_named (c := c) (S := c.getSources) (N := N) rfl hlen (by rw [hcm]; exact hN) (line := p.line)
    (x := x) (fun z hz => by
      subst hz; simp only [Option.map_some, Nearest] at nx; exact hfit _ nx.1)
  have r2 := reportOriginal_named (c := d) (S := d.getSources) (N := N') rfl hlen' (by rw [hdm]; exact hN')
    (line := (φ p).line) (x := y) (fun z hz => by
      subst hz; simp only [Option.map_some, Nearest] at ny; exact hfit' _ ny.1)
  have nx' := nx.mapped (pos' := Mapping.genAt) (named c.getSources N) (fun a _ => named_genAt _ _ a)
  have ny' := ny.mapped (pos' := Mapping.genAt) (named d.getSources N') (fun a _ => named_genAt _ _ a)
  rw [u1, u3] at nx'
  rw [u2, u4] at ny'
  have hxy : ((y.map LibMapping.raw).map (named d.getSources N')).bind (answerOriginal (φ p).line) =
      (((x.map LibMapping.raw).map (named c.getSources N)).bind (answerOriginal p.line)).map fun x => (g x).moved φ := by
    cases hb : b.getD .glb with
    | glb =>
      rw [hb] at nx' ny'
      rw [nearest_glb hp.1 (named_pos _ _ _) nx', nearest_glb hp'.1 (named_pos _ _ _) ny']
      rfl
    | lub =>
      rw [hb] at nx' ny'
      have once : GenOnce ((raws.map (named c.getSources N)).map g) := by
        intro a ha b hb hab
        obtain ⟨a, ha', rfl⟩ := List.mem_map.1 ha
        obtain ⟨b, hb', rfl⟩ := List.mem_map.1 hb
        rw [honce a ha' b hb' (by rw [← (hg a).1, ← (hg b).1]; exact hab)]
      have hgen : ∀ m, (g m).genAt = m.genAt := fun m => by simp only [Mapping.genAt, (hg m).1]
      rw [nearest_moved hc hp once (fun m hm => by
        obtain ⟨a, ha, rfl⟩ := List.mem_map.1 hm
        rw [(hg a).1]; exact named_pos _ _ _ a ha) (named_pos _ _ _) hsame
        (nx'.mapped (pos' := Mapping.genAt) g fun a _ => hgen a) ny']
      generalize (x.map LibMapping.raw).map (named c.getSources N) = z
      cases z with
      | none => rfl
      | some z =>
        simp only [Option.map_some, Option.bind_some, answerOriginal, hg z]
        split <;> rfl
  rw [hxy] at r2
  simp only [originalPositionFor, e1, e2, Res.ok_bind, hM, hQ, E.cfg.arith_ok i1, E.cfg.arith_ok i2, hx, hy]
  revert r1 r2
  cases c.reportOriginal p.line x with
  | error e => intro r1; simp [Except.map] at r1
  | ok a =>
    cases d.reportOriginal (φ p).line y with
    | error e => intro _ r2; simp [Except.map] at r2
    | ok a' =>
      intro r1 r2
      simp only [Except.map, Except.ok.injEq] at r1 r2
      simp only [Res.ok_bind, Res.pure_eq, Except.map, Except.ok.injEq]
      rw [r2, ← r1, Option.map_map]
      rfl

theorem retold_original {g : Mapping → Mapping} (hg : Retells g) (hL : E.maps.Laws) (hT : E.maps.Total)
    {m m' : SourceMapJson} {raws raws' : List RawMapping}
    {u u' : Option String} {c₀ c d₀ d : BasicConsumer E} (h : Built m u c₀) (hd : Built m' u' d₀)
    (hseg : m.Segments raws) (hseg' : m'.Segments raws') {N N' : List String} (hN : m.names = some N)
    (hN' : m'.names = some N') (hrel : Rel c₀ c) (hrel' : Rel d₀ d)
    (hlen : c.getSources.length < 2147483648) (hlen' : d.getSources.length < 2147483648)
    (hfit : ∀ x ∈ raws, Fits c.getSources N 2147483648 x) (hfit' : ∀ x ∈ raws', Fits d.getSources N' 2147483648 x)
    (honce : GenOnce (raws.map (named c.getSources N))) {p : Position} {e : Nat × Nat}
    (hsame : WindowAfter p e ((raws.map (named c.getSources N)).map g) (raws'.map (named d.getSources N')))
    {b : Option Bias} (hp : 1 ≤ p.line ∧ 0 ≤ p.column)
    (hi : (p.after e).line ≤ 2147483647 ∧ (p.after e).column ≤ 2147483647) :
    (d.originalPositionFor (p.after e) b).map (fun r => r.1.map stripMapping) =
      (c.originalPositionFor p b).map (fun r => r.1.map fun x => (g (stripMapping x)).after e) :=
  moved_original hg hL hT h hd hseg hseg' hN hN' hrel hrel' hlen hlen' hfit hfit' honce (after_carries e p) hsame.moved hp
    (by
      have h1 : (p.after e).line = p.line + e.1 := rfl
      have h2 : (p.after e).column = p.column + if p.line = 1 then (e.2 : Int) else 0 := rfl
      split at h2 <;> omega) hi

theorem after_original (hL : E.maps.Laws) (hT : E.maps.Total) {m m' : SourceMapJson} {raws raws' : List RawMapping}
    {u u' : Option String} {c₀ c d₀ d : BasicConsumer E} (h : Built m u c₀) (hd : Built m' u' d₀)
    (hseg : m.Segments raws) (hseg' : m'.Segments raws') {N N' : List String} (hN : m.names = some N)
    (hN' : m'.names = some N') (hrel : Rel c₀ c) (hrel' : Rel d₀ d)
    (hlen : c.getSources.length < 2147483648) (hlen' : d.getSources.length < 2147483648)
    (hfit : ∀ x ∈ raws, Fits c.getSources N 2147483648 x) (hfit' : ∀ x ∈ raws', Fits d.getSources N' 2147483648 x)
    (honce : GenOnce (raws.map (named c.getSources N))) {p : Position} {e : Nat × Nat}
    (hsame : WindowAfter p e (raws.map (named c.getSources N)) (raws'.map (named d.getSources N')))
    {b : Option Bias} (hp : 1 ≤ p.line ∧ 0 ≤ p.column)
    (hi : (p.after e).line ≤ 2147483647 ∧ (p.after e).column ≤ 2147483647) :
    (d.originalPositionFor (p.after e) b).map (fun r => r.1.map stripMapping) =
      (c.originalPositionFor p b).map (fun r => r.1.map fun x => (stripMapping x).after e) :=
  retold_original (g := id) (fun _ => ⟨rfl, rfl⟩) hL hT h hd hseg hseg' hN hN' hrel hrel' hlen hlen' hfit hfit' honce
    (by rw [List.map_id]; exact hsame) hp hi

/-! ## Texts in sequence -/

theorem sequence_pos : ∀ {texts : List ((Nat × Nat) × List Mapping)}, (∀ t ∈ texts, InExtent t) → ∀ m ∈ sequence texts,
    1 ≤ m.generated.line ∧ 0 ≤ m.generated.column := by
  intro texts
  induction texts with
  | nil => intro _ m hm; cases hm
  | cons t rest ih =>
    intro hw m hm
    rcases List.mem_append.1 hm with hm | hm
    · exact ⟨(hw t (by simp) m hm).1, (hw t (by simp) m hm).2.1⟩
    · obtain ⟨x, hx, rfl⟩ := List.mem_map.1 hm
      exact Position.after_valid (ih (fun t ht => hw t (by simp [ht])) x hx)

/-- A position of a text is before every position of the text put after it. -/
theorem before_after {e : Nat × Nat} {p q : Position} (hp : p.line ≤ e.1 ∨ p.line = e.1 + 1 ∧ p.column < e.2)
    (hq : 1 ≤ q.line ∧ 0 ≤ q.column) : ¬ (q.after e).Le p := by
  obtain ⟨l, c⟩ := p
  obtain ⟨l', c'⟩ := q
  simp only [Position.after, Position.Le] at *
  split <;> omega

/-- From a position of a text on to the end of the next line, if that is a line of this text only, the whole has the mappings
of the text; in the last text from any position on. -/
theorem sequence_window {p : Position} {n : Nat × Nat} {ms : List Mapping} {post : List ((Nat × Nat) × List Mapping)}
    (h1 : 1 ≤ p.line ∧ 0 ≤ p.column) (h2 : p.line < n.1 ∨ post = []) : ∀ {pre : List ((Nat × Nat) × List Mapping)},
    (∀ t ∈ pre ++ (n, ms) :: post, InExtent t) → WindowAfter p (extent pre) ms (sequence (pre ++ (n, ms) :: post)) := by
  intro pre
  induction pre with
  | nil =>
    intro hw y hy hy'
    simp only [List.nil_append, sequence, extent, List.mem_append] at hy hy' ⊢
    constructor
    · rintro (h | h)
      · exact ⟨y, h, (Mapping.after_zero y).symm⟩
      · obtain ⟨x, hx, rfl⟩ := List.mem_map.1 h
        rcases h2 with h2 | rfl
        · have := (sequence_pos (fun t ht => hw t (by simp [ht])) x hx).1
          simp only [Mapping.after, Position.after] at hy'
          omega
        · cases hx
    · rintro ⟨x, hx, rfl⟩
      rw [Mapping.after_zero]
      exact .inl hx
  | cons t pre ih =>
    intro hw y hy hy'
    obtain ⟨n₀, ms₀⟩ := t
    have hpos : ∀ m ∈ sequence (pre ++ (n, ms) :: post), 1 ≤ m.generated.line ∧ 0 ≤ m.generated.column :=
      sequence_pos fun t ht => hw t (by simp only [List.cons_append, List.mem_cons]; exact .inr ht)
    have hms := hw (n, ms) (by simp)
    have hih := ih (fun t ht => hw t (by simp only [List.cons_append, List.mem_cons]; exact .inr ht))
    have e1 : (extent ((n₀, ms₀) :: pre)).1 = n₀.1 + (extent pre).1 := rfl
    rw [e1] at hy'
    simp only [List.cons_append, sequence, List.mem_append]
    simp only [extent] at hy ⊢
    rw [← Position.after_after h1.1] at hy
    constructor
    · rintro (h | h)
      · exact absurd hy (before_after ((hw (n₀, ms₀) (by simp) y h).2.2) (Position.after_valid h1))
      · obtain ⟨z, hz, rfl⟩ := List.mem_map.1 h
        have hy'' : z.generated.line + n₀.1 ≤ p.line + ((n₀.1 + (extent pre).1 : Nat) : Int) + 1 := hy'
        obtain ⟨x, hx, rfl⟩ := (hih z (Position.after_le.1 hy) (by omega)).1 hz
        exact ⟨x, hx, Mapping.after_after (hms x hx).1⟩
    · rintro ⟨x, hx, rfl⟩
      rw [← Mapping.after_after (hms x hx).1] at hy hy' ⊢
      have hy'' : (x.after (extent pre)).generated.line + n₀.1 ≤ p.line + ((n₀.1 + (extent pre).1 : Nat) : Int) + 1 := hy'
      exact .inr (List.mem_map.2 ⟨_, (hih _ (Position.after_le.1 hy) (by omega)).2 ⟨x, hx, rfl⟩, rfl⟩)

theorem WindowAfter.bare {p : Position} {e : Nat × Nat} {l l' : List Mapping} (h : WindowAfter p e l l') :
    WindowAfter p e (l.map Mapping.bare) (l'.map Mapping.bare) := by
  intro y h1 h2
  constructor
  · intro hy
    obtain ⟨y', hy', rfl⟩ := List.mem_map.1 hy
    obtain ⟨x, hx, rfl⟩ := (h y' h1 h2).1 hy'
    exact ⟨x.bare, List.mem_map.2 ⟨x, hx, rfl⟩, rfl⟩
  · rintro ⟨x, hx, rfl⟩
    obtain ⟨z, hz, rfl⟩ := List.mem_map.1 hx
    exact List.mem_map.2 ⟨z.after e, (h (z.after e) h1 h2).2 ⟨z, hz, rfl⟩, rfl⟩

/-- The window of what consumers are told. -/
theorem told_window {root u : Option String} {e : Nat × Nat} {p : Position} {ms ms' all L L' : List Mapping}
    (hwin : WindowAfter p e ms all) (hsame : ∀ x, x ∈ ms'.map Mapping.bare ↔ x ∈ all.map Mapping.bare)
    (hmem : ∀ y, y ∈ L ↔ ∃ m ∈ ms, y = told E root u m) (hmem' : ∀ y, y ∈ L' ↔ ∃ m ∈ ms', y = told E root u m) :
    WindowAfter p e L L' := by
  have hwin := hwin.bare
  intro y h1 h2
  rw [hmem']
  constructor
  · rintro ⟨m', hm', rfl⟩
    obtain ⟨x, hx, he⟩ := (hwin m'.bare h1 h2).1 ((hsame _).1 (List.mem_map.2 ⟨m', hm', rfl⟩))
    obtain ⟨m, hm, rfl⟩ := List.mem_map.1 hx
    exact ⟨told E root u m, (hmem _).2 ⟨m, hm, rfl⟩, by rw [← told_bare, he]; rfl⟩
  · rintro ⟨x, hx, rfl⟩
    obtain ⟨m, hm, rfl⟩ := (hmem x).1 hx
    obtain ⟨m', hm', he⟩ := List.mem_map.1 ((hsame _).2 ((hwin (m.bare.after e) h1 h2).2
      ⟨m.bare, List.mem_map.2 ⟨m, hm, rfl⟩, rfl⟩))
    exact ⟨m', hm', by rw [← told_bare E root u m', he]; rfl⟩

theorem told_once {root u : Option String} {ms L : List Mapping} (honce : GenOnce (ms.map Mapping.bare))
    (hmem : ∀ y, y ∈ L ↔ ∃ m ∈ ms, y = told E root u m) : GenOnce L := by
  intro a ha b hb hab
  obtain ⟨x, hx, rfl⟩ := (hmem a).1 ha
  obtain ⟨y, hy, rfl⟩ := (hmem b).1 hb
  have := honce _ (List.mem_map.2 ⟨x, hx, rfl⟩) _ (List.mem_map.2 ⟨y, hy, rfl⟩) hab
  rw [← told_bare, this, told_bare]

/-- C131: let a generator be given the mappings of several texts put one right after the other, in any order and as often as
one likes, with other calls between, and another one those of one of the texts alone. Asked at a position of that text the next
line of which ends within the text (at any position, if it is the last text), a consumer of the first answers like a consumer
of the second asked at that position of the text alone, with the generated position moved to the place of the text. -/
theorem C131_original (hJ : E.json.Laws) (hL : E.maps.Laws) (hT : E.maps.Total) (file file' root : Option String)
    (skip skip' : Bool) (gops gops' : List GOp) (g g₁ g' g₁' : Generator)
    (hf : Fine E.cfg (gAdded gops)) (hf' : Fine E.cfg (gAdded gops'))
    {pre post : List ((Nat × Nat) × List Mapping)} {n : Nat × Nat}
    (hwithin : ∀ t ∈ pre ++ (n, gAdded gops) :: post, InExtent t)
    (hsame : ∀ x, x ∈ (gAdded gops').map Mapping.bare ↔
      x ∈ (sequence (pre ++ (n, gAdded gops) :: post)).map Mapping.bare)
    (honce : GenOnce ((gAdded gops).map Mapping.bare))
    (hg : (Generator.new file root skip).run E.url E.cfg gops = .ok g)
    (hg' : (Generator.new file' root skip').run E.url E.cfg gops' = .ok g') {u : Option String}
    {c₀ c d₀ d : BasicConsumer E} (hc : BasicConsumer.fromSourceMap g u = .ok (c₀, g₁))
    (hd : BasicConsumer.fromSourceMap g' u = .ok (d₀, g₁')) {ops ops' : List Op} (hrun : c₀.run ops = .ok c)
    (hrun' : d₀.run ops' = .ok d) {p : Position} {b : Option Bias} (hp : 1 ≤ p.line ∧ 0 ≤ p.column)
    (hi : (p.after (extent pre)).line ≤ 2147483647 ∧ (p.after (extent pre)).column ≤ 2147483647)
    (hlast : p.line < n.1 ∨ post = []) :
    (d.originalPositionFor (p.after (extent pre)) b).map (fun r => r.1.map stripMapping) =
      (c.originalPositionFor p b).map (fun r => r.1.map fun x => (stripMapping x).after (extent pre)) := by
  obtain ⟨j, raws, N, hb, hseg, hnam, hlen, hfit, hmem⟩ :=
    generator_told hJ file root skip gops g g₁ hf.enc hf.sources hf.names hg hc
  obtain ⟨j', raws', N', hb', hseg', hnam', hlen', hfit', hmem'⟩ :=
    generator_told hJ file' root skip' gops' g' g₁' hf'.enc hf'.sources hf'.names hg' hd
  have hst := C28_sources_stable hL hb hrun
  have hst' := C28_sources_stable hL hb' hrun'
  refine after_original hL hT hb hb' hseg hseg' hnam hnam' (hb.rel.run hL hrun) (hb'.rel.run hL hrun')
    (by rw [hst]; exact hlen) (by rw [hst']; exact hlen')
    (by rw [hst]; exact hfit) (by rw [hst']; exact hfit') ?_ ?_ hp hi
  · rw [hst]
    exact told_once honce hmem
  · rw [hst, hst']
    exact told_window (sequence_window hp hlast hwithin) hsame hmem hmem'

/-! ## Visiting -/

theorem told_after (E : Env) (root u : Option String) (e : Nat × Nat) (m : Mapping) :
    told E root u (m.after e) = (told E root u m).after e := rfl

theorem after_posLT {e : Nat × Nat} {a b : Mapping} (h : posLT a b) : posLT (a.after e) (b.after e) := by
  have h1 : a.generated.Le b.generated := by
    have := h.1
    simp only [posLE] at this
    unfold Position.Le
    omega
  have h2 := (Position.after_le (e := e)).2 h1
  refine ⟨?_, fun he => h.2 (h1.antisymm' ((Position.after_le (e := e)).1 ?_))⟩
  · unfold Position.Le at h2
    simp only [posLE, Mapping.after]
    omega
  · simp only [Mapping.after] at he
    rw [he]
    exact .inr ⟨rfl, Int.le_refl _⟩

theorem sequence_visits {root u : Option String} : ∀ {texts : List ((Nat × Nat) × List Mapping)} {vs : List (List Mapping)},
    (∀ t ∈ texts, InExtent t) →
    List.Forall₂ (fun t v => v.Pairwise posLT ∧ ∀ y, y ∈ v ↔ ∃ m ∈ t.2, y = told E root u m) texts vs →
    (sequence ((texts.map Prod.fst).zip vs)).Pairwise posLT ∧
      ∀ y, y ∈ sequence ((texts.map Prod.fst).zip vs) ↔ ∃ m ∈ sequence texts, y = told E root u m := by
  intro texts vs hin h
  induction h with
  | nil => exact ⟨.nil, fun y => by simp [sequence]⟩
  | @cons t v texts vs ht h ih =>
    obtain ⟨n, ms⟩ := t
    obtain ⟨i1, i2⟩ := ih fun t ht => hin t (by simp [ht])
    simp only [List.map_cons, List.zip_cons_cons, sequence]
    refine ⟨List.pairwise_append.2 ⟨ht.1, ?_, ?_⟩, ?_⟩
    · exact List.pairwise_map.2 (i1.imp after_posLT)
    · intro a ha b hb
      obtain ⟨x, hx, rfl⟩ := (ht.2 a).1 ha
      obtain ⟨b', hb', rfl⟩ := List.mem_map.1 hb
      obtain ⟨y, hy, rfl⟩ := (i2 b').1 hb'
      have h1 := (hin (n, ms) (by simp) x hx).2.2
      have h2 := sequence_pos (fun t ht => hin t (by simp [ht])) y hy
      have h3 : ¬ (y.generated.after n).Le x.generated := before_after h1 h2
      have e1 : (told E root u x).generated = x.generated := rfl
      have e2 : ((told E root u y).after n).generated = y.generated.after n := rfl
      refine ⟨?_, fun e => h3 ?_⟩
      · unfold Position.Le at h3
        simp only [posLE, e1, e2]
        omega
      · rw [← e2, ← e, e1]
        exact .inr ⟨rfl, Int.le_refl _⟩
    · intro y
      simp only [List.mem_append, List.mem_map]
      constructor
      · rintro (h1 | ⟨z, h1, rfl⟩)
        · obtain ⟨m, hm, rfl⟩ := (ht.2 y).1 h1
          exact ⟨m, .inl hm, rfl⟩
        · obtain ⟨m, hm, rfl⟩ := (i2 z).1 h1
          exact ⟨m.after n, .inr ⟨m, hm, rfl⟩, rfl⟩
      · rintro ⟨m, h1 | ⟨z, h1, rfl⟩, rfl⟩
        · exact .inl ((ht.2 _).2 ⟨m, h1, rfl⟩)
        · exact .inr ⟨told E root u z, (i2 _).2 ⟨z, h1, rfl⟩, rfl⟩

/-- C131, visiting: a consumer of the generator that was given the mappings of all the texts visits what consumers of the
generators of the texts visit, text after text, moved to the places of the texts. -/
theorem C131_visits (hJ : E.json.Laws) (hL : E.maps.Laws) {root u : Option String} {texts : List ((Nat × Nat) × List GOp)}
    {vs : List (List Mapping)} {gops : List GOp} {v : List Mapping} (hin : ∀ t ∈ texts, InExtent (t.1, gAdded t.2))
    (hfine : ∀ t ∈ texts, Fine E.cfg (gAdded t.2)) (hf : Fine E.cfg (gAdded gops))
    (hsame : ∀ x, x ∈ (gAdded gops).map Mapping.bare ↔
      x ∈ (sequence (texts.map fun t => (t.1, gAdded t.2))).map Mapping.bare)
    (hvs : List.Forall₂ (fun t v => Visited E root u t.2 v) texts vs) (hv : Visited E root u gops v) :
    v = sequence ((texts.map Prod.fst).zip vs) := by
  obtain ⟨h1, h2⟩ := hv.list hJ hL hf
  have key : List.Forall₂ (fun t v => v.Pairwise posLT ∧ ∀ y, y ∈ v ↔ ∃ m ∈ t.2, y = told E root u m)
      (texts.map fun t => (t.1, gAdded t.2)) vs := by
    clear hsame hin hv h1 h2 hf
    induction hvs with
    | nil => exact .nil
    | cons ht _ ih => exact .cons (ht.list hJ hL (hfine _ (by simp))) (ih fun t ht => hfine t (by simp [ht]))
  obtain ⟨k1, k2⟩ := sequence_visits (fun t ht => by
    obtain ⟨q, hq, rfl⟩ := List.mem_map.1 ht
    exact hin q hq) key
  have e : (texts.map fun t => (t.1, gAdded t.2)).map Prod.fst = texts.map Prod.fst := by simp
  rw [e] at k1 k2
  refine sorted_ext h1 k1 fun y => ?_
  rw [h2, k2]
  constructor
  · rintro ⟨m, hm, rfl⟩
    obtain ⟨m', hm', he⟩ := List.mem_map.1 ((hsame m.bare).1 (List.mem_map.2 ⟨m, hm, rfl⟩))
    exact ⟨m', hm', by rw [← told_bare, ← he, told_bare]⟩
  · rintro ⟨m, hm, rfl⟩
    obtain ⟨m', hm', he⟩ := List.mem_map.1 ((hsame m.bare).2 (List.mem_map.2 ⟨m, hm, rfl⟩))
    exact ⟨m', hm', by rw [← told_bare, ← he, told_bare]⟩

/-! ## Asking back -/

theorem moved_origAt (φ : Position → Position) (m : Mapping) : (m.moved φ).origAt = m.origAt := rfl

theorem moved_generated (hL : E.maps.Laws) {m m' : SourceMapJson} {raws raws' : List RawMapping}
    {u u' : Option String} {c₀ c d₀ d : BasicConsumer E} (h : Built m u c₀) (hd : Built m' u' d₀)
    (hseg : m.Segments raws) (hseg' : m'.Segments raws') {N N' : List String}
    {ops ops' : List Op} (hrun : c₀.run ops = .ok c) (hrun' : d₀.run ops' = .ok d)
    (hlen : c.getSources.length < 2147483648) (hlen' : d.getSources.length < 2147483648)
    (hfit : ∀ x ∈ raws, Fits c.getSources N 2147483648 x) (hfit' : ∀ x ∈ raws', Fits d.getSources N' 2147483648 x)
    (honce : OrigOnce (raws.map (named c.getSources N))) (hnd : c.getSources.Nodup) (hnd' : d.getSources.Nodup)
    {s t : String} {n n' : Nat} (hs : c.Knows s n) (hs' : d.Knows s n') (ht : c.getSources[n]? = some t)
    (ht' : d.getSources[n']? = some t) {φ : Position → Position}
    (hsame : ∀ y : Mapping, y.source = some t →
      (y ∈ raws'.map (named d.getSources N') ↔ ∃ x ∈ raws.map (named c.getSources N), y = x.moved φ))
    {l col : Int} {b : Option Bias} (hp : IsI32 l ∧ IsI32 col) {r r' : Option Mapping} {c' d' : BasicConsumer E}
    (hr : c.generatedPositionFor s l col b = .ok (r, c')) (hr' : d.generatedPositionFor s l col b = .ok (r', d')) :
    r'.map Mapping.unnamed = r.map fun x => x.unnamed.moved φ := by
  obtain ⟨_, _, x, nx, hx⟩ := generated_report (hL := hL) h hrun hseg hlen hs hp hr
  obtain ⟨_, _, y, ny, hy⟩ := generated_report (hL := hL) hd hrun' hseg' hlen' hs' hp hr'
  have memc := mem_named_filter (S := c.getSources) (N := N) hfit hnd ht
  have memd := mem_named_filter (S := d.getSources) (N := N') hfit' hnd' ht'
  have nx' := (nx.mapped (pos' := Mapping.origAt) (named c.getSources N) (fun a _ => named_origAt _ _ a)).mapped
    (pos' := Mapping.origAt) (Mapping.moved φ) (fun a _ => rfl)
  have ny' := Nearest.congr (l' := ((raws.filter (·.fromSource n)).map (named c.getSources N)).map (Mapping.moved φ))
    (fun z => by
      rw [memd]
      constructor
      · rintro ⟨h1, h2⟩
        obtain ⟨w, h3, rfl⟩ := (hsame z h2).1 h1
        exact List.mem_map.2 ⟨w, (memc w).2 ⟨h3, h2⟩, rfl⟩
      · intro hz
        obtain ⟨w, h1, rfl⟩ := List.mem_map.1 hz
        obtain ⟨h2, h3⟩ := (memc w).1 h1
        exact ⟨(hsame (w.moved φ) h3).2 ⟨w, h2, rfl⟩, h3⟩)
    (ny.mapped (pos' := Mapping.origAt) (named d.getSources N') (fun a _ => named_origAt _ _ a))
  have hxy := Nearest.unique (fun a ha b hb hab => by
    obtain ⟨a0, ha0, rfl⟩ := List.mem_map.1 ha
    obtain ⟨b0, hb0, rfl⟩ := List.mem_map.1 hb
    rw [moved_origAt, moved_origAt] at hab
    have a1 := (memc a0).1 ha0
    have b1 := (memc b0).1 hb0
    obtain ⟨a', a2, rfl⟩ := List.mem_map.1 ha0
    obtain ⟨b', b2, rfl⟩ := List.mem_map.1 hb0
    have fa := (List.mem_filter.1 a2).2
    have fb := (List.mem_filter.1 b2).2
    congr 1
    refine honce _ a1.1 _ b1.1 ?_ (a1.2.trans b1.2.symm) ?_
    · obtain ⟨_, _, o⟩ := a'
      cases o with
      | none => simp [RawMapping.fromSource] at fa
      | some o => rfl
    · rw [named_origAt, named_origAt] at hab
      obtain ⟨_, _, o⟩ := a'
      obtain ⟨_, _, o'⟩ := b'
      cases o with
      | none => simp [RawMapping.fromSource] at fa
      | some o =>
        cases o' with
        | none => simp [RawMapping.fromSource] at fb
        | some o' =>
          simp only [RawMapping.origPos, Prod.mk.injEq] at hab
          simp only [named, Option.map_some, hab.1, hab.2]) ny' nx'
  have r1 := reportGenerated_named (c := c) (S := c.getSources) (N := N) rfl hlen (fun z hz => by
    subst hz
    simp only [Option.map_some, Nearest] at nx
    obtain ⟨m1, m2⟩ := List.mem_filter.1 nx.1
    exact ⟨hfit _ m1, m2⟩) hx
  have r2 := reportGenerated_named (c := d) (S := d.getSources) (N := N') rfl hlen' (fun z hz => by
    subst hz
    simp only [Option.map_some, Nearest] at ny
    obtain ⟨m1, m2⟩ := List.mem_filter.1 ny.1
    exact ⟨hfit' _ m1, m2⟩) hy
  rw [r2, hxy, show (r.map fun x => x.unnamed.moved φ) = (r.map Mapping.unnamed).map (Mapping.moved φ) by
    rw [Option.map_map]; rfl, r1]
  cases (x.map LibMapping.raw).map (named c.getSources N) <;> rfl

theorem after_generated (hL : E.maps.Laws) {m m' : SourceMapJson} {raws raws' : List RawMapping}
    {u u' : Option String} {c₀ c d₀ d : BasicConsumer E} (h : Built m u c₀) (hd : Built m' u' d₀)
    (hseg : m.Segments raws) (hseg' : m'.Segments raws') {N N' : List String}
    {ops ops' : List Op} (hrun : c₀.run ops = .ok c) (hrun' : d₀.run ops' = .ok d)
    (hlen : c.getSources.length < 2147483648) (hlen' : d.getSources.length < 2147483648)
    (hfit : ∀ x ∈ raws, Fits c.getSources N 2147483648 x) (hfit' : ∀ x ∈ raws', Fits d.getSources N' 2147483648 x)
    (honce : OrigOnce (raws.map (named c.getSources N))) (hnd : c.getSources.Nodup) (hnd' : d.getSources.Nodup)
    {s t : String} {n n' : Nat} (hs : c.Knows s n) (hs' : d.Knows s n') (ht : c.getSources[n]? = some t)
    (ht' : d.getSources[n']? = some t) {e : Nat × Nat}
    (hsame : ∀ y : Mapping, y.source = some t →
      (y ∈ raws'.map (named d.getSources N') ↔ ∃ x ∈ raws.map (named c.getSources N), y = x.after e))
    {l col : Int} {b : Option Bias} (hp : IsI32 l ∧ IsI32 col) {r r' : Option Mapping} {c' d' : BasicConsumer E}
    (hr : c.generatedPositionFor s l col b = .ok (r, c')) (hr' : d.generatedPositionFor s l col b = .ok (r', d')) :
    r'.map Mapping.unnamed = r.map fun x => x.unnamed.after e :=
  moved_generated hL h hd hseg hseg' hrun hrun' hlen hlen' hfit hfit' honce hnd hnd' hs hs' ht ht' hsame hp hr hr'

theorem sequence_append : ∀ {a b : List ((Nat × Nat) × List Mapping)}, (∀ t ∈ a ++ b, InExtent t) →
    sequence (a ++ b) = sequence a ++ (sequence b).map (Mapping.after (extent a)) := by
  intro a
  induction a with
  | nil =>
    intro b _
    have : (fun m : Mapping => m.after (0, 0)) = id := funext Mapping.after_zero
    simp [sequence, extent, this]
  | cons t a ih =>
    intro b hin
    obtain ⟨n, ms⟩ := t
    simp only [List.cons_append, sequence, extent, ih fun t ht => hin t (by simp only [List.cons_append, List.mem_cons]; exact .inr ht),
      List.map_append, List.map_map, List.append_assoc]
    congr 2
    refine List.map_congr_left fun m hm => ?_
    have := sequence_pos (fun t ht => hin t (by simp [ht])) m hm
    simp only [Function.comp, Mapping.after_after this.1]

theorem sequence_source : ∀ {texts : List ((Nat × Nat) × List Mapping)} {m : Mapping}, m ∈ sequence texts →
    ∃ q ∈ texts, ∃ x ∈ q.2, m.source = x.source := by
  intro texts
  induction texts with
  | nil => intro m hm; cases hm
  | cons t rest ih =>
    intro m hm
    rcases List.mem_append.1 hm with hm | hm
    · exact ⟨t, by simp, m, hm, rfl⟩
    · obtain ⟨z, hz, rfl⟩ := List.mem_map.1 hm
      obtain ⟨q, h1, x, h2, h3⟩ := ih hz
      exact ⟨q, by simp [h1], x, h2, h3⟩

/-- C131, asking back: if a source is used by one of the texts only, `generated_position_for` of a consumer of the whole answers
for it as a consumer of the map of the text alone, with the generated position moved to the place of the text, apart from the
name (C34). -/
theorem C131_generated (hJ : E.json.Laws) (hL : E.maps.Laws) (file file' root : Option String)
    (skip skip' : Bool) (gops gops' : List GOp) (g g₁ g' g₁' : Generator)
    (hf : Fine E.cfg (gAdded gops)) (hf' : Fine E.cfg (gAdded gops'))
    {pre post : List ((Nat × Nat) × List Mapping)} {n : Nat × Nat}
    (hwithin : ∀ t ∈ pre ++ (n, gAdded gops) :: post, InExtent t)
    (hsame : ∀ x, x ∈ (gAdded gops').map Mapping.bare ↔ x ∈ (sequence (pre ++ (n, gAdded gops) :: post)).map Mapping.bare)
    (hg : (Generator.new file root skip).run E.url E.cfg gops = .ok g)
    (hg' : (Generator.new file' root skip').run E.url E.cfg gops' = .ok g') {u : Option String}
    {c₀ c d₀ d : BasicConsumer E} (hc : BasicConsumer.fromSourceMap g u = .ok (c₀, g₁))
    (hd : BasicConsumer.fromSourceMap g' u = .ok (d₀, g₁')) {ops ops' : List Op} (hrun : c₀.run ops = .ok c)
    (hrun' : d₀.run ops' = .ok d) (honce : OrigOnce ((gAdded gops).map (told E root u)))
    (hnd : c.getSources.Nodup) (hnd' : d.getSources.Nodup)
    {s t : String} {i i' : Nat} (hs : c.Knows s i) (hs' : d.Knows s i') (ht : c.getSources[i]? = some t)
    (ht' : d.getSources[i']? = some t)
    (halone : ∀ q ∈ pre ++ post, ∀ m ∈ q.2, ∀ src, m.source = some src → sourceUrl E root src u ≠ .ok t)
    {l col : Int} {b : Option Bias} (hp : IsI32 l ∧ IsI32 col) {r r' : Option Mapping} {c' d' : BasicConsumer E}
    (hr : c.generatedPositionFor s l col b = .ok (r, c')) (hr' : d.generatedPositionFor s l col b = .ok (r', d')) :
    r'.map Mapping.unnamed = r.map fun x => x.unnamed.after (extent pre) := by
  obtain ⟨j, raws, N, hb, hseg, hnam, hlen, hfit, hmem⟩ := generator_told hJ file root skip gops g g₁ hf.enc hf.sources hf.names hg hc
  obtain ⟨j', raws', N', hb', hseg', hnam', hlen', hfit', hmem'⟩ :=
    generator_told hJ file' root skip' gops' g' g₁' hf'.enc hf'.sources hf'.names hg' hd
  have hst := C28_sources_stable hL hb hrun
  have hst' := C28_sources_stable hL hb' hrun'
  refine after_generated hL hb hb' hseg hseg' hrun hrun' (by rw [hst]; exact hlen) (by rw [hst']; exact hlen')
    (by rw [hst]; exact hfit) (by rw [hst']; exact hfit') ?_ hnd hnd' hs hs' ht ht' ?_ hp hr hr'
  · rw [hst]
    intro a ha b hb
    obtain ⟨x, hx, rfl⟩ := (hmem a).1 ha
    obtain ⟨y, hy, rfl⟩ := (hmem b).1 hb
    exact honce _ (List.mem_map.2 ⟨x, hx, rfl⟩) _ (List.mem_map.2 ⟨y, hy, rfl⟩)
  · rw [hst, hst']
    intro y hy
    rw [hmem']
    have hnot : ∀ m q, q ∈ pre ++ post → ∀ x ∈ q.2, m.source = x.source → (told E root u m).source ≠ some t := by
      intro m q hq x hx e h
      simp only [told] at h
      obtain ⟨src, h1, h2⟩ := Option.bind_eq_some_iff.1 h
      refine halone q hq x hx src (by rw [← e]; exact h1) ?_
      cases hres : sourceUrl E root src u with
      | error e => rw [hres] at h2; cases h2
      | ok a => rw [hres] at h2; cases h2; rfl
    constructor
    · rintro ⟨m', hm', rfl⟩
      obtain ⟨m, hm, he⟩ := List.mem_map.1 ((hsame m'.bare).1 (List.mem_map.2 ⟨m', hm', rfl⟩))
      rw [← told_bare, ← he, told_bare] at hy ⊢
      rw [sequence_append hwithin] at hm
      rcases List.mem_append.1 hm with hm | hm
      · obtain ⟨q, h1, x, h2, h3⟩ := sequence_source hm
        exact absurd hy (hnot m q (by simp [h1]) x h2 h3)
      · obtain ⟨z, hz, rfl⟩ := List.mem_map.1 hm
        rcases List.mem_append.1 hz with hz | hz
        · exact ⟨told E root u z, (hmem _).2 ⟨z, hz, rfl⟩, rfl⟩
        · obtain ⟨w, hw, rfl⟩ := List.mem_map.1 hz
          obtain ⟨q, h1, x, h2, h3⟩ := sequence_source hw
          exact absurd hy (hnot _ q (by simp [h1]) x h2 h3)
    · rintro ⟨x, hx, rfl⟩
      obtain ⟨m, hm, rfl⟩ := (hmem x).1 hx
      have : m.after (extent pre) ∈ sequence (pre ++ (n, gAdded gops) :: post) := by
        rw [sequence_append hwithin]
        exact List.mem_append.2 (.inr (List.mem_map.2 ⟨m, List.mem_append.2 (.inl hm), rfl⟩))
      obtain ⟨m', hm', he⟩ := List.mem_map.1 ((hsame _).2 (List.mem_map.2 ⟨_, this, rfl⟩))
      exact ⟨m', hm', by rw [← told_bare E root u m', he]; rfl⟩

/-! ## The indexed map of the texts -/

/-- The parts begin one right after the other, from `k` on (line and column counted from 0), none empty; of each the extent of its
text is given. -/
def Placed : Nat × Nat → List ((Nat × Nat) × Part) → Prop
  | _, [] => True
  | k, (e, p) :: rest => p.offset = ⟨k.1, k.2⟩ ∧ e ≠ (0, 0) ∧ Placed (extentPlus k e) rest

/-- The texts with their mappings. -/
def textsAt (texts : List ((Nat × Nat) × Part)) : List ((Nat × Nat) × List Mapping) :=
  texts.map fun t => (t.1, gAdded t.2.ops)

theorem extentPlus_assoc (a b c : Nat × Nat) : extentPlus (extentPlus a b) c = extentPlus a (extentPlus b c) := by
  obtain ⟨a1, a2⟩ := a
  obtain ⟨b1, b2⟩ := b
  obtain ⟨c1, c2⟩ := c
  simp only [extentPlus, Prod.mk.injEq]
  refine ⟨by omega, ?_⟩
  by_cases hc : c1 = 0
  · by_cases hb : b1 = 0
    · simp [hc, hb]; omega
    · simp [hc, hb]
  · simp [hc]

theorem extentPlus_zero (a : Nat × Nat) : extentPlus a (0, 0) = a := by simp [extentPlus]

theorem zero_extentPlus (a : Nat × Nat) : extentPlus (0, 0) a = a := by
  obtain ⟨a1, a2⟩ := a
  simp [extentPlus]

theorem extentPlus_le (a b : Nat × Nat) : (Position.mk a.1 a.2).Le ⟨(extentPlus a b).1, (extentPlus a b).2⟩ := by
  simp only [extentPlus, Position.Le]
  split <;> omega

theorem extentPlus_lt (a : Nat × Nat) {b : Nat × Nat} (h : b ≠ (0, 0)) :
    (Position.mk a.1 a.2).Lt ⟨(extentPlus a b).1, (extentPlus a b).2⟩ := by
  obtain ⟨b1, b2⟩ := b
  have : b1 ≠ 0 ∨ b2 ≠ 0 := by
    by_cases h1 : b1 = 0
    · refine .inr fun h2 => h (by rw [h1, h2])
    · exact .inl h1
  simp only [extentPlus, Position.Lt]
  split <;> omega

theorem Placed.at : ∀ {pre post : List ((Nat × Nat) × Part)} {t : (Nat × Nat) × Part} {k : Nat × Nat},
    Placed k (pre ++ t :: post) →
    t.2.offset = ⟨(extentPlus k (extent (textsAt pre))).1, (extentPlus k (extent (textsAt pre))).2⟩ ∧
    (∀ q ∈ pre, q.2.offset.Lt t.2.offset) ∧ Placed (extentPlus (extentPlus k (extent (textsAt pre))) t.1) post := by
  intro pre
  induction pre with
  | nil =>
    intro post t k h
    obtain ⟨e, p⟩ := t
    obtain ⟨h1, _, h3⟩ := h
    simp only [textsAt, List.map_nil, extent, extentPlus_zero]
    exact ⟨h1, by simp, h3⟩
  | cons q pre ih =>
    intro post t k h
    obtain ⟨e, p⟩ := q
    obtain ⟨h1, h2, h3⟩ := h
    obtain ⟨g1, g2, g3⟩ := ih h3
    have hx : extentPlus k (extent (textsAt ((e, p) :: pre))) = extentPlus (extentPlus k e) (extent (textsAt pre)) := by
      simp only [textsAt, List.map_cons, extent, extentPlus_assoc]
    rw [hx]
    refine ⟨g1, ?_, g3⟩
    intro r hr
    rcases List.mem_cons.1 hr with rfl | hr
    · have a1 := extentPlus_lt k h2
      have a2 := extentPlus_le (extentPlus k e) (extent (textsAt pre))
      dsimp only
      rw [h1, g1]
      unfold Position.Lt Position.Le at *
      dsimp only at *
      omega
    · exact g2 r hr

theorem Placed.below : ∀ {texts : List ((Nat × Nat) × Part)} {k : Nat × Nat}, Placed k texts → ∀ q ∈ texts,
    (Position.mk k.1 k.2).Le q.2.offset := by
  intro texts
  induction texts with
  | nil => intro k _ q hq; cases hq
  | cons t rest ih =>
    intro k h q hq
    obtain ⟨e, p⟩ := t
    obtain ⟨h1, _, h3⟩ := h
    rcases List.mem_cons.1 hq with rfl | hq
    · rw [h1]; exact .inr ⟨rfl, Int.le_refl _⟩
    · have a1 := ih h3 q hq
      have a2 := extentPlus_le k e
      unfold Position.Le at *
      dsimp only at *
      omega

theorem Placed.sorted : ∀ {texts : List ((Nat × Nat) × Part)} {k : Nat × Nat}, Placed k texts →
    (texts.map fun t => t.2.offset).Pairwise Position.Le := by
  intro texts
  induction texts with
  | nil => intro k _; exact .nil
  | cons t rest ih =>
    intro k h
    obtain ⟨e, p⟩ := t
    obtain ⟨h1, h2, h3⟩ := h
    refine .cons ?_ (ih h3)
    intro o ho
    obtain ⟨q, hq, rfl⟩ := List.mem_map.1 ho
    have a1 := h3.below q hq
    have a2 := extentPlus_le k e
    dsimp only
    rw [h1]
    unfold Position.Le at *
    dsimp only at *
    omega

/-- The section of a text is the one that is asked, for its positions other than the first, those on its last line left out. -/
theorem placed_answers {pre post : List ((Nat × Nat) × Part)} {t : (Nat × Nat) × Part} {js : List SourceMapJson}
    (hst : Placed (0, 0) (pre ++ t :: post))
    (hw : List.Forall₂ (Part.Writes E) ((pre ++ t :: post).map Prod.snd) js) {p : Position}
    (hp : 1 ≤ p.line ∧ 0 ≤ p.column) (hlast : p.line ≤ t.1.1 ∨ post = []) (hfirst : 1 < p.line ∨ 0 < p.column) :
    ∃ j, Part.Writes E t.2 j ∧
      Answers (bundleSections ((pre ++ t :: post).map Prod.snd) js) (p.after (extent (textsAt pre))) pre.length
        ⟨t.2.offset, j, none⟩ := by
  have hoff := bundle_offsets hw
  rw [List.map_append, List.map_cons] at hw
  obtain ⟨j₁, j, j₂, _, g1, g2, g3⟩ := bundle_split hw
  obtain ⟨a1, a3, a4⟩ := hst.at
  have a5 := a4.below
  rw [zero_extentPlus] at a1 a5
  have hlen := bundle_length g1
  rw [List.length_map] at hlen
  have hget : ∀ (i : Nat) (x : JsonSection SourceMapJson),
      (bundleSections ((pre ++ t :: post).map Prod.snd) js)[i]? = some x →
      ∃ q, (pre ++ t :: post)[i]? = some q ∧ x.offset = q.2.offset := by
    intro i x hx
    have := congrArg (·[i]?) hoff
    simp only [List.getElem?_map, hx, Option.map_some, Option.map_map] at this
    cases hq : (pre ++ t :: post)[i]? with
    | none => rw [hq] at this; cases this
    | some q => rw [hq] at this; simp only [Option.map_some, Option.some.injEq, Function.comp] at this; exact ⟨q, rfl, this⟩
  refine ⟨j, g2, ?_, ?_, ?_, ?_⟩
  · rw [List.map_append, List.map_cons, g3, List.getElem?_append_right (by rw [hlen]), hlen]
    simp
  · dsimp only
    rw [a1]
    simp only [Position.Le, Position.after]
    split <;> omega
  · intro x hx hle
    obtain ⟨i, hi⟩ := List.getElem?_of_mem hx
    obtain ⟨q, hq, hqx⟩ := hget i x hi
    dsimp only
    rw [hqx] at hle ⊢
    rcases List.mem_append.1 (List.mem_of_getElem? hq) with hq | hq
    · have := a3 q hq
      unfold Position.Lt at this
      unfold Position.Le
      omega
    · rcases List.mem_cons.1 hq with rfl | hq
      · exact .inr ⟨rfl, Int.le_refl _⟩
      · have h6 := a5 q hq
        rcases hlast with h | rfl
        · simp only [Position.Le, Position.after, extentPlus] at hle h6
          omega
        · cases hq
  · intro i x hi hx
    obtain ⟨q, hq, hqx⟩ := hget i x hi
    dsimp only at hx
    rw [hqx] at hx
    refine Classical.byContradiction fun hlt => ?_
    rw [List.getElem?_append_left (by omega)] at hq
    have := a3 q (List.mem_of_getElem? hq)
    rw [hx] at this
    unfold Position.Lt at this
    omega

/-- C131, the indexed map: let the maps that several generators wrote be the sections of an indexed map, one text right after the
other, and let one generator be given the mappings of all the texts, in any order and as often as one likes. Asked at a
position of a text the next line of which ends within the text (at any position, if it is the last text), but not at the
first position of the text, the consumer of the indexed map and that of the whole give the same answer, except that the first
gives the generated position within the text. -/
theorem C131_indexed_flat (hJ : E.json.Laws) (hL : E.maps.Laws) (hT : E.maps.Total) (hU : E.url.Laws)
    {pre post : List ((Nat × Nat) × Part)} {t : (Nat × Nat) × Part} {js : List SourceMapJson}
    (hst : Placed (0, 0) (pre ++ t :: post))
    (hin : ∀ q ∈ textsAt (pre ++ t :: post), InExtent q)
    (hgood : ∀ p ∈ (pre ++ t :: post).map Prod.snd, p.Good E)
    (hw : List.Forall₂ (Part.Writes E) ((pre ++ t :: post).map Prod.snd) js)
    (hlen : (pre ++ t :: post).length < 2147483647)
    (honce : GenOnce ((gAdded t.2.ops).map Mapping.bare))
    (file : Option String) {sch : List Nat} (hsch : IsSchedule (pre ++ t :: post).length sch) {c₀ c : IndexedConsumer E}
    (hc : createConsumer sch (toStr E.json (bundle file ((pre ++ t :: post).map Prod.snd) js)) none = .ok (some (.indexed c₀)))
    {ops : List IndexedConsumer.Op} (hrun : c₀.run ops = .ok c)
    {file' : Option String} {skip' : Bool} {gops' : List GOp} {g' g₁' : Generator} (hf' : Fine E.cfg (gAdded gops'))
    (hsame : ∀ x, x ∈ (gAdded gops').map Mapping.bare ↔ x ∈ (sequence (textsAt (pre ++ t :: post))).map Mapping.bare)
    (hg' : (Generator.new file' none skip').run E.url E.cfg gops' = .ok g')
    {d₀ d : BasicConsumer E} (hd : BasicConsumer.fromSourceMap g' none = .ok (d₀, g₁'))
    {ops' : List BasicConsumer.Op} (hrun' : d₀.run ops' = .ok d)
    {p : Position} {b : Option Bias} (hp : 1 ≤ p.line ∧ 0 ≤ p.column)
    (hi : (p.after (extent (textsAt pre))).line ≤ 2147483647 ∧ (p.after (extent (textsAt pre))).column ≤ 2147483647)
    (hlast : p.line < t.1.1 ∨ post = []) (hfirst : 1 < p.line ∨ 0 < p.column) :
    (d.originalPositionFor (p.after (extent (textsAt pre))) b).map (fun r => r.1.map stripMapping) =
      (c.originalPositionFor (p.after (extent (textsAt pre))) b).map
        (fun r => r.1.map fun x => (stripMapping x).after (extent (textsAt pre))) := by
  have hlast' : p.line ≤ t.1.1 ∨ post = [] := hlast.imp_left fun h => by omega
  obtain ⟨j, hj, hans⟩ := placed_answers hst hw hp hlast' hfirst
  have e1 := (bundle_create hJ hU hgood hw file sch c₀).1 hc
  have hslen := bundle_length hw
  rw [List.length_map] at hslen
  have hoff := (hst.at).1
  rw [zero_extentPlus] at hoff
  have hp' := Position.after_valid (e := extent (textsAt pre)) hp
  have hplain : ∀ s ∈ bundleSections ((pre ++ t :: post).map Prod.snd) js, RSM.Plain s := by
    intro s hs
    obtain ⟨p, hp, _, h2, _⟩ := mem_bundle hw hs
    have h3 := (hgood p hp).line
    have h4 := (hgood p hp).column
    unfold RSM.Plain IsI32
    rw [h2]
    omega
  have hsorted : (bundleSections ((pre ++ t :: post).map Prod.snd) js).Pairwise fun a b => a.offset.Le b.offset := by
    have := hst.sorted
    rw [← List.pairwise_map (f := fun s : JsonSection SourceMapJson => s.offset), bundle_offsets hw, List.map_map]
    exact this
  obtain ⟨k₀, k, q, b1, b2, b3, q1, q2, q3, _⟩ :=
    section_asked hL (m := bundle file ((pre ++ t :: post).map Prod.snd) js) rfl (by rw [hslen]; exact hsch) e1 hrun
      (by rw [hslen]; exact hlen) hplain hsorted (p := p.after (extent (textsAt pre)))
      ⟨hp'.1, hp'.2, by unfold IsI32; omega, by unfold IsI32; omega⟩ hans b
  dsimp only at q1 q2 q3
  rw [hoff] at q1 q2 q3
  have hq : q = p := by
    obtain ⟨ql, qc⟩ := q
    obtain ⟨pl, pc⟩ := p
    simp only [Position.after, Position.mk.injEq] at *
    refine ⟨by omega, ?_⟩
    by_cases h : pl = 1
    · have := q2 (by omega)
      rw [if_pos h] at this
      omega
    · have := q3 (by omega)
      rw [if_neg h] at this
      omega
  subst hq
  have hgt := hgood t.2 (List.mem_map.2 ⟨t, by simp, rfl⟩)
  obtain ⟨g, g₁, hg, hgj⟩ := hj
  obtain ⟨raws, N, hseg, hnam, hlen1, hfit, hmem⟩ :=
    written_told t.2.file none t.2.skip t.2.ops g g₁ j hgt.enc hgt.few hgt.names hg hgj b1
  obtain ⟨j', raws', N', hb', hseg', hnam', hlen', hfit', hmem'⟩ :=
    generator_told hJ file' none skip' gops' g' g₁' hf'.enc hf'.sources hf'.names hg' hd
  have hst1 := b2.getSources
  have hst' := C28_sources_stable hL hb' hrun'
  have hwin : WindowAfter q (extent (textsAt pre)) (gAdded t.2.ops) (sequence (textsAt (pre ++ t :: post))) := by
    have e : textsAt (pre ++ t :: post) = textsAt pre ++ (t.1, gAdded t.2.ops) :: textsAt post := by
      simp [textsAt]
    rw [e] at hin ⊢
    exact sequence_window hp (hlast.imp_right fun h => by rw [h]; rfl) hin
  have hkey := after_original hL hT b1 hb' hseg hseg' hnam hnam' b2 (hb'.rel.run hL hrun') (by rw [hst1]; exact hlen1)
    (by rw [hst']; exact hlen') (by rw [hst1]; exact hfit) (by rw [hst']; exact hfit')
    (p := q) (e := extent (textsAt pre)) (b := b) (by rw [hst1]; exact told_once honce hmem)
    (by rw [hst1, hst']; exact told_window hwin hsame hmem hmem') hp hi
  have hmap : ∀ {α β γ : Type} (r : Res (α × β)) (f : α → γ), r.map (fun x => f x.1) = (r.map Prod.fst).map f := by
    intro α β γ r f; cases r <;> rfl
  rw [hkey, hmap (k.originalPositionFor _ b) (fun r => r.map fun x => (stripMapping x).after (extent (textsAt pre))),
    hmap (c.originalPositionFor _ b) (fun r => r.map fun x => (stripMapping x).after (extent (textsAt pre))), b3]

/-! ## A case: the texts of C116 in the other order, the second beginning in the last line of the first -/

/-- A text of two lines and eight characters, and one of two lines and five characters right after it. -/
def joinedTexts : List ((Nat × Nat) × List Mapping) := [((2, 8), lowerText), ((2, 5), upperText)]

theorem joined_fine : (∀ t ∈ joinedTexts, InExtent t) ∧ (∀ t ∈ joinedTexts, Fine demoEnv.cfg t.2) ∧
    Fine demoEnv.cfg (sequence joinedTexts) ∧ GenOnce (upperText.map Mapping.bare) ∧
    OrigOnce (upperText.map (told demoEnv none none)) ∧
    (sequence joinedTexts).map (fun m => (m.generated.line, m.generated.column)) = [(1, 2), (2, 0), (3, 7), (3, 8), (4, 4)] := by
  have e : sequence joinedTexts = lowerText ++ upperText.map (Mapping.after (2, 8)) := by simp [sequence, joinedTexts]
  have hd : ∀ m ∈ upperText.map (Mapping.after (2, 8)), m.Encodable demoEnv.cfg := by
    intro m hm
    simp only [upperText, List.map_cons, List.map_nil, List.mem_cons, List.not_mem_nil, or_false] at hm
    rcases hm with rfl | rfl <;>
      exact ⟨by decide, by decide, rfl, by simp [Cfg.vlqLimit, Mapping.after], by simp [Mapping.after]⟩
  rw [e]
  refine ⟨?_, ?_, ⟨fun m hm => (List.mem_append.1 hm).elim (upper_fine.2.1.enc m) (hd m), by decide, by decide, by decide⟩,
    by unfold GenOnce; decide, by unfold OrigOnce; decide +kernel, by decide⟩
  · intro t ht
    simp only [joinedTexts, List.mem_cons, List.not_mem_nil, or_false] at ht
    rcases ht with rfl | rfl <;> (unfold InExtent; decide)
  · intro t ht
    simp only [joinedTexts, List.mem_cons, List.not_mem_nil, or_false] at ht
    rcases ht with rfl | rfl
    · exact upper_fine.2.1
    · exact upper_fine.1

/-- Asked at (1, 1) of the second text, alone and in its place. -/
theorem C131_original_case : (⟨1, 1⟩ : Position).after (extent [((2, 8), lowerText)]) = ⟨3, 9⟩ ∧
    askAdded upperText ⟨1, 1⟩ = .ok (some ⟨⟨2, 4⟩, some ⟨3, 1⟩, some "one.js", some "n", none⟩) ∧
    askAdded (sequence joinedTexts) ⟨3, 9⟩ = .ok (some ⟨⟨4, 4⟩, some ⟨3, 1⟩, some "one.js", some "n", none⟩) := by
  refine ⟨by decide, ?_, ?_⟩ <;> decide +kernel

/-- Why the line before the last is left out: the consumer of the two texts finds there a mapping of the next one. -/
theorem C131_last_line : askAdded upperText ⟨2, 5⟩ = .ok none ∧
    askAdded (sequence [((2, 2), upperText), ((2, 8), lowerText)]) ⟨2, 5⟩ =
      .ok (some ⟨⟨3, 4⟩, some ⟨5, 0⟩, some "two.js", some "k", none⟩) := by
  constructor <;> decide +kernel

/-- Visited, and asked back for the position (1, 0) of `one.js`, alone and in its place. -/
theorem C131_visit_case : visitAdded (sequence joinedTexts) = some (sequence joinedTexts) ∧
    (askOfAdded upperText fun c => do pure ((← c.generatedPositionFor "one.js" 1 0 none).1.map Mapping.generated)) =
      .ok (some ⟨1, 0⟩) ∧
    (askOfAdded (sequence joinedTexts) fun c => do
        pure ((← c.generatedPositionFor "one.js" 1 0 none).1.map Mapping.generated)) = .ok (some ⟨3, 8⟩) := by
  refine ⟨?_, ?_, ?_⟩ <;> decide +kernel

/-- The texts as parts. -/
def placedParts : List ((Nat × Nat) × Part) :=
  [((2, 8), { offset := ⟨0, 0⟩, ops := lowerText.map .add }), ((2, 5), { offset := ⟨2, 8⟩, ops := upperText.map .add })]

theorem placed_good : Placed (0, 0) placedParts ∧ textsAt placedParts = joinedTexts ∧
    ∀ p ∈ placedParts.map Prod.snd, p.Good demoEnv := by
  have h1 : PlainUrl "one.js".toList "one.js".toList := PlainUrl.ref ⟨[], "one.js".toList⟩ ⟨by simp, by decide⟩ (by decide)
  have h2 : PlainUrl "two.js".toList "two.js".toList := PlainUrl.ref ⟨[], "two.js".toList⟩ ⟨by simp, by decide⟩ (by decide)
  refine ⟨⟨rfl, by decide, rfl, by decide, trivial⟩, by decide, ?_⟩
  have hpl : ∀ p ∈ placedParts.map Prod.snd, ∀ s ∈ p.sources, s = "one.js" ∨ s = "two.js" := by decide
  have hcount : ∀ p ∈ placedParts.map Prod.snd, (gAdded p.ops).length < 1073741824 := by decide
  intro p hp
  obtain ⟨hS, hN⟩ := tables_small (cfg := demoEnv.cfg) (ops := p.ops) (hcount p hp)
  refine ⟨?_, hS, hN, fun s hs => ?_, ?_, ?_⟩
  · simp only [placedParts, List.map_cons, List.map_nil, List.mem_cons, List.not_mem_nil, or_false] at hp
    rcases hp with rfl | rfl
    · exact upper_fine.2.1.enc
    · exact upper_fine.1.enc
  · rcases hpl p hp s hs with rfl | rfl
    · exact h1
    · exact h2
  · revert p; decide
  · revert p; decide

/-- What a consumer of the maps of these two texts, as sections, says. -/
def askPlaced (p : Position) : Res (Option Mapping) := do
  let g ← (Generator.new none none false).run demoEnv.url demoEnv.cfg (lowerText.map .add)
  let (j, _) ← g.asJson demoEnv.url demoEnv.cfg
  let g' ← (Generator.new none none false).run demoEnv.url demoEnv.cfg (upperText.map .add)
  let (j', _) ← g'.asJson demoEnv.url demoEnv.cfg
  demoAskIndexed [0, 1] { version := 3, sections := some [⟨⟨0, 0⟩, j, none⟩, ⟨⟨2, 8⟩, j', none⟩] }
    fun c => c.originalPositionFor p (some .lub)

theorem C131_indexed_case : askPlaced ⟨3, 9⟩ = .ok (some ⟨⟨2, 4⟩, some ⟨3, 1⟩, some "one.js", some "n", none⟩) := by
  decide +kernel

end RSM
