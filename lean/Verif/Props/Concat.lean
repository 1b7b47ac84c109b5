import Verif.Props.Renumber
import Verif.Props.ConsumerLocal
/-! # Property C116: a map of texts put one below the other answers like the maps of the texts -/

namespace RSM
open Spec BasicConsumer

variable {E : Env}

/-- On this line of the first list and the one after it the second list has the same mappings, `k` lines further down. -/
def WindowSame (line : Int) (k : Nat) (l l' : List Mapping) : Prop :=
  ∀ y : Mapping, line + k ≤ y.generated.line → y.generated.line ≤ line + k + 1 → (y ∈ l' ↔ ∃ x ∈ l, y = x.down k)

theorem down_genAt {m : Mapping} (k : Nat) (h : 1 ≤ m.generated.line) : (m.down k).genAt = (m.genAt.1 + k, m.genAt.2) := by
  simp only [Mapping.genAt, Mapping.down, Prod.mk.injEq, and_true]
  omega

theorem gen_eq_of_genAt {a b : Mapping} (ha : 1 ≤ a.generated.line ∧ 0 ≤ a.generated.column)
    (hb : 1 ≤ b.generated.line ∧ 0 ≤ b.generated.column) (h : a.genAt = b.genAt) : a.generated = b.generated := by
  obtain ⟨⟨al, ac⟩⟩ := a
  obtain ⟨⟨bl, bc⟩⟩ := b
  simp only [Mapping.genAt, Prod.mk.injEq] at ha hb h ⊢
  simp only [Position.mk.injEq]
  omega

/-- Two searches with the upper bias in lists that agree around the line asked for. -/
theorem nearest_window {line : Int} {k c : Nat} {l l' : List Mapping} (hline : 1 ≤ line) (honce : GenOnce l)
    (hpos : ∀ m ∈ l, 1 ≤ m.generated.line ∧ 0 ≤ m.generated.column)
    (hpos' : ∀ m ∈ l', 1 ≤ m.generated.line ∧ 0 ≤ m.generated.column) (hw : WindowSame line k l l')
    {x y : Option Mapping} (hx : Nearest Mapping.genAt l ((line - 1).toNat, c) .lub x)
    (hy : Nearest Mapping.genAt l' ((line + k - 1).toNat, c) .lub y) :
    y.bind (answerOriginal (line + k)) = (x.bind (answerOriginal line)).map (Mapping.down k) := by
  have sx := hx.side
  have sy := hy.side
  have hside : ∀ m : Mapping, OnSide .lub ((line - 1).toNat, c) m.genAt → 1 ≤ m.generated.line → line ≤ m.generated.line := by
    intro m hm h1
    simp only [OnSide, PLt, Mapping.genAt] at hm
    omega
  have hside' : ∀ m : Mapping, OnSide .lub ((line + k - 1).toNat, c) m.genAt → 1 ≤ m.generated.line →
      line + k ≤ m.generated.line := by
    intro m hm h1
    simp only [OnSide, PLt, Mapping.genAt] at hm
    omega
  have hmove : ∀ m : Mapping, 1 ≤ m.generated.line →
      (OnSide .lub ((line + k - 1).toNat, c) (m.down k).genAt ↔ OnSide .lub ((line - 1).toNat, c) m.genAt) := by
    intro m h1
    rw [down_genAt k h1]
    simp only [OnSide, PLt]
    omega
  -- a mapping found on the line after the one asked for is found in the other list as well
  have fwd : ∀ m, x = some m → m.generated.line ≤ line + 1 → y = some (m.down k) := by
    rintro m rfl hm
    obtain ⟨m1, m2, m3⟩ := sx
    have p1 := hpos m m1
    have hd : m.down k ∈ l' := (hw (m.down k) (by have := hside m m2 p1.1; simp only [Mapping.down]; omega)
      (by simp only [Mapping.down]; omega)).2 ⟨m, m1, rfl⟩
    have hds := (hmove m p1.1).2 m2
    cases y with
    | none => exact absurd hds (sy _ hd)
    | some m' =>
      obtain ⟨n1, n2, n3⟩ := sy
      have q1 := hpos' m' n1
      have hn := n3 _ hd hds
      have hle : m'.generated.line ≤ line + k + 1 := by
        simp only [NotNearer, PLt, Mapping.genAt, Mapping.down] at hn
        omega
      obtain ⟨z, z1, rfl⟩ := (hw m' (hside' m' n2 q1.1) hle).1 n1
      have pz := hpos z z1
      have hz := m3 z z1 ((hmove z pz.1).1 n2)
      rw [down_genAt k p1.1, down_genAt k pz.1] at hn
      have he : m.genAt = z.genAt := by
        refine NotNearer.antisymm (b := .lub) ?_ hz
        simp only [NotNearer, PLt] at hn ⊢
        omega
      rw [honce m m1 z z1 (gen_eq_of_genAt p1 pz he)]
  have bwd : ∀ m', y = some m' → m'.generated.line ≤ line + k + 1 → ∃ m, x = some m ∧ m.generated.line ≤ line + 1 := by
    rintro m' rfl hm'
    obtain ⟨n1, n2, n3⟩ := sy
    have q1 := hpos' m' n1
    obtain ⟨z, z1, rfl⟩ := (hw m' (hside' m' n2 q1.1) hm').1 n1
    have pz := hpos z z1
    have hzs := (hmove z pz.1).1 n2
    cases x with
    | none => exact absurd hzs (sx z z1)
    | some m =>
      obtain ⟨m1, m2, m3⟩ := sx
      have p1 := hpos m m1
      refine ⟨m, rfl, ?_⟩
      have := m3 z z1 hzs
      simp only [Mapping.down] at hm'
      simp only [NotNearer, PLt, Mapping.genAt] at this
      omega
  cases x with
  | none =>
    cases y with
    | none => rfl
    | some m' =>
      by_cases hm' : m'.generated.line ≤ line + k + 1
      · obtain ⟨m, hm, _⟩ := bwd m' rfl hm'
        cases hm
      · simp only [Option.bind_some, Option.bind_none, Option.map_none, answerOriginal]
        rw [if_neg (by omega)]
  | some m =>
    by_cases hm : m.generated.line ≤ line + 1
    · rw [fwd m rfl hm]
      simp only [Option.bind_some, answerOriginal]
      by_cases ha : m.generated.line - 1 = line ∧ m.original.isSome = true
      · rw [if_pos ha, if_pos ⟨by simp only [Mapping.down]; omega, ha.2⟩]; rfl
      · rw [if_neg ha, if_neg (fun h => ha ⟨by have := h.1; simp only [Mapping.down] at this; omega, h.2⟩)]; rfl
    · have h1 : ¬ (m.generated.line - 1 = line ∧ m.original.isSome = true) := fun h => hm (by omega)
      simp only [Option.bind_some, answerOriginal, if_neg h1, Option.map_none]
      cases y with
      | none => rfl
      | some m' =>
        by_cases hm' : m'.generated.line ≤ line + k + 1
        · obtain ⟨z, hz, h2⟩ := bwd m' rfl hm'
          cases hz
          exact absurd h2 hm
        · simp only [Option.bind_some, answerOriginal]
          rw [if_neg (by omega)]

/-- With the lower bias nothing on the line after the one asked for is found. -/
theorem nearest_glb {line : Int} {c : Nat} {l : List Mapping} (hline : 1 ≤ line)
    (hpos : ∀ m ∈ l, 1 ≤ m.generated.line ∧ 0 ≤ m.generated.column)
    {x : Option Mapping} (hx : Nearest Mapping.genAt l ((line - 1).toNat, c) .glb x) :
    x.bind (answerOriginal line) = none := by
  have sx := hx.side
  cases x with
  | none => rfl
  | some m =>
    obtain ⟨m1, m2, _⟩ := sx
    have := hpos m m1
    simp only [OnSide, PLt, Mapping.genAt] at m2
    simp only [Option.bind_some, answerOriginal]
    rw [if_neg (by omega)]

theorem named_pos (S N : List String) (raws : List RawMapping) :
    ∀ m ∈ raws.map (named S N), 1 ≤ m.generated.line ∧ 0 ≤ m.generated.column := by
  intro m hm
  obtain ⟨x, _, rfl⟩ := List.mem_map.1 hm
  simp only [named]
  omega

theorem window_original (hL : E.maps.Laws) (hT : E.maps.Total) {m m' : SourceMapJson} {raws raws' : List RawMapping}
    {u u' : Option String} {c₀ c d₀ d : BasicConsumer E} (h : Built m u c₀) (hd : Built m' u' d₀)
    (hseg : m.Segments raws) (hseg' : m'.Segments raws') {N N' : List String} (hN : m.names = some N)
    (hN' : m'.names = some N') (hrel : Rel c₀ c) (hrel' : Rel d₀ d)
    (hlen : c.getSources.length < 2147483648) (hlen' : d.getSources.length < 2147483648)
    (hfit : ∀ x ∈ raws, Fits c.getSources N 2147483648 x) (hfit' : ∀ x ∈ raws', Fits d.getSources N' 2147483648 x)
    (honce : GenOnce (raws.map (named c.getSources N))) {p : Position} {k : Nat}
    (hsame : WindowSame p.line k (raws.map (named c.getSources N)) (raws'.map (named d.getSources N')))
    {b : Option Bias} (hp : 1 ≤ p.line ∧ p.line + k ≤ 2147483647) (hcol : 0 ≤ p.column ∧ p.column ≤ 2147483647) :
    (d.originalPositionFor ⟨p.line + k, p.column⟩ b).map (fun r => r.1.map stripMapping) =
      (c.originalPositionFor p b).map (fun r => r.1.map fun x => (stripMapping x).down k) := by
  obtain ⟨M, hM, pM⟩ := ensure_segments hL h hrel hseg
  obtain ⟨Q, hQ, pQ⟩ := ensure_segments hL hd hrel' hseg'
  have hcm : c.sourceMap = m := by obtain ⟨_, _, _, _, _, _, hm, _⟩ := h.spec; exact hrel.map.trans hm
  have hdm : d.sourceMap = m' := by obtain ⟨_, _, _, _, _, _, hm, _⟩ := hd.spec; exact hrel'.map.trans hm
  have e1 : checkPosition p.line p.column = .ok () := by
    simp only [checkPosition]; rw [if_neg (by omega), if_neg (by omega)]
  have e2 : checkPosition (p.line + k) p.column = .ok () := by
    simp only [checkPosition]; rw [if_neg (by omega), if_neg (by omega)]
  have i1 : IsI32 (p.line - 1) := by unfold IsI32; omega
  have i2 : IsI32 (p.line + k - 1) := by unfold IsI32; omega
  have u1 : asU32 (p.line - 1) = (p.line - 1).toNat := by unfold asU32; omega
  have u2 : asU32 (p.line + k - 1) = (p.line + k - 1).toNat := by unfold asU32; omega
  have u3 : asU32 p.column = p.column.toNat := by unfold asU32; omega
  obtain ⟨⟨x, M'⟩, hx⟩ := hT.orig M (asU32 (p.line - 1)) (asU32 p.column) (b.getD .glb)
  obtain ⟨⟨y, Q'⟩, hy⟩ := hT.orig Q (asU32 (p.line + k - 1)) (asU32 p.column) (b.getD .glb)
  have nx := Nearest.congr (fun z => pM.mem_iff) (hL.orig _ _ _ _ _ _ hx)
  have ny := Nearest.congr (fun z => pQ.mem_iff) (hL.orig _ _ _ _ _ _ hy)
  have r1 := reportOriginal_named (c := c) (S := c.getSources) (N := N) rfl hlen (by rw [hcm]; exact hN) (line := p.line)
    (x := x) (fun z hz => by
      subst hz; simp only [Option.map_some, Nearest] at nx; exact hfit _ nx.1)
  have r2 := reportOriginal_named (c := d) (S := d.getSources) (N := N') rfl hlen' (by rw [hdm]; exact hN')
    (line := p.line + k) (x := y) (fun z hz => by
      subst hz; simp only [Option.map_some, Nearest] at ny; exact hfit' _ ny.1)
  have nx' := nx.mapped (pos' := Mapping.genAt) (named c.getSources N) (fun a _ => named_genAt _ _ a)
  have ny' := ny.mapped (pos' := Mapping.genAt) (named d.getSources N') (fun a _ => named_genAt _ _ a)
  rw [u1, u3] at nx'
  rw [u2, u3] at ny'
  have hxy : ((y.map LibMapping.raw).map (named d.getSources N')).bind (answerOriginal (p.line + k)) =
      (((x.map LibMapping.raw).map (named c.getSources N)).bind (answerOriginal p.line)).map (Mapping.down k) := by
    cases hb : b.getD .glb with
    | glb =>
      rw [hb] at nx' ny'
      rw [nearest_glb hp.1 (named_pos _ _ _) nx', nearest_glb (by omega) (named_pos _ _ _) ny']
      rfl
    | lub =>
      rw [hb] at nx' ny'
      exact nearest_window hp.1 honce (named_pos _ _ _) (named_pos _ _ _) hsame nx' ny'
  rw [hxy] at r2
  simp only [originalPositionFor, e1, e2, Res.ok_bind, hM, hQ, E.cfg.arith_ok i1, E.cfg.arith_ok i2, hx, hy]
  revert r1 r2
  cases c.reportOriginal p.line x with
  | error e => intro r1; simp [Except.map] at r1
  | ok a =>
    cases d.reportOriginal (p.line + k) y with
    | error e => intro _ r2; simp [Except.map] at r2
    | ok a' =>
      intro r1 r2
      simp only [Except.map, Except.ok.injEq] at r1 r2
      simp only [Res.ok_bind, Res.pure_eq, Except.map, Except.ok.injEq]
      rw [r2, ← r1, Option.map_map]
      rfl

/-- C116, maps: if around the line asked for a second map says what the first one says, `k` lines further down, it answers
there as the first one does, `k` lines further down, whatever else is in the two maps. -/
theorem C116_original (hL : E.maps.Laws) (hT : E.maps.Total) {m m' : SourceMapJson} {raws raws' : List RawMapping}
    {u u' : Option String} {c₀ c d₀ d : BasicConsumer E} (h : Built m u c₀) (hd : Built m' u' d₀)
    (hseg : m.Segments raws) (hseg' : m'.Segments raws') {N N' : List String} (hN : m.names = some N)
    (hN' : m'.names = some N') {ops ops' : List Op} (hrun : c₀.run ops = .ok c) (hrun' : d₀.run ops' = .ok d)
    (hlen : c.getSources.length < 2147483648) (hlen' : d.getSources.length < 2147483648)
    (hfit : ∀ x ∈ raws, Fits c.getSources N 2147483648 x) (hfit' : ∀ x ∈ raws', Fits d.getSources N' 2147483648 x)
    (honce : GenOnce (raws.map (named c.getSources N))) {p : Position} {k : Nat}
    (hsame : WindowSame p.line k (raws.map (named c.getSources N)) (raws'.map (named d.getSources N')))
    {b : Option Bias} (hp : 1 ≤ p.line ∧ p.line + k ≤ 2147483647) (hcol : 0 ≤ p.column ∧ p.column ≤ 2147483647) :
    (d.originalPositionFor ⟨p.line + k, p.column⟩ b).map (fun r => r.1.map stripMapping) =
      (c.originalPositionFor p b).map (fun r => r.1.map fun x => (stripMapping x).down k) :=
  window_original hL hT h hd hseg hseg' hN hN' (h.rel.run hL hrun) (hd.rel.run hL hrun') hlen hlen' hfit hfit' honce hsame hp hcol

theorem down_origAt (k : Nat) (m : Mapping) : (m.down k).origAt = m.origAt := rfl

/-- C116, maps: if of a source a second map says what the first one says, `k` lines further down, `generated_position_for`
for that source answers as on the first one, `k` lines further down, apart from the name, which the code looks up under the
number of the source (C34). The numbers of the source may differ. -/
theorem C116_generated (hL : E.maps.Laws) {m m' : SourceMapJson} {raws raws' : List RawMapping}
    {u u' : Option String} {c₀ c d₀ d : BasicConsumer E} (h : Built m u c₀) (hd : Built m' u' d₀)
    (hseg : m.Segments raws) (hseg' : m'.Segments raws') {N N' : List String}
    {ops ops' : List Op} (hrun : c₀.run ops = .ok c) (hrun' : d₀.run ops' = .ok d)
    (hlen : c.getSources.length < 2147483648) (hlen' : d.getSources.length < 2147483648)
    (hfit : ∀ x ∈ raws, Fits c.getSources N 2147483648 x) (hfit' : ∀ x ∈ raws', Fits d.getSources N' 2147483648 x)
    (honce : OrigOnce (raws.map (named c.getSources N))) (hnd : c.getSources.Nodup) (hnd' : d.getSources.Nodup)
    {s t : String} {n n' : Nat} (hs : c.Knows s n) (hs' : d.Knows s n') (ht : c.getSources[n]? = some t)
    (ht' : d.getSources[n']? = some t) {k : Nat}
    (hsame : ∀ y : Mapping, y.source = some t →
      (y ∈ raws'.map (named d.getSources N') ↔ ∃ x ∈ raws.map (named c.getSources N), y = x.down k))
    {l col : Int} {b : Option Bias} (hp : IsI32 l ∧ IsI32 col) {r r' : Option Mapping} {c' d' : BasicConsumer E}
    (hr : c.generatedPositionFor s l col b = .ok (r, c')) (hr' : d.generatedPositionFor s l col b = .ok (r', d')) :
    r'.map Mapping.unnamed = r.map fun x => x.unnamed.down k := by
  obtain ⟨_, _, x, nx, hx⟩ := generated_report (hL := hL) h hrun hseg hlen hs hp hr
  obtain ⟨_, _, y, ny, hy⟩ := generated_report (hL := hL) hd hrun' hseg' hlen' hs' hp hr'
  have memc := mem_named_filter (S := c.getSources) (N := N) hfit hnd ht
  have memd := mem_named_filter (S := d.getSources) (N := N') hfit' hnd' ht'
  have nx' := (nx.mapped (pos' := Mapping.origAt) (named c.getSources N) (fun a _ => named_origAt _ _ a)).mapped
    (pos' := Mapping.origAt) (Mapping.down k) (fun a _ => down_origAt k a)
  have ny' := Nearest.congr (l' := ((raws.filter (·.fromSource n)).map (named c.getSources N)).map (Mapping.down k))
    (fun z => by
      rw [memd]
      constructor
      · rintro ⟨h1, h2⟩
        obtain ⟨w, h3, rfl⟩ := (hsame z h2).1 h1
        exact List.mem_map.2 ⟨w, (memc w).2 ⟨h3, h2⟩, rfl⟩
      · intro hz
        obtain ⟨w, h1, rfl⟩ := List.mem_map.1 hz
        obtain ⟨h2, h3⟩ := (memc w).1 h1
        exact ⟨(hsame (w.down k) h3).2 ⟨w, h2, rfl⟩, h3⟩)
    (ny.mapped (pos' := Mapping.origAt) (named d.getSources N') (fun a _ => named_origAt _ _ a))
  have hxy := Nearest.unique (fun a ha b hb hab => by
    obtain ⟨a0, ha0, rfl⟩ := List.mem_map.1 ha
    obtain ⟨b0, hb0, rfl⟩ := List.mem_map.1 hb
    rw [down_origAt, down_origAt] at hab
    have a1 := (memc a0).1 ha0
    have b1 := (memc b0).1 hb0
    obtain ⟨a', a2, rfl⟩ := List.mem_map.1 ha0
    obtain ⟨b', b2, rfl⟩ := List.mem_map.1 hb0
    have fa := (List.mem_filter.1 a2).2
    have fb := (List.mem_filter.1 b2).2
    congr 1
    refine honce _ a1.1 _ b1.1 ?_ (a1.2.trans b1.2.symm) ?_
    · obtain ⟨_, _, o⟩ := a'
      cases o with
      | none => simp [RawMapping.fromSource] at fa
      | some o => rfl
    · rw [named_origAt, named_origAt] at hab
      obtain ⟨_, _, o⟩ := a'
      obtain ⟨_, _, o'⟩ := b'
      cases o with
      | none => simp [RawMapping.fromSource] at fa
      | some o =>
        cases o' with
        | none => simp [RawMapping.fromSource] at fb
        | some o' =>
          simp only [RawMapping.origPos, Prod.mk.injEq] at hab
          simp only [named, Option.map_some, hab.1, hab.2]) ny' nx'
  have r1 := reportGenerated_named (c := c) (S := c.getSources) (N := N) rfl hlen (fun z hz => by
    subst hz
    simp only [Option.map_some, Nearest] at nx
    obtain ⟨m1, m2⟩ := List.mem_filter.1 nx.1
    exact ⟨hfit _ m1, m2⟩) hx
  have r2 := reportGenerated_named (c := d) (S := d.getSources) (N := N') rfl hlen' (fun z hz => by
    subst hz
    simp only [Option.map_some, Nearest] at ny
    obtain ⟨m1, m2⟩ := List.mem_filter.1 ny.1
    exact ⟨hfit' _ m1, m2⟩) hy
  rw [r2, hxy, show (r.map fun x => x.unnamed.down k) = (r.map Mapping.unnamed).map (Mapping.down k) by
    rw [Option.map_map]; rfl, r1]
  cases (x.map LibMapping.raw).map (named c.getSources N) <;> rfl

/-! ## Generators -/

/-- Texts one below the other: of each the number of its lines and the mappings into it. -/
def stack : List (Nat × List Mapping) → List Mapping
  | [] => []
  | (n, ms) :: rest => ms ++ (stack rest).map (Mapping.down n)

/-- How many lines they have. -/
def height : List (Nat × List Mapping) → Nat
  | [] => 0
  | (n, _) :: rest => n + height rest

/-- The mappings are into the lines of the text. -/
def InText (t : Nat × List Mapping) : Prop := ∀ m ∈ t.2, 1 ≤ m.generated.line ∧ m.generated.line ≤ t.1

theorem stack_line : ∀ {texts : List (Nat × List Mapping)}, (∀ t ∈ texts, InText t) → ∀ m ∈ stack texts, 1 ≤ m.generated.line := by
  intro texts
  induction texts with
  | nil => intro _ m hm; cases hm
  | cons t rest ih =>
    intro hw m hm
    rcases List.mem_append.1 hm with hm | hm
    · exact (hw t (by simp) m hm).1
    · obtain ⟨x, hx, rfl⟩ := List.mem_map.1 hm
      have := ih (fun t ht => hw t (by simp [ht])) x hx
      simp only [Mapping.down]
      omega

theorem down_zero (m : Mapping) : m.down 0 = m := by
  obtain ⟨⟨l, c⟩⟩ := m
  simp [Mapping.down]

theorem down_down (a b : Nat) (m : Mapping) : (m.down a).down b = m.down (b + a) := by
  obtain ⟨⟨l, c⟩⟩ := m
  simp only [Mapping.down, Mapping.mk.injEq, Position.mk.injEq, and_true]
  omega

theorem down_inj {k : Nat} {a b : Mapping} (h : a.down k = b.down k) : a = b := by
  obtain ⟨⟨l, c⟩⟩ := a
  obtain ⟨⟨l', c'⟩⟩ := b
  simp only [Mapping.down, Mapping.mk.injEq, Position.mk.injEq] at h ⊢
  refine ⟨⟨by omega, h.1.2⟩, h.2⟩

/-- Around a line of a text other than its last the stack has the mappings of the text; around the last line of the last text
as well. -/
theorem stack_window {line : Int} {n : Nat} {ms : List Mapping} {post : List (Nat × List Mapping)} (h1 : 1 ≤ line)
    (h2 : line < n ∨ post = []) : ∀ {pre : List (Nat × List Mapping)}, (∀ t ∈ pre ++ (n, ms) :: post, InText t) →
    WindowSame line (height pre) ms (stack (pre ++ (n, ms) :: post)) := by
  intro pre
  induction pre with
  | nil =>
    intro hw y hy hy'
    simp only [List.nil_append, stack, height, List.mem_append] at hy hy' ⊢
    constructor
    · rintro (h | h)
      · exact ⟨y, h, (down_zero y).symm⟩
      · obtain ⟨x, hx, rfl⟩ := List.mem_map.1 h
        rcases h2 with h2 | rfl
        · have := stack_line (fun t ht => hw t (by simp [ht])) x hx
          simp only [Mapping.down] at hy'
          omega
        · cases hx
    · rintro ⟨x, hx, rfl⟩
      rw [down_zero]
      exact .inl hx
  | cons t pre ih =>
    intro hw y hy hy'
    obtain ⟨n₀, ms₀⟩ := t
    simp only [List.cons_append, stack, height, List.mem_append] at hy hy' ⊢
    have hih := ih (fun t ht => hw t (by simp only [List.cons_append, List.mem_cons]; exact .inr ht))
    constructor
    · rintro (h | h)
      · have := (hw (n₀, ms₀) (by simp) y h).2
        simp only at this
        omega
      · obtain ⟨z, hz, rfl⟩ := List.mem_map.1 h
        simp only [Mapping.down] at hy hy'
        obtain ⟨x, hx, rfl⟩ := (hih z (by omega) (by omega)).1 hz
        exact ⟨x, hx, down_down _ _ x⟩
    · rintro ⟨x, hx, rfl⟩
      refine .inr (List.mem_map.2 ⟨x.down (height pre), ?_, down_down _ _ x⟩)
      simp only [Mapping.down] at hy hy'
      exact (hih (x.down (height pre)) (by simp only [Mapping.down]; omega) (by simp only [Mapping.down]; omega)).2 ⟨x, hx, rfl⟩

theorem WindowSame.bare {line : Int} {k : Nat} {l l' : List Mapping} (h : WindowSame line k l l') :
    WindowSame line k (l.map Mapping.bare) (l'.map Mapping.bare) := by
  intro y h1 h2
  constructor
  · intro hy
    obtain ⟨y', hy', rfl⟩ := List.mem_map.1 hy
    obtain ⟨x, hx, rfl⟩ := (h y' h1 h2).1 hy'
    exact ⟨x.bare, List.mem_map.2 ⟨x, hx, rfl⟩, rfl⟩
  · rintro ⟨x, hx, rfl⟩
    obtain ⟨z, hz, rfl⟩ := List.mem_map.1 hx
    exact List.mem_map.2 ⟨z.down k, (h (z.down k) h1 h2).2 ⟨z, hz, rfl⟩, rfl⟩

/-- What a consumer of a generator knows. -/
theorem generator_told (hJ : E.json.Laws) (file root : Option String) (skip : Bool) (gops : List GOp) (g g₁ : Generator)
    (henc : ∀ m ∈ gAdded gops, m.Encodable E.cfg)
    (hS : (firstOccurrences ((gAdded gops).filterMap Mapping.source)).length < E.cfg.vlqLimit)
    (hN : (firstOccurrences ((gAdded gops).filterMap Mapping.name)).length < E.cfg.vlqLimit)
    (hg : (Generator.new file root skip).run E.url E.cfg gops = .ok g) {u : Option String}
    {c₀ : BasicConsumer E} (hc : BasicConsumer.fromSourceMap g u = .ok (c₀, g₁)) :
    ∃ j raws N, Built j u c₀ ∧ j.Segments raws ∧ j.names = some N ∧ c₀.getSources.length < 2147483648 ∧
      (∀ x ∈ raws, Fits c₀.getSources N 2147483648 x) ∧
      ∀ y, y ∈ raws.map (named c₀.getSources N) ↔ ∃ m ∈ gAdded gops, y = told E root u m := by
  have hl := vlqLimit_le E.cfg
  obtain ⟨j, raws, hb, hseg, hroot, hsrc, hnam, hsound, hcomplete, _⟩ :=
    generator_built hJ file root skip gops g g₁ henc hS hN hg hc
  obtain ⟨_, q1, q2, _⟩ := C28_sources hb
  rw [hsrc] at q1
  cases q1
  refine ⟨j, raws, _, hb, hseg, hnam, by rw [q2]; omega, ?_, ?_⟩
  · intro x hx
    obtain ⟨m, hm, hden⟩ := hsound x hx
    exact denotes_fits (henc m hm) hden q2
  · intro y
    constructor
    · intro hy
      obtain ⟨x, hx, rfl⟩ := List.mem_map.1 hy
      obtain ⟨m, hm, hden⟩ := hsound x hx
      exact ⟨m, hm, by rw [denotes_told hb hsrc hden, hroot]⟩
    · rintro ⟨m, hm, rfl⟩
      obtain ⟨x, hx, hden⟩ := hcomplete m hm
      exact List.mem_map.2 ⟨x, hx, by rw [denotes_told hb hsrc hden, hroot]⟩

/-- C116: let a generator be given the mappings of several texts put one below the other, in any order and as often as one
likes, with other calls between, and another one those of one of the texts alone. Asked on a line of that text other than its
last (on any line, if it is the last text), a consumer of the first answers like a consumer of the second asked on that line
of the text alone, with the lines above it added to the generated line. -/
theorem C116_texts (hJ : E.json.Laws) (hL : E.maps.Laws) (hT : E.maps.Total) (file file' root : Option String)
    (skip skip' : Bool) (gops gops' : List GOp) (g g₁ g' g₁' : Generator)
    (henc : ∀ m ∈ gAdded gops, m.Encodable E.cfg) (henc' : ∀ m ∈ gAdded gops', m.Encodable E.cfg)
    (hS : (firstOccurrences ((gAdded gops).filterMap Mapping.source)).length < E.cfg.vlqLimit)
    (hN : (firstOccurrences ((gAdded gops).filterMap Mapping.name)).length < E.cfg.vlqLimit)
    (hS' : (firstOccurrences ((gAdded gops').filterMap Mapping.source)).length < E.cfg.vlqLimit)
    (hN' : (firstOccurrences ((gAdded gops').filterMap Mapping.name)).length < E.cfg.vlqLimit)
    {pre post : List (Nat × List Mapping)} {n : Nat} (hwithin : ∀ t ∈ pre ++ (n, gAdded gops) :: post, InText t)
    (hsame : ∀ x, x ∈ (gAdded gops').map Mapping.bare ↔ x ∈ (stack (pre ++ (n, gAdded gops) :: post)).map Mapping.bare)
    (honce : GenOnce ((gAdded gops).map Mapping.bare))
    (hg : (Generator.new file root skip).run E.url E.cfg gops = .ok g)
    (hg' : (Generator.new file' root skip').run E.url E.cfg gops' = .ok g') {u : Option String}
    {c₀ c d₀ d : BasicConsumer E} (hc : BasicConsumer.fromSourceMap g u = .ok (c₀, g₁))
    (hd : BasicConsumer.fromSourceMap g' u = .ok (d₀, g₁')) {ops ops' : List Op} (hrun : c₀.run ops = .ok c)
    (hrun' : d₀.run ops' = .ok d) {p : Position} {b : Option Bias}
    (hp : 1 ≤ p.line ∧ p.line + height pre ≤ 2147483647) (hcol : 0 ≤ p.column ∧ p.column ≤ 2147483647)
    (hlast : p.line < n ∨ post = []) :
    (d.originalPositionFor ⟨p.line + height pre, p.column⟩ b).map (fun r => r.1.map stripMapping) =
      (c.originalPositionFor p b).map (fun r => r.1.map fun x => (stripMapping x).down (height pre)) := by
  obtain ⟨j, raws, N, hb, hseg, hnam, hlen, hfit, hmem⟩ := generator_told hJ file root skip gops g g₁ henc hS hN hg hc
  obtain ⟨j', raws', N', hb', hseg', hnam', hlen', hfit', hmem'⟩ :=
    generator_told hJ file' root skip' gops' g' g₁' henc' hS' hN' hg' hd
  have hst := C28_sources_stable hL hb hrun
  have hst' := C28_sources_stable hL hb' hrun'
  have hwin := (stack_window hp.1 hlast hwithin).bare
  refine C116_original hL hT hb hb' hseg hseg' hnam hnam' hrun hrun' (by rw [hst]; exact hlen) (by rw [hst']; exact hlen')
    (by rw [hst]; exact hfit) (by rw [hst']; exact hfit') ?_ ?_ hp hcol
  · rw [hst]
    intro a ha b hb hab
    obtain ⟨x, hx, rfl⟩ := (hmem a).1 ha
    obtain ⟨y, hy, rfl⟩ := (hmem b).1 hb
    have := honce _ (List.mem_map.2 ⟨x, hx, rfl⟩) _ (List.mem_map.2 ⟨y, hy, rfl⟩) hab
    rw [← told_bare, this, told_bare]
  · rw [hst, hst']
    intro y h1 h2
    rw [hmem']
    constructor
    · rintro ⟨m', hm', rfl⟩
      obtain ⟨x, hx, he⟩ := (hwin m'.bare h1 h2).1 ((hsame _).1 (List.mem_map.2 ⟨m', hm', rfl⟩))
      obtain ⟨m, hm, rfl⟩ := List.mem_map.1 hx
      exact ⟨told E root u m, (hmem _).2 ⟨m, hm, rfl⟩, by rw [← told_bare, he]; rfl⟩
    · rintro ⟨x, hx, rfl⟩
      obtain ⟨m, hm, rfl⟩ := (hmem x).1 hx
      obtain ⟨m', hm', he⟩ := List.mem_map.1 ((hsame _).2 ((hwin (m.bare.down (height pre)) h1 h2).2
        ⟨m.bare, List.mem_map.2 ⟨m, hm, rfl⟩, rfl⟩))
      exact ⟨m', hm', by rw [← told_bare E root u m', he]; rfl⟩

/-! ## A case -/

/-- A text of two lines and the mappings into it. -/
def upperText : List Mapping :=
  [{ generated := ⟨1, 0⟩, original := some ⟨1, 0⟩, source := some "one.js" },
   { generated := ⟨2, 4⟩, original := some ⟨3, 1⟩, source := some "one.js", name := some "n" }]

/-- A text of three lines and the mappings into it. -/
def lowerText : List Mapping :=
  [{ generated := ⟨1, 2⟩, original := some ⟨5, 0⟩, source := some "two.js", name := some "k" }, { generated := ⟨2, 0⟩ },
   { generated := ⟨3, 7⟩, original := some ⟨2, 1⟩, source := some "two.js" }]

example : (∀ t ∈ [(2, upperText), (3, lowerText)], InText t) ∧ GenOnce (lowerText.map Mapping.bare) ∧
    (∀ m ∈ stack [(2, upperText), (3, lowerText)], m.Encodable ⟨true, true⟩) ∧
    (stack [(2, upperText), (3, lowerText)]).map (fun m => (m.generated.line, m.generated.column)) =
      [(1, 0), (2, 4), (3, 2), (4, 0), (5, 7)] := by
  refine ⟨?_, ?_, ?_, by decide⟩
  · intro t ht
    simp only [List.mem_cons, List.not_mem_nil, or_false] at ht
    rcases ht with rfl | rfl <;> (unfold InText; decide)
  · unfold GenOnce; decide
  · intro m hm
    have : stack [(2, upperText), (3, lowerText)] =
      upperText ++ lowerText.map (Mapping.down 2) := by simp [stack]
    rw [this] at hm
    simp only [upperText, lowerText, List.map_cons, List.map_nil, List.cons_append, List.nil_append, List.mem_cons,
      List.not_mem_nil, or_false] at hm
    rcases hm with rfl | rfl | rfl | rfl | rfl <;>
      exact ⟨by decide, by decide, rfl, by simp [Cfg.vlqLimit, Mapping.down], by simp [Mapping.down]⟩

/-- What a consumer of a generator to which these mappings were added says. -/
def askAdded (ms : List Mapping) (p : Position) : Res (Option Mapping) := do
  let g ← (Generator.new none none false).run demoEnv.url demoEnv.cfg (ms.map .add)
  let (j, _) ← g.asJson demoEnv.url demoEnv.cfg
  demoAsk j fun c => c.originalPositionFor p (some .lub)

/-- Asked on line 2 of the lower text, alone or below the upper one. -/
example : askAdded lowerText ⟨2, 6⟩ = .ok (some ⟨⟨3, 7⟩, some ⟨2, 1⟩, some "two.js", none, none⟩) ∧
    askAdded (stack [(2, upperText), (3, lowerText)]) ⟨4, 6⟩ =
      .ok (some ⟨⟨5, 7⟩, some ⟨2, 1⟩, some "two.js", none, none⟩) := by
  constructor <;> decide +kernel

/-- C116, why the last line is left out: asked there the consumer of the two texts finds a mapping of the next one. -/
theorem C116_last_line : askAdded upperText ⟨2, 5⟩ = .ok none ∧
    askAdded (stack [(2, upperText), (3, lowerText)]) ⟨2, 5⟩ =
      .ok (some ⟨⟨3, 2⟩, some ⟨5, 0⟩, some "two.js", some "k", none⟩) := by
  constructor <;> decide +kernel

end RSM
