import Verif.Props.ConsumerShift
import Verif.Spec.Indexed
/-! # Properties C106 and C107: which mappings an answer depends on, and for which questions it is the answer -/

namespace RSM
open Spec BasicConsumer

variable {E : Env}

/-- The side of `q` on which a search with the bias looks, `q` included. -/
def OnSide (b : Bias) (q x : Nat × Nat) : Prop :=
  match b with
  | .glb => ¬ PLt q x
  | .lub => ¬ PLt x q

/-- `x` is not nearer to the place searched from than `y`. -/
def NotNearer (b : Bias) (x y : Nat × Nat) : Prop :=
  match b with
  | .glb => ¬ PLt y x
  | .lub => ¬ PLt x y

theorem PLt.trans {a b c : Nat × Nat} (h : PLt a b) (h' : PLt b c) : PLt a c := by
  unfold PLt at *; omega

/-- What a search finds on the side asked for. -/
def SideFound {α : Type} (pos : α → Nat × Nat) (l : List α) (q : Nat × Nat) (b : Bias) : Option α → Prop
  | none => ∀ x ∈ l, ¬ OnSide b q (pos x)
  | some a => a ∈ l ∧ OnSide b q (pos a) ∧ ∀ x ∈ l, OnSide b q (pos x) → NotNearer b (pos x) (pos a)

theorem Nearest.side {α : Type} {pos : α → Nat × Nat} {l : List α} {q : Nat × Nat} {b : Bias} {r : Option α}
    (h : Nearest pos l q b r) : SideFound pos l q b r := by
  cases r with
  | none =>
    intro x hx hs
    have := h x hx
    cases b <;> simp only [OnSide] at hs this <;>
      rcases PLt.trichotomy q (pos x) with t | t | t
    · exact hs t
    · exact this.1 t.symm
    · exact this.2 t
    · exact this.2 t
    · exact this.1 t.symm
    · exact hs t
  | some a =>
    obtain ⟨h1, h2⟩ := h
    refine ⟨h1, ?_, ?_⟩
    · rcases h2 with h2 | ⟨_, h2⟩
      · cases b <;> simp only [OnSide, h2] <;> exact PLt.irrefl _
      · cases b
        · exact fun t => PLt.irrefl _ (t.trans h2.1)
        · exact fun t => PLt.irrefl _ (t.trans h2.1)
    · intro x hx hs
      rcases h2 with h2 | ⟨hn, h2⟩
      · cases b <;> simp only [OnSide, NotNearer, h2] at hs ⊢ <;> exact hs
      · have := hn x hx
        cases b <;> simp only [OnSide, NotNearer] at hs ⊢ <;> rcases PLt.trichotomy q (pos x) with t | t | t
        · exact absurd t hs
        · exact absurd t.symm this
        · exact h2.2 x hx t
        · exact h2.2 x hx t
        · exact absurd t.symm this
        · exact absurd t hs

theorem NotNearer.antisymm {b : Bias} {x y : Nat × Nat} (h : NotNearer b x y) (h' : NotNearer b y x) : x = y := by
  rcases PLt.trichotomy x y with t | t | t
  · cases b
    · exact absurd t h'
    · exact absurd t h
  · exact t
  · cases b
    · exact absurd t h
    · exact absurd t h'

/-- Two searches among elements that are the same on the side asked for. -/
theorem Nearest.same_side {α : Type} {pos : α → Nat × Nat} {l l' : List α} {q : Nat × Nat} {b : Bias} {r s : Option α}
    (hinj : ∀ x ∈ l, ∀ y ∈ l, pos x = pos y → x = y) (heq : ∀ x, OnSide b q (pos x) → (x ∈ l ↔ x ∈ l'))
    (hr : Nearest pos l q b r) (hs : Nearest pos l' q b s) : r = s := by
  have h1 := hr.side
  have h2 := hs.side
  cases r with
  | none =>
    cases s with
    | none => rfl
    | some y => exact absurd h2.2.1 (h1 y ((heq y h2.2.1).2 h2.1))
  | some x =>
    cases s with
    | none => exact absurd h1.2.1 (h2 x ((heq x h1.2.1).1 h1.1))
    | some y =>
      have y1 := (heq y h2.2.1).2 h2.1
      have x2 := (heq x h1.2.1).1 h1.1
      rw [hinj x h1.1 y y1 ((h2.2.2 x x2 h1.2.1).antisymm (h1.2.2 y y1 h2.2.1))]

/-- Two searches among the same elements, the second from a place between that of the first and what it found. -/
theorem Nearest.between {α : Type} {pos : α → Nat × Nat} {l : List α} {q q' : Nat × Nat} {b : Bias} {a : α} {s : Option α}
    (hinj : ∀ x ∈ l, ∀ y ∈ l, pos x = pos y → x = y) (hq : OnSide b q q') (hq' : OnSide b q' (pos a))
    (hr : Nearest pos l q b (some a)) (hs : Nearest pos l q' b s) : s = some a := by
  have h1 := hr.side
  have h2 := hs.side
  have htr : ∀ x, OnSide b q' x → OnSide b q x := by
    intro x hx
    cases b <;> simp only [OnSide] at hq hx ⊢ <;> unfold PLt at * <;> omega
  cases s with
  | none => exact absurd hq' (h2 a h1.1)
  | some y =>
    rw [hinj y h2.1 a h1.1 ((h1.2.2 y h2.1 (htr _ h2.2.1)).antisymm (h2.2.2 a h1.1 hq'))]

theorem reportOriginal_congr {c d : BasicConsumer E} (hn : d.sourceMap.names = c.sourceMap.names)
    (ha : d.absoluteSources = c.absoluteSources) {line : Int} {x y : Option LibMapping}
    (h : y.map LibMapping.raw = x.map LibMapping.raw) :
    (d.reportOriginal line y).map (·.map stripMapping) = (c.reportOriginal line x).map (·.map stripMapping) := by
  cases x with
  | none =>
    cases y with
    | none => rfl
    | some y => simp at h
  | some x =>
    cases y with
    | none => simp at h
    | some y =>
      obtain ⟨a1, a2, a3, a4⟩ := x
      obtain ⟨b1, b2, b3, b4⟩ := y
      simp only [Option.map_some, LibMapping.raw, Option.some.injEq, Spec.RawMapping.mk.injEq] at h
      obtain ⟨rfl, rfl, rfl⟩ := h
      simp only [reportOriginal]
      split
      · cases b4 with
        | none => simp only [Except.map, Option.map_none]
        | some o =>
          have : d.optName o.name = c.optName o.name := by
            cases o.name <;> simp only [optName, nameAt, hn]
          simp only [this]
          generalize c.optName o.name = q1
          generalize E.cfg.succU32 o.line = q2
          generalize E.cfg.succU32 b1 = q3
          cases q1 with
          | error e => simp only [Res.error_bind, Except.map]
          | ok q1 =>
            cases q2 with
            | error e => simp only [Res.ok_bind, Res.error_bind, Except.map]
            | ok q2 =>
              cases q3 with
              | error e => simp only [Res.ok_bind, Res.error_bind, Except.map]
              | ok q3 =>
                simp only [Res.ok_bind, Res.pure_eq, Except.map, Option.map_some, stripMapping, ha]
      · simp only [Except.map, Option.map_none]

theorem reportGenerated_congr {c d : BasicConsumer E} (hn : d.sourceMap.names = c.sourceMap.names)
    (ha : d.absoluteSources = c.absoluteSources) {src : Int} {x y : Option LibMapping}
    (h : y.map LibMapping.raw = x.map LibMapping.raw) :
    (d.reportGenerated src y).map (·.map stripMapping) = (c.reportGenerated src x).map (·.map stripMapping) := by
  cases x with
  | none =>
    cases y with
    | none => rfl
    | some y => simp at h
  | some x =>
    cases y with
    | none => simp at h
    | some y =>
      obtain ⟨a1, a2, a3, a4⟩ := x
      obtain ⟨b1, b2, b3, b4⟩ := y
      simp only [Option.map_some, LibMapping.raw, Option.some.injEq, Spec.RawMapping.mk.injEq] at h
      obtain ⟨rfl, rfl, rfl⟩ := h
      simp only [reportGenerated]
      cases b4 with
      | none => simp only [unwrap, Res.error_bind, Except.map]
      | some o =>
        simp only [unwrap, Res.ok_bind]
        split
        · have : d.nameAt o.source = c.nameAt o.source := by simp only [nameAt, hn]
          simp only [this]
          generalize c.nameAt o.source = q1
          generalize E.cfg.succU32 b1 = q3
          cases q3 with
          | error e => simp only [Res.error_bind, Except.map]
          | ok q3 =>
            cases q1 with
            | error e => simp only [Res.ok_bind, Res.error_bind, Except.map]
            | ok q1 => simp only [Res.ok_bind, Res.pure_eq, Except.map, Option.map_some, stripMapping, ha]
        · simp only [Except.map, Option.map_none]

/-- The answer to a valid question, in terms of the segments of the map. -/
theorem original_answer (hL : E.maps.Laws) (hT : E.maps.Total) {m : SourceMapJson} {u : Option String}
    {c₀ c : BasicConsumer E} (h : Built m u c₀) {ops : List Op} (hrun : c₀.run ops = .ok c)
    {raws : List RawMapping} (hseg : m.Segments raws) {p : Position} (hp : 1 ≤ p.line ∧ p.line ≤ 2147483647)
    (hk : 0 ≤ p.column ∧ p.column ≤ 2147483647) (b : Option Bias) :
    ∃ x, Nearest RawMapping.genPos raws ((p.line - 1).toNat, p.column.toNat) (b.getD .glb) (x.map LibMapping.raw) ∧
      (c.originalPositionFor p b).map Prod.fst = c.reportOriginal p.line x := by
  obtain ⟨M, hM, pM⟩ := ensure_segments hL h (h.rel.run hL hrun) hseg
  have e1 : checkPosition p.line p.column = .ok () := by
    simp only [checkPosition]; rw [if_neg (by omega), if_neg (by omega)]
  have i1 : IsI32 (p.line - 1) := by unfold IsI32; omega
  have i2 : IsI32 p.column := by unfold IsI32; omega
  obtain ⟨⟨x, M'⟩, hx⟩ := hT.orig M (asU32 (p.line - 1)) (asU32 p.column) (b.getD .glb)
  have nx := Nearest.congr (fun z => pM.mem_iff) (hL.orig _ _ _ _ _ _ hx)
  rw [asU32_i32 (by omega) i1, asU32_i32 hk.1 i2] at nx
  refine ⟨x, nx, ?_⟩
  simp only [originalPositionFor, e1, Res.ok_bind, hM, E.cfg.arith_ok i1, hx]
  cases c.reportOriginal p.line x <;> simp [Except.map, Res.pure_eq, bind, Except.bind]

theorem generated_answer (hL : E.maps.Laws) (hT : E.maps.Total) {m : SourceMapJson} {u : Option String}
    {c₀ c : BasicConsumer E} (h : Built m u c₀) {ops : List Op} (hrun : c₀.run ops = .ok c)
    {raws : List RawMapping} (hseg : m.Segments raws) (hlen : c.getSources.length < 2147483648)
    {s : String} {n : Nat} (hs : c.Knows s n) {l k : Int} (hl : 1 ≤ l ∧ l ≤ 2147483647)
    (hk : 0 ≤ k ∧ k ≤ 2147483647) (b : Option Bias) :
    ∃ x, Nearest RawMapping.origPos (raws.filter (·.fromSource n)) ((l - 1).toNat, k.toNat) (b.getD .glb)
        (x.map LibMapping.raw) ∧
      (c.generatedPositionFor s l k b).map Prod.fst = c.reportGenerated n x := by
  have hrel := h.rel.run hL hrun
  have hlen0 : c₀.getSources.length < 2147483648 := by rw [← hrel.getSources]; exact hlen
  have hn : n < c.getSources.length := by
    rcases hs with ⟨_, _, hf⟩ | ⟨_, _, _, _, _, hf⟩ <;> exact (List.getElem?_eq_some_iff.1 hf.1).1
  have kc := ((lookup_spec h hlen0 s).1 n).2 ⟨n, rfl, (hrel.knows s n).1 hs⟩
  rcases hrel.find s with ⟨e, h1, _⟩ | ⟨r, q, h1, h2, h3⟩
  · rw [kc] at h1; cases h1
  rw [kc] at h1; cases h1
  obtain ⟨M, hM, pM⟩ := ensure_segments hL h h3 hseg
  have e1 : checkPosition l k = .ok () := by
    simp only [checkPosition]; rw [if_neg (by omega), if_neg (by omega)]
  have i1 : IsI32 (l - 1) := by unfold IsI32; omega
  have i2 : IsI32 k := by unfold IsI32; omega
  have i3 : IsI32 (n : Int) := by unfold IsI32; omega
  obtain ⟨⟨x, M'⟩, hx⟩ := hT.gen M (asU32 n) (asU32 (l - 1)) (asU32 k) (b.getD .glb)
  have nx := Nearest.congr (fun z => (pM.filter _).mem_iff) (hL.gen _ _ _ _ _ _ _ hx)
  rw [asU32_i32 (by omega) i1, asU32_i32 hk.1 i2, asU32_i32 (by omega) i3] at nx
  refine ⟨x, nx, ?_⟩
  simp only [generatedPositionFor, h2, e1, Res.ok_bind, hM, E.cfg.arith_ok i1, hx]
  have : BasicConsumer.reportGenerated { c with cache := q } n x = c.reportGenerated n x := rfl
  rw [this]
  cases c.reportGenerated n x <;> simp [Except.map, Res.pure_eq, bind, Except.bind]

/-- Two maps with the same tables of sources and names. -/
structure SameTables (m m' : SourceMapJson) : Prop where
  sources : m'.sources = m.sources
  names : m'.names = m.names
  sourceRoot : m'.sourceRoot = m.sourceRoot

theorem SameTables.refl (m : SourceMapJson) : SameTables m m := ⟨rfl, rfl, rfl⟩

theorem SameTables.absolute {m m' : SourceMapJson} (ht : SameTables m m') {u : Option String} {c₀ d₀ : BasicConsumer E}
    (h : Built m u c₀) (hd : Built m' u d₀) : d₀.absoluteSources = c₀.absoluteSources := by
  obtain ⟨_, s1, u1, a1, a2, _, _, a3, _⟩ := h.spec
  obtain ⟨_, s2, u2, b1, b2, _, _, b3, _⟩ := hd.spec
  rw [ht.sources, a1] at b1
  cases b1
  rw [ht.sourceRoot, a2] at b2
  cases b2
  rw [a3, b3]

theorem SameTables.after (hL : E.maps.Laws) {m m' : SourceMapJson} (ht : SameTables m m') {u : Option String}
    {c₀ c d₀ d : BasicConsumer E} (h : Built m u c₀) (hd : Built m' u d₀) {ops ops' : List Op}
    (hrun : c₀.run ops = .ok c) (hrun' : d₀.run ops' = .ok d) :
    d.sourceMap.names = c.sourceMap.names ∧ d.absoluteSources = c.absoluteSources := by
  have hrel := h.rel.run hL hrun
  have hrel' := hd.rel.run hL hrun'
  have hcm : c.sourceMap = m := by obtain ⟨_, _, _, _, _, _, hm, _⟩ := h.spec; exact hrel.map.trans hm
  have hdm : d.sourceMap = m' := by obtain ⟨_, _, _, _, _, _, hm, _⟩ := hd.spec; exact hrel'.map.trans hm
  exact ⟨by rw [hcm, hdm, ht.names], by rw [hrel.abs, hrel'.abs]; exact ht.absolute h hd⟩

/-- A segment that is not on the line whose number (counted from 0) is the number asked for (counted from 1) is not
reported. -/
theorem reportOriginal_other {c : BasicConsumer E} {line : Int} (hl : 1 ≤ line) {x : LibMapping} (hu : x.raw.U32)
    (h : (x.raw.line : Int) ≠ line) : c.reportOriginal line (some x) = .ok none := by
  have : x.generatedLine < 4294967296 := hu.1
  have h : (x.generatedLine : Int) ≠ line := h
  simp only [reportOriginal]
  rw [if_neg]
  intro hw
  unfold wrap32 at hw
  omega

/-- C106, `original_position_for`: only the segments from the position asked for to the end of the following line
count. -/
theorem C106_original (hL : E.maps.Laws) (hT : E.maps.Total) {m m' : SourceMapJson} (ht : SameTables m m')
    {u : Option String} {c₀ c d₀ d : BasicConsumer E} (h : Built m u c₀) (hd : Built m' u d₀) {ops ops' : List Op}
    (hrun : c₀.run ops = .ok c) (hrun' : d₀.run ops' = .ok d) {raws raws' : List RawMapping} (hseg : m.Segments raws)
    (hseg' : m'.Segments raws') (hdist : GenDistinct raws) {p : Position} (hp : 1 ≤ p.line ∧ p.line ≤ 2147483647)
    (hk : 0 ≤ p.column ∧ p.column ≤ 2147483647)
    (hsame : ∀ r : RawMapping, ¬ PLt r.genPos ((p.line - 1).toNat, p.column.toNat) → r.line ≤ p.line.toNat →
      (r ∈ raws ↔ r ∈ raws')) (b : Option Bias) :
    (d.originalPositionFor p b).map (fun r => r.1.map stripMapping) =
      (c.originalPositionFor p b).map (fun r => r.1.map stripMapping) := by
  obtain ⟨hn, ha⟩ := ht.after hL h hd hrun hrun'
  obtain ⟨x, nx, ex⟩ := original_answer hL hT h hrun hseg hp hk b
  obtain ⟨y, ny, ey⟩ := original_answer hL hT hd hrun' hseg' hp hk b
  have e : ∀ {α β γ : Type} (f : β → γ) (z : Res (β × α)), z.map (fun r => f r.1) = (z.map Prod.fst).map f := by
    intro α β γ f z; cases z <;> rfl
  rw [e (Option.map stripMapping) (d.originalPositionFor p b), e (Option.map stripMapping) (c.originalPositionFor p b), ex, ey]
  have hu : ∀ r ∈ raws, r.U32 := by obtain ⟨_, _, _, hu⟩ := hseg; exact hu
  have hu' : ∀ r ∈ raws', r.U32 := by obtain ⟨_, _, _, hu⟩ := hseg'; exact hu
  have sx := nx.side
  have sy := ny.side
  have none_x : (∀ a, x = some a → (a.raw.line : Int) ≠ p.line) → c.reportOriginal p.line x = .ok none := by
    intro hne
    cases x with
    | none => rfl
    | some a => exact reportOriginal_other hp.1 (hu _ sx.1) (hne a rfl)
  have none_y : (∀ a, y = some a → (a.raw.line : Int) ≠ p.line) → d.reportOriginal p.line y = .ok none := by
    intro hne
    cases y with
    | none => rfl
    | some a => exact reportOriginal_other hp.1 (hu' _ sy.1) (hne a rfl)
  cases hb : b.getD .glb with
  | glb =>
    rw [hb] at sx sy
    rw [none_x, none_y]
    · rintro a rfl
      have := sy.2.1
      simp only [OnSide, PLt, RawMapping.genPos] at this
      omega
    · rintro a rfl
      have := sx.2.1
      simp only [OnSide, PLt, RawMapping.genPos] at this
      omega
  | lub =>
    rw [hb] at sx sy
    -- what one search finds in the window the other finds too
    have key : ∀ {l l' : List RawMapping} {r s : Option RawMapping},
        Nearest RawMapping.genPos l ((p.line - 1).toNat, p.column.toNat) .lub r →
        Nearest RawMapping.genPos l' ((p.line - 1).toNat, p.column.toNat) .lub s →
        (∀ r : RawMapping, ¬ PLt r.genPos ((p.line - 1).toNat, p.column.toNat) → r.line ≤ p.line.toNat →
          (r ∈ l ↔ r ∈ l')) →
        ((∀ a ∈ l, ∀ b ∈ l, a.genPos = b.genPos → a = b) ∨ ∀ a ∈ l', ∀ b ∈ l', a.genPos = b.genPos → a = b) →
        ∀ a, r = some a → a.line ≤ p.line.toNat → s = some a := by
      intro l l' r s nr ns hsame hinj a hra hal
      subst hra
      have h1 := nr.side
      have h2 := ns.side
      have al' := (hsame a h1.2.1 hal).1 h1.1
      cases s with
      | none => exact absurd h1.2.1 (h2 a al')
      | some y =>
        have hy : NotNearer .lub a.genPos y.genPos := h2.2.2 a al' h1.2.1
        have hyl : y.line ≤ p.line.toNat := by
          simp only [NotNearer, PLt, RawMapping.genPos] at hy; omega
        have yl := (hsame y h2.2.1 hyl).2 h2.1
        have hpos := (h1.2.2 y yl h2.2.1).antisymm hy
        rcases hinj with hinj | hinj
        · rw [hinj y yl a h1.1 hpos]
        · rw [hinj y h2.1 a al' hpos]
    have hinj := injOn_of_pairwise hdist
    rw [hb] at nx ny
    by_cases hx : ∃ a, x.map LibMapping.raw = some a ∧ a.line ≤ p.line.toNat
    · obtain ⟨a, hxa, hal⟩ := hx
      have hya := key nx ny hsame (.inl hinj) a hxa hal
      exact reportOriginal_congr hn ha (hya.trans hxa.symm)
    · by_cases hy : ∃ a, y.map LibMapping.raw = some a ∧ a.line ≤ p.line.toNat
      · obtain ⟨a, hya, hal⟩ := hy
        have hxa := key ny nx (fun r h1 h2 => (hsame r h1 h2).symm) (.inr hinj) a hya hal
        exact absurd ⟨a, hxa, hal⟩ hx
      · rw [none_x, none_y]
        · rintro a rfl ha
          exact hy ⟨a.raw, rfl, by omega⟩
        · rintro a rfl ha
          exact hx ⟨a.raw, rfl, by omega⟩

/-- C106, `generated_position_for`: only the segments of the source on the side of the position that the bias asks for
count. -/
theorem C106_generated (hL : E.maps.Laws) (hT : E.maps.Total) {m m' : SourceMapJson} (ht : SameTables m m')
    {u : Option String} {c₀ c d₀ d : BasicConsumer E} (h : Built m u c₀) (hd : Built m' u d₀) {ops ops' : List Op}
    (hrun : c₀.run ops = .ok c) (hrun' : d₀.run ops' = .ok d) {raws raws' : List RawMapping} (hseg : m.Segments raws)
    (hseg' : m'.Segments raws') (hdist : OrigDistinct raws) (hlen : c.getSources.length < 2147483648)
    {s : String} {n : Nat} (hs : c.Knows s n) (hs' : d.Knows s n) {l k : Int} (hl : 1 ≤ l ∧ l ≤ 2147483647)
    (hk : 0 ≤ k ∧ k ≤ 2147483647) (b : Option Bias)
    (hsame : ∀ r : RawMapping, r.fromSource n = true → OnSide (b.getD .glb) ((l - 1).toNat, k.toNat) r.origPos →
      (r ∈ raws ↔ r ∈ raws')) :
    (d.generatedPositionFor s l k b).map (fun r => r.1.map stripMapping) =
      (c.generatedPositionFor s l k b).map (fun r => r.1.map stripMapping) := by
  obtain ⟨hn, ha⟩ := ht.after hL h hd hrun hrun'
  have hlen' : d.getSources.length < 2147483648 := by
    simp only [BasicConsumer.getSources] at hlen ⊢; rw [ha]; exact hlen
  obtain ⟨x, nx, ex⟩ := generated_answer hL hT h hrun hseg hlen hs hl hk b
  obtain ⟨y, ny, ey⟩ := generated_answer hL hT hd hrun' hseg' hlen' hs' hl hk b
  have e : ∀ {α β γ : Type} (f : β → γ) (z : Res (β × α)), z.map (fun r => f r.1) = (z.map Prod.fst).map f := by
    intro α β γ f z; cases z <;> rfl
  rw [e (Option.map stripMapping) (d.generatedPositionFor s l k b),
    e (Option.map stripMapping) (c.generatedPositionFor s l k b), ex, ey]
  refine reportGenerated_congr hn ha (Eq.symm ?_)
  refine Nearest.same_side (hdist.inj n) ?_ nx ny
  intro r hr
  simp only [List.mem_filter]
  constructor
  · rintro ⟨h1, h2⟩; exact ⟨(hsame r h2 hr).1 h1, h2⟩
  · rintro ⟨h1, h2⟩; exact ⟨(hsame r h2 hr).2 h1, h2⟩

theorem map_strip_of {α : Type} {z : Res (Option Mapping × α)} {w : Res (Option Mapping)} (h : z.map Prod.fst = w) :
    z.map (fun r => r.1.map stripMapping) = w.map (·.map stripMapping) := by
  subst h; cases z <;> rfl

theorem reportOriginal_some {c : BasicConsumer E} {line : Int} (hl : 1 ≤ line) {x : Option LibMapping} {r : Mapping}
    (hu : ∀ a, x = some a → a.raw.U32) (h : c.reportOriginal line x = .ok (some r)) :
    ∃ a, x = some a ∧ (a.raw.line : Int) = line := by
  cases x with
  | none => simp [reportOriginal] at h
  | some a =>
    refine ⟨a, rfl, Decidable.byContradiction fun hne => ?_⟩
    rw [reportOriginal_other hl (hu a rfl) hne] at h
    cases h

theorem reportGenerated_some {c : BasicConsumer E} {src : Int} {x : Option LibMapping} {r : Mapping}
    (h : c.reportGenerated src x = .ok (some r)) :
    ∃ a o, x = some a ∧ a.original = some o ∧ r.original = some ⟨wrap32 o.line, wrap32 o.column⟩ := by
  cases x with
  | none => simp [reportGenerated] at h
  | some a =>
    cases ho : a.original with
    | none => simp [reportGenerated, ho, unwrap] at h
    | some o =>
      refine ⟨a, o, rfl, ho, ?_⟩
      simp only [reportGenerated, ho, unwrap, Res.ok_bind] at h
      split at h
      · rw [Res.bind_eq_ok] at h
        obtain ⟨g, _, h⟩ := h
        rw [Res.bind_eq_ok] at h
        obtain ⟨nm, _, h⟩ := h
        simp only [Res.pure_eq, Except.ok.injEq, Option.some.injEq] at h
        rw [← h]
      · cases h

/-- C107, `original_position_for`: a mapping found with the upper bias is found from the rest of the line asked for as
well, after any history. -/
theorem C107_original (hL : E.maps.Laws) (hT : E.maps.Total) {m : SourceMapJson} {u : Option String}
    {c₀ c d₀ d : BasicConsumer E} (h : Built m u c₀) (hd : Built m u d₀) {ops ops' : List Op}
    (hrun : c₀.run ops = .ok c) (hrun' : d₀.run ops' = .ok d) {raws : List RawMapping} (hseg : m.Segments raws)
    (hdist : GenDistinct raws) {p p' : Position} (hp : 1 ≤ p.line ∧ p.line ≤ 2147483647) (hk : 0 ≤ p.column)
    (hline : p'.line = p.line) (hcol : p.column ≤ p'.column ∧ p'.column ≤ 2147483647) {r : Mapping}
    (hr : (c.originalPositionFor p (some .lub)).map Prod.fst = .ok (some r)) :
    (d.originalPositionFor p' (some .lub)).map (fun x => x.1.map stripMapping) = .ok (some (stripMapping r)) := by
  obtain ⟨hn, ha⟩ := (SameTables.refl m).after hL h hd hrun hrun'
  obtain ⟨x, nx, ex⟩ := original_answer hL hT h hrun hseg hp (by omega) (some .lub)
  obtain ⟨y, ny, ey⟩ := original_answer hL hT hd hrun' hseg (p := p') (by omega) (by omega) (some .lub)
  have hu : ∀ r ∈ raws, r.U32 := by obtain ⟨_, _, _, hu⟩ := hseg; exact hu
  rw [hr] at ex
  obtain ⟨a, rfl, hal⟩ := reportOriginal_some hp.1 (fun a ha => by subst ha; exact hu _ nx.side.1) ex.symm
  have hya := Nearest.between (injOn_of_pairwise hdist) (q' := ((p'.line - 1).toNat, p'.column.toNat))
    (by simp only [OnSide, PLt, Option.getD_some]; omega)
    (by simp only [OnSide, PLt, Option.getD_some, RawMapping.genPos]; omega) nx ny
  rw [map_strip_of ey, reportOriginal_congr hn ha (x := some a) hya, hline, ← ex]
  rfl

theorem wrap32_back {x : Nat} (h : x < 4294967296) :
    0 ≤ wrap32 (x : Int) ∨ x < 2147483648 → wrap32 (x : Int) = x := by
  unfold wrap32; omega

/-- The questions (lines counted from 1) between `q` and the original position `o` that was reported for it (lines counted
from 0), on the side that the bias asks for. -/
def Between (b : Bias) (q o q' : Position) : Prop :=
  match b with
  | .glb => Position.Le ⟨o.line + 1, o.column⟩ q' ∧ Position.Le q' q ∧ 0 ≤ o.column
  | .lub => Position.Le q q' ∧ Position.Le q' ⟨o.line + 1, o.column⟩

/-- C107, `generated_position_for`: a mapping found is found from every position between the one asked for and its own
as well, after any history. -/
theorem C107_generated (hL : E.maps.Laws) (hT : E.maps.Total) {m : SourceMapJson} {u : Option String}
    {c₀ c d₀ d : BasicConsumer E} (h : Built m u c₀) (hd : Built m u d₀) {ops ops' : List Op}
    (hrun : c₀.run ops = .ok c) (hrun' : d₀.run ops' = .ok d) {raws : List RawMapping} (hseg : m.Segments raws)
    (hdist : OrigDistinct raws) (hlen : c.getSources.length < 2147483648)
    {s : String} {n : Nat} (hs : c.Knows s n) (hs' : d.Knows s n) {l k l' k' : Int} (hl : 1 ≤ l ∧ l ≤ 2147483647)
    (hk : 0 ≤ k ∧ k ≤ 2147483647) (hl' : 1 ≤ l' ∧ l' ≤ 2147483647) (hk' : 0 ≤ k' ∧ k' ≤ 2147483647) {b : Option Bias}
    {r : Mapping} {o : Position} (hr : (c.generatedPositionFor s l k b).map Prod.fst = .ok (some r))
    (ho : r.original = some o) (hb : Between (b.getD .glb) ⟨l, k⟩ o ⟨l', k'⟩) :
    (d.generatedPositionFor s l' k' b).map (fun x => x.1.map stripMapping) = .ok (some (stripMapping r)) := by
  obtain ⟨hn, ha⟩ := (SameTables.refl m).after hL h hd hrun hrun'
  have hlen' : d.getSources.length < 2147483648 := by
    simp only [BasicConsumer.getSources] at hlen ⊢; rw [ha]; exact hlen
  obtain ⟨x, nx, ex⟩ := generated_answer hL hT h hrun hseg hlen hs hl hk b
  obtain ⟨y, ny, ey⟩ := generated_answer hL hT hd hrun' hseg hlen' hs' hl' hk' b
  have hu : ∀ r ∈ raws, r.U32 := by obtain ⟨_, _, _, hu⟩ := hseg; exact hu
  rw [hr] at ex
  obtain ⟨a, ao, rfl, hao, hro⟩ := reportGenerated_some ex.symm
  rw [ho, Option.some.injEq] at hro
  subst hro
  have hside := nx.side.2.1
  have hpos : a.raw.origPos = (ao.line, ao.column) := by
    simp only [RawMapping.origPos, LibMapping.raw, hao]
  have hau : ao.line < 4294967296 ∧ ao.column < 4294967296 := by
    have := hu _ (List.mem_filter.1 nx.side.1).1
    have h2 := this.2.2 ao hao
    exact ⟨h2.2.1, h2.2.2.1⟩
  rw [hpos] at hside
  have w1 := wrap32_back hau.1
  have w2 := wrap32_back hau.2
  generalize wrap32 (ao.line : Int) = v1 at *
  generalize wrap32 (ao.column : Int) = v2 at *
  have hya := Nearest.between (hdist.inj n) (q' := ((l' - 1).toNat, k'.toNat)) (a := a.raw)
    (by
      cases hbb : b.getD .glb <;> rw [hbb] at hb <;>
        simp only [OnSide, PLt, Between, Position.Le] at hb ⊢ <;> omega)
    (by
      rw [hpos]
      cases hbb : b.getD .glb <;> rw [hbb] at hb hside <;>
        simp only [OnSide, PLt, Between, Position.Le] at hb hside ⊢ <;> omega) nx ny
  rw [map_strip_of ey, reportGenerated_congr hn ha (x := some a) hya, ← ex]
  rfl

/-! ## Cases -/

/-- The upper bias: the question at column 40 of line 1 is answered by the first mapping of the second line, and so is
the one at column 100. -/
example : demoAsk demoMap (fun c => c.originalPositionFor ⟨1, 40⟩ (some .lub)) =
      .ok (some ⟨⟨2, 1⟩, some ⟨1, 1⟩, some "two.js", none, none⟩) ∧
    demoAsk demoMap (fun c => c.originalPositionFor ⟨1, 100⟩ (some .lub)) =
      .ok (some ⟨⟨2, 1⟩, some ⟨1, 1⟩, some "two.js", none, none⟩) := ⟨by decide +kernel, by decide +kernel⟩

/-- A map that differs from the demonstration map before that question only. -/
def demoOther : SourceMapJson := { demoMap with mappings := some "CAAC;CCAA,IAAI,IAAM,SAAUE,GAClB,OAAOA" }

def demoOtherRaws : List RawMapping :=
  ⟨0, 1, some ⟨0, 0, 1, none⟩⟩ :: demoRaws.drop 7

example : SameTables demoMap demoOther ∧ GenDistinct demoRaws ∧
    decodeMappings "CAAC;CCAA,IAAI,IAAM,SAAUE,GAClB,OAAOA".toList = some demoOtherRaws ∧
    (∃ r ∈ demoRaws, r ∉ demoOtherRaws) ∧
    ∀ r : RawMapping, ¬ PLt r.genPos (0, 40) → r.line ≤ 1 → (r ∈ demoRaws ↔ r ∈ demoOtherRaws) := by
  refine ⟨⟨rfl, rfl, rfl⟩, by unfold GenDistinct; decide +kernel, by decide +kernel, by decide +kernel, ?_⟩
  have h1 : ∀ r ∈ demoRaws, ¬ PLt r.genPos (0, 40) → r ∈ demoOtherRaws := by decide +kernel
  have h2 : ∀ r ∈ demoOtherRaws, ¬ PLt r.genPos (0, 40) → r ∈ demoRaws := by decide +kernel
  exact fun r h _ => ⟨fun hr => h1 r hr h, fun hr => h2 r hr h⟩

/-- `generated_position_for` with the lower bias: the mapping of `two.js` at line 2 column 3 answers for column 3 to 9. -/
example : (demoAsk demoMap (fun c => c.generatedPositionFor "two.js" 2 9 none)) =
    (demoAsk demoMap (fun c => c.generatedPositionFor "two.js" 2 3 none)) ∧
    (demoAsk demoMap (fun c => do
      let r ← c.generatedPositionFor "two.js" 2 9 none
      pure ((r.1.bind (·.original)), r.2))) = .ok (some ⟨1, 3⟩) ∧
    Between .glb ⟨2, 9⟩ ⟨1, 3⟩ ⟨2, 3⟩ :=
  ⟨by decide +kernel, by decide +kernel, by simp [Between, Position.Le]⟩

end RSM
