import Verif.Props.LineShift
import Verif.Props.Consumer
/-! # Property C104: semicolons put before the mappings of a map -/

namespace RSM
open Spec BasicConsumer

variable {E : Env}

/-- No two segments have the same generated position. -/
def GenDistinct (raws : List RawMapping) : Prop := raws.Pairwise fun a b => a.genPos ≠ b.genPos

/-- No two segments have the same position in the same source. -/
def OrigDistinct (raws : List RawMapping) : Prop :=
  raws.Pairwise fun a b => ∀ n, a.fromSource n = true → b.fromSource n = true → a.origPos ≠ b.origPos

theorem injOn_of_pairwise {α β : Type} {f : α → β} {l : List α} (h : l.Pairwise fun a b => f a ≠ f b) :
    ∀ a ∈ l, ∀ b ∈ l, f a = f b → a = b := by
  induction l with
  | nil => intro a ha; cases ha
  | cons x l ih =>
    rw [List.pairwise_cons] at h
    intro a ha b hb e
    rcases List.mem_cons.1 ha with rfl | ha' <;> rcases List.mem_cons.1 hb with rfl | hb'
    · rfl
    · exact absurd e (h.1 b hb')
    · exact absurd e.symm (h.1 a ha')
    · exact ih h.2 a ha' b hb' e

theorem PLt.trichotomy (a b : Nat × Nat) : PLt a b ∨ a = b ∨ PLt b a := by
  obtain ⟨a1, a2⟩ := a
  obtain ⟨b1, b2⟩ := b
  unfold PLt
  simp only [Prod.mk.injEq]
  omega

theorem PLt.irrefl (a : Nat × Nat) : ¬ PLt a a := by unfold PLt; omega

theorem Nearest.unique {α : Type} {pos : α → Nat × Nat} {l : List α} {q : Nat × Nat} {b : Bias} {r s : Option α}
    (hinj : ∀ x ∈ l, ∀ y ∈ l, pos x = pos y → x = y) (hr : Nearest pos l q b r) (hs : Nearest pos l q b s) : r = s := by
  cases r with
  | none =>
    cases s with
    | none => rfl
    | some y =>
      obtain ⟨h1, h2⟩ := hs
      have := hr y h1
      rcases h2 with h2 | ⟨_, h2⟩
      · exact absurd h2 this.1
      · cases b with
        | glb => exact absurd h2.1 this.2
        | lub => exact absurd h2.1 this.2
  | some x =>
    cases s with
    | none =>
      obtain ⟨h1, h2⟩ := hr
      have := hs x h1
      rcases h2 with h2 | ⟨_, h2⟩
      · exact absurd h2 this.1
      · cases b with
        | glb => exact absurd h2.1 this.2
        | lub => exact absurd h2.1 this.2
    | some y =>
      obtain ⟨h1, h2⟩ := hr
      obtain ⟨k1, k2⟩ := hs
      congr 1
      apply hinj x h1 y k1
      rcases h2 with h2 | ⟨hn, h2⟩ <;> rcases k2 with k2 | ⟨kn, k2⟩
      · exact h2.trans k2.symm
      · exact absurd h2 (kn x h1)
      · exact absurd k2 (hn y k1)
      · cases b with
        | glb =>
          have a1 := h2.2 y k1 k2.1
          have a2 := k2.2 x h1 h2.1
          rcases PLt.trichotomy (pos x) (pos y) with h | h | h
          · exact absurd h a1
          · exact h
          · exact absurd h a2
        | lub =>
          have a1 := h2.2 y k1 k2.1
          have a2 := k2.2 x h1 h2.1
          rcases PLt.trichotomy (pos x) (pos y) with h | h | h
          · exact absurd h a2
          · exact h
          · exact absurd h a1

/-- A search after both the elements and the position asked for were moved. -/
theorem Nearest.moved {α : Type} {pos : α → Nat × Nat} {l : List α} {q : Nat × Nat} {b : Bias} {r : Option α} (f : α → α)
    (g : Nat × Nat → Nat × Nat) (hg : ∀ a, pos (f a) = g (pos a)) (hlt : ∀ x y, PLt (g x) (g y) ↔ PLt x y)
    (hr : Nearest pos l q b r) : Nearest pos (l.map f) (g q) b (r.map f) := by
  have hinj : ∀ x y, g x = g y ↔ x = y := by
    intro x y
    refine ⟨fun h => ?_, fun h => by rw [h]⟩
    rcases PLt.trichotomy x y with h1 | h1 | h1
    · exact absurd ((hlt x y).2 h1) (by rw [h]; exact PLt.irrefl _)
    · exact h1
    · exact absurd ((hlt y x).2 h1) (by rw [h]; exact PLt.irrefl _)
  cases r <;> cases b <;>
    simp only [Nearest, Option.map_none, Option.map_some, List.forall_mem_map, hg, hlt, hinj, ne_eq] at hr ⊢
  · exact hr
  · exact hr
  · exact ⟨List.mem_map.2 ⟨_, hr.1, rfl⟩, hr.2⟩
  · exact ⟨List.mem_map.2 ⟨_, hr.1, rfl⟩, hr.2⟩

theorem plt_shift (k : Nat) (x y : Nat × Nat) : PLt (x.1 + k, x.2) (y.1 + k, y.2) ↔ PLt x y := by
  unfold PLt; simp only; omega

theorem GenDistinct.down {raws : List RawMapping} (h : GenDistinct raws) (k : Nat) :
    GenDistinct (raws.map (RawMapping.down k)) := by
  unfold GenDistinct at *
  rw [List.pairwise_map]
  refine h.imp ?_
  intro a b hab e
  apply hab
  simp only [RawMapping.genPos, RawMapping.down, Prod.mk.injEq] at e ⊢
  omega

theorem OrigDistinct.down {raws : List RawMapping} (h : OrigDistinct raws) (k : Nat) :
    OrigDistinct (raws.map (RawMapping.down k)) := by
  unfold OrigDistinct at *
  rw [List.pairwise_map]
  exact h

theorem OrigDistinct.inj {raws : List RawMapping} (h : OrigDistinct raws) (n : Nat) :
    ∀ x ∈ raws.filter (·.fromSource n), ∀ y ∈ raws.filter (·.fromSource n), x.origPos = y.origPos → x = y := by
  apply injOn_of_pairwise
  rw [List.pairwise_filter]
  exact h.imp fun hab ha hb => hab n ha hb

theorem filter_down (k n : Nat) (raws : List RawMapping) :
    (raws.map (RawMapping.down k)).filter (·.fromSource n) = (raws.filter (·.fromSource n)).map (RawMapping.down k) := by
  rw [List.filter_map]; rfl

/-- The parsed mappings of a consumer with whatever history. -/
theorem ensure_segments (hL : E.maps.Laws) {m : SourceMapJson} {u : Option String} {c₀ c : BasicConsumer E}
    (h : Built m u c₀) (hrel : Rel c₀ c) {raws : List RawMapping} (hseg : m.Segments raws) :
    ∃ M, c.ensureMappings = .ok M ∧ (E.maps.core M).Perm raws := by
  have hmap : c₀.sourceMap = m := by obtain ⟨_, _, _, _, _, _, hm, _⟩ := h.spec; exact hm
  obtain ⟨M₁, hM₁, hp⟩ := parsed_segments hL (c := c₀) (raws := raws) (by rw [hmap]; exact hseg)
  rcases hrel.ensure with ⟨e, he, _⟩ | ⟨M, M₀, h0, he, hc⟩
  · rw [hM₁] at he; cases he
  · rw [hM₁] at h0
    cases h0
    exact ⟨M, he, by rw [hc]; exact hp⟩

theorem SourceMapJson.down_fields (m : SourceMapJson) (k : Nat) (any : Bool) : (m.down k any).sources = m.sources ∧
    (m.down k any).names = m.names ∧ (m.down k any).sourceRoot = m.sourceRoot ∧
    (m.down k any).sourcesContent = m.sourcesContent := by
  unfold SourceMapJson.down; cases any <;> exact ⟨rfl, rfl, rfl, rfl⟩

theorem absolute_down {m : SourceMapJson} {u : Option String} {k : Nat} {c₀ d₀ : BasicConsumer E} (h : Built m u c₀)
    (hd : Built (m.down k true) u d₀) : d₀.absoluteSources = c₀.absoluteSources := by
  obtain ⟨_, s1, u1, a1, a2, _, _, a3, _⟩ := h.spec
  obtain ⟨_, s2, u2, b1, b2, _, _, b3, _⟩ := hd.spec
  obtain ⟨e1, e2, e3, e4⟩ := m.down_fields k true
  rw [e1, a1] at b1
  cases b1
  rw [e3, a2] at b2
  cases b2
  rw [a3, b3]

theorem succU32_lt (cfg : Cfg) {x : Nat} (h : x + 1 < 4294967296) : cfg.succU32 x = .ok (x + 1) := by
  unfold Cfg.succU32; rw [if_pos h]

theorem reportOriginal_down {c d : BasicConsumer E} {k : Nat} (hn : d.sourceMap.names = c.sourceMap.names)
    (ha : d.absoluteSources = c.absoluteSources) {line : Int} {x y : Option LibMapping}
    (hx : ∀ z, x = some z → z.generatedLine + k + 1 < 2147483648)
    (h : y.map LibMapping.raw = (x.map LibMapping.raw).map (RawMapping.down k)) :
    (d.reportOriginal (line + k) y).map (·.map stripMapping) =
      (c.reportOriginal line x).map (·.map fun r => (stripMapping r).down k) := by
  cases x with
  | none =>
    cases y with
    | none => rfl
    | some y => simp at h
  | some x =>
    cases y with
    | none => simp at h
    | some y =>
      have hb := hx x rfl
      clear hx
      obtain ⟨a1, a2, a3, a4⟩ := x
      obtain ⟨b1, b2, b3, b4⟩ := y
      simp only [Option.map_some, LibMapping.raw, RawMapping.down, Option.some.injEq, Spec.RawMapping.mk.injEq] at h hb
      obtain ⟨rfl, rfl, rfl⟩ := h
      have w1 : wrap32 ((a1 + k : Nat) : Int) = (a1 + k : Nat) := wrap32_of_isI32 (by unfold IsI32; omega)
      have w2 : wrap32 (a1 : Int) = a1 := wrap32_of_isI32 (by unfold IsI32; omega)
      have w3 : wrap32 ((a1 + k + 1 : Nat) : Int) = (a1 + k + 1 : Nat) := wrap32_of_isI32 (by unfold IsI32; omega)
      have w4 : wrap32 ((a1 + 1 : Nat) : Int) = (a1 + 1 : Nat) := wrap32_of_isI32 (by unfold IsI32; omega)
      have s1 := succU32_lt E.cfg (show a1 + k + 1 < 4294967296 by omega)
      have s2 := succU32_lt E.cfg (show a1 + 1 < 4294967296 by omega)
      simp only [reportOriginal]
      simp only [w1, w2]
      by_cases hl : (a1 : Int) = line
      · rw [if_pos (by omega), if_pos hl]
        cases b4 with
        | none => simp only [Except.map, Option.map_none]
        | some o =>
          have : d.optName o.name = c.optName o.name := by
            cases o.name <;> simp only [optName, nameAt, hn]
          simp only [this, s1, s2]
          generalize c.optName o.name = q1
          generalize E.cfg.succU32 o.line = q2
          cases q1 with
          | error e => simp only [Res.ok_bind, Res.error_bind]; simp only [Except.map]
          | ok q1 =>
            cases q2 with
            | error e => simp only [Res.ok_bind, Res.error_bind]; simp only [Except.map]
            | ok q2 =>
              simp only [Res.ok_bind, Res.pure_eq, Except.map, Option.map_some, stripMapping, Mapping.down, ha, w3, w4,
                Except.ok.injEq, Option.some.injEq, Mapping.mk.injEq, Position.mk.injEq, and_true]
              omega
      · rw [if_neg (by omega), if_neg hl]
        simp only [Except.map, Option.map_none]

theorem reportGenerated_down {c d : BasicConsumer E} {k : Nat} (hn : d.sourceMap.names = c.sourceMap.names)
    (ha : d.absoluteSources = c.absoluteSources) {src : Int} {x y : Option LibMapping}
    (hx : ∀ z, x = some z → z.generatedLine + k + 1 < 2147483648)
    (h : y.map LibMapping.raw = (x.map LibMapping.raw).map (RawMapping.down k)) :
    (d.reportGenerated src y).map (·.map stripMapping) =
      (c.reportGenerated src x).map (·.map fun r => (stripMapping r).down k) := by
  cases x with
  | none =>
    cases y with
    | none => rfl
    | some y => simp at h
  | some x =>
    cases y with
    | none => simp at h
    | some y =>
      have hb := hx x rfl
      clear hx
      obtain ⟨a1, a2, a3, a4⟩ := x
      obtain ⟨b1, b2, b3, b4⟩ := y
      simp only [Option.map_some, LibMapping.raw, RawMapping.down, Option.some.injEq, Spec.RawMapping.mk.injEq] at h hb
      obtain ⟨rfl, rfl, rfl⟩ := h
      have w3 : wrap32 ((a1 + k + 1 : Nat) : Int) = (a1 + k + 1 : Nat) := wrap32_of_isI32 (by unfold IsI32; omega)
      have w4 : wrap32 ((a1 + 1 : Nat) : Int) = (a1 + 1 : Nat) := wrap32_of_isI32 (by unfold IsI32; omega)
      have s1 := succU32_lt E.cfg (show a1 + k + 1 < 4294967296 by omega)
      have s2 := succU32_lt E.cfg (show a1 + 1 < 4294967296 by omega)
      simp only [reportGenerated]
      cases b4 with
      | none => simp only [unwrap, Res.error_bind, Except.map]
      | some o =>
        simp only [unwrap, Res.ok_bind]
        split
        · have : d.nameAt o.source = c.nameAt o.source := by simp only [nameAt, hn]
          simp only [this, s1, s2]
          generalize c.nameAt o.source = q1
          cases q1 with
          | error e => simp only [Res.ok_bind, Res.error_bind]; simp only [Except.map]
          | ok q1 =>
            simp only [Res.ok_bind, Res.pure_eq, Except.map, Option.map_some, stripMapping, Mapping.down, ha, w3, w4,
              Except.ok.injEq, Option.some.injEq, Mapping.mk.injEq, Position.mk.injEq, and_true]
            omega
        · simp only [Except.map, Option.map_none]

/-- C104, `original_position_for`. -/
theorem C104_original (hL : E.maps.Laws) (hT : E.maps.Total) {m : SourceMapJson} {u : Option String} {k : Nat}
    {c₀ c d₀ d : BasicConsumer E} (h : Built m u c₀) (hd : Built (m.down k true) u d₀) {ops ops' : List Op}
    (hrun : c₀.run ops = .ok c) (hrun' : d₀.run ops' = .ok d) {raws : List RawMapping} (hseg : m.Segments raws)
    (hroom : ∀ r ∈ raws, r.line + k + 1 < 2147483648) (hdist : GenDistinct raws) {p : Position} {b : Option Bias}
    (hp : 1 ≤ p.line ∧ p.line + k ≤ 2147483647) :
    (d.originalPositionFor ⟨p.line + k, p.column⟩ b).map (fun r => r.1.map stripMapping) =
      (c.originalPositionFor p b).map (fun r => r.1.map fun x => (stripMapping x).down k) := by
  have hrel := h.rel.run hL hrun
  have hrel' := hd.rel.run hL hrun'
  have hseg' := C101_segments k true hseg (by simp) (fun r hr => by have := hroom r hr; omega)
  obtain ⟨M, hM, pM⟩ := ensure_segments hL h hrel hseg
  obtain ⟨N, hN, pN⟩ := ensure_segments hL hd hrel' hseg'
  have hcm : c.sourceMap = m := by obtain ⟨_, _, _, _, _, _, hm, _⟩ := h.spec; exact hrel.map.trans hm
  have hdm : d.sourceMap = m.down k true := by obtain ⟨_, _, _, _, _, _, hm, _⟩ := hd.spec; exact hrel'.map.trans hm
  have hn : d.sourceMap.names = c.sourceMap.names := by rw [hcm, hdm]; exact (m.down_fields k true).2.1
  have ha : d.absoluteSources = c.absoluteSources := by
    rw [hrel.abs, hrel'.abs]; exact absolute_down h hd
  by_cases hc : p.column < 0
  · have e1 : checkPosition p.line p.column = .error (.explicit "Column numbers must be >= 0") := by
      simp only [checkPosition]; rw [if_neg (by omega), if_pos hc]
    have e2 : checkPosition (p.line + k) p.column = .error (.explicit "Column numbers must be >= 0") := by
      simp only [checkPosition]; rw [if_neg (by omega), if_pos hc]
    simp only [originalPositionFor, e1, e2]
    rfl
  · have e1 : checkPosition p.line p.column = .ok () := by
      simp only [checkPosition]; rw [if_neg (by omega), if_neg hc]
    have e2 : checkPosition (p.line + k) p.column = .ok () := by
      simp only [checkPosition]; rw [if_neg (by omega), if_neg hc]
    have i1 : IsI32 (p.line - 1) := by unfold IsI32; omega
    have i2 : IsI32 (p.line + k - 1) := by unfold IsI32; omega
    have q1 : asU32 (p.line - 1) = (p.line - 1).toNat := asU32_i32 (by omega) i1
    have q2 : asU32 (p.line + k - 1) = (p.line - 1).toNat + k := by
      rw [asU32_i32 (by omega) i2]; omega
    obtain ⟨⟨x, M'⟩, hx⟩ := hT.orig M (asU32 (p.line - 1)) (asU32 p.column) (b.getD .glb)
    obtain ⟨⟨y, N'⟩, hy⟩ := hT.orig N (asU32 (p.line + k - 1)) (asU32 p.column) (b.getD .glb)
    have nx := Nearest.congr (fun z => pM.mem_iff) (hL.orig _ _ _ _ _ _ hx)
    have ny := Nearest.congr (fun z => pN.mem_iff) (hL.orig _ _ _ _ _ _ hy)
    have nx' := nx.moved (RawMapping.down k) (fun q => (q.1 + k, q.2)) (fun _ => rfl) (plt_shift k)
    rw [q1] at nx'
    rw [q2] at ny
    have hxy := Nearest.unique (injOn_of_pairwise (hdist.down k)) ny nx'
    have hrep := reportOriginal_down hn ha (line := p.line) (fun z hz => by
      subst hz
      simp only [Option.map_some, Nearest] at nx
      exact hroom _ nx.1) hxy
    simp only [originalPositionFor, e1, e2, Res.ok_bind, hM, hN, E.cfg.arith_ok i1, E.cfg.arith_ok i2, hx, hy]
    revert hrep
    cases c.reportOriginal p.line x <;> cases d.reportOriginal (p.line + k) y <;>
      simp [Except.map, Res.pure_eq, bind, Except.bind]

/-- C104, `generated_position_for`. -/
theorem C104_generated (hL : E.maps.Laws) (hT : E.maps.Total) {m : SourceMapJson} {u : Option String} {k : Nat}
    {c₀ c d₀ d : BasicConsumer E} (h : Built m u c₀) (hd : Built (m.down k true) u d₀) {ops ops' : List Op}
    (hrun : c₀.run ops = .ok c) (hrun' : d₀.run ops' = .ok d) {raws : List RawMapping} (hseg : m.Segments raws)
    (hroom : ∀ r ∈ raws, r.line + k + 1 < 2147483648) (hdist : OrigDistinct raws)
    (hlen : c.getSources.length < 2147483648) {s : String} {n : Nat} (hs : c.Knows s n) (hs' : d.Knows s n)
    {l col : Int} (hp : IsI32 l ∧ IsI32 col) {b : Option Bias} :
    (d.generatedPositionFor s l col b).map (fun r => r.1.map stripMapping) =
      (c.generatedPositionFor s l col b).map (fun r => r.1.map fun x => (stripMapping x).down k) := by
  have hrel := h.rel.run hL hrun
  have hrel' := hd.rel.run hL hrun'
  have hseg' := C101_segments k true hseg (by simp) (fun r hr => by have := hroom r hr; omega)
  have hcm : c.sourceMap = m := by obtain ⟨_, _, _, _, _, _, hm, _⟩ := h.spec; exact hrel.map.trans hm
  have hdm : d.sourceMap = m.down k true := by obtain ⟨_, _, _, _, _, _, hm, _⟩ := hd.spec; exact hrel'.map.trans hm
  have hn : d.sourceMap.names = c.sourceMap.names := by rw [hcm, hdm]; exact (m.down_fields k true).2.1
  have ha0 := absolute_down h hd
  have ha : d.absoluteSources = c.absoluteSources := by rw [hrel.abs, hrel'.abs]; exact ha0
  have hlen0 : c₀.getSources.length < 2147483648 := by rw [← hrel.getSources]; exact hlen
  have hlen0' : d₀.getSources.length < 2147483648 := by
    simp only [BasicConsumer.getSources] at hlen0 ⊢; rw [ha0]; exact hlen0
  have kc := ((lookup_spec h hlen0 s).1 n).2 ⟨n, rfl, (hrel.knows s n).1 hs⟩
  have kd := ((lookup_spec hd hlen0' s).1 n).2 ⟨n, rfl, (hrel'.knows s n).1 hs'⟩
  rcases hrel.find s with ⟨e, h1, _⟩ | ⟨r, q, h1, h2, h3⟩
  · rw [kc] at h1; cases h1
  rw [kc] at h1; cases h1
  rcases hrel'.find s with ⟨e, h1', _⟩ | ⟨r', q', h1', h2', h3'⟩
  · rw [kd] at h1'; cases h1'
  rw [kd] at h1'; cases h1'
  obtain ⟨M, hM, pM⟩ := ensure_segments hL h h3 hseg
  obtain ⟨N, hN, pN⟩ := ensure_segments hL hd h3' hseg'
  by_cases hc : l < 1 ∨ col < 0
  · obtain ⟨msg, e1⟩ : ∃ msg, checkPosition l col = .error (.explicit msg) := by
      simp only [checkPosition]
      by_cases hl : l < 1
      · rw [if_pos hl]; exact ⟨_, rfl⟩
      · rw [if_neg hl, if_pos (by omega)]; exact ⟨_, rfl⟩
    simp only [generatedPositionFor, h2, h2', Res.ok_bind, e1]
    rfl
  · have e1 : checkPosition l col = .ok () := by
      simp only [checkPosition]; rw [if_neg (by omega), if_neg (by omega)]
    have i1 : IsI32 (l - 1) := by have := hp.1; unfold IsI32 at *; omega
    obtain ⟨⟨x, M'⟩, hx⟩ := hT.gen M (asU32 n) (asU32 (l - 1)) (asU32 col) (b.getD .glb)
    obtain ⟨⟨y, N'⟩, hy⟩ := hT.gen N (asU32 n) (asU32 (l - 1)) (asU32 col) (b.getD .glb)
    have nx := Nearest.congr (fun z => (pM.filter _).mem_iff) (hL.gen _ _ _ _ _ _ _ hx)
    have ny := Nearest.congr (fun z => (pN.filter _).mem_iff) (hL.gen _ _ _ _ _ _ _ hy)
    have nx' := nx.moved (RawMapping.down k) id (fun _ => rfl) (fun _ _ => Iff.rfl)
    rw [← filter_down] at nx'
    have hxy := Nearest.unique ((hdist.down k).inj _) ny nx'
    have hrep := reportGenerated_down (c := { c with cache := q }) (d := { d with cache := q' }) hn ha (src := n)
      (fun z hz => by
        subst hz
        simp only [Option.map_some, Nearest] at nx
        exact hroom _ (List.mem_filter.1 nx.1).1) hxy
    simp only [generatedPositionFor, h2, h2', e1, Res.ok_bind, hM, hN, E.cfg.arith_ok i1, hx, hy]
    revert hrep
    generalize BasicConsumer.reportGenerated _ _ x = a1
    generalize BasicConsumer.reportGenerated _ _ y = a2
    cases a1 <;> cases a2 <;> simp [Except.map, Res.pure_eq, bind, Except.bind]

/-- C104, `each_mapping`: in generated order the callback gets the same sequence of mappings, in original order the same
mappings, `k` lines further down. -/
theorem C104_each (hL : E.maps.Laws) {m : SourceMapJson} {u : Option String} {k : Nat}
    {c₀ c d₀ d : BasicConsumer E} (h : Built m u c₀) (hd : Built (m.down k true) u d₀) {ops ops' : List Op}
    (hrun : c₀.run ops = .ok c) (hrun' : d₀.run ops' = .ok d) {raws : List RawMapping} (hseg : m.Segments raws)
    (hroom : ∀ r ∈ raws, r.line + k + 1 < 2147483648) (hdist : GenDistinct raws) {o : IterOrd} {r r' : List LibMapping}
    {c' d' : BasicConsumer E} (hr : c.eachMapping o = .ok (r, c')) (hr' : d.eachMapping o = .ok (r', d')) :
    (r'.map LibMapping.raw).Perm (r.map fun x => x.raw.down k) ∧
    (o = .generated → r'.map LibMapping.raw = r.map fun x => x.raw.down k) := by
  have hrel := h.rel.run hL hrun
  have hrel' := hd.rel.run hL hrun'
  have hseg' := C101_segments k true hseg (by simp) (fun r hr => by have := hroom r hr; omega)
  have hmap : c₀.sourceMap = m := by obtain ⟨_, _, _, _, _, _, hm, _⟩ := h.spec; exact hm
  have hmap' : d₀.sourceMap = m.down k true := by obtain ⟨_, _, _, _, _, _, hm, _⟩ := hd.spec; exact hm
  obtain ⟨M₁, hM₁, pM⟩ := parsed_segments hL (c := c₀) (raws := raws) (by rw [hmap]; exact hseg)
  obtain ⟨N₁, hN₁, pN⟩ := parsed_segments hL (c := d₀) (raws := raws.map (RawMapping.down k)) (by rw [hmap']; exact hseg')
  have main : ∀ {c₀ c c' : BasicConsumer E} {r : List LibMapping} {M₁ : E.maps.M}, Rel c₀ c → c₀.parsed = .ok M₁ →
      c.eachMapping o = .ok (r, c') → ∃ M M', E.maps.core M = E.maps.core M₁ ∧ iterate M o = .ok (r, M') := by
    intro c₀ c c' r M₁ hrel hp hr
    rcases each_ok hrel hr with ⟨t, h1, h2, _⟩ | ⟨M, M₀, M', h1, h2, h3, _⟩
    · simp [BasicConsumer.parsed, h1, h2, unwrap] at hp
    · rw [hp] at h1; cases h1
      exact ⟨M, M', h2, h3⟩
  obtain ⟨M, M', e1, i1⟩ := main hrel hM₁ hr
  obtain ⟨N, N', e2, i2⟩ := main hrel' hN₁ hr'
  rw [← e1] at pM
  rw [← e2] at pN
  have hmm : (r.map fun x => x.raw.down k) = (r.map LibMapping.raw).map (RawMapping.down k) := by simp
  rw [hmm]
  cases o with
  | generated =>
    simp only [iterate, Except.ok.injEq, Prod.mk.injEq] at i1 i2
    obtain ⟨rfl, _⟩ := i1
    obtain ⟨rfl, _⟩ := i2
    have hperm : (E.maps.core N).Perm ((E.maps.core M).map (RawMapping.down k)) := pN.trans (pM.map _).symm
    refine ⟨hperm, fun _ => ?_⟩
    refine hperm.eq_of_pairwise (le := fun a b => a.genLe b = true) ?_ (hL.sorted N) ?_
    · intro a b ha hb h1 h2
      refine injOn_of_pairwise (hdist.down k) a (pN.mem_iff.1 ha) b (pN.mem_iff.1 (hperm.mem_iff.2 hb)) ?_
      simp only [RawMapping.genLe, decide_eq_true_eq, RawMapping.genPos, Prod.mk.injEq] at h1 h2 ⊢
      omega
    · rw [List.pairwise_map]
      refine (hL.sorted M).imp ?_
      intro a b hab
      simp only [RawMapping.genLe, decide_eq_true_eq] at hab ⊢
      show a.line + k < b.line + k ∨ a.line + k = b.line + k ∧ a.column ≤ b.column
      omega
  | original =>
    simp only [iterate] at i1 i2
    have p1 := (hL.byOrig _ _ _ i1).1
    have p2 := (hL.byOrig _ _ _ i2).1
    refine ⟨?_, by simp⟩
    have hf : ∀ l : List RawMapping, (l.map (RawMapping.down k)).filter (·.original.isSome) =
        (l.filter (·.original.isSome)).map (RawMapping.down k) := fun l => by rw [List.filter_map]; rfl
    refine p2.trans ?_
    refine (pN.filter _).trans ?_
    rw [hf]
    exact ((pM.filter _).symm.map _).trans (p1.symm.map _)

/-- C104, `all_generated_position_for`, where it finds anything at the position asked for. -/
theorem C104_all (hL : E.maps.Laws) {m : SourceMapJson} {u : Option String} {k : Nat}
    {c₀ c d₀ d : BasicConsumer E} (h : Built m u c₀) (hd : Built (m.down k true) u d₀) {ops ops' : List Op}
    (hrun : c₀.run ops = .ok c) (hrun' : d₀.run ops' = .ok d) {raws : List RawMapping} (hseg : m.Segments raws)
    (hroom : ∀ r ∈ raws, r.line + k + 1 < 2147483648)
    (hlen : c.getSources.length < 2147483648) {s : String} {n : Nat} (hs : c.Knows s n) (hs' : d.Knows s n)
    {l col : Int} (hp : IsI32 l ∧ IsI32 col) (hpos : 1 ≤ l ∧ 0 ≤ col)
    (hfound : ∃ x ∈ raws, x.fromSource n = true ∧ x.origPos = (l.toNat, col.toNat)) {r r' : List LibMapping}
    {c' d' : BasicConsumer E} (hr : c.allGeneratedPositionFor s l (some col) = .ok (r, c'))
    (hr' : d.allGeneratedPositionFor s l (some col) = .ok (r', d')) :
    (r'.map LibMapping.raw).Perm (r.map fun x => x.raw.down k) := by
  have hseg' := C101_segments k true hseg (by simp) (fun r hr => by have := hroom r hr; omega)
  have ha : d.absoluteSources = c.absoluteSources := by
    rw [(h.rel.run hL hrun).abs, (hd.rel.run hL hrun').abs]; exact absolute_down h hd
  have hlen' : d.getSources.length < 2147483648 := by
    simp only [BasicConsumer.getSources] at hlen ⊢; rw [ha]; exact hlen
  have p1 := ((C35_all_generated_partial hL h hrun hseg hlen hs hp hpos).1 r c' hr).1 hfound
  have p2 := ((C35_all_generated_partial hL hd hrun' hseg' hlen' hs' hp hpos).1 r' d' hr').1 (by
    obtain ⟨x, h1, h2, h3⟩ := hfound
    exact ⟨x.down k, List.mem_map.2 ⟨x, h1, rfl⟩, h2, h3⟩)
  have hmm : (r.map fun x => x.raw.down k) = (r.map LibMapping.raw).map (RawMapping.down k) := by simp
  rw [hmm]
  refine p2.trans (List.Perm.trans ?_ (p1.symm.map _))
  rw [List.filter_map]
  exact List.Perm.refl _

/-! ## Cases -/

/-- The demonstration map and the same with three semicolons before its mappings. -/
example : demoAsk demoMap (fun c => c.originalPositionFor ⟨1, 100⟩ (some .lub)) =
      .ok (some ⟨⟨2, 1⟩, some ⟨1, 1⟩, some "two.js", none, none⟩) ∧
    demoAsk (demoMap.down 3 true) (fun c => c.originalPositionFor ⟨4, 100⟩ (some .lub)) =
      .ok (some ⟨⟨5, 1⟩, some ⟨1, 1⟩, some "two.js", none, none⟩) := ⟨by decide +kernel, by decide +kernel⟩

example : GenDistinct demoRaws := by unfold GenDistinct; decide +kernel

example : OrigDistinct demoRaws := by
  simp [OrigDistinct, demoRaws, RawMapping.fromSource, RawMapping.origPos]

end RSM
