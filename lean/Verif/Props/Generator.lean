import Verif.Lemmas.GenOutput
/-! # Properties C16-C25: the generator -/

namespace RSM

open Spec

/-! ## A concrete history

Out-of-order mappings, a repeated one, a serialisation in the middle, contents. -/

def gxP : Mapping := { generated := ⟨1, 5⟩, original := some ⟨3, 1⟩, source := some "b.js", name := some "foo" }
def gxQ : Mapping := { generated := ⟨1, 3⟩ }
def gxR : Mapping := { generated := ⟨4, 0⟩, original := some ⟨1, 0⟩, source := some "a.js" }
def gxOps : List GOp :=
  [.add gxP, .add gxP, .setContent "a.js" (some "x"), .add gxR, .asJson, .add gxQ, .setContent "b.js" none]

/-- Positions below `2^30` can be encoded on every target. -/
theorem Mapping.Encodable.small {cfg : Cfg} {m : Mapping}
    (line : 1 ≤ m.generated.line ∧ m.generated.line ≤ 2147483647)
    (column : 0 ≤ m.generated.column ∧ m.generated.column < 1073741824)
    (orig : m.original.isSome = m.source.isSome)
    (range : ∀ p, m.original = some p → 1 ≤ p.line ∧ p.line ≤ 1073741824 ∧ 0 ≤ p.column ∧ p.column < 1073741824)
    (name : m.source = none → m.name = none) : m.Encodable cfg := by
  have := cfg.le_vlqLimit
  refine ⟨line, by omega, orig, fun p hp => ?_, name⟩
  have := range p hp
  omega

theorem gxP_enc {cfg : Cfg} : gxP.Encodable cfg :=
  .small (by decide) (by decide) rfl (by intro p hp; cases hp; decide) (by intro h; cases h)
theorem gxQ_enc {cfg : Cfg} : gxQ.Encodable cfg :=
  .small (by decide) (by decide) rfl (by intro p hp; cases hp) (fun _ => rfl)
theorem gxR_enc {cfg : Cfg} : gxR.Encodable cfg :=
  .small (by decide) (by decide) rfl (by intro p hp; cases hp; decide) (by intro h; cases h)

theorem gxOps_enc {cfg : Cfg} : ∀ m ∈ gAdded gxOps, m.Encodable cfg := by
  intro m hm
  simp only [gAdded, gxOps, List.mem_cons, List.not_mem_nil, or_false] at hm
  rcases hm with rfl | rfl | rfl | rfl
  · exact gxP_enc
  · exact gxP_enc
  · exact gxR_enc
  · exact gxQ_enc

/-- The tables stay small when few mappings are added. -/
theorem tables_limit {B : Nat} {ops : List GOp} (h : (gAdded ops).length < B) :
    (firstOccurrences ((gAdded ops).filterMap Mapping.source)).length < B ∧
    (firstOccurrences ((gAdded ops).filterMap Mapping.name)).length < B := by
  have key : ∀ l : List String, (firstOccurrences l).length ≤ l.length := by
    intro l
    induction l with
    | nil => simp [firstOccurrences]
    | cons s l ih =>
      simp only [firstOccurrences, List.length_cons]
      have := List.length_filter_le (fun t => decide (t ≠ s)) (firstOccurrences l)
      omega
  constructor
  · exact Nat.lt_of_le_of_lt (Nat.le_trans (key _) (List.length_filterMap_le _ _)) h
  · exact Nat.lt_of_le_of_lt (Nat.le_trans (key _) (List.length_filterMap_le _ _)) h

theorem tables_small {cfg : Cfg} {ops : List GOp} (h : (gAdded ops).length < 1073741824) :
    (firstOccurrences ((gAdded ops).filterMap Mapping.source)).length < cfg.vlqLimit ∧
    (firstOccurrences ((gAdded ops).filterMap Mapping.name)).length < cfg.vlqLimit :=
  tables_limit (Nat.lt_of_lt_of_le h cfg.le_vlqLimit)

/-! ## C16 -/

/-- C16. The emitted `sources` and `names` are the distinct ones used by the added mappings, in
order of first use, whatever else was called. -/
theorem C16_generator_tables (U : UrlLib) (cfg : Cfg) (file root : Option String) (skip : Bool)
    (ops : List GOp) (g g' : Generator) (j : SourceMapJson)
    (h : (Generator.new file root skip).run U cfg ops = .ok g) (hj : g.asJson U cfg = .ok (j, g')) :
    j.sources = some (firstOccurrences ((gAdded ops).filterMap Mapping.source)) ∧
    j.names = some (firstOccurrences ((gAdded ops).filterMap Mapping.name)) := by
  obtain ⟨_, _, _, h4, h5, _⟩ := gRun_new h
  obtain ⟨_, _, _, _, _, _, _, _, rfl⟩ := asJson_ok hj
  simp only [ArraySet.toVec, h4, h5, tableOf_array, and_self]

example : firstOccurrences ((gAdded gxOps).filterMap Mapping.source) = ["b.js", "a.js"] := by decide

/-! ## C17, C18 -/

/-- C17. The emitted `mappings` decode by the Source Map v3 grammar; the segments are in generated
order and each denotes, through the emitted tables, a mapping that was added. -/
theorem C17_generator_sound (U : UrlLib) (cfg : Cfg) (file root : Option String) (skip : Bool)
    (ops : List GOp) (g g' : Generator) (j : SourceMapJson)
    (henc : ∀ m ∈ gAdded ops, m.Encodable cfg)
    (hS : (firstOccurrences ((gAdded ops).filterMap Mapping.source)).length < cfg.vlqLimit)
    (hN : (firstOccurrences ((gAdded ops).filterMap Mapping.name)).length < cfg.vlqLimit)
    (h : (Generator.new file root skip).run U cfg ops = .ok g) (hj : g.asJson U cfg = .ok (j, g')) :
    ∃ S N text raws, j.sources = some S ∧ j.names = some N ∧ j.mappings = some text ∧
      decodeMappings text.toList = some raws ∧
      raws.Pairwise (fun r s => r.line < s.line ∨ (r.line = s.line ∧ r.column ≤ s.column)) ∧
      ∀ r ∈ raws, ∃ m ∈ gAdded ops, Denotes S N r m := by
  obtain ⟨S, N, out, t, _, _, j1, j2, j3, hk, hp, hs, hd⟩ := output_spec henc hS hN h hj
  have hsub := dropRepeats_sublist out none
  refine ⟨S.array, N.array, String.ofList t, _, j1, j2, j3, by simpa using hd, ?_, ?_⟩
  · rw [List.pairwise_map]
    have := hs.sublist hsub
    refine List.Pairwise.imp_of_mem ?_ this
    intro a b ha hb hab
    exact toRaw_posLE (henc a (hp.mem_iff.1 (hsub.subset ha))) (henc b (hp.mem_iff.1 (hsub.subset hb))) hab
  · intro r hr
    obtain ⟨m, hm, rfl⟩ := List.mem_map.1 hr
    have hm' := hsub.subset hm
    exact ⟨m, hp.mem_iff.1 hm', denotes_toRaw (henc m (hp.mem_iff.1 hm')) (hk m hm')⟩

/-- C18. Every added mapping is denoted by an emitted segment, neighbouring segments differ, and if
no two added mappings agree on all compared fields there is one segment per mapping. -/
theorem C18_generator_complete (U : UrlLib) (cfg : Cfg) (file root : Option String) (skip : Bool)
    (ops : List GOp) (g g' : Generator) (j : SourceMapJson)
    (henc : ∀ m ∈ gAdded ops, m.Encodable cfg)
    (hS : (firstOccurrences ((gAdded ops).filterMap Mapping.source)).length < cfg.vlqLimit)
    (hN : (firstOccurrences ((gAdded ops).filterMap Mapping.name)).length < cfg.vlqLimit)
    (h : (Generator.new file root skip).run U cfg ops = .ok g) (hj : g.asJson U cfg = .ok (j, g')) :
    ∃ S N text raws, j.sources = some S ∧ j.names = some N ∧ j.mappings = some text ∧
      decodeMappings text.toList = some raws ∧
      (∀ m ∈ gAdded ops, ∃ r ∈ raws, Denotes S N r m) ∧
      (∀ i r s, raws[i]? = some r → raws[i + 1]? = some s → r ≠ s) ∧
      ((gAdded ops).Pairwise (fun a b => ¬ SameKey a b) → raws.length = (gAdded ops).length) := by
  obtain ⟨S, N, out, t, _, _, j1, j2, j3, hk, hp, hs, hd⟩ := output_spec henc hS hN h hj
  have hsub := dropRepeats_sublist out none
  have hden : ∀ m ∈ out, Denotes S.array N.array (toRaw S.array N.array m) m :=
    fun m hm => denotes_toRaw (henc m (hp.mem_iff.1 hm)) (hk m hm)
  refine ⟨S.array, N.array, String.ofList t, _, j1, j2, j3, by simpa using hd, ?_, ?_, ?_⟩
  · intro m hm
    rcases dropRepeats_covers out none m (hp.mem_iff.2 hm) with ⟨m', h1, h2⟩ | ⟨q, h1, _⟩
    · refine ⟨_, List.mem_map.2 ⟨m', h1, rfl⟩, ?_⟩
      have h3 := hden m' (hsub.subset h1)
      obtain ⟨e1, e2, e3, e4⟩ := h2
      unfold Denotes at h3 ⊢
      rw [e1, e2, e3, e4]
      exact h3
    · cases h1
  · intro i r s hr hs hrs
    subst hrs
    rw [List.getElem?_map, Option.map_eq_some_iff] at hr hs
    obtain ⟨a, ha, ha'⟩ := hr
    obtain ⟨b, hb, hb'⟩ := hs
    refine dropRepeats_none_neighbours out i a b ha hb ?_
    have h1 := hden a (hsub.subset (List.mem_of_getElem? ha))
    have h2 := hden b (hsub.subset (List.mem_of_getElem? hb))
    rw [ha'] at h1
    rw [hb'] at h2
    exact denotes_sameKey h1 h2
  · intro hpw
    have hpw' : out.Pairwise (fun a b => ¬ SameKey a b) :=
      (hp.symm.pairwise_iff (fun hab hc => hab hc.symm)).1 hpw
    rw [List.length_map, dropRepeats_eq_self out none hpw' (by intro q hq; cases hq), hp.length_eq]

/-! ## C19 -/

/-- C19. A serialisation leaves a state whose serialisation is the same, and which it no longer
changes. -/
theorem C19_serialize_twice (U : UrlLib) (cfg : Cfg) (g g' : Generator) (j : SourceMapJson)
    (h : g.asJson U cfg = .ok (j, g')) : g'.asJson U cfg = .ok (j, g') := by
  obtain ⟨sc, out, l, t, h1, h2, h3, rfl, rfl⟩ := asJson_ok h
  have h4 : l.toArray cfg = .ok (out, l) := by
    unfold MappingList.toArray at h2
    split at h2
    · rw [Res.bind_eq_ok] at h2
      obtain ⟨arr, _, h6⟩ := h2
      simp only [Res.pure_eq, Except.ok.injEq, Prod.mk.injEq] at h6
      obtain ⟨rfl, rfl⟩ := h6
      rfl
    · rename_i hs
      simp only [Except.ok.injEq, Prod.mk.injEq] at h2
      obtain ⟨rfl, rfl⟩ := h2
      unfold MappingList.toArray
      rw [if_neg hs]
  exact asJson_intro (g := { g with mappings := l })
    ((sourcesContent_congr (g := { g with mappings := l }) (g' := g) rfl rfl rfl).trans h1) h4 h3

/-! ## C24 -/

/-- C24. With valid mappings, whatever their coordinates, and no source root neither the history nor the final
serialisation panics. -/
theorem C24_serialize_total (U : UrlLib) (cfg : Cfg) (file : Option String) (skip : Bool)
    (ops : List GOp) (hval : ∀ m ∈ gAdded ops, m.Valid ∧ 1 ≤ m.generated.line)
    (hS : (firstOccurrences ((gAdded ops).filterMap Mapping.source)).length < 2147483648)
    (hN : (firstOccurrences ((gAdded ops).filterMap Mapping.name)).length < 2147483648) :
    ∃ g j g', (Generator.new file none skip).run U cfg ops = .ok g ∧ g.asJson U cfg = .ok (j, g') := by
  obtain ⟨g, hg⟩ := gRun_total (U := U) (cfg := cfg) (file := file) (root := none)
    (skip := skip) id ops []
    (Generator.new file none skip) (fun _ _ _ => rfl) (fun _ _ _ _ => rfl) hval hS hN rfl
  obtain ⟨j, g', h⟩ := asJson_total id (fun _ _ _ _ => rfl) hval hS hN hg
  exact ⟨g, j, g', hg, h⟩

/-- A mapping with the greatest coordinates. -/
example (U : UrlLib) (cfg : Cfg) : ∃ g j g', (Generator.new none none false).run U cfg
      [.add { generated := ⟨2147483647, 2147483647⟩, original := some ⟨2147483647, 2147483647⟩, source := some "a" },
        .add gxP] = .ok g ∧ g.asJson U cfg = .ok (j, g') :=
  C24_serialize_total U cfg none false _ (by
    intro m hm
    simp only [gAdded, List.mem_cons, List.not_mem_nil, or_false] at hm
    rcases hm with rfl | rfl
    · exact ⟨⟨by decide, by decide, rfl, by intro p hp; cases hp; decide⟩, by decide⟩
    · exact ⟨(gxP_enc (cfg := cfg)).valid, by decide⟩) (by decide) (by decide)

theorem serialize_encodable (U : UrlLib) (cfg : Cfg) (file : Option String) (skip : Bool)
    (ops : List GOp) (henc : ∀ m ∈ gAdded ops, m.Encodable cfg)
    (hS : (firstOccurrences ((gAdded ops).filterMap Mapping.source)).length < cfg.vlqLimit)
    (hN : (firstOccurrences ((gAdded ops).filterMap Mapping.name)).length < cfg.vlqLimit) :
    ∃ g j g', (Generator.new file none skip).run U cfg ops = .ok g ∧ g.asJson U cfg = .ok (j, g') :=
  C24_serialize_total U cfg file skip ops (fun m hm => ⟨(henc m hm).valid, (henc m hm).line.1⟩)
    (Nat.lt_of_lt_of_le hS cfg.vlqLimit_le) (Nat.lt_of_lt_of_le hN cfg.vlqLimit_le)

/-- C24. Serialising panics if some added mapping has a source but no original position, unless
another added mapping differs from it only in having one (then it may be dropped as a repeat). -/
theorem C24_serialize_panics (U : UrlLib) (cfg : Cfg) (file root : Option String) (skip : Bool)
    (ops : List GOp) (g : Generator) (hi : ∀ m ∈ gAdded ops, m.I32)
    (h : (Generator.new file root skip).run U cfg ops = .ok g)
    (m : Mapping) (hm : m ∈ gAdded ops) (hs : m.source.isSome = true)
    (hno : ∀ m' ∈ gAdded ops, ¬ Shadows m' m) : ∃ e, g.asJson U cfg = .error e := by
  cases hj : g.asJson U cfg with
  | error e => exact ⟨e, rfl⟩
  | ok r =>
    obtain ⟨j, g'⟩ := r
    exfalso
    obtain ⟨_, _, h3, _⟩ := gRun_new h
    obtain ⟨sc, out, l, t, _, k2, k3, _, _⟩ := asJson_ok hj
    have hrun := run_perm cfg _ _ _ h3
    rw [added_mlOps] at hrun
    have hp : out.Perm (gAdded ops) := (toArray_perm cfg k2).1.trans (by simpa [MappingList.new] using hrun)
    obtain ⟨m', h1, h2⟩ := serializeLoop_original out _ _ _ [] k3 (fun x hx => hi x (hp.mem_iff.1 hx))
      (by intro p hp; cases hp) (by intro p hp; cases hp) m (hp.mem_iff.2 hm) hs
    exact hno m' (hp.mem_iff.1 (by simpa using h1)) h2

/-- A history meeting these hypotheses. -/
example (U : UrlLib) (cfg : Cfg) : ∃ g e, (Generator.new none none false).run U cfg
    [.add gxP, .add { generated := ⟨2, 0⟩, source := some "a.js" }] = .ok g ∧ g.asJson U cfg = .error e := by
  obtain ⟨g, hg⟩ : ∃ g, (Generator.new none none false).run U cfg
      [.add gxP, .add { generated := ⟨2, 0⟩, source := some "a.js" }] = .ok g := ⟨_, rfl⟩
  have hmem : ∀ m ∈ gAdded [.add gxP, .add { generated := ⟨2, 0⟩, source := some "a.js" }],
      m = gxP ∨ m = { generated := ⟨2, 0⟩, source := some "a.js" } := by simp [gAdded]
  obtain ⟨e, he⟩ := C24_serialize_panics U cfg none none false _ g (by
    intro m hm
    rcases hmem m hm with rfl | rfl
    · exact ⟨by decide, by decide⟩
    · exact ⟨by decide, by decide⟩) hg { generated := ⟨2, 0⟩, source := some "a.js" } (by simp [gAdded]) rfl (by
    intro m' hm'
    rcases hmem m' hm' with rfl | rfl
    · rintro ⟨h1, _⟩; revert h1; decide
    · rintro ⟨_, _, _, h1⟩; revert h1; decide)
  exact ⟨g, e, hg, he⟩

/-! ## C20 -/

def gxA : Mapping := { generated := ⟨1, 5⟩, original := some ⟨1, 0⟩, source := some "a.js" }
def gxB : Mapping := { generated := ⟨1, 5⟩, original := some ⟨1, 0⟩, source := some "b.js" }

theorem gxA_enc {cfg : Cfg} : gxA.Encodable cfg :=
  .small (by decide) (by decide) rfl (by intro p hp; cases hp; decide) (by intro h; cases h)
theorem gxB_enc {cfg : Cfg} : gxB.Encodable cfg :=
  .small (by decide) (by decide) rfl (by intro p hp; cases hp; decide) (by intro h; cases h)

theorem mergeSort_eq {l l' : List Mapping} (hp : l.Perm l')
    (hs : l'.Pairwise (fun a b => cmpLE a b = true))
    (ha : ∀ a ∈ l, ∀ b ∈ l, cmpLE a b = true → cmpLE b a = true → a = b) : l.mergeSort cmpLE = l' := by
  refine List.Perm.eq_of_pairwise ?_ (List.pairwise_mergeSort cmpLE_trans cmpLE_total l) hs
    ((List.mergeSort_perm l cmpLE).trans hp)
  intro a b h1 h2 h3 h4
  exact ha a (List.mem_mergeSort.1 h1) b (hp.mem_iff.2 h2) h3 h4

/-- C20 (refutation). Serialising in between changes a later serialisation: after adding `b.js` at
column 5, an unmapped column 3, and `a.js` at column 5, the order of the two segments at column 5
depends on whether the map was serialised before the last addition. -/
theorem C20_serialize_observes_refuted (U : UrlLib) (cfg : Cfg) :
    ∃ ops₁ op ops₂ g₁ g₂ g₁' g₂' j₁ j₂, op = GOp.asJson ∧
      (Generator.new none none false).run U cfg (ops₁ ++ ops₂) = .ok g₁ ∧
      (Generator.new none none false).run U cfg (ops₁ ++ op :: ops₂) = .ok g₂ ∧
      g₁.asJson U cfg = .ok (j₁, g₁') ∧ g₂.asJson U cfg = .ok (j₂, g₂') ∧ j₁.mappings ≠ j₂.mappings := by
  have henc₁ : ∀ m ∈ gAdded ([.add gxB, .add gxQ] ++ [.add gxA]), m.Encodable cfg := by
    intro m hm
    simp only [gAdded, List.cons_append, List.nil_append, List.mem_cons, List.not_mem_nil, or_false] at hm
    rcases hm with rfl | rfl | rfl
    · exact gxB_enc
    · exact gxQ_enc
    · exact gxA_enc
  have henc₂ : ∀ m ∈ gAdded ([.add gxB, .add gxQ] ++ .asJson :: [.add gxA]), m.Encodable cfg := henc₁
  obtain ⟨g₁, j₁, g₁', h1, h2⟩ := serialize_encodable U cfg none false _ henc₁
    (tables_small (by decide)).1 (tables_small (by decide)).2
  obtain ⟨g₂, j₂, g₂', k1, k2⟩ := serialize_encodable U cfg none false _ henc₂
    (tables_small (by decide)).1 (tables_small (by decide)).2
  refine ⟨[.add gxB, .add gxQ], _, [.add gxA], g₁, g₂, g₁', g₂', j₁, j₂, rfl, h1, k1, h2, k2, ?_⟩
  have sort3 : [gxB, gxQ, gxA].mergeSort cmpLE = [gxQ, gxA, gxB] :=
    mergeSort_eq (by decide) (by decide) (by decide)
  have sort2 : [gxB, gxQ].mergeSort cmpLE = [gxQ, gxB] :=
    mergeSort_eq (by decide) (by decide) (by decide)
  obtain ⟨_, _, a3, a4, a5, _⟩ := gRun_new h1
  obtain ⟨_, _, b3, b4, b5, _⟩ := gRun_new k1
  obtain ⟨_, out₁, l₁, t₁, _, c2, c3, _, rfl⟩ := asJson_ok h2
  obtain ⟨_, out₂, l₂, t₂, _, d2, d3, _, rfl⟩ := asJson_ok k2
  have hv3 : ∀ m ∈ [gxB, gxQ, gxA], m.Valid := fun m hm => (henc₁ m hm).valid
  have sub : ∀ m ∈ [gxB, gxQ], m ∈ [gxB, gxQ, gxA] := by decide
  have hv2 : ∀ m ∈ [gxB, gxQ], m.Valid := fun m hm => hv3 m (sub m hm)
  have r1 : MappingList.new.run cfg (mlOps ([.add gxB, .add gxQ] ++ [.add gxA])) =
      .ok ⟨[gxB, gxQ, gxA], false, some gxA⟩ := rfl
  have r2 : MappingList.new.run cfg (mlOps ([.add gxB, .add gxQ] ++ .asJson :: [.add gxA])) =
      .ok ⟨[gxQ, gxB, gxA], true, some gxA⟩ := by
    have e1 : MappingList.add cfg MappingList.new gxB = .ok ⟨[gxB], true, some gxB⟩ := rfl
    have e2 : MappingList.add cfg ⟨[gxB], true, some gxB⟩ gxQ = .ok ⟨[gxB, gxQ], false, some gxB⟩ := rfl
    have e3 : MappingList.toArray cfg ⟨[gxB, gxQ], false, some gxB⟩ =
        .ok ([gxQ, gxB], ⟨[gxQ, gxB], true, some gxB⟩) := by
      simp only [MappingList.toArray, Bool.not_false, if_true, sortBy_valid cfg hv2, Res.ok_bind, sort2,
        Res.pure_eq]
    have e4 : MappingList.add cfg ⟨[gxQ, gxB], true, some gxB⟩ gxA =
        .ok ⟨[gxQ, gxB, gxA], true, some gxA⟩ := rfl
    simp only [mlOps, List.cons_append, List.nil_append, MappingList.run, MappingList.step, e1, e2, e3, e4,
      Res.ok_bind, Res.pure_eq]
  rw [a3] at r1
  rw [b3] at r2
  simp only [Except.ok.injEq] at r1 r2
  rw [r1] at c2
  rw [r2] at d2
  simp only [MappingList.toArray, Bool.not_false, if_true, sortBy_valid cfg hv3, Res.ok_bind, sort3,
    Res.pure_eq, Except.ok.injEq, Prod.mk.injEq] at c2
  simp only [MappingList.toArray, Bool.not_true, Bool.false_eq_true, if_false, Except.ok.injEq,
    Prod.mk.injEq] at d2
  obtain ⟨rfl, _⟩ := c2
  obtain ⟨rfl, _⟩ := d2
  have iS := tableOf_inv ["b.js", "a.js"]
  have iN := tableOf_inv []
  have eS₁ : g₁.sources = tableOf ["b.js", "a.js"] := a4
  have eN₁ : g₁.names = tableOf [] := a5
  have eS₂ : g₂.sources = tableOf ["b.js", "a.js"] := b4
  have eN₂ : g₂.names = tableOf [] := b5
  have hk : ∀ m ∈ [gxB, gxQ, gxA], Known (tableOf ["b.js", "a.js"]) (tableOf []) m := by
    intro m hm
    simp only [List.mem_cons, List.not_mem_nil, or_false] at hm
    rcases hm with rfl | rfl | rfl
    · exact ⟨(by rintro s hs; cases hs; decide), (by rintro s hs; cases hs)⟩
    · exact ⟨(by rintro s hs; cases hs), (by rintro s hs; cases hs)⟩
    · exact ⟨(by rintro s hs; cases hs; decide), (by rintro s hs; cases hs)⟩
  have perm1 : ∀ m ∈ [gxQ, gxA, gxB], m ∈ [gxB, gxQ, gxA] := by decide
  have perm2 : ∀ m ∈ [gxQ, gxB, gxA], m ∈ [gxB, gxQ, gxA] := by decide
  have hlS : (tableOf ["b.js", "a.js"]).array.length < cfg.vlqLimit :=
    Nat.lt_of_lt_of_le (by decide) cfg.le_vlqLimit
  have hlN : (tableOf []).array.length < cfg.vlqLimit := Nat.lt_of_lt_of_le (by decide) cfg.le_vlqLimit
  obtain ⟨u₁, x1, x2, _⟩ := serializeLoop_spec cfg iS iN rfl hlS hlN [gxQ, gxA, gxB]
    (by decide) (comparable_encodable fun m hm => henc₁ m (perm1 m hm))
    (fun m hm => (henc₁ m (perm1 m hm)).writable) (fun m hm => hk m (perm1 m hm))
  obtain ⟨u₂, y1, y2, _⟩ := serializeLoop_spec cfg iS iN rfl hlS hlN [gxQ, gxB, gxA]
    (by decide) (comparable_encodable fun m hm => henc₁ m (perm2 m hm))
    (fun m hm => (henc₁ m (perm2 m hm)).writable) (fun m hm => hk m (perm2 m hm))
  rw [eS₁, eN₁, x1] at c3
  rw [eS₂, eN₂, y1] at d3
  cases c3
  cases d3
  intro heq
  simp only [Option.some.injEq] at heq
  have : t₁ = t₂ := by simpa using congrArg String.toList heq
  rw [this, y2] at x2
  revert x2
  decide

/-- C20 (what is true). Two histories that differ only in where they serialise emit maps equal in
every field but `mappings`; they hold the same mappings; and if the mappings are valid and no two
different ones share a generated position, the whole maps are equal.
Missing: equality of `mappings` when different mappings share a position, where it is false. -/
theorem C20_serialize_observes_partial (U : UrlLib) (cfg : Cfg) (file root : Option String) (skip : Bool)
    (ops₁ ops₂ : List GOp) (hops : withoutJson ops₁ = withoutJson ops₂)
    (g₁ g₂ g₁' g₂' : Generator) (j₁ j₂ : SourceMapJson)
    (h₁ : (Generator.new file root skip).run U cfg ops₁ = .ok g₁) (hj₁ : g₁.asJson U cfg = .ok (j₁, g₁'))
    (h₂ : (Generator.new file root skip).run U cfg ops₂ = .ok g₂) (hj₂ : g₂.asJson U cfg = .ok (j₂, g₂')) :
    { j₁ with mappings := none } = { j₂ with mappings := none } ∧
    g₁'.mappings.array.Perm g₂'.mappings.array ∧
    ((∀ m ∈ gAdded ops₁, m.Valid) →
      (∀ a ∈ gAdded ops₁, ∀ b ∈ gAdded ops₁, a.generated = b.generated → a = b) → j₁ = j₂) := by
  have hadd : gAdded ops₁ = gAdded ops₂ := by
    rw [← gAdded_withoutJson ops₁, hops, gAdded_withoutJson]
  obtain ⟨a1, a2, a3, a4, a5, a6⟩ := gRun_new h₁
  obtain ⟨b1, b2, b3, b4, b5, b6⟩ := gRun_new h₂
  obtain ⟨sc₁, out₁, l₁, t₁, c1, c2, c3, rfl, rfl⟩ := asJson_ok hj₁
  obtain ⟨sc₂, out₂, l₂, t₂, d1, d2, d3, rfl, rfl⟩ := asJson_ok hj₂
  have es : g₁.sources = g₂.sources := by rw [a4, b4, hadd]
  have en : g₁.names = g₂.names := by rw [a5, b5, hadd]
  have ec : g₁.sourceContents = g₂.sourceContents := by
    rw [← contentsRun_withoutJson, hops, contentsRun_withoutJson, b6] at a6
    simpa using a6.symm
  have esc : sc₁ = sc₂ := by
    rw [sourcesContent_congr ec (a2.trans b2.symm) es, d1] at c1
    simpa using c1.symm
  have p1 := run_perm cfg _ _ _ a3
  have p2 := run_perm cfg _ _ _ b3
  rw [added_mlOps] at p1 p2
  have q1 : out₁.Perm (gAdded ops₁) :=
    (toArray_perm cfg c2).1.trans (by simpa [MappingList.new] using p1)
  have q2 : out₂.Perm (gAdded ops₁) := by
    rw [hadd]; exact (toArray_perm cfg d2).1.trans (by simpa [MappingList.new] using p2)
  refine ⟨?_, ?_, ?_⟩
  · simp only [es, en, esc, a1, b1, a2, b2]
  · simp only
    rw [(toArray_perm cfg c2).2, (toArray_perm cfg d2).2]
    exact q1.trans q2.symm
  · intro hv hinj
    have sorted : ∀ (ops : List GOp) (l l' : MappingList) (out : List Mapping),
        (∀ m ∈ gAdded ops, m.Valid) → MappingList.new.run cfg (mlOps ops) = .ok l →
        l.toArray cfg = .ok (out, l') → out.Pairwise posLE := by
      intro ops l l' out hv hr ht
      obtain ⟨l1, r1, r2⟩ := run_valid cfg (mlOps ops) MappingList.new MappingList.inv_new
        (by rw [added_mlOps]; exact hv)
      rw [hr] at r1; cases r1
      obtain ⟨out', l'', r3, _, _, _, r4, _⟩ := toArray_valid cfg r2
      rw [ht] at r3; cases r3
      exact r4
    have s1 := sorted ops₁ _ _ _ hv a3 c2
    have s2 := sorted ops₂ _ _ _ (hadd ▸ hv) b3 d2
    have hpos : ∀ p q : Position, p.line = q.line → p.column = q.column → p = q := by
      intro p q h1 h2; cases p; cases q; simp_all
    have eout : out₁ = out₂ := by
      refine List.Perm.eq_of_pairwise ?_ s1 s2 (q1.trans q2.symm)
      intro a b ha hb h1 h2
      unfold posLE at h1 h2
      exact hinj a (q1.mem_iff.1 ha) b (q2.mem_iff.1 hb) (hpos _ _ (by omega) (by omega))
    have et : t₁ = t₂ := by
      rw [es, en, eout, d3] at c3
      simpa using c3.symm
    simp only [es, en, esc, et, a1, b1, a2, b2]

/-- The hypotheses of the last part are met with a serialisation in between. -/
example : ∀ a ∈ gAdded [.add gxP, .asJson, .add gxQ], ∀ b ∈ gAdded [.add gxP, .asJson, .add gxQ],
    a.generated = b.generated → a = b := by decide

/-! ## C21, C22 -/

/-- C22. Without a source root, the contents emitted are those of the latest call for each source:
exactly the sources whose latest content was not `None`, in the order of `sources`; and no field at
all if no source (mentioned by a mapping or not) has content. -/
theorem C22_latest_content (U : UrlLib) (cfg : Cfg) (file : Option String) (skip : Bool)
    (ops : List GOp) (g g' : Generator) (j : SourceMapJson)
    (h : (Generator.new file none skip).run U cfg ops = .ok g) (hj : g.asJson U cfg = .ok (j, g')) :
    ((∃ s, latestContent id s ops ≠ none) → j.sourcesContent =
      some ((firstOccurrences ((gAdded ops).filterMap Mapping.source)).filterMap
        fun s => latestContent id s ops)) ∧
    ((∀ s, latestContent id s ops = none) → j.sourcesContent = none) :=
  content_output id (fun _ _ _ => rfl) (fun _ _ _ _ => rfl) h hj

/-- C22, with a source root: the same where sources are identified when `util::relative` gives them
the same name (`key`) relative to the root. -/
theorem C22_latest_content_root (U : UrlLib) (cfg : Cfg) (file root : Option String) (skip : Bool)
    (key : String → String) (ops : List GOp) (g g' : Generator) (j : SourceMapJson)
    (hkey1 : ∀ t v, GOp.setContent t v ∈ ops → Generator.contentKey U root t = .ok (key t))
    (hkey2 : ∀ m ∈ gAdded ops, ∀ s, m.source = some s → Generator.contentKey U root s = .ok (key s))
    (h : (Generator.new file root skip).run U cfg ops = .ok g) (hj : g.asJson U cfg = .ok (j, g')) :
    ((∃ s, latestContent key s ops ≠ none) → j.sourcesContent =
      some ((firstOccurrences ((gAdded ops).filterMap Mapping.source)).filterMap
        fun s => latestContent key s ops)) ∧
    ((∀ s, latestContent key s ops = none) → j.sourcesContent = none) :=
  content_output key hkey1 hkey2 h hj

example : latestContent id "a.js" gxOps = some "x" ∧ latestContent id "b.js" gxOps = none := by decide

/-- What "the content set for a source" means, call by call. -/
theorem latestContent_spec (s t : String) (ops : List GOp) (c : Option String) (m : Mapping) :
    latestContent id s [] = none ∧
    latestContent id s (ops ++ [.setContent s c]) = c ∧
    (t ≠ s → latestContent id s (ops ++ [.setContent t c]) = latestContent id s ops) ∧
    latestContent id s (ops ++ [.add m]) = latestContent id s ops ∧
    latestContent id s (ops ++ [.asJson]) = latestContent id s ops := by
  refine ⟨rfl, by simp [latestContent], ?_, by simp [latestContent], by simp [latestContent]⟩
  intro h
  simp [latestContent, h]

/-- C21 (refutation). With content for the second source only, the content ends up in the place of
the first. -/
theorem C21_contents_aligned_refuted (U : UrlLib) (cfg : Cfg) :
    ∃ ops g g' j, (Generator.new none none false).run U cfg ops = .ok g ∧
      g.asJson U cfg = .ok (j, g') ∧ j.sources = some ["a.js", "b.js"] ∧
      latestContent id "a.js" ops = none ∧ latestContent id "b.js" ops = some "B" ∧
      j.sourcesContent = some ["B"] := by
  have henc : ∀ m ∈ gAdded [.add gxA, .add gxB, .setContent "b.js" (some "B")], m.Encodable cfg := by
    intro m hm
    simp only [gAdded, List.mem_cons, List.not_mem_nil, or_false] at hm
    rcases hm with rfl | rfl
    · exact gxA_enc
    · exact gxB_enc
  obtain ⟨g, j, g', h1, h2⟩ := serialize_encodable U cfg none false _ henc
    (tables_small (by decide)).1 (tables_small (by decide)).2
  refine ⟨_, g, g', j, h1, h2, ?_, by decide, by decide, ?_⟩
  · rw [(C16_generator_tables U cfg none none false _ g g' j h1 h2).1]; decide
  · rw [(C22_latest_content U cfg none false _ g g' j h1 h2).1 ⟨"b.js", by decide⟩]; decide

/-- C21 (what is true). If every source has content the two arrays are aligned.
Missing: the case of sources without content, where the claim is false. -/
theorem C21_contents_aligned_partial (U : UrlLib) (cfg : Cfg) (file : Option String) (skip : Bool)
    (ops : List GOp) (g g' : Generator) (j : SourceMapJson) (S C : List String)
    (h : (Generator.new file none skip).run U cfg ops = .ok g) (hj : g.asJson U cfg = .ok (j, g'))
    (hs : j.sources = some S) (hc : j.sourcesContent = some C)
    (hall : ∀ s ∈ S, latestContent id s ops ≠ none) :
    C.length = S.length ∧
    ∀ (i : Nat) s, S[i]? = some s → ∃ c, C[i]? = some c ∧ latestContent id s ops = some c := by
  have h16 := (C16_generator_tables U cfg file none skip ops g g' j h hj).1
  have h22 := C22_latest_content U cfg file skip ops g g' j h hj
  rw [hs] at h16
  simp only [Option.some.injEq] at h16
  subst h16
  have hC : C = (firstOccurrences ((gAdded ops).filterMap Mapping.source)).filterMap
      fun s => latestContent id s ops := by
    by_cases hex : ∃ s, latestContent id s ops ≠ none
    · have := h22.1 hex
      rw [hc] at this; simpa using this
    · have := h22.2 (fun s => Decidable.byContradiction fun hn => hex ⟨s, hn⟩)
      rw [hc] at this; cases this
  subst hC
  generalize firstOccurrences ((gAdded ops).filterMap Mapping.source) = S at hall
  clear hc hs h22
  induction S with
  | nil => simp
  | cons s S ih =>
    have ih := ih (fun x hx => hall x (by simp [hx]))
    obtain ⟨c, hc⟩ := Option.ne_none_iff_exists'.1 (hall s (by simp))
    rw [List.filterMap_cons_some (f := fun s => latestContent id s ops) hc]
    refine ⟨by simp [ih.1], ?_⟩
    intro i x hx
    cases i with
    | zero =>
      simp only [List.getElem?_cons_zero, Option.some.injEq] at hx
      subst hx; exact ⟨c, rfl, hc⟩
    | succ i =>
      rw [List.getElem?_cons_succ] at hx
      simpa using ih.2 i x hx

/-! ## C23 -/

/-- C23 (first half). Validation accepts exactly the documented shapes. -/
theorem C23_validate_mapping_partial (m : Mapping) : Generator.validateMapping m = true ↔
    1 ≤ m.generated.line ∧ 0 ≤ m.generated.column ∧
    ((m.original = none ∧ m.source = none ∧ m.name = none) ∨
     (∃ o s, m.original = some o ∧ m.source = some s ∧ 1 ≤ o.line ∧ 0 ≤ o.column)) := by
  unfold Generator.validateMapping
  rcases Option.eq_none_or_eq_some m.original with ho | ⟨o, ho⟩ <;>
  rcases Option.eq_none_or_eq_some m.source with hs | ⟨s, hs⟩ <;>
  rcases Option.eq_none_or_eq_some m.name with hn | ⟨n, hn⟩ <;>
  simp [ho, hs, hn] <;> omega

example : Generator.validateMapping gxP = true ∧ Generator.validateMapping { gxP with source := none } = false := by
  decide

/-- C23 (refutation of the second half). A generator asked to validate stores a mapping that
validation rejects. -/
theorem C23_add_mapping_validates_refuted (cfg : Cfg) :
    ∃ m g, Generator.validateMapping m = false ∧
      (Generator.new none none false).addMapping cfg m = .ok g ∧ m ∈ g.mappings.array := by
  refine ⟨{ generated := ⟨0, 0⟩ }, _, by decide, rfl, by decide⟩

/-! ## C25 -/

/-- C25. Going up from line `p` to `l` emits `l - p` separators. -/
theorem C25_advance_up (cfg : Cfg) (p l : Int) (hp : IsI32 p) (hl : IsI32 l) (h : p ≤ l) :
    advanceLine cfg p l = .ok (List.replicate (l - p).toNat ';') := advanceLine_up cfg p l hp hl h

/-- C25. Going down: a debug build panics, a release build goes round through all `i32`. -/
theorem C25_advance_down (cfg : Cfg) (p l : Int) (hp : IsI32 p) (hl : IsI32 l) (h : l < p) :
    (cfg.overflowChecks = true → advanceLine cfg p l = .error .overflow) ∧
    (cfg.overflowChecks = false →
      advanceLine cfg p l = .ok (List.replicate ((l - p) % 4294967296).toNat ';')) := by
  unfold advanceLine
  constructor
  · intro hc
    apply advanceLoop_debug cfg hc l _ p hp h
    unfold IsI32 at *; omega
  · intro hc
    apply advanceLoop_release cfg hc l hl _ p hp
    omega

example : advanceLine ⟨true, true⟩ 1 4 = .ok [';', ';', ';'] := by rfl

end RSM
