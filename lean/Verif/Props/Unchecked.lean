import Verif.Props.Generator
import Verif.Props.Output
import Verif.Props.Unvalidated
/-! # Property C88: what is emitted for mappings that validation would refuse

`add_mapping` validates nothing (C23), so serialising meets mappings `validate_mapping` refuses: mappings on a line below 1,
and mappings that have no source but an original position or a name. -/

namespace RSM
open Spec

/-! ## Lines below 1 -/

theorem serializeLoop_debug {cfg : Cfg} (hc : cfg.overflowChecks = true) {S N : ArraySet} :
    ∀ {ms : List Mapping} {st : SerState} {p : Option Mapping} {t : Text}, serializeLoop cfg S N st p ms = .ok t →
    IsI32 st.generatedLine → (∀ m ∈ ms, IsI32 m.generated.line) →
    ∀ m ∈ ms, st.generatedLine ≤ m.generated.line := by
  intro ms
  induction ms with
  | nil => intro st p t _ _ _ m hm; cases hm
  | cons x ms ih =>
    intro st p t h h1 h2 m hm
    simp only [serializeLoop, Res.bind_eq_ok, Res.pure_eq, Except.ok.injEq] at h
    obtain ⟨r, h5, u, h6, rfl⟩ := h
    obtain ⟨hl, sep, seg, he, hd, hsep⟩ := serializeStep_shape h5
    have hx : st.generatedLine ≤ x.generated.line := by
      rcases hsep with ⟨_, hs⟩ | ⟨hs, _⟩
      · by_cases hlt : x.generated.line < st.generatedLine
        · rw [(C25_advance_down cfg _ _ h1 (h2 x (by simp)) hlt).1 hc] at hs; cases hs
        · omega
      · omega
    rcases List.mem_cons.1 hm with rfl | hm
    · exact hx
    · have := ih h6 (by rw [hl]; exact h2 x (by simp)) (fun y hy => h2 y (by simp [hy])) m hm
      rw [hl] at this
      omega

theorem serializeLoop_release {cfg : Cfg} (hc : cfg.overflowChecks = false) {S N : ArraySet} :
    ∀ {ms : List Mapping} {st : SerState} {p : Option Mapping} {t : Text}, serializeLoop cfg S N st p ms = .ok t →
    1 ≤ st.generatedLine → IsI32 st.generatedLine → (∀ m ∈ ms, IsI32 m.generated.line) →
    ∀ m ∈ ms, m.generated.line < 1 → 2147483648 ≤ (t.count ';' : Int) + st.generatedLine := by
  intro ms
  induction ms with
  | nil => intro st p t _ _ _ _ m hm; cases hm
  | cons x ms ih =>
    intro st p t h h0 h1 h2 m hm hlow
    simp only [serializeLoop, Res.bind_eq_ok, Res.pure_eq, Except.ok.injEq] at h
    obtain ⟨r, h5, u, h6, rfl⟩ := h
    obtain ⟨hl, sep, seg, he, hd, hsep⟩ := serializeStep_shape h5
    have hxi := h2 x (by simp)
    have hsum : (((r.1 ++ u).count ';' : Nat) : Int) = (sep.count ';' : Int) + (u.count ';' : Int) := by
      rw [he, List.count_append, List.count_append, digits_no_semi hd]; push_cast; omega
    rw [hsum]
    by_cases hx : x.generated.line < 1
    · have hlt : x.generated.line < st.generatedLine := by omega
      have hcount : (sep.count ';' : Int) = (x.generated.line - st.generatedLine) % 4294967296 := by
        rcases hsep with ⟨_, hs⟩ | ⟨hs, _⟩
        · rw [(C25_advance_down cfg _ _ h1 hxi hlt).2 hc] at hs
          cases hs
          simp only [List.count_replicate_self]
          omega
        · omega
      unfold IsI32 at h1 hxi
      omega
    · have hne : m ≠ x := by rintro rfl; exact hx hlow
      have hm' : m ∈ ms := by
        rcases List.mem_cons.1 hm with e | e
        · exact absurd e hne
        · exact e
      have hih := ih h6 (by rw [hl]; omega) (by rw [hl]; exact hxi) (fun y hy => h2 y (by simp [hy])) m hm' hlow
      rw [hl] at hih
      have hcount : x.generated.line - st.generatedLine ≤ (sep.count ';' : Int) := by
        rcases hsep with ⟨_, hs⟩ | ⟨hs, _⟩
        · by_cases hlt : x.generated.line < st.generatedLine
          · omega
          · rw [advanceLine_up cfg _ _ h1 hxi (by omega)] at hs
            cases hs
            simp only [List.count_replicate_self]
            omega
        · omega
      omega

/-- C88. In a build with overflow checks, serialising returns only if every added mapping is on line 1 or later. -/
theorem C88_debug_lines (U : UrlLib) (cfg : Cfg) (hc : cfg.overflowChecks = true) (file root : Option String)
    (skip : Bool) (ops : List GOp) (g : Generator) (hi : ∀ m ∈ gAdded ops, IsI32 m.generated.line)
    (h : (Generator.new file root skip).run U cfg ops = .ok g)
    (m : Mapping) (hm : m ∈ gAdded ops) (hlow : m.generated.line < 1) : ∃ e, g.asJson U cfg = .error e := by
  cases hj : g.asJson U cfg with
  | error e => exact ⟨e, rfl⟩
  | ok r =>
    obtain ⟨j, g'⟩ := r
    obtain ⟨_, _, h3, _⟩ := gRun_new h
    obtain ⟨sc, out, l, t, _, k2, k3, _, _⟩ := asJson_ok hj
    have hrun := run_perm cfg _ _ _ h3
    rw [added_mlOps] at hrun
    have hp : out.Perm (gAdded ops) := (toArray_perm cfg k2).1.trans (by simpa [MappingList.new] using hrun)
    have := serializeLoop_debug hc k3 (by decide) (fun x hx => hi x (hp.mem_iff.1 hx)) m (hp.mem_iff.2 hm)
    simp only [SerState.init] at this
    omega

/-- C88. In a build without overflow checks, what is returned if some added mapping is on a line below 1 has at
least `2^31 - 1` line separators (two gigabytes). -/
theorem C88_release_lines (U : UrlLib) (cfg : Cfg) (hc : cfg.overflowChecks = false) (file root : Option String)
    (skip : Bool) (ops : List GOp) (g g' : Generator) (j : SourceMapJson)
    (hi : ∀ m ∈ gAdded ops, IsI32 m.generated.line)
    (h : (Generator.new file root skip).run U cfg ops = .ok g) (hj : g.asJson U cfg = .ok (j, g'))
    (m : Mapping) (hm : m ∈ gAdded ops) (hlow : m.generated.line < 1) :
    ∃ text, j.mappings = some text ∧ 2147483647 ≤ text.toList.count ';' := by
  obtain ⟨_, _, h3, _⟩ := gRun_new h
  obtain ⟨sc, out, l, t, _, k2, k3, _, rfl⟩ := asJson_ok hj
  refine ⟨_, rfl, ?_⟩
  rw [String.toList_ofList]
  have hrun := run_perm cfg _ _ _ h3
  rw [added_mlOps] at hrun
  have hp : out.Perm (gAdded ops) := (toArray_perm cfg k2).1.trans (by simpa [MappingList.new] using hrun)
  have := serializeLoop_release hc k3 (by decide) (by decide) (fun x hx => hi x (hp.mem_iff.1 hx)) m
    (hp.mem_iff.2 hm) hlow
  simp only [SerState.init] at this
  omega

/-- C88, for a history of one mapping on line 0, as found: it is accepted, a debug build panics on serialising it, and a
release build emits `2^32 - 1` separators before its segment. -/
theorem C88_line_zero (U : UrlLib) (cfg : Cfg) :
    ∃ g, (Generator.new none none false).run U cfg [.add { generated := ⟨0, 0⟩ }] = .ok g ∧
      (cfg.overflowChecks = true → g.asJson U cfg = .error .overflow) ∧
      (cfg.overflowChecks = false → ∃ j g', g.asJson U cfg = .ok (j, g') ∧
        j.mappings = some (String.ofList (List.replicate 4294967295 ';' ++ ['A']))) := by
  obtain ⟨g, hg, hm, hS⟩ : ∃ g, (Generator.new none none false).run U cfg [.add { generated := ⟨0, 0⟩ }] = .ok g ∧
      g.mappings.toArray cfg = .ok ([{ generated := ⟨0, 0⟩ }], g.mappings) ∧
      g.sourcesContent U = .ok none := by
    refine ⟨_, rfl, rfl, rfl⟩
  obtain ⟨d1, d2⟩ := C25_advance_down cfg 1 0 (by decide) (by decide) (by decide)
  have hseg : segmentText cfg g.sources g.names ⟨0, 0, 0, 0, 0, 0⟩ { generated := ⟨0, 0⟩ } =
      .ok (['A'], ⟨0, 0, 0, 0, 0, 0⟩) := by
    have hpos : 0 < cfg.vlqLimit := Nat.lt_of_lt_of_le (by decide) cfg.le_vlqLimit
    have := segmentText_eq cfg (Nat.le_refl _) (S := g.sources) (N := g.names) ⟨0, 0, 0, 0, 0, 0⟩
      (m := { generated := ⟨0, 0⟩ }) (gc := 0) (col := 0) rfl hpos hpos rfl (t := []) (st' := ⟨0, 0, 0, 0, 0, 0⟩) rfl
    rw [this]
    have he : encU (signed (((0 : Nat) : Int) - ((0 : Nat) : Int))) = ['A'] := by decide +kernel
    rw [he]; rfl
  have hloop : serializeLoop cfg g.sources g.names SerState.init none [{ generated := ⟨0, 0⟩ }] =
      (advanceLine cfg 1 0 >>= fun semis => .ok (semis ++ ['A'])) := by
    simp only [serializeLoop, serializeStep, SerState.init, ne_eq, Int.reduceEq, not_false_eq_true, if_true, hseg]
    cases advanceLine cfg 1 0 <;> simp [Res.ok_bind, Res.error_bind]
  refine ⟨g, hg, ?_, ?_⟩
  · intro hc
    unfold Generator.asJson Generator.serializeMappings
    rw [hS, Res.ok_bind, hm, Res.ok_bind]
    simp only [hloop, d1 hc, Res.error_bind]
  · intro hc
    rw [d2 hc] at hloop
    exact ⟨_, _, asJson_intro hS hm hloop, rfl⟩

/-! ## Mappings without a source -/

/-- What the format can say of a mapping: without a source, only the generated position. -/
def Mapping.shown (m : Mapping) : Mapping :=
  match m.source with
  | none => { generated := m.generated }
  | some _ => m

theorem sameKey_shown {a b : Mapping} (h : SameKey a b) : SameKey a.shown b.shown := by
  obtain ⟨e1, e2, e3, e4⟩ := h
  rcases Option.eq_none_or_eq_some b.source with hs | ⟨s, hs⟩
  · simp only [Mapping.shown, e2, hs, e1]
    exact SameKey.refl _
  · simp only [Mapping.shown, e2, hs]
    exact ⟨e1, e2, e3, e4⟩

/-- What is emitted for a mapping denotes what the format can say of it. -/
theorem denotes_shown {cfg : Cfg} {S N : ArraySet} {m : Mapping} (hm : m.Writable cfg) (hk : Known S N m) :
    Denotes S.array N.array (toRaw S.array N.array m) m.shown := by
  rcases Option.eq_none_or_eq_some m.source with hs | ⟨s, hs⟩
  · have he : toRaw S.array N.array m = toRaw S.array N.array m.shown := by
      simp only [toRaw, Mapping.shown, hs]
    rw [he]
    have hsh : m.shown = { generated := m.generated } := by simp only [Mapping.shown, hs]
    rw [hsh]
    exact denotes_toRaw (cfg := cfg) ⟨hm.line, hm.column, rfl, (by intro p hp; cases hp), fun _ => rfl⟩
      ⟨(by intro s hs; cases hs), (by intro s hs; cases hs)⟩
  · have hsh : m.shown = m := by simp only [Mapping.shown, hs]
    rw [hsh]
    obtain ⟨o, ho, hr⟩ := hm.orig s hs
    refine denotes_toRaw (cfg := cfg) ⟨hm.line, hm.column, ?_, ?_, ?_⟩ hk
    · rw [hs, ho]; rfl
    · intro p hp; rw [ho] at hp; cases hp; exact hr
    · intro h; rw [hs] at h; cases h

theorem Mapping.Writable.posLE_toRaw {cfg : Cfg} {S N : List String} {a b : Mapping} (ha : a.Writable cfg)
    (hb : b.Writable cfg) (h : posLE a b) : (toRaw S N a).line < (toRaw S N b).line ∨
      ((toRaw S N a).line = (toRaw S N b).line ∧ (toRaw S N a).column ≤ (toRaw S N b).column) := by
  have := ha.line; have := hb.line; have := ha.column; have := hb.column
  unfold posLE at h
  simp only [toRaw_line, toRaw_column]
  omega

/-- The mappings of a history without validation are written, and this is what the text decodes to. -/
theorem writable_output {U : UrlLib} {cfg : Cfg} {file root : Option String} {skip : Bool} {ops : List GOp}
    {g : Generator} {lo : Int} (hlo : WindowStart lo) (hw : ∀ m ∈ gAdded ops, m.Writable cfg)
    (hr : ∀ m ∈ gAdded ops, m.Within lo)
    (hu : Uniform (gAdded ops))
    (hS : (firstOccurrences ((gAdded ops).filterMap Mapping.source)).length < cfg.vlqLimit)
    (hN : (firstOccurrences ((gAdded ops).filterMap Mapping.name)).length < cfg.vlqLimit)
    (h : (Generator.new file root skip).run U cfg ops = .ok g) :
    ∃ out l t, g.mappings.toArray cfg = .ok (out, l) ∧
      serializeLoop cfg g.sources g.names SerState.init none out = .ok t ∧
      (∀ m ∈ out, Known g.sources g.names m) ∧ out.Perm (gAdded ops) ∧ out.Pairwise posLE ∧
      decodeMappings t = some ((dropRepeats none out).map (toRaw g.sources.array g.names.array)) := by
  obtain ⟨_, _, h3, h4, h5, _⟩ := gRun_new h
  have hrun := run_perm cfg _ _ _ h3
  rw [added_mlOps] at hrun
  have hperm : g.mappings.array.Perm (gAdded ops) := by simpa [MappingList.new] using hrun
  obtain ⟨l1, r1, r2⟩ := run_ranged cfg hlo (mlOps ops) MappingList.new
    ⟨by simp [MappingList.new], by simp [MappingList.new], by simp [MappingList.new], by simp [MappingList.new]⟩
    (by rw [added_mlOps]; exact hr) (by rw [added_mlOps]; simpa [MappingList.new] using hu)
  rw [h3] at r1; cases r1
  obtain ⟨out, l', r3, _, _, rp, r4⟩ := toArray_ranged cfg r2
    (fun a ha b hb => hu a (hperm.mem_iff.1 ha) b (hperm.mem_iff.1 hb))
  have hp := rp.trans hperm
  have iS := tableOf_inv ((gAdded ops).filterMap Mapping.source)
  have iN := tableOf_inv ((gAdded ops).filterMap Mapping.name)
  rw [← h4] at iS
  rw [← h5] at iN
  have hk : ∀ m ∈ out, Known g.sources g.names m := by
    intro m hm
    have hm' := hp.mem_iff.1 hm
    rw [h4, h5]
    refine ⟨?_, ?_⟩
    · intro s hs
      rw [tableOf_array, mem_firstOccurrences, List.mem_filterMap]
      exact ⟨m, hm', hs⟩
    · intro s hs
      rw [tableOf_array, mem_firstOccurrences, List.mem_filterMap]
      exact ⟨m, hm', hs⟩
  have hS' : g.sources.array.length < cfg.vlqLimit := by rw [h4, tableOf_array]; exact hS
  have hN' : g.names.array.length < cfg.vlqLimit := by rw [h5, tableOf_array]; exact hN
  obtain ⟨t, e1, e2, _⟩ := serializeLoop_spec cfg iS iN rfl hS' hN' out r4
    (fun a ha b hb => by
      have ha := hp.mem_iff.1 ha
      have hb := hp.mem_iff.1 hb
      exact compare_ranged cfg (hr a ha) (hr b hb) (hu a ha b hb))
    (fun m hm => hw m (hp.mem_iff.1 hm)) hk
  exact ⟨out, l', t, r3, e1, hk, hp, r4, e2⟩

/-- C88. Nothing need be valid for the text to be written: of the mappings without a source only the generated position
is shown (their original positions and names are dropped), all others are shown in full, in generated order, every
one of them, and nothing else. -/
theorem C88_without_source (U : UrlLib) (cfg : Cfg) (file root : Option String) (skip : Bool)
    (ops : List GOp) (g g' : Generator) (j : SourceMapJson)
    (lo : Int) (hlo : WindowStart lo)
    (hw : ∀ m ∈ gAdded ops, m.Writable cfg) (hr : ∀ m ∈ gAdded ops, m.Within lo) (hu : Uniform (gAdded ops))
    (hS : (firstOccurrences ((gAdded ops).filterMap Mapping.source)).length < cfg.vlqLimit)
    (hN : (firstOccurrences ((gAdded ops).filterMap Mapping.name)).length < cfg.vlqLimit)
    (h : (Generator.new file root skip).run U cfg ops = .ok g) (hj : g.asJson U cfg = .ok (j, g')) :
    ∃ S N text raws, j.sources = some S ∧ j.names = some N ∧ j.mappings = some text ∧
      decodeMappings text.toList = some raws ∧
      raws.Pairwise (fun r s => r.line < s.line ∨ (r.line = s.line ∧ r.column ≤ s.column)) ∧
      (∀ r ∈ raws, ∃ m ∈ gAdded ops, Denotes S N r m.shown) ∧
      (∀ m ∈ gAdded ops, ∃ r ∈ raws, Denotes S N r m.shown) ∧
      ((gAdded ops).Pairwise (fun a b => ¬ SameKey a b) → raws.length = (gAdded ops).length) := by
  obtain ⟨out, l, t, k1, k2, hk, hp, hs, hd⟩ := writable_output hlo hw hr hu hS hN h
  obtain ⟨_, out', l', t', _, e1, e2, _, rfl⟩ := asJson_ok hj
  rw [k1] at e1; cases e1
  rw [k2] at e2; cases e2
  have hsub := dropRepeats_sublist out none
  have hw' : ∀ m ∈ out, m.Writable cfg := fun m hm => hw m (hp.mem_iff.1 hm)
  have hden : ∀ m ∈ out, Denotes g.sources.array g.names.array (toRaw g.sources.array g.names.array m) m.shown :=
    fun m hm => denotes_shown (hw' m hm) (hk m hm)
  refine ⟨g.sources.array, g.names.array, String.ofList t, _, rfl, rfl, rfl, by simpa using hd, ?_, ?_, ?_, ?_⟩
  · rw [List.pairwise_map]
    refine List.Pairwise.imp_of_mem ?_ (hs.sublist hsub)
    intro a b ha hb hab
    exact (hw' a (hsub.subset ha)).posLE_toRaw (hw' b (hsub.subset hb)) hab
  · intro r hr
    obtain ⟨m, hm, rfl⟩ := List.mem_map.1 hr
    have hm' := hsub.subset hm
    exact ⟨m, hp.mem_iff.1 hm', hden m hm'⟩
  · intro m hm
    rcases dropRepeats_covers out none m (hp.mem_iff.2 hm) with ⟨m', h1, h2⟩ | ⟨q, h1, _⟩
    · refine ⟨_, List.mem_map.2 ⟨m', h1, rfl⟩, ?_⟩
      have h3 := hden m' (hsub.subset h1)
      obtain ⟨e1, e2, e3, e4⟩ := sameKey_shown h2
      unfold Denotes at h3 ⊢
      rw [e1, e2, e3, e4]
      exact h3
    · cases h1
  · intro hpw
    have hpw' : out.Pairwise (fun a b => ¬ SameKey a b) :=
      (hp.symm.pairwise_iff (fun hab hc => hab hc.symm)).1 hpw
    rw [List.length_map, dropRepeats_eq_self out none hpw' (by intro q hq; cases hq), hp.length_eq]

theorem writable_run {U : UrlLib} {cfg : Cfg} {lo : Int} (hlo : WindowStart lo) {file : Option String} {skip : Bool} :
    ∀ (ops pre : List GOp) (g : Generator),
    (∀ m ∈ gAdded (pre ++ ops), m.Writable cfg) → (∀ m ∈ gAdded (pre ++ ops), m.Within lo) →
    Uniform (gAdded (pre ++ ops)) →
    (firstOccurrences ((gAdded (pre ++ ops)).filterMap Mapping.source)).length < cfg.vlqLimit →
    (firstOccurrences ((gAdded (pre ++ ops)).filterMap Mapping.name)).length < cfg.vlqLimit →
    (Generator.new file none skip).run U cfg pre = .ok g →
    ∃ g' j g'', g.run U cfg ops = .ok g' ∧ g'.asJson U cfg = .ok (j, g'') := by
  have serialise : ∀ (pre : List GOp) (g : Generator), (∀ m ∈ gAdded pre, m.Writable cfg) →
      (∀ m ∈ gAdded pre, m.Within lo) → Uniform (gAdded pre) →
      (firstOccurrences ((gAdded pre).filterMap Mapping.source)).length < cfg.vlqLimit →
      (firstOccurrences ((gAdded pre).filterMap Mapping.name)).length < cfg.vlqLimit →
      (Generator.new file none skip).run U cfg pre = .ok g → ∃ j g', g.asJson U cfg = .ok (j, g') := by
    intro pre g hw hr hu hS hN hpre
    obtain ⟨out, l, t, k1, k2, _⟩ := writable_output hlo hw hr hu hS hN hpre
    have hsc := sourcesContent_eq (U := U) (g := g) id (by
      rw [(gRun_new hpre).2.1]
      intro s _
      rfl)
    exact ⟨_, _, asJson_intro hsc k1 k2⟩
  intro ops
  induction ops with
  | nil =>
    intro pre g hw hr hu hS hN hpre
    rw [List.append_nil] at hw hr hu hS hN
    obtain ⟨j, g', h⟩ := serialise pre g hw hr hu hS hN hpre
    exact ⟨g, j, g', rfl, h⟩
  | cons op ops ih =>
    intro pre g hw hr hu hS hN hpre
    have hsub : ∀ m ∈ gAdded pre, m ∈ gAdded (pre ++ op :: ops) := by
      intro m hm; rw [gAdded_append]; simp [hm]
    have hstep : ∃ g1, g.step U cfg op = .ok g1 := by
      cases op with
      | add m =>
        obtain ⟨_, _, h3, _⟩ := gRun_new hpre
        obtain ⟨l1, r1, r2⟩ := run_ranged cfg hlo (mlOps pre) MappingList.new
          ⟨by simp [MappingList.new], by simp [MappingList.new], by simp [MappingList.new], by simp [MappingList.new]⟩
          (by rw [added_mlOps]; exact fun m hm => hr m (hsub m hm))
          (by
            rw [added_mlOps]
            intro a ha b hb
            simp only [MappingList.new, List.nil_append] at ha hb
            exact hu a (hsub a ha) b (hsub b hb))
        rw [h3] at r1; cases r1
        obtain ⟨l', e, _⟩ := add_ranged cfg hlo r2 (hr m (by rw [gAdded_append]; simp [gAdded]))
        exact ⟨_, by simp only [Generator.step, Generator.addMapping, e, Res.ok_bind, Res.pure_eq]; rfl⟩
      | setContent s c =>
        obtain ⟨_, h2, _⟩ := gRun_new hpre
        cases c with
        | none =>
          exact ⟨_, by simp only [Generator.step, Generator.setSourceContent, h2, Generator.contentKey,
            Res.ok_bind, Res.pure_eq]; rfl⟩
        | some c =>
          exact ⟨_, by simp only [Generator.step, Generator.setSourceContent, h2, Generator.contentKey,
            Res.ok_bind, Res.pure_eq]; rfl⟩
      | asJson =>
        rw [gAdded_append, List.filterMap_append] at hS hN
        obtain ⟨j, g', e⟩ := serialise pre g (fun m hm => hw m (hsub m hm)) (fun m hm => hr m (hsub m hm))
          (fun a ha b hb => hu a (hsub a ha) b (hsub b hb))
          (Nat.lt_of_le_of_lt (firstOccurrences_mono _ _) hS)
          (Nat.lt_of_le_of_lt (firstOccurrences_mono _ _) hN) hpre
        exact ⟨g', by simp only [Generator.step, e, Res.ok_bind, Res.pure_eq]⟩
    obtain ⟨g1, hg1⟩ := hstep
    have happ : pre ++ op :: ops = (pre ++ [op]) ++ ops := by simp
    rw [happ] at hw hr hu hS hN
    obtain ⟨g', j, g'', e, ej⟩ := ih (pre ++ [op]) g1 hw hr hu hS hN (by
      rw [gRun_append pre [op] _ g hpre]
      simp only [Generator.run, hg1, Res.ok_bind])
    exact ⟨g', j, g'', by simp only [Generator.run, hg1, Res.ok_bind, e], ej⟩

/-- C88. Without a source root every such history, and serialising after it, returns. -/
theorem C88_returns (U : UrlLib) (cfg : Cfg) (file : Option String) (skip : Bool) (ops : List GOp)
    (lo : Int) (hlo : WindowStart lo)
    (hw : ∀ m ∈ gAdded ops, m.Writable cfg) (hr : ∀ m ∈ gAdded ops, m.Within lo) (hu : Uniform (gAdded ops))
    (hS : (firstOccurrences ((gAdded ops).filterMap Mapping.source)).length < cfg.vlqLimit)
    (hN : (firstOccurrences ((gAdded ops).filterMap Mapping.name)).length < cfg.vlqLimit) :
    ∃ g j g', (Generator.new file none skip).run U cfg ops = .ok g ∧ g.asJson U cfg = .ok (j, g') :=
  writable_run hlo ops [] (Generator.new file none skip) hw hr hu hS hN rfl

/-- A mapping that validation refuses: an original position and a name, but no source. -/
def nxA : Mapping := { generated := ⟨2, 4⟩, original := some ⟨7, -1⟩, name := some "lost" }

def nxOps : List GOp := [.add nxA, .add gxP, .asJson, .add gxR]

example : Generator.validateMapping nxA = false ∧ nxA.shown = { generated := ⟨2, 4⟩ } ∧ gxP.shown = gxP := by decide

theorem nx_mem {m : Mapping} (h : m ∈ gAdded nxOps) : m = nxA ∨ m = gxP ∨ m = gxR := by
  simpa [gAdded, nxOps] using h

theorem nx_writable {cfg : Cfg} : ∀ m ∈ gAdded nxOps, m.Writable cfg := by
  intro m hm
  rcases nx_mem hm with rfl | rfl | rfl
  · have h : (4 : Int) < (cfg.vlqLimit : Int) := by have := cfg.le_vlqLimit; omega
    exact ⟨by decide, ⟨by decide, h⟩, by intro s hs; cases hs⟩
  · exact gxP_enc.writable
  · exact gxR_enc.writable

theorem nx_ranged : ∀ m ∈ gAdded nxOps, m.Within (-20) := by
  intro m hm
  rcases nx_mem hm with rfl | rfl | rfl
  · exact ⟨by decide, by decide, by intro p hp; cases hp; decide⟩
  · exact ⟨by decide, by decide, by intro p hp; cases hp; decide⟩
  · exact ⟨by decide, by decide, by intro p hp; cases hp; decide⟩

theorem nx_uniform : Uniform (gAdded nxOps) := by
  intro a ha b hb
  rcases nx_mem ha with rfl | rfl | rfl <;> rcases nx_mem hb with rfl | rfl | rfl <;> decide

/-- The name of the mapping without a source is listed among the names, and no segment refers to it: the segment of that
mapping has its generated position only. -/
example (U : UrlLib) (cfg : Cfg) : ∃ g j g' S N text raws,
    (Generator.new none none false).run U cfg nxOps = .ok g ∧ g.asJson U cfg = .ok (j, g') ∧
    j.sources = some S ∧ j.names = some N ∧ j.mappings = some text ∧ decodeMappings text.toList = some raws ∧
    raws.length = 3 ∧ N = ["lost", "foo"] ∧ ⟨1, 4, none⟩ ∈ raws := by
  have hl := tables_small (cfg := cfg) (ops := nxOps) (by decide)
  obtain ⟨g, j, g', h, hj⟩ := C88_returns U cfg none false nxOps (-20) (by decide) nx_writable nx_ranged nx_uniform hl.1 hl.2
  obtain ⟨S, N, text, raws, h1, h2, h3, h4, h5, h6, h7, h8⟩ := C88_without_source U cfg none none false nxOps g g' j
    (-20) (by decide) nx_writable nx_ranged nx_uniform hl.1 hl.2 h hj
  obtain ⟨_, t2⟩ := C16_generator_tables U cfg none none false nxOps g g' j h hj
  refine ⟨g, j, g', S, N, text, raws, h, hj, h1, h2, h3, h4, h8 ?_, ?_, ?_⟩
  · decide
  · rw [h2] at t2
    simpa [nxOps, gAdded, nxA, gxP, gxR, firstOccurrences] using t2
  · obtain ⟨r, hr, hd⟩ := h7 nxA (by decide)
    obtain ⟨d1, d2⟩ := hd
    obtain ⟨l, c, o⟩ := r
    simp only [nxA, Mapping.shown, Position.mk.injEq] at d1
    cases o with
    | none =>
      have e1 : l = 1 := by omega
      have e2 : c = 4 := by omega
      subst e1; subst e2
      exact hr
    | some o => cases d2.1

end RSM
