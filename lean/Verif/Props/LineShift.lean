import Verif.Props.Rename
import Verif.Spec.Consumer
import Verif.Dep.Demo
/-! # Property C101: putting lines before the generated text -/

namespace RSM

open Spec

/-- The mapping `k` lines further down in the generated text. -/
def Mapping.down (k : Nat) (m : Mapping) : Mapping :=
  { m with generated := ⟨m.generated.line + k, m.generated.column⟩ }

/-- The call with its mapping `k` lines further down. -/
def GOp.down (k : Nat) : GOp → GOp
  | .add m => .add (m.down k)
  | op => op

/-- The mapping is valid, its line is a line (they count from one), and so is the line `k` further down. -/
structure Mapping.RoomFor (k : Nat) (m : Mapping) : Prop where
  valid : m.Valid
  first : 1 ≤ m.generated.line
  last : m.generated.line + k ≤ 2147483647

theorem Mapping.RoomFor.down {k : Nat} {m : Mapping} (h : m.RoomFor k) : (m.down k).Valid :=
  ⟨⟨by have := h.first; simp only [Mapping.down]; omega, h.last⟩, h.valid.gc, h.valid.orig, h.valid.range⟩

/-! ## The state of the generator -/

def MappingList.down (k : Nat) (l : MappingList) : MappingList :=
  ⟨l.array.map (Mapping.down k), l.sorted, l.last.map (Mapping.down k)⟩

def Generator.down (k : Nat) (g : Generator) : Generator := { g with mappings := g.mappings.down k }

def SerState.down (k : Nat) (st : SerState) : SerState := { st with generatedLine := st.generatedLine + k }

/-! ## The methods -/

theorem compare_down (k : Nat) (cfg : Cfg) (a b : Mapping) :
    compareByGeneratedPosInflated cfg (a.down k) (b.down k) = compareByGeneratedPosInflated cfg a b := by
  have h : a.generated.line + (k : Int) - (b.generated.line + k) = a.generated.line - b.generated.line := by omega
  have h' : compareOriginalThenName cfg (a.down k) (b.down k) = compareOriginalThenName cfg a b := rfl
  have h₁ : (a.down k).generated.line - (b.down k).generated.line = a.generated.line - b.generated.line := h
  have h₂ : (a.down k).generated.column - (b.down k).generated.column = a.generated.column - b.generated.column := rfl
  have h₃ : strcmp (a.down k).source (b.down k).source = strcmp a.source b.source := rfl
  simp only [compareByGeneratedPosInflated, h', h₁, h₂, h₃]

theorem add_down (k : Nat) (cfg : Cfg) (l : MappingList) {m : Mapping} (hm : m.RoomFor k) :
    (l.down k).add cfg (m.down k) = (l.add cfg m).map (MappingList.down k) := by
  have key : generatedPositionAfter cfg ((l.down k).last.getD MappingList.beforeAll) (m.down k) =
      generatedPositionAfter cfg (l.last.getD MappingList.beforeAll) m := by
    cases hl : l.last with
    | none =>
      have := hm.first
      have h1 : m.generated.line > MappingList.beforeAll.generated.line := by simp only [MappingList.beforeAll]; omega
      have h2 : (m.down k).generated.line > MappingList.beforeAll.generated.line := by
        simp only [MappingList.beforeAll, Mapping.down]; omega
      simp only [MappingList.down, hl, Option.map_none, Option.getD_none, generatedPositionAfter, h1, h2, true_or, if_true]
    | some x =>
      have h1 : (m.down k).generated.line > (x.down k).generated.line ↔ m.generated.line > x.generated.line := by
        simp only [Mapping.down]; omega
      have h2 : (m.down k).generated.line = (x.down k).generated.line ↔ m.generated.line = x.generated.line := by
        simp only [Mapping.down]; omega
      simp only [MappingList.down, hl, Option.map_some, Option.getD_some, generatedPositionAfter, compare_down, h1, h2]
      rfl
  simp only [MappingList.add, key]
  cases generatedPositionAfter cfg (l.last.getD MappingList.beforeAll) m with
  | error e => rfl
  | ok b => cases b <;> simp [MappingList.down, Except.map, pure, Except.pure, bind, Except.bind]

theorem addMapping_down (k : Nat) (cfg : Cfg) (g : Generator) {m : Mapping} (hm : m.RoomFor k) :
    (g.down k).addMapping cfg (m.down k) = (g.addMapping cfg m).map (Generator.down k) := by
  have h1 : (g.down k).mappings = g.mappings.down k := rfl
  simp only [Generator.addMapping]
  rw [h1, add_down k cfg _ hm]
  cases g.mappings.add cfg m with
  | error e => rfl
  | ok l => rfl

theorem setSourceContent_down (k : Nat) (U : UrlLib) (g : Generator) (s : String) (c : Option String) :
    (g.down k).setSourceContent U s c = (g.setSourceContent U s c).map (Generator.down k) := by
  simp only [Generator.setSourceContent, Generator.down]
  cases Generator.contentKey U g.sourceRoot s with
  | error e => rfl
  | ok k => cases c <;> rfl

theorem sourcesContent_down (k : Nat) (U : UrlLib) (g : Generator) : (g.down k).sourcesContent U = g.sourcesContent U := by
  have hgen : ∀ l : List String, Generator.generateSourcesContents U (g.down k) g.sourceRoot l =
      Generator.generateSourcesContents U g g.sourceRoot l := by
    intro l
    induction l with
    | nil => rfl
    | cons s l ih => simp only [Generator.generateSourcesContents, ih]; rfl
  have h := hgen g.sources.toVec
  simp only [Generator.sourcesContent]
  rw [show (g.down k).sourceRoot = g.sourceRoot from rfl, show (g.down k).sources = g.sources from rfl, h]
  rfl

theorem advanceLine_down {k : Nat} (cfg : Cfg) {p l : Int} (hp : 1 ≤ p ∧ p + k ≤ 2147483647)
    (hl : 1 ≤ l ∧ l + k ≤ 2147483647) : advanceLine cfg (p + k) (l + k) = advanceLine cfg p l := by
  have i1 : IsI32 p := by unfold IsI32; omega
  have i2 : IsI32 l := by unfold IsI32; omega
  have i3 : IsI32 (p + k) := by unfold IsI32; omega
  have i4 : IsI32 (l + k) := by unfold IsI32; omega
  by_cases h : p ≤ l
  · rw [advanceLine_up cfg _ _ i1 i2 h, advanceLine_up cfg _ _ i3 i4 (by omega)]
    congr 2
    omega
  · unfold advanceLine
    cases hc : cfg.overflowChecks with
    | false =>
      rw [advanceLoop_release cfg hc _ i2 _ _ i1 (by omega), advanceLoop_release cfg hc _ i4 _ _ i3 (by omega)]
      congr 3
      omega
    | true => rw [advanceLoop_debug cfg hc _ _ _ i1 (by omega) (by omega),
        advanceLoop_debug cfg hc _ _ _ i3 (by omega) (by omega)]

theorem nameField_down (k : Nat) (cfg : Cfg) (N : ArraySet) (st : SerState) (m : Mapping) :
    nameField cfg N (st.down k) (m.down k) = (nameField cfg N st m).map fun r => (r.1, r.2.down k) := by
  simp only [nameField]
  rw [show (m.down k).name = m.name from rfl]
  cases m.name with
  | none => rfl
  | some n =>
    simp only [show (st.down k).name = st.name from rfl]
    cases unwrap (N.indexOf n) with
    | error e => rfl
    | ok i =>
      simp only [Res.ok_bind]
      cases cfg.arith (wrap32 i - st.name) with
      | error e => rfl
      | ok d =>
        simp only [Res.ok_bind]
        cases base64vlqEncode cfg d with
        | error e => rfl
        | ok t => simp only [Res.ok_bind, Res.pure_eq, Except.map]; rfl


theorem originalFields_down (k : Nat) (cfg : Cfg) (S N : ArraySet) (st : SerState) (m : Mapping) :
    originalFields cfg S N (st.down k) (m.down k) = (originalFields cfg S N st m).map fun r => (r.1, r.2.down k) := by
  simp only [originalFields]
  rw [show (m.down k).source = m.source from rfl]
  cases m.source with
  | none => rfl
  | some s =>
    simp only [show (st.down k).source = st.source from rfl, show (st.down k).originalLine = st.originalLine from rfl,
      show (st.down k).originalColumn = st.originalColumn from rfl, show (m.down k).original = m.original from rfl]
    cases unwrap (S.indexOf s) with
    | error e => rfl
    | ok i =>
      simp only [Res.ok_bind]
      cases cfg.arith (wrap32 i - st.source) with
      | error e => rfl
      | ok d1 =>
      simp only [Res.ok_bind]
      cases base64vlqEncode cfg d1 with
      | error e => rfl
      | ok t1 =>
      simp only [Res.ok_bind]
      cases unwrap m.original with
      | error e => rfl
      | ok o =>
      simp only [Res.ok_bind]
      cases cfg.arith (o.line - 1) with
      | error e => rfl
      | ok l =>
      simp only [Res.ok_bind]
      cases cfg.arith (l - st.originalLine) with
      | error e => rfl
      | ok d2 =>
      simp only [Res.ok_bind]
      cases base64vlqEncode cfg d2 with
      | error e => rfl
      | ok t2 =>
      simp only [Res.ok_bind]
      cases cfg.arith (o.column - st.originalColumn) with
      | error e => rfl
      | ok d3 =>
      simp only [Res.ok_bind]
      cases base64vlqEncode cfg d3 with
      | error e => rfl
      | ok t3 =>
      have := nameField_down k cfg N { st with source := wrap32 i, originalLine := l, originalColumn := o.column } m
      simp only [Res.ok_bind]
      simp only [SerState.down] at this ⊢
      rw [this]
      cases nameField cfg N { st with source := wrap32 i, originalLine := l, originalColumn := o.column } m with
      | error e => rfl
      | ok r => rfl

theorem segmentText_down (k : Nat) (cfg : Cfg) (S N : ArraySet) (st : SerState) (m : Mapping) :
    segmentText cfg S N (st.down k) (m.down k) = (segmentText cfg S N st m).map fun r => (r.1, r.2.down k) := by
  simp only [segmentText]
  rw [show (m.down k).generated.column = m.generated.column from rfl,
    show (st.down k).generatedColumn = st.generatedColumn from rfl]
  cases cfg.arith (m.generated.column - st.generatedColumn) with
  | error e => rfl
  | ok d =>
  simp only [Res.ok_bind]
  cases base64vlqEncode cfg d with
  | error e => rfl
  | ok t =>
  have := originalFields_down k cfg S N { st with generatedColumn := m.generated.column } m
  simp only [Res.ok_bind]
  simp only [SerState.down] at this ⊢
  rw [this]
  cases originalFields cfg S N { st with generatedColumn := m.generated.column } m with
  | error e => rfl
  | ok r => rfl

theorem nameField_line' {cfg : Cfg} {W : Int → Int} {N : ArraySet} {st : SerState} {n : String} {r : Text × SerState}
    (h : (do
      let i ← unwrap (N.indexOf n)
      let d ← cfg.arith (W i - st.name)
      let t ← base64vlqEncode cfg d
      pure (t, { st with name := W i }) : Res (Text × SerState)) = .ok r) : r.2.generatedLine = st.generatedLine := by
  obtain ⟨i, _, h⟩ := Res.bind_eq_ok.1 h
  obtain ⟨d, _, h⟩ := Res.bind_eq_ok.1 h
  obtain ⟨t, _, h⟩ := Res.bind_eq_ok.1 h
  have h := Except.ok.inj h
  rw [← h]

theorem nameField_line {cfg : Cfg} {N : ArraySet} {st : SerState} {m : Mapping} {r : Text × SerState}
    (h : nameField cfg N st m = .ok r) : r.2.generatedLine = st.generatedLine := by
  unfold nameField at h
  generalize wrap32 = W at h
  split at h
  · exact nameField_line' h
  · cases h; rfl

theorem originalFields_line {cfg : Cfg} {S N : ArraySet} {st : SerState} {m : Mapping} {r : Text × SerState}
    (h : originalFields cfg S N st m = .ok r) : r.2.generatedLine = st.generatedLine := by
  unfold originalFields at h
  split at h
  · simp only [Res.bind_eq_ok, Res.pure_eq, Except.ok.injEq] at h
    obtain ⟨i, _, d, _, t1, _, o, _, l, _, d2, _, t2, _, d3, _, t3, _, x, h4, h⟩ := h
    have := nameField_line h4
    rw [← h]
    simpa only using this
  · cases h; rfl

/-- A segment leaves the line as it is. -/
theorem segmentText_line {cfg : Cfg} {S N : ArraySet} {st : SerState} {m : Mapping} {r : Text × SerState}
    (h : segmentText cfg S N st m = .ok r) : r.2.generatedLine = st.generatedLine := by
  simp only [segmentText, Res.bind_eq_ok, Res.pure_eq, Except.ok.injEq] at h
  obtain ⟨d, _, t, _, x, h1, h⟩ := h
  have := originalFields_line h1
  rw [← h]
  simpa only using this

theorem serializeStep_line {cfg : Cfg} {S N : ArraySet} {st : SerState} {p : Option Mapping} {m : Mapping}
    {r : Text × SerState} (h : serializeStep cfg S N st p m = .ok r) : r.2.generatedLine = m.generated.line := by
  unfold serializeStep at h
  split at h
  · simp only [Res.bind_eq_ok, Res.pure_eq, Except.ok.injEq] at h
    obtain ⟨s, _, x, h1, h⟩ := h
    have := segmentText_line h1
    rw [← h]
    simpa only using this
  · rename_i hl
    have hl : m.generated.line = st.generatedLine := Decidable.not_not.1 hl
    split at h
    · simp only [Res.bind_eq_ok] at h
      obtain ⟨c, _, h⟩ := h
      split at h
      · cases h; exact hl.symm
      · simp only [Res.bind_eq_ok, Res.pure_eq, Except.ok.injEq] at h
        obtain ⟨x, h1, h⟩ := h
        have := (segmentText_line h1).trans hl.symm
        rw [← h]
        simpa only using this
    · exact (segmentText_line h).trans hl.symm

theorem serializeStep_down {k : Nat} (cfg : Cfg) (S N : ArraySet) {st : SerState} (p : Option Mapping) {m : Mapping}
    (hs : 1 ≤ st.generatedLine ∧ st.generatedLine + k ≤ 2147483647) (hm : m.RoomFor k) :
    serializeStep cfg S N (st.down k) (p.map (Mapping.down k)) (m.down k) =
      (serializeStep cfg S N st p m).map fun r => (r.1, r.2.down k) := by
  unfold serializeStep
  have hl : (m.down k).generated.line ≠ (st.down k).generatedLine ↔ m.generated.line ≠ st.generatedLine := by
    simp only [Mapping.down, SerState.down]; omega
  simp only [hl]
  split
  · have ha := advanceLine_down cfg hs ⟨hm.first, hm.last⟩
    have h1 : advanceLine cfg (st.down k).generatedLine (m.down k).generated.line =
      advanceLine cfg st.generatedLine m.generated.line := ha
    rw [h1]
    cases advanceLine cfg st.generatedLine m.generated.line with
    | error e => rfl
    | ok t =>
      have h2 := segmentText_down k cfg S N { st with generatedColumn := 0, generatedLine := m.generated.line } m
      simp only [Res.ok_bind]
      simp only [SerState.down] at h2 ⊢
      rw [show (m.down k).generated.line = m.generated.line + k from rfl, h2]
      cases segmentText cfg S N { st with generatedColumn := 0, generatedLine := m.generated.line } m with
      | error e => rfl
      | ok r => rfl
  · cases p with
    | none => exact segmentText_down k cfg S N st m
    | some p =>
      simp only [Option.map_some, compare_down]
      cases compareByGeneratedPosInflated cfg m p with
      | error e => rfl
      | ok c =>
        simp only [Res.ok_bind]
        split
        · rfl
        · rw [segmentText_down k cfg S N st m]
          cases segmentText cfg S N st m with
          | error e => rfl
          | ok r => rfl

theorem serializeLoop_down {k : Nat} (cfg : Cfg) (S N : ArraySet) : ∀ (ms : List Mapping) (st : SerState)
    (p : Option Mapping), 1 ≤ st.generatedLine ∧ st.generatedLine + k ≤ 2147483647 → (∀ m ∈ ms, m.RoomFor k) →
    serializeLoop cfg S N (st.down k) (p.map (Mapping.down k)) (ms.map (Mapping.down k)) =
      serializeLoop cfg S N st p ms := by
  intro ms
  induction ms with
  | nil => intros; rfl
  | cons m ms ih =>
    intro st p hs hm
    have h1 := hm m (by simp)
    simp only [List.map_cons, serializeLoop, serializeStep_down cfg S N p hs h1]
    cases h : serializeStep cfg S N st p m with
    | error e => simp only [Except.map, Res.error_bind]
    | ok r =>
      have := ih r.2 (some m) (by rw [serializeStep_line h]; exact ⟨h1.first, h1.last⟩) (fun x hx => hm x (by simp [hx]))
      rw [Option.map_some] at this
      simp only [Except.map, Res.ok_bind, this]

/-- The first round: the line the mapping is on, and the segment. -/
theorem serializeStep_first (cfg : Cfg) (S N : ArraySet) {m : Mapping} (h : 1 ≤ m.generated.line)
    (h' : m.generated.line ≤ 2147483647) :
    serializeStep cfg S N SerState.init none m =
      (segmentText cfg S N { SerState.init with generatedLine := m.generated.line } m).map
        fun r => (List.replicate (m.generated.line - 1).toNat ';' ++ r.1, r.2) := by
  have hi : SerState.init.generatedLine = 1 := rfl
  unfold serializeStep
  simp only [hi]
  split
  · rw [advanceLine_up cfg 1 _ (by decide) (by unfold IsI32; omega) h]
    simp only [Res.ok_bind]
    rw [show ({ SerState.init with generatedColumn := 0, generatedLine := m.generated.line } : SerState) =
      { SerState.init with generatedLine := m.generated.line } from rfl]
    cases segmentText cfg S N { SerState.init with generatedLine := m.generated.line } m with
    | error e => rfl
    | ok r => rfl
  · rename_i hl
    have hl : m.generated.line = 1 := Decidable.not_not.1 hl
    rw [hl, show ({ SerState.init with generatedLine := 1 } : SerState) = SerState.init from rfl]
    cases segmentText cfg S N SerState.init m with
    | error e => rfl
    | ok r => rfl

theorem serializeAll_down {k : Nat} (cfg : Cfg) (S N : ArraySet) {ms : List Mapping} (hm : ∀ m ∈ ms, m.RoomFor k) :
    serializeLoop cfg S N SerState.init none (ms.map (Mapping.down k)) =
      (serializeLoop cfg S N SerState.init none ms).map (if ms = [] then id else (List.replicate k ';' ++ ·)) := by
  cases ms with
  | nil => rfl
  | cons m ms =>
    have h1 := hm m (by simp)
    have h2 : (m.down k).generated.line = m.generated.line + k := rfl
    have f1 := h1.first
    have f2 := h1.last
    have hs := segmentText_down k cfg S N { SerState.init with generatedLine := m.generated.line } m
    simp only [SerState.down] at hs
    simp only [List.map_cons, serializeLoop, serializeStep_first cfg S N f1 (by omega),
      serializeStep_first cfg S N (m := m.down k) (by omega) (by omega), h2, hs]
    cases h : segmentText cfg S N { SerState.init with generatedLine := m.generated.line } m with
    | error e => simp only [Except.map, Res.error_bind]
    | ok r =>
      have hl := segmentText_line h
      have := serializeLoop_down (k := k) cfg S N ms r.2 (some m) (by rw [hl]; exact ⟨h1.first, h1.last⟩)
        (fun x hx => hm x (by simp [hx]))
      rw [Option.map_some] at this
      simp only [SerState.down] at this
      simp only [Except.map, Res.ok_bind, this]
      cases serializeLoop cfg S N r.2 (some m) ms with
      | error e => simp only [Res.error_bind]
      | ok t =>
        have e : (m.generated.line + k - 1).toNat = k + (m.generated.line - 1).toNat := by omega
        simp only [Res.ok_bind, Res.pure_eq, e, List.replicate_add, List.append_assoc, List.cons_ne_nil, if_false]

theorem toArray_down (k : Nat) (cfg : Cfg) (l : MappingList) (hv : ∀ m ∈ l.array, m.RoomFor k) :
    (l.down k).toArray cfg =
      (l.toArray cfg).map fun r => (r.1.map (Mapping.down k), r.2.down k) := by
  unfold MappingList.toArray
  rw [show (l.down k).sorted = l.sorted from rfl]
  split
  · have hs : MappingList.sortBy cfg (l.down k).array =
        (MappingList.sortBy cfg l.array).map (List.map (Mapping.down k)) := by
      rw [sortBy_valid cfg (fun m hm => (hv m hm).valid), sortBy_valid cfg (l := (l.down k).array)]
      · simp only [Except.map, Except.ok.injEq, MappingList.down]
        symm
        apply List.map_mergeSort
        intro a ha b hb
        have h1 := compare_down k cfg a b
        rw [compare_eq_cmpVal cfg (hv a ha).valid (hv b hb).valid,
          compare_eq_cmpVal cfg (hv a ha).down (hv b hb).down, Except.ok.injEq] at h1
        simp only [cmpLE, h1]
      · intro m hm
        obtain ⟨a, ha, rfl⟩ := List.mem_map.1 hm
        exact (hv a ha).down
    rw [hs]
    cases MappingList.sortBy cfg l.array <;> rfl
  · rfl

/-- The map for a generated text with `k` lines before: as many semicolons before its mappings, if there are any. -/
def SourceMapJson.down (k : Nat) (any : Bool) (j : SourceMapJson) : SourceMapJson :=
  if any then { j with mappings := j.mappings.map fun t => String.ofList (List.replicate k ';') ++ t } else j

theorem asJson_down (k : Nat) (U : UrlLib) (cfg : Cfg) (g : Generator) (hv : ∀ m ∈ g.mappings.array, m.RoomFor k) :
    (g.down k).asJson U cfg =
      (g.asJson U cfg).map fun r => (r.1.down k (!g.mappings.array.isEmpty), r.2.down k) := by
  simp only [Generator.asJson, sourcesContent_down]
  cases g.sourcesContent U with
  | error e => rfl
  | ok x =>
    have hl := toArray_down k cfg g.mappings hv
    simp only [Res.ok_bind, Generator.serializeMappings]
    rw [show (g.down k).mappings = g.mappings.down k from rfl, hl]
    cases ht : g.mappings.toArray cfg with
    | error e => rfl
    | ok y =>
      have hp := toArray_perm cfg ht
      have hs := serializeAll_down (k := k) cfg g.sources g.names (ms := y.1) (fun m hm => hv m (hp.1.mem_iff.1 hm))
      have he : (y.1 = []) = (g.mappings.array = []) := by
        rw [eq_iff_iff]
        exact ⟨fun h => by rw [h] at hp; exact hp.1.nil_eq.symm, fun h => by rw [h] at hp; exact hp.1.eq_nil⟩
      simp only [Except.map, Res.ok_bind]
      rw [show (g.down k).sources = g.sources from rfl,
        show (g.down k).names = g.names from rfl, hs]
      cases serializeLoop cfg g.sources g.names SerState.init none y.1 with
      | error e => rfl
      | ok t =>
        simp only [Except.map, Res.ok_bind, Res.pure_eq, he, SourceMapJson.down, Option.map_some]
        cases hg : g.mappings.array with
        | nil => simp only [if_true, id, List.isEmpty_nil, Bool.not_true, Bool.false_eq_true, if_false]; rfl
        | cons a b =>
          simp only [String.ofList_append, List.isEmpty_cons, Bool.not_false, if_true, List.cons_ne_nil, if_false]; rfl

theorem run_down (k : Nat) (U : UrlLib) (cfg : Cfg) : ∀ (ops : List GOp) (g : Generator),
    (∀ m ∈ g.mappings.array, m.RoomFor k) → (∀ m ∈ gAdded ops, m.RoomFor k) →
    (g.down k).run U cfg (ops.map (GOp.down k)) = (g.run U cfg ops).map (Generator.down k) := by
  intro ops
  induction ops with
  | nil => intros; rfl
  | cons op ops ih =>
    intro g hg ha
    have hstep : (g.down k).step U cfg (op.down k) = (g.step U cfg op).map (Generator.down k) := by
      cases op with
      | add m => exact addMapping_down k cfg g (ha m (by simp [gAdded]))
      | setContent s c => exact setSourceContent_down k U g s c
      | asJson =>
        simp only [Generator.step, GOp.down, asJson_down k U cfg g hg]
        cases g.asJson U cfg <;> rfl
    simp only [List.map_cons, Generator.run, hstep]
    cases hs : g.step U cfg op with
    | error e => rfl
    | ok g1 =>
      have hsplit : ∀ m, m ∈ gAdded [op] ∨ m ∈ gAdded ops → m ∈ gAdded (op :: ops) := by
        intro m hm
        cases op <;> simp_all [gAdded]
      have k1 := (step_keeps hs hg (fun m hm => ha m (hsplit m (.inl hm)))).1
      exact ih g1 k1 (fun m hm => ha m (hsplit m (.inr hm)))

/-- C101: if all mappings of a history of calls are moved `k` lines down in the generated text, as when `k` lines are put
before it, the map that comes out has `k` semicolons before its mappings and is otherwise the same, to the letter; or both
histories panic alike. If no mapping is added nothing changes. -/
theorem C101_lines_before (k : Nat) (U : UrlLib) (cfg : Cfg) (file root : Option String) (skip : Bool) (ops : List GOp)
    (hv : ∀ m ∈ gAdded ops, m.RoomFor k) :
    ((Generator.new file root skip).run U cfg (ops.map (GOp.down k)) >>= fun g => g.asJson U cfg).map Prod.fst =
      ((Generator.new file root skip).run U cfg ops >>= fun g => g.asJson U cfg).map
        fun r => r.1.down k (!(gAdded ops).isEmpty) := by
  have h := run_down k U cfg ops (Generator.new file root skip) (by simp [Generator.new, MappingList.new]) hv
  rw [show (Generator.new file root skip).down k = Generator.new file root skip from rfl] at h
  rw [h]
  cases hr : (Generator.new file root skip).run U cfg ops with
  | error e => rfl
  | ok g =>
    have hp := run_perm cfg _ _ _ (gRun_new hr).2.2.1
    rw [added_mlOps] at hp
    have hp : g.mappings.array.Perm (gAdded ops) := by simpa [MappingList.new] using hp
    have he : g.mappings.array.isEmpty = (gAdded ops).isEmpty := by
      rw [Bool.eq_iff_iff, List.isEmpty_iff, List.isEmpty_iff]
      exact ⟨fun h => by rw [h] at hp; exact hp.nil_eq.symm, fun h => by rw [h] at hp; exact hp.eq_nil⟩
    rw [← he]
    simp only [Except.map, Res.ok_bind, asJson_down k U cfg g (fun m hm => hv m (hp.mem_iff.1 hm))]
    cases g.asJson U cfg <;> rfl

/-! ## What a reader sees -/

/-- The segment `k` lines further down. -/
def _root_.RSM.Spec.RawMapping.down (k : Nat) (r : RawMapping) : RawMapping := { r with line := r.line + k }

theorem decodeSegment_down (k line col : Nat) (d : DState) (cs : List Char) :
    decodeSegment (line + k) col d cs = (decodeSegment line col d cs).map fun r => (r.1.down k, r.2) := by
  unfold decodeSegment
  split
  · cases offset col _ <;> rfl
  · rename_i a s l c _
    cases offset col a <;> cases offset d.source s <;> cases offset d.line l <;> cases offset d.column c <;> rfl
  · rename_i a s l c n _
    cases offset col a <;> cases offset d.source s <;> cases offset d.line l <;> cases offset d.column c <;>
      cases offset d.name n <;> rfl
  · rfl

theorem decodeSegments_down (k line : Nat) : ∀ (ss : List (List Char)) (col : Nat) (d : DState),
    decodeSegments (line + k) col d ss =
      (decodeSegments line col d ss).map fun r => (r.1.map (RawMapping.down k), r.2) := by
  intro ss
  induction ss with
  | nil => intros; rfl
  | cons s ss ih =>
    intro col d
    simp only [decodeSegments, decodeSegment_down]
    cases decodeSegment line col d s with
    | none => rfl
    | some r =>
      have := ih r.1.column r.2
      simp only [Option.map_some, Option.bind_eq_bind, Option.bind_some]
      rw [show (r.1.down k).column = r.1.column from rfl, this]
      cases decodeSegments line r.1.column r.2 ss <;> rfl

theorem decodeLines_down (k : Nat) : ∀ (ls : List (List Char)) (line : Nat) (d : DState),
    decodeLines (line + k) d ls = (decodeLines line d ls).map (List.map (RawMapping.down k)) := by
  intro ls
  induction ls with
  | nil => intros; rfl
  | cons l ls ih =>
    intro line d
    have hstep : ∀ d, decodeLines (line + k + 1) d ls = (decodeLines (line + 1) d ls).map (List.map (RawMapping.down k)) := by
      intro d
      have := ih (line + 1) d
      rwa [show line + 1 + k = line + k + 1 by omega] at this
    by_cases hl : l = []
    · simp only [decodeLines, hl, if_true, hstep, Option.bind_eq_bind, Option.bind_some]
      cases decodeLines (line + 1) d ls <;> rfl
    · simp only [decodeLines, hl, if_false, decodeSegments_down, Option.bind_eq_bind]
      cases decodeSegments line 0 d (splitOn ',' l) with
      | none => rfl
      | some r =>
        simp only [Option.map_some, Option.bind_some, hstep]
        cases decodeLines (line + 1) r.2 ls with
        | none => rfl
        | some x => simp

/-- C101, what a reader sees: the segments of such a map are those of the map for the text without the lines before it,
each `k` lines further down. -/
theorem C101_segments (k : Nat) (any : Bool) {j : SourceMapJson} {raws : List RawMapping} (h : j.Segments raws)
    (hany : any = false → raws = []) (hroom : ∀ r ∈ raws, r.line + k < 4294967296) :
    (j.down k any).Segments (raws.map (RawMapping.down k)) := by
  obtain ⟨t, ht, hd, hu⟩ := h
  cases any with
  | false => rw [hany rfl] at hd ⊢; exact ⟨t, ht, hd, by simp⟩
  | true =>
    refine ⟨String.ofList (List.replicate k ';') ++ t, by simp [SourceMapJson.down, ht], ?_, ?_⟩
    · rw [String.toList_append, String.toList_ofList, decodeMappings, decode_semis, decodeLines_down]
      rw [decodeMappings] at hd
      rw [hd]
      rfl
    · intro r hr
      obtain ⟨a, ha, rfl⟩ := List.mem_map.1 hr
      exact ⟨hroom a ha, (hu a ha).2.1, (hu a ha).2.2⟩

/-! ## Cases -/

/-- Two mappings out of order, on lines 3 and 1, a content, and a serialisation in between. -/
def lineCase : List GOp :=
  [.add { generated := ⟨3, 2⟩, original := some ⟨7, 0⟩, source := some "a.js" }, .asJson,
   .setContent "a.js" (some "x"), .add { generated := ⟨1, 4⟩ }]

theorem lineCase_room : ∀ m ∈ gAdded lineCase, m.RoomFor 5 := by
  intro m hm
  simp only [gAdded, lineCase, List.mem_cons, List.not_mem_nil, or_false] at hm
  rcases hm with rfl | rfl <;> exact ⟨⟨by decide, by decide, rfl, by simp⟩, by decide, by decide⟩

example (U : UrlLib) (cfg : Cfg) :
    ((Generator.new none none false).run U cfg (lineCase.map (GOp.down 5)) >>= fun g => g.asJson U cfg).map Prod.fst =
      ((Generator.new none none false).run U cfg lineCase >>= fun g => g.asJson U cfg).map
        fun r => { r.1 with mappings := r.1.mappings.map (";;;;;" ++ ·) } :=
  C101_lines_before 5 U cfg none none false lineCase lineCase_room

/-- With one line before, one mapping: both texts. -/
example : [2, 3].map (fun l => ((Generator.new none none false).run MiniUrl.lib ⟨true, true⟩
      [.add { generated := ⟨l, 3⟩ }] >>= fun g => g.asJson MiniUrl.lib ⟨true, true⟩).map fun r => r.1.mappings) =
    [.ok (some ";G"), .ok (some ";;G")] := by decide +kernel

/-- `C101_segments` on that text. -/
example : ({ version := 3, mappings := some ";G" } : SourceMapJson).Segments [⟨1, 3, none⟩] :=
  ⟨";G", rfl, by decide +kernel, by simp [RawMapping.U32]⟩

end RSM
