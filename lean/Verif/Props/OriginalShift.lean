import Verif.Props.ColumnShift
import Verif.Props.Size
/-! # Property C115: original positions moved down -/

namespace RSM

open Spec

/-- The mapping with `k` lines more before its original position, if it has one. -/
def Mapping.lower (k : Nat) (m : Mapping) : Mapping :=
  { m with original := m.original.map fun o => ⟨o.line + k, o.column⟩ }

/-- The call with its mapping moved. -/
def GOp.lower (k : Nat) : GOp → GOp
  | .add m => .add (m.lower k)
  | op => op

/-- The mapping is valid, its lines are lines (they count from one), and the original line is an `i32` and, counted from zero,
can be encoded, before and after the move. -/
structure Mapping.RoomLower (cfg : Cfg) (k : Nat) (m : Mapping) : Prop where
  valid : m.Valid
  first : 1 ≤ m.generated.line
  origin : ∀ o, m.original = some o → 1 ≤ o.line ∧ o.line + k ≤ 2147483647 ∧ o.line - 1 + k < cfg.vlqLimit

theorem Mapping.lower_none {k : Nat} {m : Mapping} (h : m.original = none) : m.lower k = m := by
  cases m
  simp only at h
  subst h
  rfl

theorem Mapping.RoomLower.lower {cfg : Cfg} {k : Nat} {m : Mapping} (h : m.RoomLower cfg k) : (m.lower k).Valid := by
  refine ⟨h.valid.gl, h.valid.gc, ?_, ?_⟩
  · have := h.valid.orig
    simpa [Mapping.lower] using this
  · intro o ho
    have hl := cfg.vlqLimit_le
    cases hm : m.original with
    | none => simp [Mapping.lower, hm] at ho
    | some p =>
      simp only [Mapping.lower, hm, Option.map_some, Option.some.injEq] at ho
      subst ho
      have h1 := h.origin p hm
      have h2 := h.valid.range p hm
      exact ⟨by simp only; omega, by simp only; omega, h2.2.2⟩

/-! ## The state of the generator -/

def MappingList.lower (k : Nat) (l : MappingList) : MappingList :=
  ⟨l.array.map (Mapping.lower k), l.sorted, l.last.map (Mapping.lower k)⟩

def Generator.lower (k : Nat) (g : Generator) : Generator := { g with mappings := g.mappings.lower k }

def SerState.lower (k : Nat) (st : SerState) : SerState := { st with originalLine := st.originalLine + k }

/-! ## The methods -/

theorem compare_lower (k : Nat) (cfg : Cfg) (a b : Mapping) :
    compareByGeneratedPosInflated cfg (a.lower k) (b.lower k) = compareByGeneratedPosInflated cfg a b := by
  have h' : compareOriginalThenName cfg (a.lower k) (b.lower k) = compareOriginalThenName cfg a b := by
    unfold compareOriginalThenName Mapping.lower
    cases a.original with
    | none => rfl
    | some p =>
      cases b.original with
      | none => rfl
      | some q =>
        simp only [Option.map_some]
        rw [show p.line + (k : Int) - (q.line + k) = p.line - q.line by omega]
  have h₁ : (a.lower k).generated = a.generated := rfl
  have h₂ : (b.lower k).generated = b.generated := rfl
  have h₃ : strcmp (a.lower k).source (b.lower k).source = strcmp a.source b.source := rfl
  simp only [compareByGeneratedPosInflated, h', h₁, h₂, h₃]

theorem add_lower (k : Nat) (cfg : Cfg) (l : MappingList) (m : Mapping) :
    (l.lower k).add cfg (m.lower k) = (l.add cfg m).map (MappingList.lower k) := by
  have key : generatedPositionAfter cfg ((l.lower k).last.getD MappingList.beforeAll) (m.lower k) =
      generatedPositionAfter cfg (l.last.getD MappingList.beforeAll) m := by
    have h0 : (l.lower k).last.getD MappingList.beforeAll = (l.last.getD MappingList.beforeAll).lower k := by
      simp only [MappingList.lower]
      cases l.last <;> rfl
    rw [h0]
    simp only [generatedPositionAfter, compare_lower]
    rfl
  simp only [MappingList.add, key]
  cases generatedPositionAfter cfg (l.last.getD MappingList.beforeAll) m with
  | error e => rfl
  | ok b => cases b <;> simp [MappingList.lower, Except.map, pure, Except.pure, bind, Except.bind]

theorem setSourceContent_lower (k : Nat) (U : UrlLib) (g : Generator) (s : String) (c : Option String) :
    (g.lower k).setSourceContent U s c = (g.setSourceContent U s c).map (Generator.lower k) := by
  simp only [Generator.setSourceContent, Generator.lower]
  cases Generator.contentKey U g.sourceRoot s with
  | error e => rfl
  | ok k => cases c <;> rfl

theorem sourcesContent_lower (k : Nat) (U : UrlLib) (g : Generator) :
    (g.lower k).sourcesContent U = g.sourcesContent U := by
  have hgen : ∀ l : List String, Generator.generateSourcesContents U (g.lower k) g.sourceRoot l =
      Generator.generateSourcesContents U g g.sourceRoot l := by
    intro l
    induction l with
    | nil => rfl
    | cons s l ih => simp only [Generator.generateSourcesContents, ih]; rfl
  have h := hgen g.sources.toVec
  simp only [Generator.sourcesContent]
  rw [show (g.lower k).sourceRoot = g.sourceRoot from rfl, show (g.lower k).sources = g.sources from rfl, h]
  rfl

theorem nameField_lower (k : Nat) (cfg : Cfg) (N : ArraySet) (st : SerState) (m : Mapping) :
    nameField cfg N (st.lower k) (m.lower k) = (nameField cfg N st m).map fun r => (r.1, r.2.lower k) := by
  simp only [nameField]
  rw [show (m.lower k).name = m.name from rfl]
  cases m.name with
  | none => rfl
  | some n =>
    simp only [show (st.lower k).name = st.name from rfl]
    cases unwrap (N.indexOf n) with
    | error e => rfl
    | ok i =>
      simp only [Res.ok_bind]
      cases cfg.arith (wrap32 i - st.name) with
      | error e => rfl
      | ok d =>
        simp only [Res.ok_bind]
        cases base64vlqEncode cfg d with
        | error e => rfl
        | ok t => simp only [Res.ok_bind, Res.pure_eq, Except.map]; rfl

/-- The original line of a mapping, counted from zero, before and after. -/
theorem originLine {cfg : Cfg} {k : Nat} {m : Mapping} (hm : m.RoomLower cfg k) {o : Position} (ho : m.original = some o) :
    cfg.arith (o.line - 1) = .ok (o.line - 1) ∧ cfg.arith (o.line + k - 1) = .ok (o.line - 1 + k) := by
  have h := hm.origin o ho
  have hl := cfg.vlqLimit_le
  constructor
  · exact cfg.arith_ok (by unfold IsI32; omega)
  · rw [show o.line + (k : Int) - 1 = o.line - 1 + k by omega]; exact cfg.arith_ok (by unfold IsI32; omega)

/-- A segment after one with a source. -/
theorem originalFields_lower {k : Nat} (cfg : Cfg) (S N : ArraySet) (st : SerState) {m : Mapping} (hm : m.RoomLower cfg k) :
    originalFields cfg S N (st.lower k) (m.lower k) = (originalFields cfg S N st m).map fun r => (r.1, r.2.lower k) := by
  simp only [originalFields]
  rw [show (m.lower k).source = m.source from rfl]
  cases m.source with
  | none => rfl
  | some s =>
    simp only [show (st.lower k).source = st.source from rfl,
      show (st.lower k).originalColumn = st.originalColumn from rfl]
    cases unwrap (S.indexOf s) with
    | error e => rfl
    | ok i =>
      simp only [Res.ok_bind]
      cases cfg.arith (wrap32 i - st.source) with
      | error e => rfl
      | ok d1 =>
      simp only [Res.ok_bind]
      cases base64vlqEncode cfg d1 with
      | error e => rfl
      | ok t1 =>
      simp only [Res.ok_bind]
      cases ho : m.original with
      | none => simp only [Mapping.lower, ho]; rfl
      | some o =>
      obtain ⟨h1, h2⟩ := originLine hm ho
      simp only [show (m.lower k).original = some ⟨o.line + k, o.column⟩ by simp only [Mapping.lower, ho, Option.map_some],
        unwrap, Res.ok_bind, h1, h2]
      rw [show o.line - 1 + (k : Int) - (st.lower k).originalLine = o.line - 1 - st.originalLine by
        simp only [SerState.lower]; omega]
      cases cfg.arith (o.line - 1 - st.originalLine) with
      | error e => rfl
      | ok d2 =>
      simp only [Res.ok_bind]
      cases base64vlqEncode cfg d2 with
      | error e => rfl
      | ok t2 =>
      simp only [Res.ok_bind]
      cases cfg.arith (o.column - st.originalColumn) with
      | error e => rfl
      | ok d3 =>
      simp only [Res.ok_bind]
      cases base64vlqEncode cfg d3 with
      | error e => rfl
      | ok t3 =>
      have := nameField_lower k cfg N { st with source := wrap32 i, originalLine := o.line - 1, originalColumn := o.column } m
      simp only [Res.ok_bind]
      simp only [SerState.lower] at this ⊢
      rw [this]
      cases nameField cfg N { st with source := wrap32 i, originalLine := o.line - 1, originalColumn := o.column } m with
      | error e => rfl
      | ok r => rfl

theorem segmentText_lower {k : Nat} (cfg : Cfg) (S N : ArraySet) (st : SerState) {m : Mapping} (hm : m.RoomLower cfg k) :
    segmentText cfg S N (st.lower k) (m.lower k) = (segmentText cfg S N st m).map fun r => (r.1, r.2.lower k) := by
  simp only [segmentText]
  rw [show (m.lower k).generated = m.generated from rfl, show (st.lower k).generatedColumn = st.generatedColumn from rfl]
  cases cfg.arith (m.generated.column - st.generatedColumn) with
  | error e => rfl
  | ok d =>
  simp only [Res.ok_bind]
  cases base64vlqEncode cfg d with
  | error e => rfl
  | ok t =>
  have := originalFields_lower cfg S N { st with generatedColumn := m.generated.column } hm
  simp only [Res.ok_bind]
  simp only [SerState.lower] at this ⊢
  rw [this]
  cases originalFields cfg S N { st with generatedColumn := m.generated.column } m with
  | error e => rfl
  | ok r => rfl

theorem serializeStep_lower {k : Nat} (cfg : Cfg) (S N : ArraySet) (st : SerState) (p : Option Mapping) {m : Mapping}
    (hm : m.RoomLower cfg k) :
    serializeStep cfg S N (st.lower k) (p.map (Mapping.lower k)) (m.lower k) =
      (serializeStep cfg S N st p m).map fun r => (r.1, r.2.lower k) := by
  unfold serializeStep
  rw [show (m.lower k).generated = m.generated from rfl, show (st.lower k).generatedLine = st.generatedLine from rfl]
  by_cases hl : m.generated.line ≠ st.generatedLine
  · rw [if_pos hl, if_pos hl]
    cases advanceLine cfg st.generatedLine m.generated.line with
    | error e => rfl
    | ok semis =>
      have := segmentText_lower cfg S N { st with generatedColumn := 0, generatedLine := m.generated.line } hm
      simp only [Res.ok_bind]
      simp only [SerState.lower] at this ⊢
      rw [this]
      cases segmentText cfg S N { st with generatedColumn := 0, generatedLine := m.generated.line } m with
      | error e => rfl
      | ok r => rfl
  · rw [if_neg hl, if_neg hl]
    cases p with
    | none => exact segmentText_lower cfg S N st hm
    | some q =>
      simp only [Option.map_some, compare_lower]
      cases compareByGeneratedPosInflated cfg m q with
      | error e => rfl
      | ok c =>
        simp only [Res.ok_bind]
        split
        · rfl
        · rw [segmentText_lower cfg S N st hm]
          cases segmentText cfg S N st m with
          | error e => rfl
          | ok r => rfl

/-- Everything after the first segment with a source. -/
theorem serializeLoop_lower {k : Nat} (cfg : Cfg) (S N : ArraySet) : ∀ (ms : List Mapping) (st : SerState)
    (p : Option Mapping), (∀ m ∈ ms, m.RoomLower cfg k) →
    serializeLoop cfg S N (st.lower k) (p.map (Mapping.lower k)) (ms.map (Mapping.lower k)) =
      serializeLoop cfg S N st p ms := by
  intro ms
  induction ms with
  | nil => intros; rfl
  | cons m ms ih =>
    intro st p hm
    simp only [List.map_cons, serializeLoop, serializeStep_lower cfg S N st p (hm m (by simp))]
    cases serializeStep cfg S N st p m with
    | error e => simp only [Except.map, Res.error_bind]
    | ok r =>
      have := ih r.2 (some m) (fun x hx => hm x (by simp [hx]))
      rw [Option.map_some] at this
      simp only [Except.map, Res.ok_bind, this]

/-! ## The place of the number -/

/-- The text is one number. -/
def IsNumber (t : Text) : Prop := ∃ v, decodeVlq t = some (v, [])

/-- The text ends after the second number of a segment, and the segments before that one have one number each: what comes
next is the original line of the first segment with an original position. -/
inductive BeforeOrigin : Text → Prop
  | here {x y : Text} : IsNumber x → IsNumber y → BeforeOrigin (x ++ y)
  | sep {c : Char} {t : Text} : c = ',' ∨ c = ';' → BeforeOrigin t → BeforeOrigin (c :: t)
  | plain {x : Text} {c : Char} {t : Text} : IsNumber x → c = ',' ∨ c = ';' → BeforeOrigin t → BeforeOrigin (x ++ c :: t)

/-- The same, for the text after a segment. -/
def AfterSegment (pre : Text) : Prop := ∃ c t, (c = ',' ∨ c = ';') ∧ pre = c :: t ∧ BeforeOrigin t

theorem BeforeOrigin.semis {t : Text} (h : BeforeOrigin t) : ∀ n, BeforeOrigin (List.replicate n ';' ++ t)
  | 0 => h
  | n + 1 => .sep (.inr rfl) (semis h n)

theorem AfterSegment.number {x pre : Text} (hx : IsNumber x) (h : AfterSegment pre) : BeforeOrigin (x ++ pre) := by
  obtain ⟨c, t, hc, rfl, ht⟩ := h
  exact .plain hx hc ht

theorem BeforeOrigin.after_semis {t : Text} (h : BeforeOrigin t) {n : Nat} (hn : 0 < n) :
    AfterSegment (List.replicate n ';' ++ t) := by
  obtain ⟨n, rfl⟩ : ∃ k, n = k + 1 := ⟨n - 1, by omega⟩
  exact ⟨';', _, .inr rfl, rfl, h.semis n⟩

/-- What the encoder writes is a number. -/
theorem encode_number {cfg : Cfg} {v : Int} {t : Text} (h : base64vlqEncode cfg v = .ok t) : IsNumber t := by
  obtain ⟨w, h1, h2⟩ := Res.bind_eq_ok.1 h
  have hw := toVlqSigned_range h1
  by_cases hc : cfg.ptr64 = true ∧ w < 0
  · rw [vlqLoop_neg64 cfg hc.1 w hw hc.2] at h2
    cases h2
    refine ⟨unsign (w % 32).toNat, ?_⟩
    simp [decodeVlq, decodeUnsigned, digitValue_digitChar (show (w % 32).toNat < 64 by omega),
      show (w % 32).toNat < 32 by omega]
  · have hu : cfg.asUsize w < 4294967296 := by
      unfold Cfg.asUsize
      unfold IsI32 at hw
      split
      · rename_i hp; have : ¬ w < 0 := fun hn => hc ⟨hp, hn⟩; omega
      · omega
    rw [vlqLoop_eq cfg _ w hu rfl] at h2
    cases h2
    exact ⟨_, by simpa using (show decodeVlq (encU (cfg.asUsize w) ++ []) = _ by
      simp only [decodeVlq, decodeUnsigned_encU]; rfl)⟩

/-- A segment without a source. -/
theorem segmentText_plain (cfg : Cfg) (S N : ArraySet) (st : SerState) {m : Mapping} (h : m.source = none)
    {r : Text × SerState} (hr : segmentText cfg S N st m = .ok r) :
    IsNumber r.1 ∧ r.2.originalLine = st.originalLine ∧ r.2.generatedLine = st.generatedLine := by
  simp only [segmentText, originalFields, h, Res.bind_eq_ok] at hr
  obtain ⟨d, _, t, ht, a, ha, hr⟩ := hr
  simp only [Res.pure_eq, Except.ok.injEq] at ha hr
  subst ha
  subst hr
  rw [List.append_nil]
  exact ⟨encode_number ht, rfl, rfl⟩

/-- The first segment with a source. -/
theorem segmentText_origin {k : Nat} (cfg : Cfg) (S N : ArraySet) {st : SerState} {m : Mapping}
    (hm : m.RoomLower cfg k) {o : Position} (ho : m.original = some o) (h0 : st.originalLine = 0) :
    (∃ e, segmentText cfg S N st m = .error e ∧ segmentText cfg S N st (m.lower k) = .error e) ∨
    ∃ x y a a' t st', IsNumber x ∧ IsNumber y ∧ base64vlqEncode cfg (o.line - 1) = .ok a ∧
      base64vlqEncode cfg (o.line - 1 + k) = .ok a' ∧ segmentText cfg S N st m = .ok (x ++ y ++ a ++ t, st') ∧
      segmentText cfg S N st (m.lower k) = .ok (x ++ y ++ a' ++ t, st'.lower k) := by
  have hor := hm.valid.orig
  rw [ho] at hor
  cases hs : m.source with
  | none => rw [hs] at hor; cases hor
  | some s =>
  have hk := hm.origin o ho
  have e1 := encode_eq_limit cfg (o.line - 1) (by omega)
  have e2 := encode_eq_limit cfg (o.line - 1 + k) (by omega)
  obtain ⟨h1, h2⟩ := originLine hm ho
  have a1 : cfg.arith (o.line - 1 - st.originalLine) = .ok (o.line - 1) := by
    rw [h0, Int.sub_zero]; exact h1
  have a2 : cfg.arith (o.line - 1 + k - st.originalLine) = .ok (o.line - 1 + k) := by
    rw [h0, Int.sub_zero, show o.line - 1 + (k : Int) = o.line + k - 1 by omega, h2]; congr 1; omega
  simp only [segmentText, originalFields]
  rw [show (m.lower k).source = m.source from rfl, show (m.lower k).generated = m.generated from rfl,
    show (m.lower k).original = some ⟨o.line + k, o.column⟩ by simp only [Mapping.lower, ho, Option.map_some], hs, ho]
  cases cfg.arith (m.generated.column - st.generatedColumn) with
  | error e => exact .inl ⟨e, rfl, rfl⟩
  | ok d0 =>
  simp only [Res.ok_bind]
  cases hx : base64vlqEncode cfg d0 with
  | error e => exact .inl ⟨e, rfl, rfl⟩
  | ok x =>
  simp only [Res.ok_bind]
  cases unwrap (S.indexOf s) with
  | error e => exact .inl ⟨e, rfl, rfl⟩
  | ok i =>
  simp only [Res.ok_bind]
  cases cfg.arith (wrap32 i - st.source) with
  | error e => exact .inl ⟨e, rfl, rfl⟩
  | ok d1 =>
  simp only [Res.ok_bind]
  cases hy : base64vlqEncode cfg d1 with
  | error e => exact .inl ⟨e, rfl, rfl⟩
  | ok y =>
  simp only [Res.ok_bind, unwrap, h1, h2, a1, a2, e1, e2]
  cases cfg.arith (o.column - st.originalColumn) with
  | error e => exact .inl ⟨e, rfl, rfl⟩
  | ok d3 =>
  simp only [Res.ok_bind]
  cases base64vlqEncode cfg d3 with
  | error e => exact .inl ⟨e, rfl, rfl⟩
  | ok t3 =>
  have := nameField_lower k cfg N { st with generatedColumn := m.generated.column, source := wrap32 i, originalLine := o.line - 1, originalColumn := o.column } m
  simp only [Res.ok_bind]
  simp only [SerState.lower] at this ⊢
  rw [this]
  cases nameField cfg N { st with generatedColumn := m.generated.column, source := wrap32 i, originalLine := o.line - 1, originalColumn := o.column } m with
  | error e => exact .inl ⟨e, rfl, rfl⟩
  | ok r =>
    exact .inr ⟨x, y, _, _, t3 ++ r.1, r.2, encode_number hx, encode_number hy, rfl, rfl,
      by simp only [Res.ok_bind, Res.pure_eq, List.append_assoc],
      by simp only [Except.map, Res.ok_bind, Res.pure_eq, List.append_assoc]⟩

/-- One round: nothing, or a separator and a segment. -/
theorem serializeStep_form (cfg : Cfg) (S N : ArraySet) (st : SerState) (p : Option Mapping) {m : Mapping} (hv : m.Valid)
    (hp : ∀ q, p = some q → q.Valid) (hone : 1 ≤ st.generatedLine) (hge : st.generatedLine ≤ m.generated.line) :
    (∃ q, p = some q ∧ SameKey m q ∧ serializeStep cfg S N st p m = .ok ([], st)) ∨
    ∃ sep st0, st0.originalLine = st.originalLine ∧
      (∀ t, BeforeOrigin t → BeforeOrigin (sep ++ t) ∧ (p.isSome = true → AfterSegment (sep ++ t))) ∧
      ∀ m' : Mapping, m'.generated = m.generated →
        (∀ q, p = some q → compareByGeneratedPosInflated cfg m' q = compareByGeneratedPosInflated cfg m q) →
        serializeStep cfg S N st p m' = (segmentText cfg S N st0 m').map fun r => (sep ++ r.1, r.2) := by
  have hi : IsI32 m.generated.line ∧ IsI32 st.generatedLine := by
    have := hv.gl
    constructor <;> unfold IsI32 <;> omega
  by_cases hl : m.generated.line ≠ st.generatedLine
  · refine .inr ⟨List.replicate (m.generated.line - st.generatedLine).toNat ';',
      { st with generatedColumn := 0, generatedLine := m.generated.line }, rfl,
      fun t ht => ⟨ht.semis _, fun _ => ht.after_semis (by omega)⟩, fun m' hm' _ => ?_⟩
    unfold serializeStep
    rw [hm', if_pos hl, advanceLine_up cfg _ _ hi.2 hi.1 hge]
    simp only [Res.ok_bind]
    cases segmentText cfg S N { st with generatedColumn := 0, generatedLine := m.generated.line } m' <;> rfl
  · cases p with
    | none =>
      refine .inr ⟨[], st, rfl, fun t ht => ⟨ht, fun h => by cases h⟩, fun m' hm' _ => ?_⟩
      unfold serializeStep
      rw [hm', if_neg hl]
      simp only [List.nil_append]
      cases segmentText cfg S N st m' <;> rfl
    | some q =>
      have hc := compare_eq_cmpVal cfg hv (hp q rfl)
      by_cases h0 : cmpVal m q = 0
      · refine .inl ⟨q, rfl, (cmpVal_eq_zero m q).1 h0, ?_⟩
        unfold serializeStep
        rw [if_neg hl]
        simp only [hc, h0, Res.ok_bind, if_true]
        rfl
      · refine .inr ⟨[','], st, rfl, fun t ht => ⟨.sep (.inl rfl) ht, fun _ => ⟨',', t, .inl rfl, rfl, ht⟩⟩,
          fun m' hm' hcm => ?_⟩
        unfold serializeStep
        rw [hm', if_neg hl]
        simp only [hcm q rfl, hc, Res.ok_bind, if_neg h0]
        cases segmentText cfg S N st m' <;> rfl

/-- What becomes of the text: the original line of the first segment with one is replaced by the one `k` further down. -/
def Sunk (cfg : Cfg) (after : Bool) (v : Int) (k : Nat) (r r' : Res Text) : Prop :=
  (∃ e, r = .error e ∧ r' = .error e) ∨
  ∃ pre a a' post, BeforeOrigin pre ∧ (after = true → AfterSegment pre) ∧ base64vlqEncode cfg v = .ok a ∧
    base64vlqEncode cfg (v + k) = .ok a' ∧ r = .ok (pre ++ a ++ post) ∧ r' = .ok (pre ++ a' ++ post)

/-- The segments without a source, and everything after. -/
theorem serializeLoop_sunk {k : Nat} (cfg : Cfg) (S N : ArraySet) : ∀ (ms : List Mapping) (st : SerState)
    (p : Option Mapping), st.originalLine = 0 → (∀ q, p = some q → q.Valid ∧ q.source = none) → 1 ≤ st.generatedLine →
    (∀ m ∈ ms, m.RoomLower cfg k) → (∀ m ∈ ms, st.generatedLine ≤ m.generated.line) → LinesUp ms →
    ∀ (m₁ : Mapping) (pre post : List Mapping) (o : Position), ms = pre ++ m₁ :: post → (∀ m ∈ pre, m.source = none) →
    m₁.original = some o →
    Sunk cfg p.isSome (o.line - 1) k (serializeLoop cfg S N st p ms) (serializeLoop cfg S N st p (ms.map (Mapping.lower k))) := by
  intro ms
  induction ms with
  | nil => intro st p _ _ _ _ _ _ m₁ pre post o h; cases pre <;> cases h
  | cons m ms ih =>
    intro st p h0 hp hone hm hge hup m₁ pre post o hsplit hpre ho
    have h1 := hm m (by simp)
    have hup' := List.pairwise_cons.1 hup
    have hlow : ∀ q, p = some q → q.lower k = q := fun q hq => Mapping.lower_none (by
      have h2 := (hp q hq).1.orig
      rw [(hp q hq).2] at h2
      simpa using h2)
    have hform := serializeStep_form cfg S N st p h1.valid (fun q hq => (hp q hq).1) hone (hge m (by simp))
    cases pre with
    | nil =>
      simp only [List.nil_append, List.cons.injEq] at hsplit
      obtain ⟨rfl, rfl⟩ := hsplit
      have hsrc : m.source ≠ none := by
        intro hn
        have := h1.valid.orig
        rw [hn, ho] at this
        cases this
      rcases hform with ⟨q, hq, hk, _⟩ | ⟨sep, st0, hst0, hsep, hstep⟩
      · exact absurd (hk.2.1.trans (hp q hq).2) hsrc
      · have s1 := hstep m rfl (fun _ _ => rfl)
        have s2 := hstep (m.lower k) rfl (fun q hq => by
          have := compare_lower k cfg m q
          rwa [hlow q hq] at this)
        have hpl : (some m : Option Mapping).map (Mapping.lower k) = some (m.lower k) := rfl
        simp only [List.map_cons, serializeLoop, s1, s2]
        rcases segmentText_origin cfg S N h1 ho (hst0.trans h0) with ⟨e, h2, h3⟩ |
          ⟨x, y, a, a', t, st', hx, hy, h2, h3, h4, h5⟩
        · rw [h2, h3]; exact .inl ⟨e, rfl, rfl⟩
        · rw [h4, h5]
          have hloop := serializeLoop_lower (k := k) cfg S N ms st' (some m) (fun x hx => hm x (by simp [hx]))
          rw [hpl] at hloop
          simp only [Except.map, Res.ok_bind, hloop]
          have hb := hsep (x ++ y) (.here hx hy)
          cases serializeLoop cfg S N st' (some m) ms with
          | error e => exact .inl ⟨e, rfl, rfl⟩
          | ok rest =>
            exact .inr ⟨sep ++ (x ++ y), a, a', t ++ rest, hb.1, hb.2, h2, h3,
              by simp only [Res.ok_bind, Res.pure_eq, List.append_assoc],
              by simp only [Res.ok_bind, Res.pure_eq, List.append_assoc]⟩
    | cons x pre =>
      simp only [List.cons_append, List.cons.injEq] at hsplit
      obtain ⟨rfl, rfl⟩ := hsplit
      have hsrc := hpre m (by simp)
      have hmn : m.lower k = m := Mapping.lower_none (by
        have h2 := h1.valid.orig
        rw [hsrc] at h2
        simpa using h2)
      simp only [List.map_cons, hmn, serializeLoop]
      have hnext : ∀ st' : SerState, st'.originalLine = 0 → st'.generatedLine = m.generated.line →
          Sunk cfg true (o.line - 1) k (serializeLoop cfg S N st' (some m) (pre ++ m₁ :: post))
            (serializeLoop cfg S N st' (some m) ((pre ++ m₁ :: post).map (Mapping.lower k))) := fun st' z1 z2 =>
        ih st' (some m) z1 (fun q hq => by cases hq; exact ⟨h1.valid, hsrc⟩) (by rw [z2]; exact h1.first)
          (fun x hx => hm x (by simp [hx])) (fun x hx => by rw [z2]; exact hup'.1 x hx) hup'.2 m₁ pre post o rfl
          (fun x hx => hpre x (by simp [hx])) ho
      rcases hform with ⟨q, hq, hk, hs⟩ | ⟨sep, st0, hst0, hsep, hstep⟩
      · have hline := serializeStep_line hs
        rw [hs]
        simp only [Res.ok_bind, List.nil_append]
        rcases hnext st h0 hline with ⟨e, h2, h3⟩ | ⟨pre', a, a', t, hb, hb', h2, h3, h4, h5⟩
        · rw [h2, h3]; exact .inl ⟨e, rfl, rfl⟩
        · rw [h4, h5]
          exact .inr ⟨pre', a, a', t, hb, fun _ => hb' rfl, h2, h3, rfl, rfl⟩
      · have s1 := hstep m rfl (fun _ _ => rfl)
        cases hseg : segmentText cfg S N st0 m with
        | error e =>
          rw [hseg] at s1
          rw [s1]
          exact .inl ⟨e, rfl, rfl⟩
        | ok r =>
          obtain ⟨hn, ho1, _⟩ := segmentText_plain cfg S N st0 hsrc hseg
          rw [hseg] at s1
          have hline := serializeStep_line s1
          rw [s1]
          simp only [Except.map, Res.ok_bind] at hline ⊢
          rcases hnext r.2 (ho1.trans (hst0.trans h0)) hline with ⟨e, h2, h3⟩ | ⟨pre', a, a', t, hb, hb', h2, h3, h4, h5⟩
          · rw [h2, h3]; exact .inl ⟨e, rfl, rfl⟩
          · rw [h4, h5]
            have hb2 := hsep _ ((hb' rfl).number hn)
            exact .inr ⟨sep ++ (r.1 ++ pre'), a, a', t, hb2.1, hb2.2, h2, h3,
              by simp only [Res.ok_bind, Res.pure_eq, List.append_assoc],
              by simp only [Res.ok_bind, Res.pure_eq, List.append_assoc]⟩

/-! ## The map -/

theorem toArray_lower {k : Nat} (cfg : Cfg) (l : MappingList) (hv : ∀ m ∈ l.array, m.RoomLower cfg k) :
    (l.lower k).toArray cfg =
      (l.toArray cfg).map fun r => (r.1.map (Mapping.lower k), r.2.lower k) := by
  unfold MappingList.toArray
  rw [show (l.lower k).sorted = l.sorted from rfl]
  split
  · have hs : MappingList.sortBy cfg (l.lower k).array =
        (MappingList.sortBy cfg l.array).map (List.map (Mapping.lower k)) := by
      rw [sortBy_valid cfg (fun m hm => (hv m hm).valid), sortBy_valid cfg (l := (l.lower k).array)]
      · simp only [Except.map, Except.ok.injEq, MappingList.lower]
        symm
        apply List.map_mergeSort
        intro a ha b hb
        have h1 := compare_lower k cfg a b
        rw [compare_eq_cmpVal cfg (hv a ha).valid (hv b hb).valid,
          compare_eq_cmpVal cfg (hv a ha).lower (hv b hb).lower, Except.ok.injEq] at h1
        simp only [cmpLE, h1]
      · intro m hm
        obtain ⟨a, ha, rfl⟩ := List.mem_map.1 hm
        exact (hv a ha).lower
    rw [hs]
    cases MappingList.sortBy cfg l.array <;> rfl
  · rfl

theorem addMapping_lower (k : Nat) (cfg : Cfg) (g : Generator) (m : Mapping) :
    (g.lower k).addMapping cfg (m.lower k) = (g.addMapping cfg m).map (Generator.lower k) := by
  have h1 : (g.lower k).mappings = g.mappings.lower k := rfl
  simp only [Generator.addMapping]
  rw [h1, add_lower]
  cases g.mappings.add cfg m with
  | error e => rfl
  | ok l => rfl

/-- The map with original positions `k` lines further down, whose first one was on line `v`, counted from zero: that number
was `v` and is now `v + k`; all else is as it was. -/
def SourceMapJson.Sunk (v : Int) (k : Nat) (j j' : SourceMapJson) : Prop :=
  ∃ pre a a' post, BeforeOrigin pre ∧ decodeVlq a = some (v, []) ∧ decodeVlq a' = some (v + k, []) ∧
    j.mappings = some (String.ofList (pre ++ a ++ post)) ∧
    j' = { j with mappings := some (String.ofList (pre ++ a' ++ post)) }

/-- Of the mappings with an original position none comes before one whose original line, counted from zero, is `v`. -/
def FirstOrigin (v : Int) (ms : List Mapping) : Prop :=
  ∃ m ∈ ms, ∃ o, m.original = some o ∧ o.line = v + 1 ∧ ∀ x ∈ ms, x.original ≠ none → posLE m x

theorem split_origin : ∀ {ms : List Mapping}, ms.Pairwise posLE → (∀ m ∈ ms, m.Valid) → (∃ m ∈ ms, m.original ≠ none) →
    ∃ pre m post o, ms = pre ++ m :: post ∧ (∀ x ∈ pre, x.source = none) ∧ m.original = some o ∧
      FirstOrigin (o.line - 1) ms := by
  intro ms
  induction ms with
  | nil => rintro _ _ ⟨m, hm, _⟩; cases hm
  | cons m ms ih =>
    rintro hp hv ⟨x, hx, hxe⟩
    have hp' := List.pairwise_cons.1 hp
    cases ho : m.original with
    | some o =>
      refine ⟨[], m, ms, o, rfl, by simp, ho, m, by simp, o, ho, by omega, fun y hy _ => ?_⟩
      rcases List.mem_cons.1 hy with rfl | hy
      · exact .inr ⟨rfl, Int.le_refl _⟩
      · exact hp'.1 y hy
    | none =>
      have hx' : x ∈ ms := by
        rcases List.mem_cons.1 hx with rfl | hx
        · exact absurd ho hxe
        · exact hx
      obtain ⟨pre, y, post, o, rfl, h1, h2, z, hz, o', h3, h4, h5⟩ := ih hp'.2 (fun a ha => hv a (by simp [ha])) ⟨x, hx', hxe⟩
      have hms : m.source = none := by
        have := (hv m (by simp)).orig
        rw [ho] at this
        simpa using this.symm
      refine ⟨m :: pre, y, post, o, rfl, fun a ha => ?_, h2, z, by simp [hz], o', h3, h4, fun a ha hae => ?_⟩
      · rcases List.mem_cons.1 ha with rfl | ha
        exacts [hms, h1 a ha]
      · rcases List.mem_cons.1 ha with rfl | ha
        · exact absurd ho hae
        · exact h5 a ha hae

theorem asJson_lower {k : Nat} (U : UrlLib) (cfg : Cfg) (g : Generator) (hi : g.mappings.Inv)
    (hv : ∀ m ∈ g.mappings.array, m.RoomLower cfg k) :
    (∃ e, g.asJson U cfg = .error e ∧ (g.lower k).asJson U cfg = .error e) ∨
    ∃ j j' g', g.asJson U cfg = .ok (j, g') ∧ (g.lower k).asJson U cfg = .ok (j', g'.lower k) ∧
      ((∃ m ∈ g.mappings.array, m.original ≠ none) → ∃ v, FirstOrigin v g.mappings.array ∧ j.Sunk v k j') := by
  simp only [Generator.asJson, sourcesContent_lower]
  cases g.sourcesContent U with
  | error e => exact .inl ⟨e, rfl, rfl⟩
  | ok x =>
    have hl := toArray_lower cfg g.mappings hv
    obtain ⟨out, l', ht, _, _, hperm, hpw, _⟩ := toArray_valid cfg hi
    have hroom : ∀ m ∈ out, m.RoomLower cfg k := fun m hm => hv m (hperm.mem_iff.1 hm)
    simp only [Res.ok_bind, Generator.serializeMappings]
    rw [show (g.lower k).mappings = g.mappings.lower k from rfl, hl, ht]
    simp only [Except.map, Res.ok_bind]
    rw [show (g.lower k).sources = g.sources from rfl, show (g.lower k).names = g.names from rfl]
    by_cases hon : ∃ m ∈ out, m.original ≠ none
    · obtain ⟨pre, m, post, o, hsplit, hpre, hm, z, hz, o', z1, z2, z3⟩ := split_origin hpw (fun m hm => (hroom m hm).valid) hon
      have hmr := (hroom m (by rw [hsplit]; simp)).origin o hm
      have hsunk := serializeLoop_sunk (k := k) cfg g.sources g.names out SerState.init none rfl (by simp) (by decide) hroom
        (fun x hx => (hroom x hx).first) (LinesUp.of_posLE hpw) m pre post o hsplit hpre hm
      rcases hsunk with ⟨e, h2, h3⟩ | ⟨pre', a, a', t, hb, _, h2, h3, h4, h5⟩
      · rw [h2, h3]; exact .inl ⟨e, rfl, rfl⟩
      · rw [h4, h5]
        rw [encode_eq_limit cfg _ (by omega)] at h2 h3
        cases h2
        cases h3
        refine .inr ⟨_, _, _, rfl, rfl, fun _ => ⟨o.line - 1,
          ⟨z, hperm.mem_iff.1 hz, o', z1, z2, fun x hx => z3 x (hperm.mem_iff.2 hx)⟩,
          pre', _, _, t, hb, ?_, ?_, rfl, rfl⟩⟩
        · simpa [unsign_signed] using (show decodeVlq (encU (signed (o.line - 1)) ++ []) = _ by
            simp only [decodeVlq, decodeUnsigned_encU, unsign_signed])
        · simpa [unsign_signed] using (show decodeVlq (encU (signed (o.line - 1 + k)) ++ []) = _ by
            simp only [decodeVlq, decodeUnsigned_encU, unsign_signed])
    · have hne : out.map (Mapping.lower k) = out := by
        have : ∀ m ∈ out, m.lower k = m := fun m hm => Mapping.lower_none (by
          cases ho : m.original with
          | none => rfl
          | some o => exact absurd ⟨m, hm, by simp [ho]⟩ hon)
        exact (List.map_congr_left this).trans (List.map_id _)
      rw [hne]
      cases serializeLoop cfg g.sources g.names SerState.init none out with
      | error e => exact .inl ⟨e, rfl, rfl⟩
      | ok t =>
        refine .inr ⟨_, _, _, rfl, rfl, ?_⟩
        rintro ⟨m, hm, he⟩
        exact absurd ⟨m, hperm.mem_iff.2 hm, he⟩ hon

theorem run_lower {k : Nat} (U : UrlLib) (cfg : Cfg) : ∀ (ops : List GOp) (g : Generator), g.mappings.Inv →
    (∀ m ∈ g.mappings.array, m.RoomLower cfg k) → (∀ m ∈ gAdded ops, m.RoomLower cfg k) →
    (g.lower k).run U cfg (ops.map (GOp.lower k)) = (g.run U cfg ops).map (Generator.lower k) := by
  intro ops
  induction ops with
  | nil => intros; rfl
  | cons op ops ih =>
    intro g hi hg ha
    have hstep : (g.lower k).step U cfg (op.lower k) = (g.step U cfg op).map (Generator.lower k) := by
      cases op with
      | add m => exact addMapping_lower k cfg g m
      | setContent s c => exact setSourceContent_lower k U g s c
      | asJson =>
        simp only [Generator.step, GOp.lower]
        rcases asJson_lower U cfg g hi hg with ⟨e, h1, h2⟩ | ⟨j, j', g', h1, h2, _⟩
        · rw [h1, h2]; rfl
        · rw [h1, h2]; rfl
    simp only [List.map_cons, Generator.run, hstep]
    cases hs : g.step U cfg op with
    | error e => rfl
    | ok g1 =>
      have hsplit : ∀ m, m ∈ gAdded [op] ∨ m ∈ gAdded ops → m ∈ gAdded (op :: ops) := by
        intro m hm
        cases op <;> simp_all [gAdded]
      have k1 := (step_keeps hs hg (fun m hm => ha m (hsplit m (.inl hm)))).1
      have k2 : g1.mappings.Inv := by
        have h1 : g.run U cfg [op] = .ok g1 := by simp only [Generator.run, hs, Res.ok_bind]
        obtain ⟨l, h2, h3⟩ := run_valid cfg (mlOps [op]) g.mappings hi (by
          rw [added_mlOps]
          exact fun m hm => (ha m (hsplit m (.inl hm))).valid)
        rw [(gRun_ok _ _ _ h1).2.2.2.1] at h2
        cases h2
        exact h3
      exact ih g1 k2 k1 (fun m hm => ha m (hsplit m (.inr hm)))

/-- C115: if the original positions of a history of calls, some mapping of which has one, are moved `k` lines down, as when
`k` lines are put before each source, one number of the mappings that come out is `k` larger, and the map is otherwise the
same, to the letter; or both histories panic alike. The number is the original line of the first segment that has one, which
was that of a mapping with no other mapping with an original position generated before it. -/
theorem C115_lines_before_sources (k : Nat) (U : UrlLib) (cfg : Cfg) (file root : Option String) (skip : Bool)
    (ops : List GOp) (hv : ∀ m ∈ gAdded ops, m.RoomLower cfg k) (ho : ∃ m ∈ gAdded ops, m.original ≠ none) :
    let before := ((Generator.new file root skip).run U cfg ops >>= fun g => g.asJson U cfg).map Prod.fst
    let after := ((Generator.new file root skip).run U cfg (ops.map (GOp.lower k)) >>= fun g => g.asJson U cfg).map Prod.fst
    (∃ e, before = .error e ∧ after = .error e) ∨
    ∃ j j' v, before = .ok j ∧ after = .ok j' ∧ FirstOrigin v (gAdded ops) ∧ j.Sunk v k j' := by
  intro before after
  have h := run_lower U cfg ops (Generator.new file root skip) MappingList.inv_new
    (by simp [Generator.new, MappingList.new]) hv
  rw [show (Generator.new file root skip).lower k = Generator.new file root skip from rfl] at h
  simp only [before, after]
  rw [h]
  cases hr : (Generator.new file root skip).run U cfg ops with
  | error e => exact .inl ⟨e, rfl, rfl⟩
  | ok g =>
    have hp := run_perm cfg _ _ _ (gRun_new hr).2.2.1
    rw [added_mlOps] at hp
    have hp : g.mappings.array.Perm (gAdded ops) := by simpa [MappingList.new] using hp
    have hi : g.mappings.Inv := by
      obtain ⟨l, h2, h3⟩ := run_valid cfg (mlOps ops) MappingList.new MappingList.inv_new (by
        rw [added_mlOps]
        exact fun m hm => (hv m hm).valid)
      rw [(gRun_new hr).2.2.1] at h2
      cases h2
      exact h3
    simp only [Except.map, Res.ok_bind]
    rcases asJson_lower U cfg g hi (fun m hm => hv m (hp.mem_iff.1 hm)) with ⟨e, h1, h2⟩ | ⟨j, j', g', h1, h2, h3⟩
    · rw [h1, h2]; exact .inl ⟨e, rfl, rfl⟩
    · obtain ⟨m, hm, hmo⟩ := ho
      obtain ⟨v, ⟨z, hz, o, z1, z2, z3⟩, h4⟩ := h3 ⟨m, hp.mem_iff.2 hm, hmo⟩
      rw [h1, h2]
      exact .inr ⟨j, j', v, rfl, rfl, ⟨z, hp.mem_iff.1 hz, o, z1, z2, fun x hx => z3 x (hp.mem_iff.2 hx)⟩, h4⟩

/-! ## Cases -/

/-- A mapping without a source before and after one with a source, of which a second is generated before the first, and a
serialisation in between. -/
def originCase : List GOp :=
  [.add { generated := ⟨2, 9⟩, original := some ⟨7, 0⟩, source := some "a.js" }, .asJson,
   .setContent "a.js" (some "x"), .add { generated := ⟨1, 4⟩ },
   .add { generated := ⟨1, 6⟩, original := some ⟨3, 2⟩, source := some "b.js", name := some "n" }, .add { generated := ⟨4, 1⟩ }]

theorem originCase_room : ∀ m ∈ gAdded originCase, m.RoomLower ⟨true, true⟩ 20 := by
  intro m hm
  simp only [gAdded, originCase, List.mem_cons, List.not_mem_nil, or_false] at hm
  rcases hm with rfl | rfl | rfl | rfl <;> exact ⟨⟨by decide, by decide, rfl, by simp⟩, by decide, by simp [Cfg.vlqLimit]⟩

example (U : UrlLib) := C115_lines_before_sources 20 U ⟨true, true⟩ none none false originCase originCase_room
  ⟨{ generated := ⟨2, 9⟩, original := some ⟨7, 0⟩, source := some "a.js" }, by simp [gAdded, originCase], by simp⟩

/-- Here the number is that of the mapping generated at line 1, column 6. -/
example : ∀ v, FirstOrigin v (gAdded originCase) → v = 2 := by
  rintro v ⟨m, hm, o, ho, hv, hmin⟩
  simp only [gAdded, originCase, List.mem_cons, List.not_mem_nil, or_false] at hm hmin
  have := hmin { generated := ⟨1, 6⟩, original := some ⟨3, 2⟩, source := some "b.js", name := some "n" } (by simp) (by simp)
  rcases hm with rfl | rfl | rfl | rfl
  · simp [posLE] at this
  · cases ho
  · cases ho; simp only at hv; omega
  · cases ho

/-- With 20 lines before the sources: the third number of the second segment, `E`, becomes `sB`. -/
example : [0, 20].map (fun k => ((Generator.new none none false).run MiniUrl.lib ⟨true, true⟩
      [.add { generated := ⟨1, 4⟩ }, .add { generated := ⟨1, 6⟩, original := some ⟨3 + k, 2⟩, source := some "b.js", name := some "n" },
       .add { generated := ⟨2, 9⟩, original := some ⟨7 + k, 0⟩, source := some "a.js" },
       .add { generated := ⟨4, 1⟩ }] >>= fun g => g.asJson MiniUrl.lib ⟨true, true⟩).map fun r => r.1.mappings) =
    [.ok (some "I,EAEEA;SCIF;;C"), .ok (some "I,EAsBEA;SCIF;;C")] := by decide +kernel

end RSM
