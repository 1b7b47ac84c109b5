import Verif.Props.LineShift
import Verif.Lemmas.LargeShape
/-! # Property C108: putting text before a line of the generated text -/

namespace RSM

open Spec

/-- The mapping with `k` columns more before it, if it is on line `L` of the generated text. -/
def Mapping.right (L : Int) (k : Nat) (m : Mapping) : Mapping :=
  { m with generated := ⟨m.generated.line, if m.generated.line = L then m.generated.column + k else m.generated.column⟩ }

/-- The call with its mapping moved. -/
def GOp.right (L : Int) (k : Nat) : GOp → GOp
  | .add m => .add (m.right L k)
  | op => op

/-- The mapping is valid, its line is a line (they count from one), and if it is on line `L` its column and the column
`k` further right can be encoded. -/
structure Mapping.RoomRight (cfg : Cfg) (L : Int) (k : Nat) (m : Mapping) : Prop where
  valid : m.Valid
  first : 1 ≤ m.generated.line
  last : m.generated.line = L → m.generated.column + k < cfg.vlqLimit

theorem Mapping.right_ne {L : Int} {k : Nat} {m : Mapping} (h : m.generated.line ≠ L) : m.right L k = m := by
  simp only [Mapping.right, if_neg h]

theorem Mapping.right_line (L : Int) (k : Nat) (m : Mapping) : (m.right L k).generated.line = m.generated.line := rfl

theorem Mapping.right_column {L : Int} {k : Nat} {m : Mapping} (h : m.generated.line = L) :
    (m.right L k).generated.column = m.generated.column + k := by
  simp only [Mapping.right, if_pos h]

theorem Mapping.RoomRight.right {cfg : Cfg} {L : Int} {k : Nat} {m : Mapping} (h : m.RoomRight cfg L k) :
    (m.right L k).Valid := by
  refine ⟨h.valid.gl, ?_, h.valid.orig, h.valid.range⟩
  have hl := cfg.vlqLimit_le
  have h1 := h.valid.gc
  by_cases he : m.generated.line = L
  · rw [Mapping.right_column he]; have := h.last he; omega
  · rw [Mapping.right_ne he]; exact h1

/-! ## The state of the generator -/

def MappingList.right (L : Int) (k : Nat) (l : MappingList) : MappingList :=
  ⟨l.array.map (Mapping.right L k), l.sorted, l.last.map (Mapping.right L k)⟩

def Generator.right (L : Int) (k : Nat) (g : Generator) : Generator := { g with mappings := g.mappings.right L k }

def SerState.right (k : Nat) (st : SerState) : SerState := { st with generatedColumn := st.generatedColumn + k }

/-! ## The methods -/

theorem compare_right {L : Int} {k : Nat} (cfg : Cfg) {a b : Mapping} (ha : a.RoomRight cfg L k) (hb : b.RoomRight cfg L k) :
    compareByGeneratedPosInflated cfg (a.right L k) (b.right L k) = compareByGeneratedPosInflated cfg a b := by
  have h' : compareOriginalThenName cfg (a.right L k) (b.right L k) = compareOriginalThenName cfg a b := rfl
  have h₃ : strcmp (a.right L k).source (b.right L k).source = strcmp a.source b.source := rfl
  have hl := ha.valid.gl
  have hl' := hb.valid.gl
  simp only [compareByGeneratedPosInflated, h', h₃, Mapping.right_line]
  rw [cfg.arith_ok (x := a.generated.line - b.generated.line) (by unfold IsI32; omega)]
  simp only [Res.ok_bind]
  by_cases hd : a.generated.line - b.generated.line ≠ 0
  · simp only [if_pos hd]
  · have hc : (a.right L k).generated.column - (b.right L k).generated.column =
        a.generated.column - b.generated.column := by
      by_cases he : a.generated.line = L
      · rw [Mapping.right_column he, Mapping.right_column (by omega)]; omega
      · rw [Mapping.right_ne he, Mapping.right_ne (m := b) (by omega)]
    simp only [if_neg hd, hc]

theorem add_right {L : Int} {k : Nat} (cfg : Cfg) (l : MappingList) {m : Mapping} (hm : m.RoomRight cfg L k)
    (hl : ∀ x, l.last = some x → x.RoomRight cfg L k) :
    (l.right L k).add cfg (m.right L k) = (l.add cfg m).map (MappingList.right L k) := by
  have key : generatedPositionAfter cfg ((l.right L k).last.getD MappingList.beforeAll) (m.right L k) =
      generatedPositionAfter cfg (l.last.getD MappingList.beforeAll) m := by
    cases hl' : l.last with
    | none =>
      have := hm.first
      have h1 : m.generated.line > MappingList.beforeAll.generated.line := by simp only [MappingList.beforeAll]; omega
      have h2 : (m.right L k).generated.line > MappingList.beforeAll.generated.line := h1
      simp only [MappingList.right, hl', Option.map_none, Option.getD_none, generatedPositionAfter, h1, h2, true_or, if_true]
    | some x =>
      have h2 : ((m.right L k).generated.line = (x.right L k).generated.line ∧
          (m.right L k).generated.column ≥ (x.right L k).generated.column) ↔
          (m.generated.line = x.generated.line ∧ m.generated.column ≥ x.generated.column) := by
        simp only [Mapping.right_line]
        constructor
        · rintro ⟨h1, h2⟩
          refine ⟨h1, ?_⟩
          by_cases he : m.generated.line = L
          · rw [Mapping.right_column he, Mapping.right_column (by omega)] at h2; omega
          · rw [Mapping.right_ne he, Mapping.right_ne (m := x) (by omega)] at h2; exact h2
        · rintro ⟨h1, h2⟩
          refine ⟨h1, ?_⟩
          by_cases he : m.generated.line = L
          · rw [Mapping.right_column he, Mapping.right_column (by omega)]; omega
          · rw [Mapping.right_ne he, Mapping.right_ne (m := x) (by omega)]; exact h2
      simp only [MappingList.right, hl', Option.map_some, Option.getD_some, generatedPositionAfter,
        compare_right cfg (hl x hl') hm]
      simp only [Mapping.right_line] at h2 ⊢
      simp only [h2]
  simp only [MappingList.add, key]
  cases generatedPositionAfter cfg (l.last.getD MappingList.beforeAll) m with
  | error e => rfl
  | ok b => cases b <;> simp [MappingList.right, Except.map, pure, Except.pure, bind, Except.bind]

theorem setSourceContent_right (L : Int) (k : Nat) (U : UrlLib) (g : Generator) (s : String) (c : Option String) :
    (g.right L k).setSourceContent U s c = (g.setSourceContent U s c).map (Generator.right L k) := by
  simp only [Generator.setSourceContent, Generator.right]
  cases Generator.contentKey U g.sourceRoot s with
  | error e => rfl
  | ok k => cases c <;> rfl

theorem sourcesContent_right (L : Int) (k : Nat) (U : UrlLib) (g : Generator) :
    (g.right L k).sourcesContent U = g.sourcesContent U := by
  have hgen : ∀ l : List String, Generator.generateSourcesContents U (g.right L k) g.sourceRoot l =
      Generator.generateSourcesContents U g g.sourceRoot l := by
    intro l
    induction l with
    | nil => rfl
    | cons s l ih => simp only [Generator.generateSourcesContents, ih]; rfl
  have h := hgen g.sources.toVec
  simp only [Generator.sourcesContent]
  rw [show (g.right L k).sourceRoot = g.sourceRoot from rfl, show (g.right L k).sources = g.sources from rfl, h]
  rfl

theorem nameField_right (L : Int) (k : Nat) (cfg : Cfg) (N : ArraySet) (st : SerState) (m : Mapping) :
    nameField cfg N (st.right k) (m.right L k) = (nameField cfg N st m).map fun r => (r.1, r.2.right k) := by
  simp only [nameField]
  rw [show (m.right L k).name = m.name from rfl]
  cases m.name with
  | none => rfl
  | some n =>
    simp only [show (st.right k).name = st.name from rfl]
    cases unwrap (N.indexOf n) with
    | error e => rfl
    | ok i =>
      simp only [Res.ok_bind]
      cases cfg.arith (wrap32 i - st.name) with
      | error e => rfl
      | ok d =>
        simp only [Res.ok_bind]
        cases base64vlqEncode cfg d with
        | error e => rfl
        | ok t => simp only [Res.ok_bind, Res.pure_eq, Except.map]; rfl

theorem originalFields_right (L : Int) (k : Nat) (cfg : Cfg) (S N : ArraySet) (st : SerState) (m : Mapping) :
    originalFields cfg S N (st.right k) (m.right L k) = (originalFields cfg S N st m).map fun r => (r.1, r.2.right k) := by
  simp only [originalFields]
  rw [show (m.right L k).source = m.source from rfl]
  cases m.source with
  | none => rfl
  | some s =>
    simp only [show (st.right k).source = st.source from rfl, show (st.right k).originalLine = st.originalLine from rfl,
      show (st.right k).originalColumn = st.originalColumn from rfl, show (m.right L k).original = m.original from rfl]
    cases unwrap (S.indexOf s) with
    | error e => rfl
    | ok i =>
      simp only [Res.ok_bind]
      cases cfg.arith (wrap32 i - st.source) with
      | error e => rfl
      | ok d1 =>
      simp only [Res.ok_bind]
      cases base64vlqEncode cfg d1 with
      | error e => rfl
      | ok t1 =>
      simp only [Res.ok_bind]
      cases unwrap m.original with
      | error e => rfl
      | ok o =>
      simp only [Res.ok_bind]
      cases cfg.arith (o.line - 1) with
      | error e => rfl
      | ok l =>
      simp only [Res.ok_bind]
      cases cfg.arith (l - st.originalLine) with
      | error e => rfl
      | ok d2 =>
      simp only [Res.ok_bind]
      cases base64vlqEncode cfg d2 with
      | error e => rfl
      | ok t2 =>
      simp only [Res.ok_bind]
      cases cfg.arith (o.column - st.originalColumn) with
      | error e => rfl
      | ok d3 =>
      simp only [Res.ok_bind]
      cases base64vlqEncode cfg d3 with
      | error e => rfl
      | ok t3 =>
      have := nameField_right L k cfg N { st with source := wrap32 i, originalLine := l, originalColumn := o.column } m
      simp only [Res.ok_bind]
      simp only [SerState.right] at this ⊢
      rw [this]
      cases nameField cfg N { st with source := wrap32 i, originalLine := l, originalColumn := o.column } m with
      | error e => rfl
      | ok r => rfl

/-- A segment of line `L` after another one of that line. -/
theorem segmentText_right {L : Int} (k : Nat) (cfg : Cfg) (S N : ArraySet) (st : SerState) {m : Mapping}
    (h : m.generated.line = L) :
    segmentText cfg S N (st.right k) (m.right L k) = (segmentText cfg S N st m).map fun r => (r.1, r.2.right k) := by
  simp only [segmentText]
  rw [Mapping.right_column h, show m.generated.column + (k : Int) - (st.right k).generatedColumn =
    m.generated.column - st.generatedColumn by simp only [SerState.right]; omega]
  cases cfg.arith (m.generated.column - st.generatedColumn) with
  | error e => rfl
  | ok d =>
  simp only [Res.ok_bind]
  cases base64vlqEncode cfg d with
  | error e => rfl
  | ok t =>
  have := originalFields_right L k cfg S N { st with generatedColumn := m.generated.column } m
  simp only [Res.ok_bind]
  simp only [SerState.right] at this ⊢
  rw [this]
  cases originalFields cfg S N { st with generatedColumn := m.generated.column } m with
  | error e => rfl
  | ok r => rfl

theorem map_right_of_ne {L : Int} {k : Nat} {ms : List Mapping} (h : ∀ m ∈ ms, m.generated.line ≠ L) :
    ms.map (Mapping.right L k) = ms := by
  induction ms with
  | nil => rfl
  | cons m ms ih =>
    rw [List.map_cons, Mapping.right_ne (h m (by simp)), ih (fun x hx => h x (by simp [hx]))]

/-- The lines do not go back. -/
def LinesUp (ms : List Mapping) : Prop := ms.Pairwise fun a b => a.generated.line ≤ b.generated.line

/-- The rest of line `L`, and the lines after it. -/
theorem serializeLoop_right {L : Int} {k : Nat} (cfg : Cfg) (S N : ArraySet) : ∀ (ms : List Mapping) (st : SerState)
    (p : Mapping), st.generatedLine = L → p.RoomRight cfg L k → p.generated.line = L → (∀ m ∈ ms, m.RoomRight cfg L k) →
    LinesUp (p :: ms) →
    serializeLoop cfg S N (st.right k) (some (p.right L k)) (ms.map (Mapping.right L k)) =
      serializeLoop cfg S N st (some p) ms := by
  intro ms
  induction ms with
  | nil => intros; rfl
  | cons m ms ih =>
    intro st p hst hp hpl hm hup
    have h1 := hm m (by simp)
    have hge : p.generated.line ≤ m.generated.line := (List.pairwise_cons.1 hup).1 m (by simp)
    have hup' : LinesUp (m :: ms) := (List.pairwise_cons.1 hup).2
    by_cases hl : m.generated.line = L
    · have hstep : serializeStep cfg S N (st.right k) (some (p.right L k)) (m.right L k) =
          (serializeStep cfg S N st (some p) m).map fun r => (r.1, r.2.right k) := by
        have e1 : ¬ (m.right L k).generated.line ≠ (st.right k).generatedLine := by
          rw [Mapping.right_line]; simp only [SerState.right]; omega
        have e2 : ¬ m.generated.line ≠ st.generatedLine := by omega
        unfold serializeStep
        rw [if_neg e1, if_neg e2]
        simp only [compare_right cfg h1 hp]
        cases compareByGeneratedPosInflated cfg m p with
        | error e => rfl
        | ok c =>
          simp only [Res.ok_bind]
          split
          · rfl
          · rw [segmentText_right k cfg S N st hl]
            cases segmentText cfg S N st m with
            | error e => rfl
            | ok r => rfl
      simp only [List.map_cons, serializeLoop, hstep]
      cases h : serializeStep cfg S N st (some p) m with
      | error e => simp only [Except.map, Res.error_bind]
      | ok r =>
        have := ih r.2 m (by rw [serializeStep_line h, hl]) h1 hl (fun x hx => hm x (by simp [hx])) hup'
        simp only [Except.map, Res.ok_bind, this]
    · have hgt : ∀ x ∈ m :: ms, x.generated.line ≠ L := by
        intro x hx
        rcases List.mem_cons.1 hx with rfl | hx
        · exact hl
        · have := (List.pairwise_cons.1 hup').1 x hx
          omega
      have hstep : serializeStep cfg S N (st.right k) (some (p.right L k)) m = serializeStep cfg S N st (some p) m := by
        have e1 : m.generated.line ≠ (st.right k).generatedLine := by simp only [SerState.right]; omega
        have e2 : m.generated.line ≠ st.generatedLine := by omega
        unfold serializeStep
        rw [if_pos e1, if_pos e2]
        rfl
      rw [map_right_of_ne hgt]
      simp only [serializeLoop, hstep]

/-- After this text comes the beginning of the line with `n` lines before it. -/
def LineStart (n : Int) (pre : Text) : Prop := (pre.count ';' : Int) = n ∧ (pre = [] ∨ ∃ p, pre = p ++ [';'])

theorem LineStart.append {n n' : Int} {r pre : Text} (h : LineStart n pre) (hn : 0 < n) (hr : (r.count ';' : Int) = n') :
    LineStart (n' + n) (r ++ pre) := by
  refine ⟨?_, ?_⟩
  · rw [List.count_append, Int.natCast_add, hr, h.1]
  · rcases h.2 with rfl | ⟨p, rfl⟩
    · have := h.1; simp at this; omega
    · exact .inr ⟨r ++ p, by simp⟩

/-- What becomes of the text: the number at the beginning of a line is replaced by one `k` larger. -/
def Raised (cfg : Cfg) (n c : Int) (k : Nat) (r r' : Res Text) : Prop :=
  (∃ e, r = .error e ∧ r' = .error e) ∨
  ∃ pre a a' post, LineStart n pre ∧ base64vlqEncode cfg c = .ok a ∧ base64vlqEncode cfg (c + k) = .ok a' ∧
    r = .ok (pre ++ a ++ post) ∧ r' = .ok (pre ++ a' ++ post)

/-- The first segment of line `L`. -/
theorem segmentText_first {L : Int} {k : Nat} (cfg : Cfg) (S N : ArraySet) {st : SerState} {m : Mapping}
    (hm : m.RoomRight cfg L k) (hl : m.generated.line = L) (h0 : st.generatedColumn = 0) :
    (∃ e, segmentText cfg S N st m = .error e ∧ segmentText cfg S N st (m.right L k) = .error e) ∨
    ∃ a a' t st', base64vlqEncode cfg m.generated.column = .ok a ∧
      base64vlqEncode cfg (m.generated.column + k) = .ok a' ∧
      segmentText cfg S N st m = .ok (a ++ t, st') ∧ segmentText cfg S N st (m.right L k) = .ok (a' ++ t, st'.right k) := by
  have hlim := cfg.vlqLimit_le
  have hc := hm.valid.gc
  have hk := hm.last hl
  have e1 := encode_eq_limit cfg m.generated.column (by omega)
  have e2 := encode_eq_limit cfg (m.generated.column + k) (by omega)
  have a1 : cfg.arith (m.generated.column - st.generatedColumn) = .ok m.generated.column := by
    rw [h0, Int.sub_zero]; exact cfg.arith_ok (by unfold IsI32; omega)
  have a2 : cfg.arith ((m.right L k).generated.column - st.generatedColumn) = .ok (m.generated.column + k) := by
    rw [h0, Int.sub_zero, Mapping.right_column hl]; exact cfg.arith_ok (by unfold IsI32; omega)
  have ho := originalFields_right L k cfg S N { st with generatedColumn := m.generated.column } m
  simp only [segmentText, a1, a2, Res.ok_bind, e1, e2]
  simp only [SerState.right] at ho
  rw [Mapping.right_column hl, ho]
  cases originalFields cfg S N { st with generatedColumn := m.generated.column } m with
  | error e => exact .inl ⟨e, rfl, rfl⟩
  | ok r => exact .inr ⟨_, _, r.1, r.2, rfl, rfl, rfl, rfl⟩

/-- The lines before line `L`, and everything after. -/
theorem serializeLoop_raised {L : Int} {k : Nat} (cfg : Cfg) (S N : ArraySet) : ∀ (ms : List Mapping) (st : SerState)
    (p : Option Mapping), (st.generatedLine < L ∨ (p = none ∧ st.generatedColumn = 0)) → 1 ≤ st.generatedLine →
    (∀ m ∈ ms, m.RoomRight cfg L k) → (∀ m ∈ ms, st.generatedLine ≤ m.generated.line) → LinesUp ms → ∀ (m₁ : Mapping) (pre post : List Mapping),
    ms = pre ++ m₁ :: post → (∀ m ∈ pre, m.generated.line < L) → m₁.generated.line = L →
    Raised cfg (L - st.generatedLine) m₁.generated.column k (serializeLoop cfg S N st p ms)
      (serializeLoop cfg S N st p (ms.map (Mapping.right L k))) := by
  intro ms
  induction ms with
  | nil => intro st p _ _ _ _ _ m₁ pre post h; cases pre <;> cases h
  | cons m ms ih =>
    intro st p hst hone hm hge hup m₁ pre post hsplit hpre hm₁
    have h1 := hm m (by simp)
    have hge1 := hge m (by simp)
    have hi32 : IsI32 m.generated.line ∧ IsI32 st.generatedLine := by
      have := h1.valid.gl
      constructor <;> unfold IsI32 <;> omega
    have hup' := (List.pairwise_cons.1 hup)
    cases pre with
    | nil =>
      simp only [List.nil_append, List.cons.injEq] at hsplit
      obtain ⟨rfl, rfl⟩ := hsplit
      -- the first mapping of line `L`
      have hstep : (∃ e, serializeStep cfg S N st p m = .error e ∧ serializeStep cfg S N st p (m.right L k) = .error e) ∨
          ∃ pre a a' t st', LineStart (L - st.generatedLine) pre ∧ base64vlqEncode cfg m.generated.column = .ok a ∧
            base64vlqEncode cfg (m.generated.column + k) = .ok a' ∧
            serializeStep cfg S N st p m = .ok (pre ++ a ++ t, st') ∧
            serializeStep cfg S N st p (m.right L k) = .ok (pre ++ a' ++ t, st'.right k) := by
        unfold serializeStep
        simp only [Mapping.right_line]
        by_cases hl : m.generated.line ≠ st.generatedLine
        · rw [if_pos hl, if_pos hl]
          rw [advanceLine_up cfg _ _ hi32.2 hi32.1 hge1]
          · simp only [Res.ok_bind]
            rcases segmentText_first cfg S N (st := { st with generatedColumn := 0, generatedLine := m.generated.line })
              h1 hm₁ rfl with ⟨e, h2, h3⟩ | ⟨a, a', t, st', h2, h3, h4, h5⟩
            · rw [h2, h3]; exact .inl ⟨e, rfl, rfl⟩
            · rw [h4, h5]
              obtain ⟨n, hn⟩ : ∃ n, (m.generated.line - st.generatedLine).toNat = n + 1 :=
                ⟨(m.generated.line - st.generatedLine).toNat - 1, by omega⟩
              exact .inr ⟨List.replicate (m.generated.line - st.generatedLine).toNat ';', a, a', t, st',
                ⟨by rw [List.count_replicate_self]; omega,
                .inr ⟨List.replicate n ';', by rw [hn, List.replicate_succ']⟩⟩, h2, h3, by simp only [Res.ok_bind, Res.pure_eq, List.append_assoc],
                by simp only [Res.ok_bind, Res.pure_eq, List.append_assoc]⟩
        · rw [if_neg hl, if_neg hl]
          rcases hst with hst | ⟨rfl, hst⟩
          · omega
          · rcases segmentText_first cfg S N h1 hm₁ hst with ⟨e, h2, h3⟩ | ⟨a, a', t, st', h2, h3, h4, h5⟩
            · exact .inl ⟨e, h2, h3⟩
            · exact .inr ⟨[], a, a', t, st', ⟨by simp; omega, .inl rfl⟩, h2, h3, h4, h5⟩
      simp only [List.map_cons, serializeLoop]
      rcases hstep with ⟨e, h2, h3⟩ | ⟨pre, a, a', t, st', h0, h2, h3, h4, h5⟩
      · rw [h2, h3]
        exact .inl ⟨e, rfl, rfl⟩
      · have hloop := serializeLoop_right (L := L) (k := k) cfg S N ms st' m (by rw [serializeStep_line h4]; exact hm₁) h1 hm₁
          (fun x hx => hm x (by simp [hx])) hup
        rw [h4, h5]
        simp only [Res.ok_bind, hloop]
        cases serializeLoop cfg S N st' (some m) ms with
        | error e => exact .inl ⟨e, rfl, rfl⟩
        | ok rest =>
          exact .inr ⟨pre, a, a', t ++ rest, h0, h2, h3, by simp only [Res.ok_bind, Res.pure_eq, List.append_assoc],
            by simp only [Res.ok_bind, Res.pure_eq, List.append_assoc]⟩
    | cons x pre =>
      simp only [List.cons_append, List.cons.injEq] at hsplit
      obtain ⟨rfl, rfl⟩ := hsplit
      have hlt := hpre m (by simp)
      simp only [List.map_cons, Mapping.right_ne (show m.generated.line ≠ L by omega), serializeLoop]
      cases hs : serializeStep cfg S N st p m with
      | error e => exact .inl ⟨e, rfl, rfl⟩
      | ok r =>
        have hline := serializeStep_line hs
        have hcount : (r.1.count ';' : Int) = m.generated.line - st.generatedLine := by
          obtain ⟨_, sep, seg, he, hd, hsep⟩ := serializeStep_shape hs
          rw [he, List.count_append, digits_no_semi hd]
          rcases hsep with ⟨_, hs⟩ | ⟨hs, rfl | rfl⟩
          · rw [advanceLine_up cfg _ _ hi32.2 hi32.1 hge1] at hs
            cases hs
            simp only [List.count_replicate_self]
            omega
          · simp; omega
          · simp; omega
        have := ih r.2 (some m) (.inl (by rw [hline]; exact hlt)) (by rw [hline]; exact h1.first)
          (fun x hx => hm x (by simp [hx])) (fun x hx => by rw [hline]; exact hup'.1 x hx)
          hup'.2 m₁ pre post rfl (fun x hx => hpre x (by simp [hx])) hm₁
        simp only [Res.ok_bind]
        rcases this with ⟨e, h2, h3⟩ | ⟨pre', a, a', t, h0, h2, h3, h4, h5⟩
        · rw [h2, h3]; exact .inl ⟨e, rfl, rfl⟩
        · rw [h4, h5]
          have h0' := h0.append (by rw [hline]; omega) hcount
          rw [hline, show m.generated.line - st.generatedLine + (L - m.generated.line) = L - st.generatedLine by omega] at h0'
          exact .inr ⟨r.1 ++ pre', a, a', t, h0', h2, h3, by simp only [Res.ok_bind, Res.pure_eq, List.append_assoc],
            by simp only [Res.ok_bind, Res.pure_eq, List.append_assoc]⟩

theorem toArray_right {L : Int} {k : Nat} (cfg : Cfg) (l : MappingList) (hv : ∀ m ∈ l.array, m.RoomRight cfg L k) :
    (l.right L k).toArray cfg =
      (l.toArray cfg).map fun r => (r.1.map (Mapping.right L k), r.2.right L k) := by
  unfold MappingList.toArray
  rw [show (l.right L k).sorted = l.sorted from rfl]
  split
  · have hs : MappingList.sortBy cfg (l.right L k).array =
        (MappingList.sortBy cfg l.array).map (List.map (Mapping.right L k)) := by
      rw [sortBy_valid cfg (fun m hm => (hv m hm).valid), sortBy_valid cfg (l := (l.right L k).array)]
      · simp only [Except.map, Except.ok.injEq, MappingList.right]
        symm
        apply List.map_mergeSort
        intro a ha b hb
        have h1 := compare_right cfg (hv a ha) (hv b hb)
        rw [compare_eq_cmpVal cfg (hv a ha).valid (hv b hb).valid,
          compare_eq_cmpVal cfg (hv a ha).right (hv b hb).right, Except.ok.injEq] at h1
        simp only [cmpLE, h1]
      · intro m hm
        obtain ⟨a, ha, rfl⟩ := List.mem_map.1 hm
        exact (hv a ha).right
    rw [hs]
    cases MappingList.sortBy cfg l.array <;> rfl
  · rfl

theorem addMapping_right {L : Int} {k : Nat} (cfg : Cfg) (g : Generator) {m : Mapping} (hm : m.RoomRight cfg L k)
    (hl : ∀ x, g.mappings.last = some x → x.RoomRight cfg L k) :
    (g.right L k).addMapping cfg (m.right L k) = (g.addMapping cfg m).map (Generator.right L k) := by
  have h1 : (g.right L k).mappings = g.mappings.right L k := rfl
  simp only [Generator.addMapping]
  rw [h1, add_right cfg _ hm hl]
  cases g.mappings.add cfg m with
  | error e => rfl
  | ok l => rfl

/-- The map with `k` more columns at the beginning of line `L`, whose first column was `c`: the first number of that line
of the mappings was `c` and is now `c + k`; all else is as it was. -/
def SourceMapJson.Raised (L c : Int) (k : Nat) (j j' : SourceMapJson) : Prop :=
  ∃ pre a a' post, LineStart (L - 1) pre ∧ decodeVlq a = some (c, []) ∧ decodeVlq a' = some (c + k, []) ∧ a'.length ≤ 7 ∧
    j.mappings = some (String.ofList (pre ++ a ++ post)) ∧
    j' = { j with mappings := some (String.ofList (pre ++ a' ++ post)) }

/-- The mappings are on other lines, or the first column on line `L` is `c`. -/
def FirstColumn (L c : Int) (ms : List Mapping) : Prop :=
  (∃ m ∈ ms, m.generated = ⟨L, c⟩) ∧ ∀ m ∈ ms, m.generated.line = L → c ≤ m.generated.column

theorem split_line {L c : Int} : ∀ {ms : List Mapping}, ms.Pairwise posLE → FirstColumn L c ms →
    ∃ pre m post, ms = pre ++ m :: post ∧ (∀ x ∈ pre, x.generated.line < L) ∧ m.generated = ⟨L, c⟩ := by
  intro ms
  induction ms with
  | nil => rintro _ ⟨⟨m, hm, _⟩, _⟩; cases hm
  | cons m ms ih =>
    rintro hp ⟨⟨x, hx, hxe⟩, hmin⟩
    have hp' := List.pairwise_cons.1 hp
    by_cases hl : m.generated.line < L
    · have hx' : x ∈ ms := by
        rcases List.mem_cons.1 hx with rfl | hx
        · rw [hxe] at hl; simp at hl
        · exact hx
      obtain ⟨pre, y, post, rfl, h1, h2⟩ := ih hp'.2 ⟨⟨x, hx', hxe⟩, fun y hy => hmin y (by simp [hy])⟩
      exact ⟨m :: pre, y, post, rfl, fun z hz => by rcases List.mem_cons.1 hz with rfl | hz; exacts [hl, h1 z hz], h2⟩
    · refine ⟨[], m, ms, rfl, by simp, ?_⟩
      rcases List.mem_cons.1 hx with rfl | hx
      · exact hxe
      · have h1 := hp'.1 x hx
        have h2 := hmin m (by simp)
        unfold posLE at h1
        rw [hxe] at h1
        obtain ⟨⟨gl, gc⟩⟩ := m
        simp only at h1 h2 hl ⊢
        rcases h1 with h1 | ⟨h1, h3⟩
        · omega
        · have := h2 h1
          simp only [Position.mk.injEq]
          omega

theorem firstColumn_exists {L : Int} : ∀ {ms : List Mapping}, ms.Pairwise posLE → (∃ m ∈ ms, m.generated.line = L) →
    ∃ c, FirstColumn L c ms := by
  intro ms
  induction ms with
  | nil => rintro _ ⟨m, hm, _⟩; cases hm
  | cons y ys ih =>
    rintro hpw ⟨m, hm, hml⟩
    have hp' := List.pairwise_cons.1 hpw
    by_cases hy : y.generated.line = L
    · refine ⟨y.generated.column, ⟨y, by simp, by rw [← hy]⟩, fun z hz hzl => ?_⟩
      rcases List.mem_cons.1 hz with rfl | hz
      · exact Int.le_refl _
      · have := hp'.1 z hz; unfold posLE at this; omega
    · rcases List.mem_cons.1 hm with rfl | hm
      · exact absurd hml hy
      · obtain ⟨c, ⟨w, hw, hwe⟩, h2⟩ := ih hp'.2 ⟨m, hm, hml⟩
        exact ⟨c, ⟨w, by simp [hw], hwe⟩, fun z hz hzl => by
          rcases List.mem_cons.1 hz with rfl | hz
          · exact absurd hzl hy
          · exact h2 z hz hzl⟩

theorem LinesUp.of_posLE {ms : List Mapping} (h : ms.Pairwise posLE) : LinesUp ms :=
  h.imp fun {a b} hab => by unfold posLE at hab; omega

theorem asJson_right {L : Int} {k : Nat} (U : UrlLib) (cfg : Cfg) (g : Generator) (hi : g.mappings.Inv)
    (hv : ∀ m ∈ g.mappings.array, m.RoomRight cfg L k) :
    (∃ e, g.asJson U cfg = .error e ∧ (g.right L k).asJson U cfg = .error e) ∨
    ∃ j j' g', g.asJson U cfg = .ok (j, g') ∧ (g.right L k).asJson U cfg = .ok (j', g'.right L k) ∧
      ∀ c, FirstColumn L c g.mappings.array → j.Raised L c k j' := by
  simp only [Generator.asJson, sourcesContent_right]
  cases g.sourcesContent U with
  | error e => exact .inl ⟨e, rfl, rfl⟩
  | ok x =>
    have hl := toArray_right cfg g.mappings hv
    obtain ⟨out, l', ht, _, _, hperm, hpw, _⟩ := toArray_valid cfg hi
    have hroom : ∀ m ∈ out, m.RoomRight cfg L k := fun m hm => hv m (hperm.mem_iff.1 hm)
    simp only [Res.ok_bind, Generator.serializeMappings]
    rw [show (g.right L k).mappings = g.mappings.right L k from rfl, hl, ht]
    simp only [Except.map, Res.ok_bind]
    rw [show (g.right L k).sources = g.sources from rfl, show (g.right L k).names = g.names from rfl]
    by_cases hon : ∃ m ∈ out, m.generated.line = L
    · obtain ⟨c, hc⟩ := firstColumn_exists hpw hon
      obtain ⟨pre, m, post, hsplit, hpre, hm⟩ := split_line hpw hc
      have hml : m.generated.line = L := by rw [hm]
      have hmc : m.generated.column = c := by rw [hm]
      have hmr := hroom m (by rw [hsplit]; simp)
      have hraise := serializeLoop_raised (L := L) (k := k) cfg g.sources g.names out SerState.init none
        (.inr ⟨rfl, rfl⟩) (by decide) hroom (fun x hx => (hroom x hx).first) (LinesUp.of_posLE hpw) m pre post hsplit hpre hml
      rcases hraise with ⟨e, h2, h3⟩ | ⟨pre', a, a', t, h0, h2, h3, h4, h5⟩
      · rw [h2, h3]; exact .inl ⟨e, rfl, rfl⟩
      · rw [h4, h5]
        refine .inr ⟨_, _, _, rfl, rfl, fun c' hc' => ⟨pre', a, a', t, h0, ?_, ?_, ?_, rfl, rfl⟩⟩
        all_goals
          have hcc : c' = c := by
            obtain ⟨⟨m1, hm1, he1⟩, hmin1⟩ := hc
            obtain ⟨⟨m2, hm2, he2⟩, hmin2⟩ := hc'
            have h6 := hmin1 m2 (hperm.mem_iff.2 hm2) (by rw [he2])
            have h7 := hmin2 m1 (hperm.mem_iff.1 hm1) (by rw [he1])
            rw [he2] at h6
            rw [he1] at h7
            exact Int.le_antisymm h7 h6
          have hlim := hmr.last hml
          have hpos := hmr.valid.gc
          subst hcc
          rw [hmc] at h2 h3 hlim hpos
        · rw [encode_eq_limit cfg _ (by omega)] at h2
          cases h2
          simpa [unsign_signed] using (show decodeVlq (encU (signed c') ++ []) = _ by
            simp only [decodeVlq, decodeUnsigned_encU, unsign_signed])
        · rw [encode_eq_limit cfg _ (by omega)] at h3
          cases h3
          simpa [unsign_signed] using (show decodeVlq (encU (signed (c' + k)) ++ []) = _ by
            simp only [decodeVlq, decodeUnsigned_encU, unsign_signed])
        · rw [encode_eq_limit cfg _ (by omega)] at h3
          cases h3
          refine encU_length _ 6 ?_
          have := cfg.vlqLimit_le
          unfold signed
          split <;> omega
    · have hne : ∀ m ∈ out, m.generated.line ≠ L := fun m hm h => hon ⟨m, hm, h⟩
      rw [map_right_of_ne hne]
      cases serializeLoop cfg g.sources g.names SerState.init none out with
      | error e => exact .inl ⟨e, rfl, rfl⟩
      | ok t =>
        refine .inr ⟨_, _, _, rfl, rfl, ?_⟩
        rintro c ⟨⟨m, hm, he⟩, _⟩
        exact absurd (by rw [he]) (hne m (hperm.mem_iff.2 hm))

theorem run_right {L : Int} {k : Nat} (U : UrlLib) (cfg : Cfg) : ∀ (ops : List GOp) (g : Generator), g.mappings.Inv →
    (∀ m ∈ g.mappings.array, m.RoomRight cfg L k) → (∀ m ∈ gAdded ops, m.RoomRight cfg L k) →
    (g.right L k).run U cfg (ops.map (GOp.right L k)) = (g.run U cfg ops).map (Generator.right L k) := by
  intro ops
  induction ops with
  | nil => intros; rfl
  | cons op ops ih =>
    intro g hi hg ha
    have hstep : (g.right L k).step U cfg (op.right L k) = (g.step U cfg op).map (Generator.right L k) := by
      cases op with
      | add m => exact addMapping_right cfg g (ha m (by simp [gAdded])) (fun x hx => hg x (hi.lastSome x hx).1)
      | setContent s c => exact setSourceContent_right L k U g s c
      | asJson =>
        simp only [Generator.step, GOp.right]
        rcases asJson_right U cfg g hi hg with ⟨e, h1, h2⟩ | ⟨j, j', g', h1, h2, _⟩
        · rw [h1, h2]; rfl
        · rw [h1, h2]; rfl
    simp only [List.map_cons, Generator.run, hstep]
    cases hs : g.step U cfg op with
    | error e => rfl
    | ok g1 =>
      have hsplit : ∀ m, m ∈ gAdded [op] ∨ m ∈ gAdded ops → m ∈ gAdded (op :: ops) := by
        intro m hm
        cases op <;> simp_all [gAdded]
      have k1 := (step_keeps hs hg (fun m hm => ha m (hsplit m (.inl hm)))).1
      have k2 : g1.mappings.Inv := by
        have h1 : g.run U cfg [op] = .ok g1 := by simp only [Generator.run, hs, Res.ok_bind]
        obtain ⟨l, h2, h3⟩ := run_valid cfg (mlOps [op]) g.mappings hi (by
          rw [added_mlOps]
          exact fun m hm => (ha m (hsplit m (.inl hm))).valid)
        rw [(gRun_ok _ _ _ h1).2.2.2.1] at h2
        cases h2
        exact h3
      exact ih g1 k2 k1 (fun m hm => ha m (hsplit m (.inr hm)))

/-- C108: if the mappings of a history of calls that are on line `L` of the generated text are moved `k` columns to the
right, as when `k` characters are put before that line, the first number of that line of the mappings that come out, which
was the first column of a mapping on it, is `k` larger, and the map is otherwise the same, to the letter; or both histories
panic alike. -/
theorem C108_text_before_line (L c : Int) (k : Nat) (U : UrlLib) (cfg : Cfg) (file root : Option String) (skip : Bool)
    (ops : List GOp) (hv : ∀ m ∈ gAdded ops, m.RoomRight cfg L k) (hc : FirstColumn L c (gAdded ops)) :
    let before := ((Generator.new file root skip).run U cfg ops >>= fun g => g.asJson U cfg).map Prod.fst
    let after := ((Generator.new file root skip).run U cfg (ops.map (GOp.right L k)) >>= fun g => g.asJson U cfg).map Prod.fst
    (∃ e, before = .error e ∧ after = .error e) ∨
    ∃ j j', before = .ok j ∧ after = .ok j' ∧ j.Raised L c k j' := by
  intro before after
  have h := run_right U cfg ops (Generator.new file root skip) MappingList.inv_new
    (by simp [Generator.new, MappingList.new]) hv
  rw [show (Generator.new file root skip).right L k = Generator.new file root skip from rfl] at h
  simp only [before, after]
  rw [h]
  cases hr : (Generator.new file root skip).run U cfg ops with
  | error e => exact .inl ⟨e, rfl, rfl⟩
  | ok g =>
    have hp := run_perm cfg _ _ _ (gRun_new hr).2.2.1
    rw [added_mlOps] at hp
    have hp : g.mappings.array.Perm (gAdded ops) := by simpa [MappingList.new] using hp
    have hi : g.mappings.Inv := by
      obtain ⟨l, h2, h3⟩ := run_valid cfg (mlOps ops) MappingList.new MappingList.inv_new (by
        rw [added_mlOps]
        exact fun m hm => (hv m hm).valid)
      rw [(gRun_new hr).2.2.1] at h2
      cases h2
      exact h3
    have hc' : FirstColumn L c g.mappings.array :=
      ⟨by obtain ⟨⟨m, hm, he⟩, _⟩ := hc; exact ⟨m, hp.mem_iff.2 hm, he⟩, fun m hm => hc.2 m (hp.mem_iff.1 hm)⟩
    simp only [Except.map, Res.ok_bind]
    rcases asJson_right U cfg g hi (fun m hm => hv m (hp.mem_iff.1 hm)) with ⟨e, h1, h2⟩ | ⟨j, j', g', h1, h2, h3⟩
    · rw [h1, h2]; exact .inl ⟨e, rfl, rfl⟩
    · rw [h1, h2]; exact .inr ⟨j, j', rfl, rfl, h3 c hc'⟩

/-! ## What a reader sees -/

/-- The segment `k` columns further right, if it is on line `n`. -/
def _root_.RSM.Spec.RawMapping.right (n k : Nat) (r : RawMapping) : RawMapping :=
  { r with column := if r.line = n then r.column + k else r.column }

theorem RawMapping.right_ne {n k : Nat} {r : RawMapping} (h : r.line ≠ n) : r.right n k = r := by
  simp only [RawMapping.right, if_neg h]

theorem rawRight_ne {n k : Nat} {rs : List RawMapping} (h : ∀ r ∈ rs, r.line ≠ n) : rs.map (RawMapping.right n k) = rs := by
  induction rs with
  | nil => rfl
  | cons r rs ih =>
    rw [List.map_cons, RawMapping.right_ne (h r (by simp)), ih (fun x hx => h x (by simp [hx]))]

theorem decodeUnsigned_whole : ∀ {cs : List Char} {n : Nat}, decodeUnsigned cs = some (n, []) →
    Digits cs ∧ ∀ t, decodeUnsigned (cs ++ t) = some (n, t) := by
  intro cs
  induction cs with
  | nil => intro n h; cases h
  | cons c cs ih =>
    intro n h
    simp only [decodeUnsigned] at h
    cases hd : digitValue c with
    | none => simp only [hd] at h; cases h
    | some d =>
      simp only [hd] at h
      split at h
      · rename_i hlt
        simp only [Option.some.injEq, Prod.mk.injEq] at h
        obtain ⟨rfl, rfl⟩ := h
        refine ⟨fun x hx => ?_, fun t => ?_⟩
        · simp only [List.mem_singleton] at hx; subst hx; rw [hd]; rfl
        · simp only [List.cons_append, List.nil_append, decodeUnsigned, hd, if_pos hlt]
      · rename_i hlt
        cases hu : decodeUnsigned cs with
        | none => simp only [hu] at h; cases h
        | some r =>
          simp only [hu, Option.some.injEq, Prod.mk.injEq] at h
          obtain ⟨hi, rest⟩ := r
          obtain ⟨rfl, rfl⟩ := h
          obtain ⟨h1, h2⟩ := ih hu
          refine ⟨fun x hx => ?_, fun t => ?_⟩
          · rcases List.mem_cons.1 hx with rfl | hx
            · rw [hd]; rfl
            · exact h1 x hx
          · simp only [List.cons_append, decodeUnsigned, hd, if_neg hlt, h2 t]

theorem decodeVlq_whole {cs : List Char} {v : Int} (h : decodeVlq cs = some (v, [])) :
    cs ≠ [] ∧ Digits cs ∧ ∀ t, decodeVlq (cs ++ t) = some (v, t) := by
  unfold decodeVlq at h
  cases hu : decodeUnsigned cs with
  | none => rw [hu] at h; cases h
  | some r =>
    obtain ⟨n, rest⟩ := r
    simp only [hu, Option.some.injEq, Prod.mk.injEq] at h
    obtain ⟨rfl, rfl⟩ := h
    obtain ⟨h1, h2⟩ := decodeUnsigned_whole hu
    refine ⟨?_, h1, fun t => by simp only [decodeVlq, h2 t]⟩
    rintro rfl
    cases hu

theorem decodeFields_whole {cs t : List Char} {v : Int} (h : decodeVlq cs = some (v, [])) :
    decodeFields (cs ++ t) = if cs.length ≤ 12 then (decodeFields t).map (v :: ·) else none := by
  obtain ⟨h1, h2, h3⟩ := decodeVlq_whole h
  cases cs with
  | nil => exact absurd rfl h1
  | cons c cs =>
    rw [List.cons_append, decodeFields]
    have := h3 t
    rw [List.cons_append] at this
    rw [this]
    simp only [List.length_cons, List.length_append]
    by_cases hl : cs.length + 1 ≤ 12
    · rw [if_pos hl, dif_pos (by omega)]
      cases decodeFields t <;> rfl
    · rw [if_neg hl, dif_neg (by omega)]

theorem offset_right {b : Nat} {v : Int} {c k : Nat} (h : offset b v = some c) (hk : c + k < 4294967296) :
    offset (b + k) v = some (c + k) ∧ offset b (v + k) = some (c + k) := by
  unfold offset at h ⊢
  split at h
  · cases h
    constructor
    · rw [if_pos (by omega)]; congr 1; omega
    · rw [if_pos (by omega)]; congr 1; omega
  · cases h

/-- Only the column of a segment depends on its first number and the column before it. -/
theorem decodeSegment_right {line col col' : Nat} {d d' : DState} {cs cs' : List Char} {k : Nat} {v v' : Int} {fs : List Int}
    {r : RawMapping} (h1 : decodeFields cs = some (v :: fs)) (h2 : decodeFields cs' = some (v' :: fs))
    (ho : ∀ c, offset col v = some c → c + k < 4294967296 → offset col' v' = some (c + k))
    (h : decodeSegment line col d cs = some (r, d')) (hk : r.column + k < 4294967296) :
    decodeSegment line col' d cs' = some (r.right line k, d') := by
  unfold decodeSegment at h ⊢
  rw [h1] at h
  rw [h2]
  cases ha : offset col v with
  | none =>
    exfalso
    match fs with
    | [] | [_, _, _] | [_, _, _, _] => simp [ha] at h
    | [_] | [_, _] | _ :: _ :: _ :: _ :: _ :: _ => cases h
  | some c =>
    have hc := ho c ha
    match fs, h with
    | [], h =>
      simp only [ha, Option.bind_eq_bind, Option.bind_some, Option.some.injEq, Prod.mk.injEq] at h ⊢
      obtain ⟨rfl, rfl⟩ := h
      simp only [hc hk, Option.bind_some, RawMapping.right, if_true]
    | [s, l, q], h =>
      simp only [ha, Option.bind_eq_bind, Option.bind_some, Option.bind_eq_some_iff, Option.some.injEq, Prod.mk.injEq] at h ⊢
      obtain ⟨s', h3, l', h4, q', h5, rfl, rfl⟩ := h
      exact ⟨_, hc hk, s', h3, l', h4, q', h5, by simp only [RawMapping.right, if_true], rfl⟩
    | [s, l, q, n], h =>
      simp only [ha, Option.bind_eq_bind, Option.bind_some, Option.bind_eq_some_iff, Option.some.injEq, Prod.mk.injEq] at h ⊢
      obtain ⟨s', h3, l', h4, q', h5, n', h6, rfl, rfl⟩ := h
      exact ⟨_, hc hk, s', h3, l', h4, q', h5, n', h6, by simp only [RawMapping.right, if_true], rfl⟩
    | [_], h | [_, _], h | _ :: _ :: _ :: _ :: _ :: _, h => cases h

theorem decodeSegment_fields {line col : Nat} {d d' : DState} {cs : List Char} {r : RawMapping}
    (h : decodeSegment line col d cs = some (r, d')) : ∃ v fs, decodeFields cs = some (v :: fs) := by
  unfold decodeSegment at h
  cases hf : decodeFields cs with
  | none => rw [hf] at h; cases h
  | some fs =>
    cases fs with
    | nil => rw [hf] at h; cases h
    | cons v fs => exact ⟨v, fs, rfl⟩

theorem decodeSegments_right {line k : Nat} : ∀ {ss : List (List Char)} {col : Nat} {d d' : DState} {rs : List RawMapping},
    decodeSegments line col d ss = some (rs, d') → (∀ r ∈ rs, r.column + k < 4294967296) →
    decodeSegments line (col + k) d ss = some (rs.map (RawMapping.right line k), d') := by
  intro ss
  induction ss with
  | nil => intro col d d' rs h _; cases h; rfl
  | cons s ss ih =>
    intro col d d' rs h hk
    simp only [decodeSegments, Option.bind_eq_bind, Option.bind_eq_some_iff, Option.some.injEq, Prod.mk.injEq] at h
    obtain ⟨⟨r, d1⟩, h1, ⟨rs', d2⟩, h2, rfl, rfl⟩ := h
    obtain ⟨v, fs, hf⟩ := decodeSegment_fields h1
    have h3 := decodeSegment_right hf hf (col' := col + k) (fun c hc hk => (offset_right hc hk).1) h1 (hk r (by simp))
    have h4 := ih h2 (fun x hx => hk x (by simp [hx]))
    have hl := decodeSegment_line h1
    have : (r.right line k).column = r.column + k := by simp only [RawMapping.right, hl, if_true]
    simp only [decodeSegments, h3, Option.bind_eq_bind, Option.bind_some, this, h4, List.map_cons]

theorem splitOn_start {n : Int} {pre : Text} (h : LineStart n pre) :
    ∃ ls, (ls.length : Int) = n ∧ ∀ t, splitOn ';' (pre ++ t) = ls ++ splitOn ';' t := by
  obtain ⟨h1, rfl | ⟨p, rfl⟩⟩ := h
  · exact ⟨[], by simpa using h1, fun t => rfl⟩
  · have key : ∀ p : Text, (splitOn ';' p).length = p.count ';' + 1 ∧
        ∀ t, splitOn ';' (p ++ ';' :: t) = splitOn ';' p ++ splitOn ';' t := by
      intro p
      induction p with
      | nil => exact ⟨rfl, fun t => splitOn_sep ';' t⟩
      | cons c p ih =>
        by_cases hc : c = ';'
        · subst hc
          refine ⟨by rw [splitOn_sep]; simp [ih.1], fun t => ?_⟩
          rw [List.cons_append, splitOn_sep, splitOn_sep, ih.2]; rfl
        · obtain ⟨l, ls, hl⟩ := splitOn_cons_of ';' p
          have ih2 := ih.2
          have ih1 := ih.1
          rw [hl] at ih1
          simp only [hl] at ih2
          refine ⟨?_, fun t => ?_⟩
          · simp only [splitOn, if_neg hc, hl]
            rw [List.count_cons_of_ne hc]
            simpa using ih1
          · simp only [List.cons_append, splitOn, if_neg hc, hl, ih2]
    refine ⟨splitOn ';' p, ?_, fun t => by rw [List.append_assoc, List.singleton_append]; exact (key p).2 t⟩
    rw [(key p).1, ← h1]
    simp

theorem decodeLines_cons (line : Nat) (d : DState) (l : List Char) (ls : List (List Char)) :
    decodeLines line d (l :: ls) =
      (if l = [] then some ([], d) else decodeSegments line 0 d (splitOn ',' l)).bind fun p =>
        (decodeLines (line + 1) p.2 ls).bind fun rest => some (p.1 ++ rest) := by
  by_cases hl : l = []
  · simp only [decodeLines, hl, if_true, Option.bind_eq_bind, Option.bind_some]
  · simp only [decodeLines, hl, if_false, Option.bind_eq_bind]

theorem decodeLines_prefix : ∀ {ls x : List (List Char)} {line : Nat} {d : DState} {raws : List RawMapping},
    decodeLines line d (ls ++ x) = some raws →
    ∃ ms d' rest, raws = ms ++ rest ∧ (∀ r ∈ ms, r.line < line + ls.length) ∧
      decodeLines (line + ls.length) d' x = some rest ∧
      ∀ x' rest', decodeLines (line + ls.length) d' x' = some rest' → decodeLines line d (ls ++ x') = some (ms ++ rest') := by
  intro ls
  induction ls with
  | nil =>
    intro x line d raws h
    exact ⟨[], d, raws, rfl, by simp, h, fun x' rest' h => h⟩
  | cons l ls ih =>
    intro x line d raws h
    simp only [List.cons_append, decodeLines_cons, Option.bind_eq_some_iff, Option.some.injEq] at h
    obtain ⟨⟨ms, d1⟩, h1, rest, h2, rfl⟩ := h
    obtain ⟨ms', d', rest', rfl, h3, h4, h5⟩ := ih h2
    have hadd : line + 1 + ls.length = line + (l :: ls).length := by simp only [List.length_cons]; omega
    rw [hadd] at h3 h4 h5
    refine ⟨ms ++ ms', d', rest', by simp, fun r hr => ?_, h4, fun x' rest'' hx => ?_⟩
    · rcases List.mem_append.1 hr with hr | hr
      · split at h1
        · cases h1; cases hr
        · have := decodeSegments_line h1 r hr
          simp only [List.length_cons]; omega
      · exact h3 r hr
    · simp only [List.cons_append, decodeLines_cons]
      rw [h1]
      simp only [Option.bind_some, h5 x' rest'' hx, List.append_assoc]

/-- C108, what a reader sees: the segments of such a map are those of the map for the text without the characters, those on
the line `k` columns further right. -/
theorem C108_segments {L c : Int} {k : Nat} {j j' : SourceMapJson} (hr : j.Raised L c k j') {raws : List RawMapping}
    (h : j.Segments raws) (hroom : ∀ r ∈ raws, (r.line : Int) = L - 1 → r.column + k < 4294967296) :
    j'.Segments (raws.map (RawMapping.right (L - 1).toNat k)) := by
  obtain ⟨pre, a, a', post, hstart, ha, ha', hlen, hj, rfl⟩ := hr
  obtain ⟨t, ht, hd, hu⟩ := h
  rw [hj] at ht
  cases ht
  refine ⟨_, rfl, ?_, ?_⟩
  · rw [String.toList_ofList] at hd ⊢
    obtain ⟨ls, hls, hsp⟩ := splitOn_start hstart
    have hn : (L - 1).toNat = ls.length := by omega
    rw [hn]
    obtain ⟨a1, a2, a3⟩ := decodeVlq_whole ha
    obtain ⟨b1, b2, b3⟩ := decodeVlq_whole ha'
    obtain ⟨l, ls', hl⟩ := splitOn_cons_of ';' post
    obtain ⟨s, ss, hs⟩ := splitOn_cons_of ',' l
    unfold decodeMappings at hd ⊢
    rw [List.append_assoc, hsp, splitOn_append ';' a2.semi hl] at hd
    rw [List.append_assoc, hsp, splitOn_append ';' b2.semi hl]
    obtain ⟨ms, d', rest, rfl, h1, h2, h3⟩ := decodeLines_prefix hd
    rw [Nat.zero_add] at h1 h2 h3
    rw [List.map_append, rawRight_ne (fun r hr => by have := h1 r hr; omega)]
    apply h3
    simp only [decodeLines_cons, Option.bind_eq_bind, Option.bind_eq_some_iff, Option.some.injEq,
      if_neg (show ¬ a ++ l = [] by simp [a1]), if_neg (show ¬ a' ++ l = [] by simp [b1]),
      splitOn_append ',' a2.comma hs, splitOn_append ',' b2.comma hs, decodeSegments] at h2 ⊢
    obtain ⟨⟨_, d2⟩, ⟨⟨r, d1⟩, h4, ⟨rs, _⟩, h5, rfl, rfl⟩, rest', h6, rfl⟩ := h2
    have hline := decodeSegment_line h4
    have hlines := decodeSegments_line h5
    obtain ⟨v, fs, hf⟩ := decodeSegment_fields h4
    have hf' := hf
    rw [decodeFields_whole ha] at hf'
    split at hf'
    · rw [Option.map_eq_some_iff] at hf'
      obtain ⟨fs', hfs, hcons⟩ := hf'
      cases hcons
      have hfa : decodeFields (a' ++ s) = some ((c + k) :: fs) := by
        rw [decodeFields_whole ha', if_pos (by omega), hfs]; rfl
      have hk1 := hroom r (by simp) (by omega)
      have h7 := decodeSegment_right (col' := 0) hf hfa (fun c hc hk => (offset_right hc hk).2) h4 hk1
      have h8 := decodeSegments_right (k := k) h5 (fun x hx => hroom x (by simp [hx]) (by rw [hlines x hx]; omega))
      have hcol : (r.right ls.length k).column = r.column + k := by simp only [RawMapping.right, hline, if_true]
      rw [← hcol] at h8
      refine ⟨_, ⟨_, h7, _, h8, rfl⟩, rest', h6, ?_⟩
      rw [List.map_append, List.map_cons, rawRight_ne (rs := rest') (fun x hx => ?_)]
      have := decodeLines_line h6 x hx
      omega
    · cases hf'
  · intro r hr
    obtain ⟨x, hx, rfl⟩ := List.mem_map.1 hr
    obtain ⟨u1, u2, u3⟩ := hu x hx
    refine ⟨u1, ?_, u3⟩
    unfold RawMapping.right
    dsimp only
    split
    · have hs := hstart.1
      exact hroom x hx (by omega)
    · exact u2

/-! ## Cases -/

/-- Two mappings on line 2, the second one before the first, one on line 4, and a serialisation in between. -/
def columnCase : List GOp :=
  [.add { generated := ⟨2, 9⟩, original := some ⟨7, 0⟩, source := some "a.js" }, .asJson,
   .setContent "a.js" (some "x"), .add { generated := ⟨2, 4⟩ }, .add { generated := ⟨4, 1⟩ }]

theorem columnCase_room : ∀ m ∈ gAdded columnCase, m.RoomRight ⟨true, true⟩ 2 20 := by
  intro m hm
  simp only [gAdded, columnCase, List.mem_cons, List.not_mem_nil, or_false] at hm
  rcases hm with rfl | rfl | rfl <;> exact ⟨⟨by decide, by decide, rfl, by simp⟩, by decide, by decide⟩

theorem columnCase_first : FirstColumn 2 4 (gAdded columnCase) := by
  unfold FirstColumn gAdded columnCase; decide

example (U : UrlLib) := C108_text_before_line 2 4 20 U ⟨true, true⟩ none none false columnCase columnCase_room columnCase_first

/-- With 20 characters before line 2, whose first mapping was at column 4: `I` becomes `wB`. -/
example : [0, 20].map (fun k => ((Generator.new none none false).run MiniUrl.lib ⟨true, true⟩
      [.add { generated := ⟨2, 4 + k⟩ }, .add { generated := ⟨2, 9 + k⟩, original := some ⟨7, 0⟩, source := some "a.js" },
       .add { generated := ⟨4, 1⟩ }] >>= fun g => g.asJson MiniUrl.lib ⟨true, true⟩).map fun r => r.1.mappings) =
    [.ok (some ";I,KAMA;;C"), .ok (some ";wB,KAMA;;C")] := by decide +kernel

/-- `C108_segments` on these texts. -/
example : SourceMapJson.Segments { version := 3, mappings := some ";wB,KAMA;;C" }
    [⟨1, 24, none⟩, ⟨1, 29, some ⟨0, 6, 0, none⟩⟩, ⟨3, 1, none⟩] :=
  C108_segments (L := 2) (c := 4) (k := 20) (j := { version := 3, mappings := some ";I,KAMA;;C" })
    (raws := [⟨1, 4, none⟩, ⟨1, 9, some ⟨0, 6, 0, none⟩⟩, ⟨3, 1, none⟩])
    ⟨[';'], ['I'], ['w', 'B'], ",KAMA;;C".toList, ⟨rfl, .inr ⟨[], rfl⟩⟩, by decide +kernel, by decide +kernel, by decide,
      by decide +kernel, congrArg (fun t => ({ version := 3, mappings := some t } : SourceMapJson))
        (show ";wB,KAMA;;C" = String.ofList ([';'] ++ ['w', 'B'] ++ ",KAMA;;C".toList) by decide +kernel)⟩
    ⟨";I,KAMA;;C", rfl, by decide +kernel, by simp [RawMapping.U32]⟩ (by simp)

end RSM
