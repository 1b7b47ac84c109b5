import Verif.Props.Joined
import Verif.Props.Vlq
/-! # Property C132: the emitted mappings of two texts put one right after the other -/

namespace RSM
open Spec

/-! ## The text of the mappings as segments -/

/-- A number, in base 64. -/
def vlqText (v : Int) : Text := encU (signed v)

/-- It is read as that number. -/
theorem vlqText_read (v : Int) (rest : Text) : decodeVlq (vlqText v ++ rest) = some (v, rest) := by
  simp only [vlqText, decodeVlq, decodeUnsigned_encU, unsign_signed]

/-- The text of segments: of each what is before it (commas and semicolons) and its numbers. -/
def segText (ps : List (Text × List Int)) : Text := ps.flatMap fun p => p.1 ++ p.2.flatMap vlqText

/-- Segments as a text of mappings has them: commas and semicolons before, at least one except before the first segment, and
one, four or five numbers. -/
structure Segments (ps : List (Text × List Int)) : Prop where
  before : ∀ p ∈ ps, ∀ c ∈ p.1, c = ',' ∨ c = ';'
  apart : ∀ p ∈ ps.tail, p.1 ≠ []
  numbers : ∀ p ∈ ps, p.2.length = 1 ∨ p.2.length = 4 ∨ p.2.length = 5

theorem encU_digits (n : Nat) : Digits (encU n) := by
  intro c hc
  fun_induction encU n with
  | case1 n h =>
    rw [List.mem_singleton.1 hc, digitValue_digitChar (by omega)]
    rfl
  | case2 n h ih =>
    rcases List.mem_cons.1 hc with rfl | hc
    · rw [digitValue_digitChar (by omega)]
      rfl
    · exact ih hc

theorem numbers_digits (ns : List Int) : Digits (ns.flatMap vlqText) := by
  intro c hc
  obtain ⟨n, _, hn⟩ := List.mem_flatMap.1 hc
  exact encU_digits _ c hn

theorem split_unique {α : Type} (P : α → Prop) : ∀ {a b c d : List α}, (∀ x ∈ a, P x) → (∀ x ∈ c, P x) →
    (∀ x, b.head? = some x → ¬ P x) → (∀ x, d.head? = some x → ¬ P x) → a ++ b = c ++ d → a = c ∧ b = d := by
  intro a
  induction a with
  | nil =>
    intro b c d _ hc hb _ h
    cases c with
    | nil => exact ⟨rfl, h⟩
    | cons y c =>
      rw [List.nil_append, List.cons_append] at h
      exact absurd (hc y (by simp)) (hb y (by rw [h]; rfl))
  | cons x a ih =>
    intro b c d ha hc hb hd h
    cases c with
    | nil =>
      rw [List.nil_append, List.cons_append] at h
      exact absurd (ha x (by simp)) (hd x (by rw [← h]; rfl))
    | cons y c =>
      rw [List.cons_append, List.cons_append, List.cons.injEq] at h
      obtain ⟨h1, h2⟩ := ih (fun z hz => ha z (by simp [hz])) (fun z hz => hc z (by simp [hz])) hb hd h.2
      exact ⟨by rw [h.1, h1], h2⟩

theorem segment_head {p : Text × List Int} {r : Text} (hn : p.2.length = 1 ∨ p.2.length = 4 ∨ p.2.length = 5) :
    ∃ c r', p.2.flatMap vlqText ++ r = c :: r' ∧ (digitValue c).isSome = true := by
  have hne : p.2 ≠ [] := by
    intro e
    rw [e] at hn
    simp at hn
  obtain ⟨n, ns, e⟩ := List.exists_cons_of_ne_nil hne
  obtain ⟨c, cs, hc⟩ := List.exists_cons_of_ne_nil (encU_ne_nil (signed n))
  refine ⟨c, cs ++ ns.flatMap vlqText ++ r, ?_, encU_digits (signed n) c (by rw [hc]; simp)⟩
  rw [e, List.flatMap_cons, vlqText, hc]
  simp

/-- C132, that the segments are determined: a text is the text of no more than one list of segments. -/
theorem C132_segments_unique : ∀ {ps qs : List (Text × List Int)}, Segments ps → Segments qs → segText ps = segText qs →
    ps = qs := by
  have sepdig : ∀ {c : Char}, c = ',' ∨ c = ';' → (digitValue c).isSome = true → False := by
    rintro c (rfl | rfl) h <;> revert h <;> decide
  have rest : ∀ {ps : List (Text × List Int)}, (∀ p ∈ ps, ∀ c ∈ p.1, c = ',' ∨ c = ';') → (∀ p ∈ ps, p.1 ≠ []) →
      ∀ c, (segText ps).head? = some c → ¬ (digitValue c).isSome = true := by
    intro ps h1 h2 c hc hd
    cases ps with
    | nil => cases hc
    | cons p ps =>
      obtain ⟨x, xs, e⟩ := List.exists_cons_of_ne_nil (h2 p (by simp))
      rw [segText, List.flatMap_cons, e] at hc
      cases hc
      exact sepdig (h1 p (by simp) c (by rw [e]; simp)) hd
  have tail : ∀ {p : Text × List Int} {ps : List (Text × List Int)}, Segments (p :: ps) → Segments ps := fun h =>
    ⟨fun q hq => h.before q (by simp [hq]), fun q hq => h.apart q (by simpa using List.mem_of_mem_tail hq),
      fun q hq => h.numbers q (by simp [hq])⟩
  have nonempty : ∀ {p : Text × List Int} {ps : List (Text × List Int)}, Segments (p :: ps) → segText (p :: ps) ≠ [] := by
    intro p ps h e
    obtain ⟨c, r, hc, _⟩ := segment_head (r := segText ps) (h.numbers p (by simp))
    rw [segText, List.flatMap_cons, List.append_assoc, ← segText, hc] at e
    simp at e
  intro ps
  induction ps with
  | nil =>
    intro qs _ hq h
    cases qs with
    | nil => rfl
    | cons q qs => exact absurd h.symm (nonempty hq)
  | cons p ps ih =>
    intro qs hp hq h
    cases qs with
    | nil => exact absurd h (nonempty hp)
    | cons q qs =>
      have h' : p.1 ++ (p.2.flatMap vlqText ++ segText ps) = q.1 ++ (q.2.flatMap vlqText ++ segText qs) := by
        have := h
        simp only [segText, List.flatMap_cons, List.append_assoc] at this ⊢
        exact this
      have hd : ∀ {p : Text × List Int} {ps : List (Text × List Int)}, Segments (p :: ps) →
          ∀ c, (p.2.flatMap vlqText ++ segText ps).head? = some c → ¬ (c = ',' ∨ c = ';') := by
        intro p ps hp c hc hsep
        obtain ⟨x, r, hx, hdx⟩ := segment_head (r := segText ps) (hp.numbers p (by simp))
        rw [hx] at hc
        cases hc
        exact sepdig hsep hdx
      obtain ⟨e1, e2⟩ := split_unique (fun c => c = ',' ∨ c = ';') (hp.before p (by simp)) (hq.before q (by simp))
        (hd hp) (hd hq) h'
      obtain ⟨e3, e4⟩ := split_unique (fun c => (digitValue c).isSome = true) (numbers_digits p.2) (numbers_digits q.2)
        (rest (tail hp).before fun x hx => hp.apart x hx) (rest (tail hq).before fun x hx => hq.apart x hx) e2
      have e5 : p.2 = q.2 := by
        have h1 := decodeVlqs_encU p.2
        have h2 := decodeVlqs_encU q.2
        unfold vlqText at e3
        rw [e3, h2] at h1
        exact (Option.some.inj h1).symm
      rw [ih (tail hp) (tail hq) e4]
      congr 1
      exact Prod.ext e1 e5

/-- What is to be added to numbers of the segments that follow: to the first number of the first segment, if it is on the
same line, to the second, third and fourth number of the first segment that has them, to the fifth number of the first segment
that has one. -/
structure Change where
  column : Int
  source : Int
  line : Int
  originalColumn : Int
  name : Int
deriving DecidableEq

/-- The segments with that added. -/
def change : Change → List (Text × List Int) → List (Text × List Int)
  | _, [] => []
  | d, (sep, [a, s, l, c, n]) :: ps =>
    (sep, [a + if ';' ∈ sep then 0 else d.column, s + d.source, l + d.line, c + d.originalColumn, n + d.name]) ::
      change ⟨0, 0, 0, 0, 0⟩ ps
  | d, (sep, [a, s, l, c]) :: ps =>
    (sep, [a + if ';' ∈ sep then 0 else d.column, s + d.source, l + d.line, c + d.originalColumn]) ::
      change ⟨0, 0, 0, 0, d.name⟩ ps
  | d, (sep, [a]) :: ps => (sep, [a + if ';' ∈ sep then 0 else d.column]) :: change { d with column := 0 } ps
  | d, (sep, ns) :: ps => (sep, ns) :: change d ps

/-- Nothing added, nothing changed. -/
theorem change_zero (ps : List (Text × List Int)) : change ⟨0, 0, 0, 0, 0⟩ ps = ps := by
  generalize hd : (⟨0, 0, 0, 0, 0⟩ : Change) = d
  fun_induction change d ps <;> subst hd <;> simp_all

/-- The numbers of the segment of a mapping. -/
def segNumbers (S N : String → Int) (st : SerState) (m : Mapping) : List Int :=
  (m.generated.column - if m.generated.line = st.generatedLine then st.generatedColumn else 0) ::
    match m.source, m.original with
    | some s, some o => match m.name with
      | some n => [S s - st.source, o.line - 1 - st.originalLine, o.column - st.originalColumn, N n - st.name]
      | none => [S s - st.source, o.line - 1 - st.originalLine, o.column - st.originalColumn]
    | _, _ => []

/-- What is before it. -/
def segBefore (st : SerState) (b : Bool) (m : Mapping) : Text :=
  if m.generated.line = st.generatedLine then (if b then [','] else [])
  else List.replicate (m.generated.line - st.generatedLine).toNat ';'

/-- The running values after it. -/
def SerState.next (S N : String → Int) (st : SerState) (m : Mapping) : SerState :=
  { carry S N st m with generatedColumn := m.generated.column, generatedLine := m.generated.line }

/-- The segments of mappings at different positions. -/
def segList (S N : String → Int) : SerState → Bool → List Mapping → List (Text × List Int)
  | _, _, [] => []
  | st, b, m :: ms => (segBefore st b m, segNumbers S N st m) :: segList S N (st.next S N m) true ms

/-- Running values that can be subtracted. -/
structure SerState.Below (B : Nat) (st : SerState) : Prop where
  gc : 0 ≤ st.generatedColumn ∧ st.generatedColumn < B
  oc : 0 ≤ st.originalColumn ∧ st.originalColumn < B
  ol : 0 ≤ st.originalLine ∧ st.originalLine < B
  nm : 0 ≤ st.name ∧ st.name < B
  sr : 0 ≤ st.source ∧ st.source < B

/-- Strings with numbers that can be subtracted. -/
def SmallIn (B : Nat) (S : ArraySet) (s : String) : Prop := 0 ≤ numberIn S s ∧ numberIn S s < B

theorem encode_vlqText {cfg : Cfg} {a b d : Int} {t : Text} (ha : 0 ≤ a ∧ a < cfg.vlqLimit) (hb : 0 ≤ b ∧ b < cfg.vlqLimit)
    (h : cfg.arith (a - b) = .ok d) (h' : base64vlqEncode cfg d = .ok t) : t = vlqText (a - b) := by
  have := cfg.vlqLimit_le
  rw [cfg.arith_ok (by unfold IsI32; omega)] at h
  cases h
  rw [encode_eq_limit cfg _ (by omega)] at h'
  cases h'
  rfl

theorem segmentText_numbers {cfg : Cfg} {S N : ArraySet} {st st' : SerState} {m : Mapping} {t : Text} (he : m.Encodable cfg)
    (hS : ∀ s, m.source = some s → SmallIn cfg.vlqLimit S s) (hN : ∀ s, m.name = some s → SmallIn cfg.vlqLimit N s)
    (hst : st.Below cfg.vlqLimit) (hl : m.generated.line = st.generatedLine)
    (h : segmentText cfg S N st m = .ok (t, st')) :
    t = (segNumbers (numberIn S) (numberIn N) st m).flatMap vlqText := by
  have hlim := cfg.vlqLimit_le
  simp only [segmentText, Res.bind_eq_ok, Res.pure_eq, Except.ok.injEq, Prod.mk.injEq] at h
  obtain ⟨d, h1, a, h2, ⟨x, st1⟩, h3, rfl, rfl⟩ := h
  have ea := encode_vlqText he.column hst.gc h1 h2
  subst ea
  unfold segNumbers
  rw [if_pos hl, List.flatMap_cons]
  congr 1
  unfold originalFields at h3
  cases hs : m.source with
  | none =>
    rw [hs] at h3
    cases h3
    rfl
  | some s =>
    rw [hs] at h3
    simp only [Res.bind_eq_ok, Res.pure_eq, Except.ok.injEq, Prod.mk.injEq] at h3
    obtain ⟨i, hi, d1, e1, t1, f1, o, ho, l, hl', d2, e2, t2, f2, d3, e3, t3, f3, ⟨t4, st4⟩, h4, rfl, rfl⟩ := h3
    have hi' : S.indexOf s = some i := by
      cases hq : S.indexOf s with
      | none => rw [hq] at hi; cases hi
      | some q => rw [hq] at hi; cases hi; rfl
    have ho' : m.original = some o := by
      cases hq : m.original with
      | none => rw [hq] at ho; cases ho
      | some q => rw [hq] at ho; cases ho; rfl
    have hr := he.range o ho'
    rw [cfg.arith_ok (by unfold IsI32; omega)] at hl'
    cases hl'
    have hSs := hS s hs
    unfold SmallIn at hSs
    rw [numberIn_some hi'] at hSs
    have q1 := encode_vlqText hSs hst.sr e1 f1
    have q2 := encode_vlqText (by omega) hst.ol e2 f2
    have q3 := encode_vlqText ⟨hr.2.2.2.1, hr.2.2.2.2⟩ hst.oc e3 f3
    subst q1 q2 q3
    rw [← numberIn_some hi', ho']
    unfold nameField at h4
    cases hn : m.name with
    | none =>
      rw [hn] at h4
      cases h4
      simp
    | some n =>
      rw [hn] at h4
      simp only [Res.bind_eq_ok, Res.pure_eq, Except.ok.injEq, Prod.mk.injEq] at h4
      obtain ⟨k, hk, d4, e4, t5, f4, rfl, rfl⟩ := h4
      have hk' : N.indexOf n = some k := by
        cases hq : N.indexOf n with
        | none => rw [hq] at hk; cases hk
        | some q => rw [hq] at hk; cases hk; rfl
      have hNs := hN n hn
      unfold SmallIn at hNs
      rw [numberIn_some hk'] at hNs
      have q4 := encode_vlqText hNs hst.nm e4 f4
      subst q4
      rw [← numberIn_some hk']
      simp

theorem next_small {cfg : Cfg} {S N : ArraySet} {st : SerState} {m : Mapping} (he : m.Encodable cfg)
    (hS : ∀ s, m.source = some s → SmallIn cfg.vlqLimit S s) (hN : ∀ s, m.name = some s → SmallIn cfg.vlqLimit N s)
    (hst : st.Below cfg.vlqLimit) : (st.next (numberIn S) (numberIn N) m).Below cfg.vlqLimit := by
  unfold SerState.next carry
  cases hs : m.source with
  | none => exact ⟨he.column, hst.oc, hst.ol, hst.nm, hst.sr⟩
  | some s =>
    cases ho : m.original with
    | none => exact ⟨he.column, hst.oc, hst.ol, hst.nm, hst.sr⟩
    | some o =>
      have hr := he.range o ho
      refine ⟨he.column, ⟨hr.2.2.2.1, hr.2.2.2.2⟩, by simp only; omega, ?_, hS s hs⟩
      cases hn : m.name with
      | none => exact hst.nm
      | some n => exact hN n hn

/-- The text that the loop writes. -/
theorem loop_segments {cfg : Cfg} {S N : ArraySet} : ∀ {ms : List Mapping} {st : SerState} {p : Option Mapping} {t : Text},
    ms.Pairwise posLT → (∀ m ∈ ms, m.Encodable cfg) → (∀ m ∈ ms, ∀ s, m.source = some s → SmallIn cfg.vlqLimit S s) →
    (∀ m ∈ ms, ∀ s, m.name = some s → SmallIn cfg.vlqLimit N s) → st.Below cfg.vlqLimit → 1 ≤ st.generatedLine →
    (∀ m ∈ ms, st.generatedLine ≤ m.generated.line) → (∀ q, p = some q → q.Valid ∧ ∀ m ∈ ms, posLT q m) →
    serializeLoop cfg S N st p ms = .ok t → t = segText (segList (numberIn S) (numberIn N) st p.isSome ms) := by
  intro ms
  induction ms with
  | nil =>
    intro st p t _ _ _ _ _ _ _ _ h
    cases h
    rfl
  | cons m ms ih =>
    intro st p t hpw he hS hN hst h1 hge hp h
    have hpw' := List.pairwise_cons.1 hpw
    have hem := he m (by simp)
    have hgm := hge m (by simp)
    have hgl := hem.line
    simp only [serializeLoop, Res.bind_eq_ok, Res.pure_eq, Except.ok.injEq] at h
    obtain ⟨⟨a, st1⟩, hs, rest, hr, rfl⟩ := h
    dsimp only at hr
    have hms : ∀ x ∈ ms, m.generated.line ≤ x.generated.line := by
      intro x hx
      have := (hpw'.1 x hx).1
      unfold posLE at this
      omega
    have key : a = segBefore st p.isSome m ++ (segNumbers (numberIn S) (numberIn N) st m).flatMap vlqText ∧
        st1 = st.next (numberIn S) (numberIn N) m := by
      unfold serializeStep at hs
      by_cases hl : m.generated.line = st.generatedLine
      · rw [if_neg (by omega)] at hs
        have hnext : { carry (numberIn S) (numberIn N) st m with generatedColumn := m.generated.column } =
            st.next (numberIn S) (numberIn N) m := by
          unfold SerState.next
          rw [hl]
          have hk := carry_kept (numberIn S) (numberIn N) st m
          simp only [hk]
        cases p with
        | none =>
          refine ⟨?_, (segmentText_carry hem.valid hs).trans hnext⟩
          rw [segmentText_numbers hem (hS m (by simp)) (hN m (by simp)) hst hl hs]
          simp [segBefore, hl]
        | some q =>
          obtain ⟨hq, hqm⟩ := hp q rfl
          have hne := (hqm m (by simp)).2
          have hc : cmpVal m q ≠ 0 := by
            intro e
            exact hne ((cmpVal_eq_zero m q).1 e).1.symm
          simp only [compare_eq_cmpVal cfg hem.valid hq, Res.ok_bind, if_neg hc, Res.bind_eq_ok, Res.pure_eq,
            Except.ok.injEq, Prod.mk.injEq] at hs
          obtain ⟨⟨u, st2⟩, h2, rfl, rfl⟩ := hs
          refine ⟨?_, (segmentText_carry hem.valid h2).trans hnext⟩
          dsimp only
          rw [segmentText_numbers hem (hS m (by simp)) (hN m (by simp)) hst hl h2]
          simp [segBefore, hl]
      · rw [if_pos hl, advanceLine_up cfg _ _ (by unfold IsI32; omega) (by unfold IsI32; omega) hgm] at hs
        simp only [Res.ok_bind, Res.bind_eq_ok, Res.pure_eq, Except.ok.injEq, Prod.mk.injEq] at hs
        obtain ⟨⟨u, st2⟩, h2, rfl, rfl⟩ := hs
        have hst' : SerState.Below cfg.vlqLimit { st with generatedColumn := 0, generatedLine := m.generated.line } :=
          ⟨⟨Int.le_refl 0, by have := cfg.le_vlqLimit; simp only; omega⟩, hst.oc, hst.ol, hst.nm, hst.sr⟩
        refine ⟨?_, ?_⟩
        · dsimp only
          rw [segmentText_numbers hem (hS m (by simp)) (hN m (by simp)) hst' rfl h2]
          simp [segBefore, hl, segNumbers]
        · dsimp only
          rw [segmentText_carry hem.valid h2]
          have h4 := carry_place (numberIn S) (numberIn N) st 0 m.generated.line m
          unfold SerState.next
          rw [h4]
    obtain ⟨ka, rfl⟩ := key
    have hih := ih (st := st.next (numberIn S) (numberIn N) m) (p := some m) hpw'.2 (fun x hx => he x (by simp [hx]))
      (fun x hx => hS x (by simp [hx])) (fun x hx => hN x (by simp [hx]))
      (next_small hem (hS m (by simp)) (hN m (by simp)) hst) (by show 1 ≤ m.generated.line; omega) hms
      (fun q hq => by cases hq; exact ⟨hem.valid, hpw'.1⟩) hr
    subst ka
    rw [hih]
    simp only [segList, segText, List.flatMap_cons, Option.isSome_some]

theorem segList_append (S N : String → Int) : ∀ (xs ys : List Mapping) (st : SerState) (b : Bool),
    segList S N st b (xs ++ ys) = segList S N st b xs ++ segList S N (xs.foldl (SerState.next S N) st) (b || !xs.isEmpty) ys := by
  intro xs
  induction xs with
  | nil => intro ys st b; simp [segList]
  | cons x xs ih =>
    intro ys st b
    simp only [List.cons_append, segList, ih, List.foldl_cons, List.isEmpty_cons, Bool.not_false, Bool.or_true, Bool.true_or]

theorem segText_append (a b : List (Text × List Int)) : segText (a ++ b) = segText a ++ segText b := by
  simp [segText]

/-! ## The segments of a text put after another -/

/-- The change from running values to others, when the numbers of sources and names grow by fixed amounts. -/
def changeOf (e : Nat × Nat) (kS kN : Int) (st st' : SerState) : Change :=
  ⟨(if st.generatedLine = 1 then (e.2 : Int) else 0) + st.generatedColumn - st'.generatedColumn, kS + st.source - st'.source,
    st.originalLine - st'.originalLine, st.originalColumn - st'.originalColumn, kN + st.name - st'.name⟩

theorem semi_replicate {n : Nat} (h : n ≠ 0) : ';' ∈ List.replicate n ';' := List.mem_replicate.2 ⟨h, rfl⟩

theorem segList_after {e : Nat × Nat} {S N S' N' : String → Int} {kS kN : Int} : ∀ {ms : List Mapping} {st st' : SerState}
    {b : Bool}, ms.Pairwise posLT → (∀ m ∈ ms, ∀ s, m.source = some s → S' s = S s + kS) →
    (∀ m ∈ ms, ∀ s, m.name = some s → N' s = N s + kN) →
    1 ≤ st.generatedLine → (∀ m ∈ ms, st.generatedLine ≤ m.generated.line) →
    st'.generatedLine = st.generatedLine + e.1 →
    segList S' N' st' b (ms.map (Mapping.after e)) = change (changeOf e kS kN st st') (segList S N st b ms) := by
  intro ms
  induction ms with
  | nil => intro st st' b _ _ _ _ _ _; rfl
  | cons m ms ih =>
    intro st st' b hpw hS hN h1 hge hl
    have hpw' := List.pairwise_cons.1 hpw
    have hgm := hge m (by simp)
    have hms : ∀ x ∈ ms, m.generated.line ≤ x.generated.line := by
      intro x hx
      have := (hpw'.1 x hx).1
      unfold posLE at this
      omega
    have hih := ih (st := st.next S N m) (st' := st'.next S' N' (m.after e)) (b := true) hpw'.2
      (fun x hx => hS x (by simp [hx])) (fun x hx => hN x (by simp [hx])) (by show 1 ≤ m.generated.line; omega) hms rfl
    have hgl : (m.after e).generated.line = m.generated.line + e.1 := rfl
    have hgc : (m.after e).generated.column = m.generated.column + if m.generated.line = 1 then (e.2 : Int) else 0 := rfl
    have hsep : segBefore st' b (m.after e) = segBefore st b m := by
      unfold segBefore
      rw [hgl, hl]
      by_cases hq : m.generated.line = st.generatedLine
      · rw [if_pos (by omega), if_pos hq]
      · rw [if_neg (by omega), if_neg hq]
        congr 2
        omega
    have hcol : (m.after e).generated.column - (if (m.after e).generated.line = st'.generatedLine then st'.generatedColumn else 0) =
        (m.generated.column - if m.generated.line = st.generatedLine then st.generatedColumn else 0) +
          if ';' ∈ segBefore st b m then 0 else (changeOf e kS kN st st').column := by
      rw [hgc, hgl, hl]
      unfold segBefore changeOf
      by_cases hq : m.generated.line = st.generatedLine
      · rw [if_pos (show m.generated.line + (e.1 : Int) = st.generatedLine + e.1 by omega), if_pos hq, if_pos hq,
          if_neg (show ¬ ';' ∈ (if b = true then [','] else []) by split <;> simp), hq]
        simp only
        split <;> omega
      · rw [if_neg (show ¬ m.generated.line + (e.1 : Int) = st.generatedLine + e.1 by omega), if_neg hq, if_neg hq,
          if_pos (semi_replicate (by omega)), if_neg (show ¬ m.generated.line = 1 by omega)]
        omega
    have hz : ∀ {a b c d x y z w : Int}, changeOf e kS kN ⟨m.generated.column, m.generated.line, a, b, c, d⟩
        ⟨(m.after e).generated.column, (m.after e).generated.line, x, y, z, w⟩ =
        ⟨0, kS + d - w, b - y, a - x, kN + c - z⟩ := by
      intro a b c d x y z w
      simp only [changeOf, hgc, Change.mk.injEq, and_true]
      omega
    simp only [List.map_cons, segList, hsep, hih]
    have es : (m.after e).source = m.source := rfl
    have eo : (m.after e).original = m.original := rfl
    have en : (m.after e).name = m.name := rfl
    unfold segNumbers
    rw [hcol]
    have hSm := hS m (by simp)
    have hNm := hN m (by simp)
    simp only [es, eo, en, SerState.next, carry]
    cases hs : m.source with
    | none =>
      simp only [hz, change]
      rfl
    | some s =>
      cases ho : m.original with
      | none => simp only [hz, change]; rfl
      | some o =>
        have e1 := hSm s hs
        cases hn : m.name with
        | none =>
          simp only [change, e1, changeOf]
          simp only [List.cons.injEq, Prod.mk.injEq, true_and, and_true]
          refine ⟨⟨by omega, by omega, by omega⟩, ?_⟩
          congr 2 <;> omega
        | some n =>
          have e2 := hNm n hn
          simp only [change, e1, e2, changeOf]
          simp only [List.cons.injEq, Prod.mk.injEq, true_and, and_true]
          refine ⟨⟨by omega, by omega, by omega, by omega⟩, ?_⟩
          congr 2 <;> omega

/-! ## From the calls to the segments -/

theorem segList_segments {S N : String → Int} : ∀ {ms : List Mapping} {st : SerState} {b : Bool}, ms.Pairwise posLT →
    (∀ m ∈ ms, st.generatedLine ≤ m.generated.line) →
    Segments (segList S N st b ms) ∧ (b = true → ∀ p ∈ segList S N st b ms, p.1 ≠ []) := by
  intro ms
  induction ms with
  | nil => intro st b _ _; exact ⟨⟨by simp [segList], by simp [segList], by simp [segList]⟩, by simp [segList]⟩
  | cons m ms ih =>
    intro st b hpw hge
    have hpw' := List.pairwise_cons.1 hpw
    have hgm := hge m (by simp)
    have hms : ∀ x ∈ ms, m.generated.line ≤ x.generated.line := by
      intro x hx
      have := (hpw'.1 x hx).1
      unfold posLE at this
      omega
    obtain ⟨h1, h2⟩ := ih (st := st.next S N m) (b := true) hpw'.2 hms
    have h2 := h2 rfl
    simp only [segList]
    refine ⟨⟨?_, ?_, ?_⟩, ?_⟩
    · intro p hp c hc
      rcases List.mem_cons.1 hp with rfl | hp
      · unfold segBefore at hc
        split at hc
        · split at hc
          · exact .inl (List.mem_singleton.1 hc)
          · cases hc
        · exact .inr (List.mem_replicate.1 hc).2
      · exact h1.before p hp c hc
    · exact h2
    · intro p hp
      rcases List.mem_cons.1 hp with rfl | hp
      · simp only [segNumbers]
        cases m.source <;> cases m.original <;> cases m.name <;> simp
      · exact h1.numbers p hp
    · rintro rfl p hp
      rcases List.mem_cons.1 hp with rfl | hp
      · unfold segBefore
        split
        · simp
        · have : (m.generated.line - st.generatedLine).toNat ≠ 0 := by omega
          simpa using this
      · exact h2 p hp

theorem segList_congr {S N S' N' : String → Int} {ms : List Mapping} {st : SerState} {b : Bool} (hpw : ms.Pairwise posLT)
    (hS : ∀ m ∈ ms, ∀ s, m.source = some s → S' s = S s) (hN : ∀ m ∈ ms, ∀ s, m.name = some s → N' s = N s)
    (h1 : 1 ≤ st.generatedLine) (hge : ∀ m ∈ ms, st.generatedLine ≤ m.generated.line) :
    segList S' N' st b ms = segList S N st b ms := by
  have h := segList_after (e := (0, 0)) (kS := 0) (kN := 0) (S := S) (N := N) (S' := S') (N' := N') (st := st) (st' := st) (b := b)
    hpw (fun m hm s hs => by rw [hS m hm s hs, Int.add_zero]) (fun m hm s hs => by rw [hN m hm s hs, Int.add_zero]) h1 hge
    (by simp)
  have e : ms.map (Mapping.after (0, 0)) = ms := by
    rw [List.map_congr_left (g := id) fun m _ => Mapping.after_zero m, List.map_id]
  have ec : changeOf (0, 0) 0 0 st st = ⟨0, 0, 0, 0, 0⟩ := by
    simp only [changeOf, Change.mk.injEq]
    refine ⟨?_, by omega, by omega, by omega, by omega⟩
    simp
  rw [e, ec, change_zero] at h
  exact h

/-- The running values at the beginning of line `l`, or where they are if on it. -/
def SerState.enter (l : Int) (st : SerState) : SerState := if st.generatedLine = l then st else lineStart l st

theorem segList_enter {S N : String → Int} {l : Int} {st : SerState} {b : Bool} {m : Mapping} {ms : List Mapping}
    (hl : st.generatedLine ≤ l) (hm : l ≤ m.generated.line) :
    segText (segList S N st b (m :: ms)) =
      (if st.generatedLine = l then (if b = true ∧ m.generated.line = l then [','] else [])
        else List.replicate (l - st.generatedLine).toNat ';') ++ segText (segList S N (st.enter l) false (m :: ms)) := by
  have hnext : (st.enter l).next S N m = st.next S N m := by
    unfold SerState.enter
    split
    · rfl
    · unfold SerState.next lineStart
      rw [carry_place]
  simp only [segList, segText, List.flatMap_cons, hnext]
  rw [← List.append_assoc, ← List.append_assoc]
  congr 1
  unfold SerState.enter
  by_cases h1 : st.generatedLine = l
  · rw [if_pos h1, if_pos h1]
    congr 1
    unfold segBefore
    subst h1
    by_cases h2 : m.generated.line = st.generatedLine
    · cases b <;> simp [h2]
    · simp [h2]
  · rw [if_neg h1, if_neg h1]
    have hn : segNumbers S N (lineStart l st) m = segNumbers S N st m := by
      unfold segNumbers lineStart
      have : ¬ m.generated.line = st.generatedLine := by omega
      simp only [this, if_false, ite_self]
    rw [hn]
    congr 1
    unfold segBefore lineStart
    rw [if_neg (show ¬ m.generated.line = st.generatedLine by omega)]
    by_cases h2 : m.generated.line = l
    · rw [if_pos h2, h2]
      simp
    · rw [if_neg h2, List.replicate_append_replicate]
      congr 1
      simp only
      omega

theorem fold_place (S N : String → Int) : ∀ (ms : List Mapping) (st : SerState) (c l : Int),
    ms.foldl (carry S N) { st with generatedColumn := c, generatedLine := l } =
      { ms.foldl (carry S N) st with generatedColumn := c, generatedLine := l } := by
  intro ms
  induction ms with
  | nil => intro st c l; rfl
  | cons m ms ih =>
    intro st c l
    rw [List.foldl_cons, List.foldl_cons, carry_place, ih]

theorem next_fold (S N : String → Int) : ∀ (ms : List Mapping) (st : SerState),
    ms.foldl (SerState.next S N) st =
      { ms.foldl (carry S N) st with
        generatedColumn := (ms.getLast?.map fun m => m.generated.column).getD st.generatedColumn
        generatedLine := (ms.getLast?.map fun m => m.generated.line).getD st.generatedLine } := by
  intro ms
  induction ms with
  | nil => intro st; rfl
  | cons m ms ih =>
    intro st
    rw [List.foldl_cons, List.foldl_cons, ih]
    unfold SerState.next
    rw [fold_place]
    cases ms with
    | nil => rfl
    | cons m' ms =>
      have : ((m' :: ms).getLast?).isSome = true := by simp
      obtain ⟨x, hx⟩ := Option.isSome_iff_exists.1 this
      rw [List.getLast?_cons_cons, hx]
      rfl

theorem findSome_getLast (L : List Mapping) :
    L.reverse.findSome? (fun m => some m.generated) = L.getLast?.map Mapping.generated := by
  rw [List.getLast?_eq_head?_reverse]
  cases L.reverse <;> rfl

/-- `r` is what `f` tells of the last mapping of which it tells something, if there is one. -/
def LastOf {α : Type} (ms : List Mapping) (f : Mapping → Option α) : Option α → Prop
  | none => ∀ x ∈ ms, f x = none
  | some b => ∃ x ∈ ms, f x = some b ∧ ∀ y ∈ ms, (f y).isSome = true → posLE y x

theorem LastOf.list {α : Type} {f : Mapping → Option α} (hf : ∀ m, f m.bare = f m) {ms L : List Mapping}
    (hL : ∀ x, x ∈ L ↔ ∃ m ∈ ms, m.bare = x) (hs : L.Pairwise posLT) {r : Option α} (h : LastOf ms f r) :
    L.reverse.findSome? f = r := by
  cases r with
  | none =>
    rw [List.findSome?_eq_none_iff]
    intro x hx
    obtain ⟨m, hm, rfl⟩ := (hL x).1 (List.mem_reverse.1 hx)
    rw [hf, h m hm]
  | some b =>
    obtain ⟨m, hm, hfm, hall⟩ := h
    refine (findSome_last hs b).2 ⟨m.bare, (hL _).2 ⟨m, hm, rfl⟩, by rw [hf, hfm], ?_⟩
    intro y hy hyf
    obtain ⟨z, hz, rfl⟩ := (hL y).1 hy
    exact hall z hz (by rw [← hf]; exact hyf)

theorem number_table {B : Nat} (hB : B ≤ 2147483648) {l : List String} {s : String} (h : s ∈ l)
    (hlen : (firstOccurrences l).length < B) : numberIn (tableOf l) s = (firstOccurrences l).idxOf s := by
  have hi : s ∈ (tableOf l).array := by rw [tableOf_array, mem_firstOccurrences]; exact h
  rw [numberIn_some (indexOf_mem (tableOf_inv l) hi), tableOf_array]
  refine wrap32_small hB (Nat.lt_trans ?_ hlen)
  exact List.idxOf_lt_length_of_mem ((mem_firstOccurrences l s).2 h)

/-- What is written between the mappings of the two texts: the line ends that are missing, or a comma, if both have a mapping on
the line. `last` is the position of the last mapping of the first text, `first` whether the second has one on its first line. -/
def joinText (e : Nat × Nat) (last : Option Position) (first : Bool) : Text :=
  if (last.getD ⟨1, 0⟩).line = e.1 + 1 then (if last.isSome && first then [','] else [])
  else List.replicate ((e.1 : Int) + 1 - (last.getD ⟨1, 0⟩).line).toNat ';'

/-- What changes in the segments of the second text. `S` and `N` are the sources and names of the first text, `kS` and `kN`
how much the numbers of those of the second grow, `last` the position of the last mapping of the first text, `origin` the
source position of the last one with a source, `name` the last name written. -/
def joinChange (e : Nat × Nat) (kS kN : Int) (S N : List String) (last : Option Position) (origin : Option (String × Position))
    (name : Option String) : Change :=
  { column := e.2 - if (last.getD ⟨1, 0⟩).line = e.1 + 1 then (last.getD ⟨1, 0⟩).column else 0
    source := kS - (origin.map fun p => (S.idxOf p.1 : Int)).getD 0
    line := -(origin.map fun p => p.2.line - 1).getD 0
    originalColumn := -(origin.map fun p => p.2.column).getD 0
    name := kN - (name.map fun n => (N.idxOf n : Int)).getD 0 }

theorem Fine.onePer {cfg : Cfg} {ms : List Mapping} (h : Fine cfg ms) : OnePerPosition ms :=
  ⟨fun m hm => (h.enc m hm).valid, fun m hm => (h.enc m hm).line.1, h.one⟩

theorem bare_encodable {cfg : Cfg} {m : Mapping} (h : m.Encodable cfg) : m.bare.Encodable cfg :=
  ⟨h.line, h.column, h.orig, h.range, h.name⟩

theorem init_below (cfg : Cfg) : SerState.init.Below cfg.vlqLimit := by
  have := cfg.le_vlqLimit
  constructor <;> (simp only [SerState.init]; omega)

/-- The text emitted, as segments. -/
theorem written_segments {cfg : Cfg} {ms L : List Mapping} {t : Text} (hf : Fine cfg ms) (hs : L.Pairwise posLT)
    (hL : ∀ x, x ∈ L ↔ ∃ m ∈ ms, m.bare = x)
    (h : serializeLoop cfg (tableOf (ms.filterMap Mapping.source)) (tableOf (ms.filterMap Mapping.name)) SerState.init none L = .ok t) :
    t = segText (segList (fun s => (firstOccurrences (ms.filterMap Mapping.source)).idxOf s)
      (fun s => (firstOccurrences (ms.filterMap Mapping.name)).idxOf s) SerState.init false L) := by
  have hlim := cfg.vlqLimit_le
  have hsrc : ∀ m ∈ L, ∀ s, m.source = some s → s ∈ ms.filterMap Mapping.source := by
    intro m hm s hs
    obtain ⟨x, hx, rfl⟩ := (hL m).1 hm
    exact List.mem_filterMap.2 ⟨x, hx, hs⟩
  have hnam : ∀ m ∈ L, ∀ s, m.name = some s → s ∈ ms.filterMap Mapping.name := by
    intro m hm s hs
    obtain ⟨x, hx, rfl⟩ := (hL m).1 hm
    exact List.mem_filterMap.2 ⟨x, hx, hs⟩
  have hS := fun m hm s hs => number_table hlim (hsrc m hm s hs) hf.sources
  have hN := fun m hm s hs => number_table hlim (hnam m hm s hs) hf.names
  have hbnd : ∀ {l : List String} {s : String}, s ∈ l → (firstOccurrences l).length < cfg.vlqLimit →
      (firstOccurrences l).idxOf s < cfg.vlqLimit := fun h hlen =>
    Nat.lt_trans (List.idxOf_lt_length_of_mem ((mem_firstOccurrences _ _).2 h)) hlen
  have henc : ∀ m ∈ L, m.Encodable cfg := by
    intro m hm
    obtain ⟨x, hx, rfl⟩ := (hL m).1 hm
    exact bare_encodable (hf.enc x hx)
  have hline : ∀ m ∈ L, SerState.init.generatedLine ≤ m.generated.line := fun m hm => (henc m hm).line.1
  rw [loop_segments hs henc
    (fun m hm s hs => by
      have := hbnd (hsrc m hm s hs) hf.sources
      unfold SmallIn
      rw [hS m hm s hs]
      omega)
    (fun m hm s hs => by
      have := hbnd (hnam m hm s hs) hf.names
      unfold SmallIn
      rw [hN m hm s hs]
      omega)
    (init_below cfg) (by decide) hline (by simp) h]
  refine congrArg segText ?_
  exact segList_congr hs hS hN (by decide) hline

/-- C132: let a generator be given the mappings of two texts put one right after the other, in any order and as often as one
likes, with other calls between, and two others those of each text alone. If the sources and names of the first text have the
numbers they have alone, and those of the second ones greater by a fixed amount, then the mappings emitted by the first
generator are those of the first text, the line ends between (or a comma), and those of the second text with at most five
numbers changed: the column of the first segment, if it is on the last line of the first text; the source, original line and
original column of the first segment with a source; the name of the first segment with a name. -/
theorem C132_joined (U Ua Ub : UrlLib) (cfg : Cfg) {file root filea roota fileb rootb : Option String} {skip skipa skipb : Bool}
    {w a b : List GOp} {g ga gb g₁ ga₁ gb₁ : Generator} {j ja jb : SourceMapJson} {e : Nat × Nat} {kS kN : Int}
    (hfw : Fine cfg (gAdded w)) (hfa : Fine cfg (gAdded a)) (hfb : Fine cfg (gAdded b)) (hb : gAdded b ≠ [])
    (hin : InExtent (e, gAdded a))
    (hsame : ∀ x, x ∈ (gAdded w).map Mapping.bare ↔ x ∈ (gAdded a ++ (gAdded b).map (Mapping.after e)).map Mapping.bare)
    (hSa : ∀ s ∈ (gAdded a).filterMap Mapping.source, (firstOccurrences ((gAdded w).filterMap Mapping.source)).idxOf s =
      (firstOccurrences ((gAdded a).filterMap Mapping.source)).idxOf s)
    (hNa : ∀ s ∈ (gAdded a).filterMap Mapping.name, (firstOccurrences ((gAdded w).filterMap Mapping.name)).idxOf s =
      (firstOccurrences ((gAdded a).filterMap Mapping.name)).idxOf s)
    (hSb : ∀ s ∈ (gAdded b).filterMap Mapping.source, ((firstOccurrences ((gAdded w).filterMap Mapping.source)).idxOf s : Int) =
      (firstOccurrences ((gAdded b).filterMap Mapping.source)).idxOf s + kS)
    (hNb : ∀ s ∈ (gAdded b).filterMap Mapping.name, ((firstOccurrences ((gAdded w).filterMap Mapping.name)).idxOf s : Int) =
      (firstOccurrences ((gAdded b).filterMap Mapping.name)).idxOf s + kN)
    {last : Option Position} (hlast : LastOf (gAdded a) (fun m => some m.generated) last)
    {origin : Option (String × Position)} (horigin : LastOf (gAdded a) Mapping.origin origin)
    {name : Option String} (hname : LastOf (gAdded a) Mapping.nameWritten name)
    {first : Bool} (hfirst : first = true ↔ ∃ m ∈ gAdded b, m.generated.line = 1)
    (hg : (Generator.new file root skip).run U cfg w = .ok g) (hj : g.asJson U cfg = .ok (j, g₁))
    (hga : (Generator.new filea roota skipa).run Ua cfg a = .ok ga) (hja : ga.asJson Ua cfg = .ok (ja, ga₁))
    (hgb : (Generator.new fileb rootb skipb).run Ub cfg b = .ok gb) (hjb : gb.asJson Ub cfg = .ok (jb, gb₁)) :
    ∃ (t : Text) (ps : List (Text × List Int)), Segments ps ∧ ja.mappings = some (String.ofList t) ∧
      jb.mappings = some (String.ofList (segText ps)) ∧
      j.mappings = some (String.ofList (t ++ joinText e last first ++
        segText (change (joinChange e kS kN (firstOccurrences ((gAdded a).filterMap Mapping.source))
          (firstOccurrences ((gAdded a).filterMap Mapping.name)) last origin name) ps))) := by
  obtain ⟨LW, tw, ew, sw, mw, lw⟩ := written_list hfw.onePer hg hj
  obtain ⟨LA, ta, ea, sa, ma, la⟩ := written_list hfa.onePer hga hja
  obtain ⟨LB, tb, eb, sb, mb, lb⟩ := written_list hfb.onePer hgb hjb
  have hW := written_segments hfw sw mw lw
  have hA := written_segments hfa sa ma la
  have hB := written_segments hfb sb mb lb
  have lineA : ∀ m ∈ LA, 1 ≤ m.generated.line ∧
      (m.generated.line ≤ e.1 ∨ m.generated.line = e.1 + 1 ∧ m.generated.column < e.2) := by
    intro m hm
    obtain ⟨x, hx, rfl⟩ := (ma m).1 hm
    exact ⟨(hin x hx).1, (hin x hx).2.2⟩
  have lineB : ∀ m ∈ LB, 1 ≤ m.generated.line ∧ 0 ≤ m.generated.column := by
    intro m hm
    obtain ⟨x, hx, rfl⟩ := (mb m).1 hm
    exact ⟨(hfb.enc x hx).line.1, (hfb.enc x hx).column.1⟩
  have hsplit : LW = LA ++ LB.map (Mapping.after e) := by
    refine sorted_ext sw (List.pairwise_append.2 ⟨sa, List.pairwise_map.2 (sb.imp ?_), ?_⟩) fun x => ?_
    · rintro x y ⟨h1, h2⟩
      obtain ⟨⟨l, c⟩⟩ := x
      obtain ⟨⟨l', c'⟩⟩ := y
      simp only [posLT, posLE, Mapping.after, Position.after, ne_eq, Position.mk.injEq] at h1 h2 ⊢
      by_cases hq : l = l'
      · subst hq
        omega
      · constructor
        · left; omega
        · omega
    · intro x hx y hy
      obtain ⟨z, hz, rfl⟩ := List.mem_map.1 hy
      have h1 := lineA x hx
      have h2 := lineB z hz
      obtain ⟨⟨l, c⟩⟩ := x
      obtain ⟨⟨l', c'⟩⟩ := z
      simp only [posLT, posLE, Mapping.after, Position.after, ne_eq, Position.mk.injEq] at h1 h2 ⊢
      split <;> omega
    · have key : (∃ m ∈ gAdded w, m.bare = x) ↔ ∃ m ∈ gAdded a ++ (gAdded b).map (Mapping.after e), m.bare = x := by
        have := hsame x
        simpa only [List.mem_map] using this
      rw [mw, key, List.mem_append, ma, List.mem_map]
      constructor
      · rintro ⟨m, hm, rfl⟩
        rcases List.mem_append.1 hm with hm | hm
        · exact .inl ⟨m, hm, rfl⟩
        · obtain ⟨z, hz, rfl⟩ := List.mem_map.1 hm
          exact .inr ⟨z.bare, (mb _).2 ⟨z, hz, rfl⟩, rfl⟩
      · rintro (⟨m, hm, rfl⟩ | ⟨z, hz, rfl⟩)
        · exact ⟨m, by simp [hm], rfl⟩
        · obtain ⟨m, hm, rfl⟩ := (mb z).1 hz
          exact ⟨m.after e, List.mem_append.2 (.inr (List.mem_map.2 ⟨m, hm, rfl⟩)), rfl⟩
  have srcA : ∀ m ∈ LA, ∀ s, m.source = some s → s ∈ (gAdded a).filterMap Mapping.source := by
    intro m hm s hs
    obtain ⟨x, hx, rfl⟩ := (ma m).1 hm
    exact List.mem_filterMap.2 ⟨x, hx, hs⟩
  have namA : ∀ m ∈ LA, ∀ s, m.name = some s → s ∈ (gAdded a).filterMap Mapping.name := by
    intro m hm s hs
    obtain ⟨x, hx, rfl⟩ := (ma m).1 hm
    exact List.mem_filterMap.2 ⟨x, hx, hs⟩
  have srcB : ∀ m ∈ LB, ∀ s, m.source = some s → s ∈ (gAdded b).filterMap Mapping.source := by
    intro m hm s hs
    obtain ⟨x, hx, rfl⟩ := (mb m).1 hm
    exact List.mem_filterMap.2 ⟨x, hx, hs⟩
  have namB : ∀ m ∈ LB, ∀ s, m.name = some s → s ∈ (gAdded b).filterMap Mapping.name := by
    intro m hm s hs
    obtain ⟨x, hx, rfl⟩ := (mb m).1 hm
    exact List.mem_filterMap.2 ⟨x, hx, hs⟩
  refine ⟨ta, _, (segList_segments sb fun m hm => (lineB m hm).1).1, ea, by rw [eb, hB], ?_⟩
  rw [ew, hW, hsplit, segList_append, segText_append]
  rw [segList_congr (S := fun s => (firstOccurrences ((gAdded a).filterMap Mapping.source)).idxOf s)
    (N := fun s => (firstOccurrences ((gAdded a).filterMap Mapping.name)).idxOf s) sa
    (fun m hm s hs => by rw [hSa s (srcA m hm s hs)]) (fun m hm s hs => by rw [hNa s (namA m hm s hs)])
    (by decide) (fun m hm => (lineA m hm).1), ← hA, List.append_assoc]
  refine congrArg (fun x => some (String.ofList (ta ++ x))) ?_
  -- the running values after the first text
  generalize hstA : LA.foldl (SerState.next _ _) SerState.init = stA
  have hl1 := hlast.list (fun _ => rfl) ma sa
  have hl2 := horigin.list (fun _ => rfl) ma sa
  have hl3 := hname.list (fun _ => rfl) ma sa
  rw [findSome_getLast] at hl1
  rw [next_fold, fold_carry, hl2, hl3] at hstA
  have hcol : stA.generatedColumn = (last.getD ⟨1, 0⟩).column := by
    rw [← hstA, ← hl1]
    cases LA.getLast? <;> rfl
  have hlin : stA.generatedLine = (last.getD ⟨1, 0⟩).line := by
    rw [← hstA, ← hl1]
    cases LA.getLast? <;> rfl
  have hle : stA.generatedLine ≤ (e.1 : Int) + 1 := by
    rw [hlin, ← hl1]
    cases hq : LA.getLast? with
    | none => simp only [Option.map_none, Option.getD_none]; omega
    | some x =>
      have := lineA x (List.mem_of_getLast? hq)
      simp only [Option.map_some, Option.getD_some]
      omega
  have hsome : (false || !LA.isEmpty) = last.isSome := by
    rw [← hl1]
    cases LA with
    | nil => rfl
    | cons x xs => simp
  have hsrc : ∀ p, origin = some p → p.1 ∈ (gAdded a).filterMap Mapping.source := by
    rintro p rfl
    obtain ⟨x, hx, hfx, _⟩ := horigin
    unfold Mapping.origin at hfx
    split at hfx
    · rename_i s o h1 h2
      cases hfx
      exact List.mem_filterMap.2 ⟨x, hx, h1⟩
    · cases hfx
  have hnm : ∀ p, name = some p → p ∈ (gAdded a).filterMap Mapping.name := by
    rintro p rfl
    obtain ⟨x, hx, hfx, _⟩ := hname
    unfold Mapping.nameWritten at hfx
    cases hq : x.origin with
    | none => rw [hq] at hfx; cases hfx
    | some r => rw [hq] at hfx; exact List.mem_filterMap.2 ⟨x, hx, hfx⟩
  have hBne : LB ≠ [] := by
    obtain ⟨m, hm⟩ := List.exists_mem_of_ne_nil _ hb
    exact List.ne_nil_of_mem ((mb _).2 ⟨m, hm, rfl⟩)
  obtain ⟨m, ms, rfl⟩ := List.exists_cons_of_ne_nil hBne
  have hm1 := lineB m (by simp)
  have hfst : first = true ↔ m.generated.line = 1 := by
    rw [hfirst]
    constructor
    · rintro ⟨x, hx, hxl⟩
      have hx' := (mb x.bare).2 ⟨x, hx, rfl⟩
      rcases List.mem_cons.1 hx' with h | h
      · rw [← h]; exact hxl
      · have := ((List.pairwise_cons.1 sb).1 _ h).1
        have hb' : x.bare.generated.line = x.generated.line := rfl
        unfold posLE at this
        omega
    · intro h
      obtain ⟨x, hx, hxm⟩ := (mb m).1 (by simp)
      exact ⟨x, hx, by rw [← h, ← hxm]; rfl⟩
  have hml : (m.after e).generated.line = m.generated.line + e.1 := rfl
  rw [List.map_cons, segList_enter (l := (e.1 : Int) + 1) hle (by rw [hml]; omega), ← List.map_cons]
  rw [segList_after (st := SerState.init) (e := e) (kS := kS) (kN := kN)
    (S := fun s => (firstOccurrences ((gAdded b).filterMap Mapping.source)).idxOf s)
    (N := fun s => (firstOccurrences ((gAdded b).filterMap Mapping.name)).idxOf s) sb
    (fun m hm s hs => hSb s (srcB m hm s hs)) (fun m hm s hs => hNb s (namB m hm s hs)) (by decide)
    (fun x hx => (lineB x hx).1) (by
      unfold SerState.enter
      split
      · simp only [SerState.init]; omega
      · simp only [SerState.init, lineStart]; omega)]
  congr 1
  · unfold joinText
    rw [← hlin, hsome, hml]
    by_cases h1 : stA.generatedLine = (e.1 : Int) + 1
    · rw [if_pos h1, if_pos h1]
      cases hlst : last.isSome
      · simp
      · cases hf : first
        · rw [if_neg (fun h => by
            have := hfst.2 (by omega)
            rw [hf] at this
            cases this)]
          rfl
        · have := hfst.1 hf
          rw [if_pos ⟨rfl, by omega⟩]
          rfl
    · rw [if_neg h1, if_neg h1]
  · congr 2
    unfold changeOf joinChange
    rw [Change.mk.injEq]
    refine ⟨?_, ?_, ?_, ?_, ?_⟩
    · unfold SerState.enter
      rw [← hlin, ← hcol]
      by_cases h1 : stA.generatedLine = (e.1 : Int) + 1
      · rw [if_pos h1, if_pos h1]; simp [SerState.init]
      · rw [if_neg h1, if_neg h1]; simp [SerState.init, lineStart]
    · have hq : (stA.enter ((e.1 : Int) + 1)).source = stA.source := by unfold SerState.enter; split <;> rfl
      rw [hq, ← hstA]
      cases ho : origin with
      | none => simp [SerState.init]
      | some p => simp [SerState.init, hSa p.1 (hsrc p ho)]
    · have hq : (stA.enter ((e.1 : Int) + 1)).originalLine = stA.originalLine := by unfold SerState.enter; split <;> rfl
      rw [hq, ← hstA]
      cases origin <;> simp [SerState.init]
    · have hq : (stA.enter ((e.1 : Int) + 1)).originalColumn = stA.originalColumn := by unfold SerState.enter; split <;> rfl
      rw [hq, ← hstA]
      cases origin <;> simp [SerState.init]
    · have hq : (stA.enter ((e.1 : Int) + 1)).name = stA.name := by unfold SerState.enter; split <;> rfl
      rw [hq, ← hstA]
      cases hn : name with
      | none => simp [SerState.init]
      | some p => simp [SerState.init, hNa p (hnm p hn)]

theorem firstOccurrences_apart : ∀ {l l' : List String}, (∀ s ∈ l, s ∉ l') →
    firstOccurrences (l ++ l') = firstOccurrences l ++ firstOccurrences l' := by
  intro l
  induction l with
  | nil => intro l' _; rfl
  | cons s l ih =>
    intro l' h
    simp only [List.cons_append, firstOccurrences]
    rw [ih fun x hx => h x (by simp [hx]), List.filter_append]
    congr 2
    refine List.filter_eq_self.2 fun x hx => ?_
    have hx' := (mem_firstOccurrences l' x).1 hx
    have : x ≠ s := fun e => h s (by simp) (e ▸ hx')
    simpa using this

/-- C132, of two texts with different sources and different names, given one after the other: the sources and names of the
whole are those of the first text and then those of the second, and the mappings are those of the two with the numbers of the
sources and names of the second counted on from those of the first. -/
theorem C132_bundle (U Ua Ub : UrlLib) (cfg : Cfg) {file root filea roota fileb rootb : Option String} {skip skipa skipb : Bool}
    {w a b : List GOp} {g ga gb g₁ ga₁ gb₁ : Generator} {j ja jb : SourceMapJson} {e : Nat × Nat}
    (hfw : Fine cfg (gAdded w)) (hfa : Fine cfg (gAdded a)) (hfb : Fine cfg (gAdded b)) (hb : gAdded b ≠ [])
    (hin : InExtent (e, gAdded a)) (hw : gAdded w = gAdded a ++ (gAdded b).map (Mapping.after e))
    (hS : ∀ s ∈ (gAdded a).filterMap Mapping.source, s ∉ (gAdded b).filterMap Mapping.source)
    (hN : ∀ s ∈ (gAdded a).filterMap Mapping.name, s ∉ (gAdded b).filterMap Mapping.name)
    {last : Option Position} (hlast : LastOf (gAdded a) (fun m => some m.generated) last)
    {origin : Option (String × Position)} (horigin : LastOf (gAdded a) Mapping.origin origin)
    {name : Option String} (hname : LastOf (gAdded a) Mapping.nameWritten name)
    {first : Bool} (hfirst : first = true ↔ ∃ m ∈ gAdded b, m.generated.line = 1)
    (hg : (Generator.new file root skip).run U cfg w = .ok g) (hj : g.asJson U cfg = .ok (j, g₁))
    (hga : (Generator.new filea roota skipa).run Ua cfg a = .ok ga) (hja : ga.asJson Ua cfg = .ok (ja, ga₁))
    (hgb : (Generator.new fileb rootb skipb).run Ub cfg b = .ok gb) (hjb : gb.asJson Ub cfg = .ok (jb, gb₁)) :
    ∃ (S S' N N' : List String) (t : Text) (ps : List (Text × List Int)), Segments ps ∧
      ja.sources = some S ∧ jb.sources = some S' ∧ j.sources = some (S ++ S') ∧
      ja.names = some N ∧ jb.names = some N' ∧ j.names = some (N ++ N') ∧
      ja.mappings = some (String.ofList t) ∧ jb.mappings = some (String.ofList (segText ps)) ∧
      j.mappings = some (String.ofList (t ++ joinText e last first ++
        segText (change (joinChange e S.length N.length S N last origin name) ps))) := by
  have eS : (gAdded w).filterMap Mapping.source =
      (gAdded a).filterMap Mapping.source ++ (gAdded b).filterMap Mapping.source := by
    rw [hw, List.filterMap_append, List.filterMap_map]
    rfl
  have eN : (gAdded w).filterMap Mapping.name =
      (gAdded a).filterMap Mapping.name ++ (gAdded b).filterMap Mapping.name := by
    rw [hw, List.filterMap_append, List.filterMap_map]
    rfl
  have tables : ∀ {U : UrlLib} {file root : Option String} {skip : Bool} {ops : List GOp} {g g₁ : Generator} {j : SourceMapJson},
      (Generator.new file root skip).run U cfg ops = .ok g → g.asJson U cfg = .ok (j, g₁) →
      j.sources = some (firstOccurrences ((gAdded ops).filterMap Mapping.source)) ∧
      j.names = some (firstOccurrences ((gAdded ops).filterMap Mapping.name)) := by
    intro U file root skip ops g g₁ j hg hj
    obtain ⟨_, _, _, f4, f5, _⟩ := gRun_new hg
    obtain ⟨_, _, _, _, _, _, _, _, rfl⟩ := asJson_ok hj
    rw [f4, f5, ← tableOf_array, ← tableOf_array]
    exact ⟨rfl, rfl⟩
  obtain ⟨w1, w2⟩ := tables hg hj
  obtain ⟨a1, a2⟩ := tables hga hja
  obtain ⟨b1, b2⟩ := tables hgb hjb
  have oS := firstOccurrences_apart hS
  have oN := firstOccurrences_apart hN
  have front : ∀ {l l' : List String} {s : String}, s ∈ l →
      (firstOccurrences l ++ firstOccurrences l').idxOf s = (firstOccurrences l).idxOf s := by
    intro l l' s h
    rw [List.idxOf_append, if_pos ((mem_firstOccurrences l s).2 h)]
  have back : ∀ {l l' : List String} {s : String}, s ∉ l →
      ((firstOccurrences l ++ firstOccurrences l').idxOf s : Int) = (firstOccurrences l').idxOf s + (firstOccurrences l).length := by
    intro l l' s h
    rw [List.idxOf_append, if_neg (fun hx => h ((mem_firstOccurrences l s).1 hx))]
    omega
  obtain ⟨t, ps, hps, h1, h2, h3⟩ := C132_joined U Ua Ub cfg (kS := (firstOccurrences ((gAdded a).filterMap Mapping.source)).length)
    (kN := (firstOccurrences ((gAdded a).filterMap Mapping.name)).length) hfw hfa hfb hb hin (by rw [hw]; simp)
    (fun s hs => by rw [eS, oS]; exact front hs) (fun s hs => by rw [eN, oN]; exact front hs)
    (fun s hs => by rw [eS, oS]; exact back fun h => hS s h hs) (fun s hs => by rw [eN, oN]; exact back fun h => hN s h hs)
    hlast horigin hname hfirst hg hj hga hja hgb hjb
  rw [eS, oS] at w1
  rw [eN, oN] at w2
  exact ⟨_, _, _, _, t, ps, hps, a1, b1, w1, a2, b2, w2, h1, h2, h3⟩

/-! ## A case: the texts of C131 -/

/-- The mappings written for additions. -/
def joinedWritten (ms : List Mapping) : Option Text :=
  match (Generator.new none none false).run MiniUrl.lib ⟨true, true⟩ (ms.map .add) >>= fun g =>
      g.asJson MiniUrl.lib ⟨true, true⟩ with
  | .ok r => r.1.mappings.map String.toList
  | .error _ => none

/-- The segments of the second text of C131. -/
def upperSegs : List (Text × List Int) := [([], [0, 0, 0, 0]), ([';'], [4, 0, 2, 1, 0])]

/-- The two texts and the whole: of the numbers of the second text the first four and the last change. -/
theorem C132_case : joinedWritten lowerText = some "EAIAA;A;OAHC".toList ∧
    joinedWritten upperText = some "AAAA;IAECA".toList ∧ segText upperSegs = "AAAA;IAECA".toList ∧
    joinedWritten (sequence joinedTexts) = some ("EAIAA;A;OAHC" ++ "," ++ "CCDD;IAECC").toList ∧
    joinText (2, 8) (some ⟨3, 7⟩) true = ",".toList ∧
    joinChange (2, 8) 1 1 ["two.js"] ["k"] (some ⟨3, 7⟩) (some ("two.js", ⟨2, 1⟩)) (some "k") = ⟨1, 1, -1, -1, 1⟩ ∧
    segText (change ⟨1, 1, -1, -1, 1⟩ upperSegs) = "CCDD;IAECC".toList := by
  refine ⟨?_, ?_, ?_, ?_, ?_, ?_, ?_⟩ <;> decide +kernel

/-- The hypotheses hold of them. -/
theorem joined_apart : sequence joinedTexts = lowerText ++ upperText.map (Mapping.after (2, 8)) ∧
    InExtent ((2, 8), lowerText) ∧
    (∀ s ∈ lowerText.filterMap Mapping.source, s ∉ upperText.filterMap Mapping.source) ∧
    (∀ s ∈ lowerText.filterMap Mapping.name, s ∉ upperText.filterMap Mapping.name) ∧
    LastOf lowerText (fun m => some m.generated) (some ⟨3, 7⟩) ∧
    LastOf lowerText Mapping.origin (some ("two.js", ⟨2, 1⟩)) ∧ LastOf lowerText Mapping.nameWritten (some "k") ∧
    ∃ m ∈ upperText, m.generated.line = 1 := by
  refine ⟨by simp [sequence, joinedTexts], joined_fine.1 _ (by simp [joinedTexts]), by decide, by decide, ?_, ?_, ?_, by decide⟩ <;>
    (unfold LastOf; decide)

end RSM
