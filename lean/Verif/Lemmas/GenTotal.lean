import Verif.Lemmas.Generator
/-! # Serialising valid mappings returns, whatever is encoded -/

namespace RSM
open Spec

/-- With 64-bit pointers a number of `2^30` or more is encoded as a single digit. -/
theorem encode_large (cfg : Cfg) (h64 : cfg.ptr64 = true) (v : Int) (h : -2147483648 < v ∧ v ≤ 2147483647)
    (hbig : 1073741824 ≤ v.natAbs) : ∃ d : Nat, d < 32 ∧ base64vlqEncode cfg v = .ok [digitChar d] := by
  unfold base64vlqEncode toVlqSigned
  by_cases hv : v < 0
  · have h1 : cfg.arith (-v) = .ok (-v) := cfg.arith_ok (by unfold IsI32; omega)
    have h2 : cfg.arith (wrap32 (-v * 2) + 1) = .ok (wrap32 (-v * 2) + 1) :=
      cfg.arith_ok (by unfold IsI32 wrap32; omega)
    simp only [hv, if_true, h1, Res.ok_bind, h2]
    exact ⟨_, by omega, vlqLoop_neg64 cfg h64 _ (by unfold IsI32 wrap32; omega) (by unfold wrap32; omega)⟩
  · simp only [hv, if_false, Res.ok_bind]
    exact ⟨_, by omega, vlqLoop_neg64 cfg h64 _ (by unfold IsI32 wrap32; omega) (by unfold wrap32; omega)⟩

theorem encode_total (cfg : Cfg) (v : Int) (h : -2147483648 < v ∧ v ≤ 2147483647) :
    ∃ t, base64vlqEncode cfg v = .ok t := by
  by_cases hs : cfg.ptr64 = true ∧ 1073741824 ≤ v.natAbs
  · obtain ⟨_, _, h⟩ := encode_large cfg hs.1 v h hs.2
    exact ⟨_, h⟩
  · exact ⟨_, encode_eq_of cfg v h (fun h64 => by
      have : ¬ 1073741824 ≤ v.natAbs := fun hn => hs ⟨h64, hn⟩
      omega)⟩

/-- The state of the serialiser holds numbers whose differences with those of valid mappings are `i32`. -/
structure SerState.Small (st : SerState) : Prop where
  gc : 0 ≤ st.generatedColumn ∧ st.generatedColumn ≤ 2147483647
  oc : 0 ≤ st.originalColumn ∧ st.originalColumn ≤ 2147483647
  ol : -1 ≤ st.originalLine ∧ st.originalLine ≤ 2147483646
  nm : 0 ≤ st.name ∧ st.name ≤ 2147483647
  sr : 0 ≤ st.source ∧ st.source ≤ 2147483647

theorem delta_total (cfg : Cfg) {a b : Int} (h : -2147483648 < a - b ∧ a - b ≤ 2147483647) :
    cfg.arith (a - b) = .ok (a - b) ∧ ∃ t, base64vlqEncode cfg (a - b) = .ok t :=
  ⟨cfg.arith_ok (by unfold IsI32; omega), encode_total cfg _ h⟩

theorem nameField_total (cfg : Cfg) {N : ArraySet} (hN : N.Inv) (hNl : N.array.length < 2147483648) {m : Mapping}
    (hk : ∀ n, m.name = some n → n ∈ N.array) {st : SerState} (hst : st.Small) :
    ∃ t st', nameField cfg N st m = .ok (t, st') ∧ st'.Small ∧ st'.generatedLine = st.generatedLine := by
  rcases Option.eq_none_or_eq_some m.name with hn | ⟨n, hn⟩
  · exact ⟨_, _, nameField_none cfg N st hn, hst, rfl⟩
  · have hmem := hk n hn
    have hidx := indexOf_mem hN hmem
    have hlt := List.idxOf_lt_length_of_mem hmem
    generalize N.array.idxOf n = i at hidx hlt
    have hw : wrap32 (i : Int) = i := wrap32_of_isI32 (by unfold IsI32; omega)
    have := hst.nm
    obtain ⟨e1, t, e2⟩ := delta_total cfg (a := (i : Int)) (b := st.name) (by omega)
    refine ⟨t, { st with name := i }, ?_, ⟨hst.gc, hst.oc, hst.ol, by simp; omega, hst.sr⟩, rfl⟩
    simp only [nameField, hn, hidx, unwrap, Res.ok_bind, hw, e1, e2, Res.pure_eq]

theorem segmentText_total (cfg : Cfg) {S N : ArraySet} (hS : S.Inv) (hN : N.Inv)
    (hSl : S.array.length < 2147483648) (hNl : N.array.length < 2147483648) {m : Mapping} (hm : m.Valid)
    (hk : Known S N m) {st : SerState} (hst : st.Small) :
    ∃ t st', segmentText cfg S N st m = .ok (t, st') ∧ st'.Small ∧ st'.generatedLine = st.generatedLine := by
  have hc := hm.gc
  have := hst.gc
  obtain ⟨e1, t0, e2⟩ := delta_total cfg (a := m.generated.column) (b := st.generatedColumn) (by omega)
  have hst1 : SerState.Small { st with generatedColumn := m.generated.column } := ⟨hc, hst.oc, hst.ol, hst.nm, hst.sr⟩
  suffices h : ∃ t st', originalFields cfg S N { st with generatedColumn := m.generated.column } m = .ok (t, st') ∧
      st'.Small ∧ st'.generatedLine = st.generatedLine by
    obtain ⟨t, st', h1, h2, h3⟩ := h
    exact ⟨t0 ++ t, st', by simp only [segmentText, e1, e2, Res.ok_bind, h1, Res.pure_eq], h2, h3⟩
  rcases Option.eq_none_or_eq_some m.source with hs | ⟨s, hs⟩
  · exact ⟨[], _, by simp only [originalFields, hs, Res.pure_eq], hst1, rfl⟩
  · obtain ⟨o, ho⟩ : ∃ o, m.original = some o := by
      have := hm.orig; rw [hs] at this; simpa [Option.isSome_iff_exists] using this
    have hr := hm.range o ho
    have hmem := hk.1 s hs
    have hidx := indexOf_mem hS hmem
    have hlt := List.idxOf_lt_length_of_mem hmem
    generalize S.array.idxOf s = i at hidx hlt
    have hw : wrap32 (i : Int) = i := wrap32_of_isI32 (by unfold IsI32; omega)
    have h1 := hst.sr
    have h2 := hst.ol
    have h3 := hst.oc
    obtain ⟨a1, t1, a2⟩ := delta_total cfg (a := (i : Int)) (b := st.source) (by omega)
    have b0 : cfg.arith (o.line - 1) = .ok (o.line - 1) := cfg.arith_ok (by unfold IsI32; omega)
    obtain ⟨b1, t2, b2⟩ := delta_total cfg (a := o.line - 1) (b := st.originalLine) (by omega)
    obtain ⟨c1, t3, c2⟩ := delta_total cfg (a := o.column) (b := st.originalColumn) (by omega)
    obtain ⟨t4, st', d1, d2, d3⟩ := nameField_total cfg hN hNl hk.2
      (st := ⟨m.generated.column, st.generatedLine, o.column, o.line - 1, st.name, i⟩)
      ⟨hc, by simp; omega, by simp; omega, hst.nm, by simp; omega⟩
    refine ⟨t1 ++ t2 ++ t3 ++ t4, st', ?_, d2, d3⟩
    simp only [originalFields, hs, hidx, unwrap, Res.ok_bind, hw, a1, a2, ho, b0, b1, b2, c1, c2, d1, Res.pure_eq]

theorem serializeLoop_total (cfg : Cfg) {S N : ArraySet} (hS : S.Inv) (hN : N.Inv)
    (hSl : S.array.length < 2147483648) (hNl : N.array.length < 2147483648) :
    ∀ (ms : List Mapping) (st : SerState) (prev : Option Mapping), ms.Pairwise posLE →
      (∀ p, prev = some p → p.Valid) →
      (∀ m ∈ ms, m.Valid) → (∀ m ∈ ms, Known S N m) → st.Small → IsI32 st.generatedLine →
      (∀ m ∈ ms, st.generatedLine ≤ m.generated.line) → ∃ t, serializeLoop cfg S N st prev ms = .ok t := by
  intro ms
  induction ms with
  | nil => intro st prev _ _ _ _ _ _ _; exact ⟨[], rfl⟩
  | cons m ms ih =>
    intro st prev hpw hprev hv hks hst hi hle
    have hm := hv m (by simp)
    have hml := hm.gl
    have hmi : IsI32 m.generated.line := by unfold IsI32; omega
    obtain ⟨hfirst, hpw'⟩ := List.pairwise_cons.1 hpw
    have hnext : ∀ x ∈ ms, m.generated.line ≤ x.generated.line := by
      intro x hx
      have := hfirst x hx
      unfold posLE at this
      omega
    have step : ∃ t st', serializeStep cfg S N st prev m = .ok (t, st') ∧ st'.Small ∧
        st'.generatedLine = m.generated.line := by
      unfold serializeStep
      by_cases hl : m.generated.line = st.generatedLine
      · rw [if_neg (by simp [hl])]
        obtain ⟨t, st', h1, h2, h3⟩ := segmentText_total cfg hS hN hSl hNl hm (hks m (by simp)) hst
        cases prev with
        | none => exact ⟨t, st', h1, h2, by rw [h3, hl]⟩
        | some p =>
          simp only [compare_eq_cmpVal cfg hm (hprev p rfl), Res.ok_bind]
          split
          · exact ⟨[], st, rfl, hst, hl.symm⟩
          · exact ⟨',' :: t, st', by simp only [h1, Res.ok_bind, Res.pure_eq], h2, by rw [h3, hl]⟩
      · rw [if_pos hl]
        obtain ⟨t, st', h1, h2, h3⟩ := segmentText_total cfg hS hN hSl hNl hm (hks m (by simp))
          (st := { st with generatedColumn := 0, generatedLine := m.generated.line })
          ⟨by simp, hst.oc, hst.ol, hst.nm, hst.sr⟩
        refine ⟨List.replicate (m.generated.line - st.generatedLine).toNat ';' ++ t, st', ?_, h2, h3⟩
        simp only [advanceLine_up cfg _ _ hi hmi (hle m (by simp)), Res.ok_bind, h1, Res.pure_eq]
    obtain ⟨t, st', h1, h2, h3⟩ := step
    obtain ⟨t', h4⟩ := ih st' (some m) hpw' (by intro p hp; cases hp; exact hm) (fun x hx => hv x (by simp [hx]))
      (fun x hx => hks x (by simp [hx])) h2 (by rw [h3]; exact hmi) (by rw [h3]; exact hnext)
    exact ⟨t ++ t', by simp only [serializeLoop, h1, Res.ok_bind, h4, Res.pure_eq]⟩

end RSM
