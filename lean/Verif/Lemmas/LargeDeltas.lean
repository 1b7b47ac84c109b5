import Verif.Lemmas.GenOutput
import Verif.Spec.Written
/-! # The text emitted with 64-bit pointers against the text emitted with 32-bit pointers -/

namespace RSM
open Spec

/-- The same target with 32-bit pointers. -/
def Cfg.narrow (cfg : Cfg) : Cfg := ⟨cfg.overflowChecks, false⟩

/-- The differences the code can encode. -/
def Cfg.Fits (cfg : Cfg) (δ : Int) : Prop := cfg.ptr64 = true → δ.natAbs < 1073741824

/-- `a` is `b` if all of `ds` can be encoded, and shorter than `b` otherwise. -/
def Shrunk (cfg : Cfg) (ds : List Int) (a b : List Char) : Prop :=
  ((∀ δ ∈ ds, cfg.Fits δ) ∧ a = b) ∨ (¬ (∀ δ ∈ ds, cfg.Fits δ) ∧ a.length < b.length)

theorem Shrunk.len {cfg : Cfg} {ds : List Int} {a b : List Char} (h : Shrunk cfg ds a b) : a.length ≤ b.length := by
  rcases h with ⟨_, rfl⟩ | ⟨_, h⟩ <;> omega

theorem Shrunk.append {cfg : Cfg} {ds es : List Int} {a b c d : List Char} (h : Shrunk cfg ds a b)
    (k : Shrunk cfg es c d) : Shrunk cfg (ds ++ es) (a ++ c) (b ++ d) := by
  have l1 := h.len
  have l2 := k.len
  rcases h with ⟨h, rfl⟩ | ⟨h, h'⟩
  · rcases k with ⟨k, rfl⟩ | ⟨k, k'⟩
    · exact .inl ⟨fun δ hδ => (List.mem_append.1 hδ).elim (h δ) (k δ), rfl⟩
    · exact .inr ⟨fun hc => k fun δ hδ => hc δ (List.mem_append_right _ hδ), by simp only [List.length_append]; omega⟩
  · exact .inr ⟨fun hc => h fun δ hδ => hc δ (List.mem_append_left _ hδ), by simp only [List.length_append]; omega⟩

theorem Shrunk.same {cfg : Cfg} (a : List Char) : Shrunk cfg [] a a := .inl ⟨by simp, rfl⟩

theorem encU_long {n : Nat} (h : 32 ≤ n) : 1 < (encU n).length := by
  rw [encU, dif_neg (by omega)]
  have := List.length_pos_iff.2 (encU_ne_nil (n / 32))
  simp only [List.length_cons]
  omega

theorem encode_shrunk (cfg : Cfg) {v : Int} (h : -2147483648 < v ∧ v ≤ 2147483647) :
    ∃ a b, base64vlqEncode cfg v = .ok a ∧ base64vlqEncode cfg.narrow v = .ok b ∧ Shrunk cfg [v] a b := by
  have hb := encode_eq_of cfg.narrow v h (by intro h; cases h)
  by_cases hf : cfg.Fits v
  · exact ⟨_, _, encode_eq_of cfg v h hf, hb, .inl ⟨by simpa using hf, rfl⟩⟩
  · have h64 : cfg.ptr64 = true := by
      cases h : cfg.ptr64 with
      | true => rfl
      | false => exact absurd (fun h' => by rw [h] at h'; cases h') hf
    have hbig : 1073741824 ≤ v.natAbs := by
      rcases Nat.lt_or_ge v.natAbs 1073741824 with h | h
      · exact absurd (fun _ => h) hf
      · exact h
    obtain ⟨d, _, hd⟩ := encode_large cfg h64 v h hbig
    refine ⟨_, _, hd, hb, .inr ⟨by simpa using hf, ?_⟩⟩
    exact encU_long (by unfold signed; split <;> omega)

theorem delta_shrunk (cfg : Cfg) {a b : Nat} (ha : a < 2147483648) (hb : b < 2147483648) :
    cfg.arith ((a : Int) - b) = .ok ((a : Int) - b) ∧ cfg.narrow.arith ((a : Int) - b) = .ok ((a : Int) - b) ∧
    ∃ x y, base64vlqEncode cfg ((a : Int) - b) = .ok x ∧ base64vlqEncode cfg.narrow ((a : Int) - b) = .ok y ∧
      Shrunk cfg [(a : Int) - b] x y :=
  ⟨cfg.arith_ok (by unfold IsI32; omega), cfg.narrow.arith_ok (by unfold IsI32; omega), encode_shrunk cfg (by omega)⟩

theorem nameField_shrunk (cfg : Cfg) {N : ArraySet} (hN : N.Inv) (hNl : N.array.length < 2147483648) {m : Mapping}
    (hk : ∀ n, m.name = some n → n ∈ N.array) {st : SerState} {dn : Nat} (hst : st.name = dn) (hdn : dn < 2147483648) :
    ∃ a b ni, nameField cfg N st m = .ok (a, { st with name := ni }) ∧
      nameField cfg.narrow N st m = .ok (b, { st with name := ni }) ∧
      Shrunk cfg ((m.name.map (fun n => N.array.idxOf n)).map fun n => (n : Int) - dn).toList a b ∧
      ni = ((m.name.map (fun n => N.array.idxOf n)).getD dn : Nat) ∧
      (m.name.map (fun n => N.array.idxOf n)).getD dn < 2147483648 := by
  rcases Option.eq_none_or_eq_some m.name with hn | ⟨n, hn⟩
  · refine ⟨[], [], dn, ?_, ?_, ?_, ?_, ?_⟩
    · rw [nameField_none cfg N st hn, ← hst]
    · rw [nameField_none cfg.narrow N st hn, ← hst]
    · rw [hn]; exact .same _
    · rw [hn]; rfl
    · rw [hn]; exact hdn
  · have hmem := hk n hn
    have hidx := indexOf_mem hN hmem
    have hlt := List.idxOf_lt_length_of_mem hmem
    rw [hn]
    simp only [Option.map_some, Option.getD_some]
    generalize N.array.idxOf n = i at hidx hlt
    have hw : wrap32 (i : Int) = i := wrap32_of_isI32 (by unfold IsI32; omega)
    obtain ⟨e1, e2, x, y, e3, e4, e5⟩ := delta_shrunk cfg (a := i) (b := dn) (by omega) hdn
    refine ⟨x, y, i, ?_, ?_, e5, rfl, by omega⟩
    · simp only [nameField, hn, hidx, unwrap, Res.ok_bind, hw, hst, e1, e3, Res.pure_eq]
    · simp only [nameField, hn, hidx, unwrap, Res.ok_bind, hw, hst, e2, e4, Res.pure_eq]

theorem segmentText_shrunk (cfg : Cfg) {S N : ArraySet} (hS : S.Inv) (hN : N.Inv)
    (hSl : S.array.length < 2147483648) (hNl : N.array.length < 2147483648) {m : Mapping}
    (hm : m.Encodable cfg.narrow) (hk : Known S N m) {st : SerState} {d : DState} {col : Nat}
    (ha : Agree 2147483648 st d col) :
    ∃ a b st', segmentText cfg S N st m = .ok (a, st') ∧ segmentText cfg.narrow S N st m = .ok (b, st') ∧
      Shrunk cfg (fieldsOf col d (toRaw S.array N.array m)) a b ∧
      Agree 2147483648 st' (afterSegment d (toRaw S.array N.array m)) m.generated.column.toNat ∧
      st'.generatedLine = st.generatedLine := by
  have hlim : (cfg.narrow.vlqLimit : Nat) = 2147483648 := rfl
  have hcol := hm.column
  rw [hlim] at hcol
  obtain ⟨gc, hgc⟩ : ∃ gc : Nat, m.generated.column = gc := ⟨m.generated.column.toNat, by omega⟩
  have hgcb : gc < 2147483648 := by omega
  have hgt : m.generated.column.toNat = gc := by omega
  obtain ⟨e1, e2, x, y, e3, e4, e5⟩ := delta_shrunk cfg hgcb ha.bgc
  suffices h : ∃ a b st', originalFields cfg S N { st with generatedColumn := gc } m = .ok (a, st') ∧
      originalFields cfg.narrow S N { st with generatedColumn := gc } m = .ok (b, st') ∧
      Shrunk cfg (fieldsOf col d (toRaw S.array N.array m)).tail a b ∧
      Agree 2147483648 st' (afterSegment d (toRaw S.array N.array m)) gc ∧ st'.generatedLine = st.generatedLine by
    obtain ⟨a, b, st', h1, h2, h3, h4, h5⟩ := h
    refine ⟨x ++ a, y ++ b, st', ?_, ?_, ?_, by rw [hgt]; exact h4, h5⟩
    · simp only [segmentText, hgc, ha.gc, e1, e3, Res.ok_bind, h1, Res.pure_eq]
    · simp only [segmentText, hgc, ha.gc, e2, e4, Res.ok_bind, h2, Res.pure_eq]
    · have := e5.append h3
      rw [show fieldsOf col d (toRaw S.array N.array m) =
        [(gc : Int) - col] ++ (fieldsOf col d (toRaw S.array N.array m)).tail by
          simp [fieldsOf, toRaw_column, hgt]]
      exact this
  rcases Option.eq_none_or_eq_some m.source with hs | ⟨s, hs⟩
  · rw [toRaw_none rfl hgt hs]
    refine ⟨[], [], { st with generatedColumn := gc }, by simp only [originalFields, hs, Res.pure_eq],
      by simp only [originalFields, hs, Res.pure_eq], .same _, ?_, rfl⟩
    exact ⟨rfl, ha.oc, ha.ol, ha.nm, ha.sr, hgcb, ha.boc, ha.bol, ha.bnm, ha.bsr⟩
  · obtain ⟨o, ho⟩ : ∃ o, m.original = some o := by
      have := hm.orig; rw [hs] at this; simpa [Option.isSome_iff_exists] using this
    have hr := hm.range o ho
    rw [hlim] at hr
    obtain ⟨ol, hol⟩ : ∃ ol : Nat, o.line - 1 = ol := ⟨(o.line - 1).toNat, by omega⟩
    obtain ⟨oc, hoc⟩ : ∃ oc : Nat, o.column = oc := ⟨o.column.toNat, by omega⟩
    have hol' : (o.line - 1).toNat = ol := by omega
    have hoc' : o.column.toNat = oc := by omega
    rw [toRaw_some rfl hgt hs ho hol' hoc']
    have hmem := hk.1 s hs
    have hidx := indexOf_mem hS hmem
    have hlt := List.idxOf_lt_length_of_mem hmem
    generalize S.array.idxOf s = si at hidx hlt ⊢
    have hw : wrap32 (si : Int) = si := wrap32_of_isI32 (by unfold IsI32; omega)
    obtain ⟨a1, a2, x1, y1, a3, a4, a5⟩ := delta_shrunk cfg (a := si) (b := d.source) (Nat.lt_trans hlt hSl) ha.bsr
    obtain ⟨b1, b2, x2, y2, b3, b4, b5⟩ := delta_shrunk cfg (a := ol) (b := d.line) (by omega) ha.bol
    obtain ⟨c1, c2, x3, y3, c3, c4, c5⟩ := delta_shrunk cfg (a := oc) (b := d.column) (by omega) ha.boc
    have l1 : cfg.arith (ol : Int) = .ok (ol : Int) := cfg.arith_ok (by unfold IsI32; omega)
    have l2 : cfg.narrow.arith (ol : Int) = .ok (ol : Int) := cfg.narrow.arith_ok (by unfold IsI32; omega)
    obtain ⟨x4, y4, ni, d1, d2, d3, d4, d5⟩ := nameField_shrunk cfg hN hNl hk.2
      (st := ⟨gc, st.generatedLine, oc, ol, st.name, si⟩) ha.nm ha.bnm
    refine ⟨x1 ++ x2 ++ x3 ++ x4, y1 ++ y2 ++ y3 ++ y4, ⟨gc, st.generatedLine, oc, ol, ni, si⟩, ?_, ?_, ?_, ?_, rfl⟩
    · simp only [originalFields, hs, hidx, unwrap, Res.ok_bind, hw, ha.sr, ha.ol, ha.oc, a1, a3, ho, hol, l1, b1, b3,
        hoc, c1, c3, d1, Res.pure_eq]
    · simp only [originalFields, hs, hidx, unwrap, Res.ok_bind, hw, ha.sr, ha.ol, ha.oc, a2, a4, ho, hol, l2, b2, b4,
        hoc, c2, c4, d2, Res.pure_eq]
    · have := ((a5.append b5).append c5).append d3
      simpa [fieldsOf] using this
    · exact ⟨rfl, rfl, rfl, d4, rfl, hgcb, by simp [afterSegment]; omega, by simp [afterSegment]; omega, d5,
        Nat.lt_trans hlt hSl⟩

theorem serializeLoop_shrunk (cfg : Cfg) {S N : ArraySet} (hS : S.Inv) (hN : N.Inv)
    (hSl : S.array.length < 2147483648) (hNl : N.array.length < 2147483648) :
    ∀ (ms : List Mapping) (st : SerState) (prev : Option Mapping) (d : DState) (line col : Nat), ms.Pairwise posLE →
      (∀ p, prev = some p → p.Encodable cfg.narrow ∧ p.generated.line = st.generatedLine) →
      (∀ m ∈ ms, m.Encodable cfg.narrow) → (∀ m ∈ ms, Known S N m) →
      st.generatedLine = line + 1 → (∀ m ∈ ms, st.generatedLine ≤ m.generated.line) →
      Agree 2147483648 st d col →
      ∃ a b, serializeLoop cfg S N st prev ms = .ok a ∧ serializeLoop cfg.narrow S N st prev ms = .ok b ∧
        Shrunk cfg (writtenFrom line col d ((dropRepeats prev ms).map (toRaw S.array N.array))) a b := by
  intro ms
  induction ms with
  | nil => intro st prev d line col _ _ _ _ _ _ _; exact ⟨[], [], rfl, rfl, .same _⟩
  | cons m ms ih =>
    intro st prev d line col hpw hprev hv hks hline hle ha
    have hm := hv m (by simp)
    have hml := hm.line
    have hml2 := hle m (by simp)
    obtain ⟨hfirst, hpw'⟩ := List.pairwise_cons.1 hpw
    have hnext : ∀ x ∈ ms, m.generated.line ≤ x.generated.line := by
      intro x hx
      have := hfirst x hx
      unfold posLE at this
      omega
    have hv' : ∀ x ∈ ms, x.Encodable cfg.narrow := fun x hx => hv x (by simp [hx])
    have hks' : ∀ x ∈ ms, Known S N x := fun x hx => hks x (by simp [hx])
    have rl : (toRaw S.array N.array m).line = (m.generated.line - 1).toNat := toRaw_line m
    have rc : (toRaw S.array N.array m).column = m.generated.column.toNat := toRaw_column m
    by_cases hl : m.generated.line = st.generatedLine
    · have hr : (toRaw S.array N.array m).line = line := by rw [rl]; omega
      obtain ⟨a, b, st', h1, h2, h3, h4, h5⟩ := segmentText_shrunk cfg hS hN hSl hNl hm (hks m (by simp)) ha
      obtain ⟨a', b', k1, k2, k3⟩ := ih st' (some m) _ line m.generated.column.toNat hpw'
        (fun p hp => by cases hp; exact ⟨hm, by rw [h5, hl]⟩) hv' hks' (by rw [h5, hline])
        (fun x hx => by rw [h5, ← hl]; exact hnext x hx) h4
      have hw : ∀ rs, writtenFrom line col d (toRaw S.array N.array m :: rs) =
          fieldsOf col d (toRaw S.array N.array m) ++
            writtenFrom line m.generated.column.toNat (afterSegment d (toRaw S.array N.array m)) rs := by
        intro rs; rw [writtenFrom, if_pos hr, hr, rc]
      cases prev with
      | none =>
        refine ⟨a ++ a', b ++ b', ?_, ?_, ?_⟩
        · simp only [serializeLoop, serializeStep, hl, ne_eq, not_true_eq_false, if_false, h1, Res.ok_bind, k1,
            Res.pure_eq]
        · simp only [serializeLoop, serializeStep, hl, ne_eq, not_true_eq_false, if_false, h2, Res.ok_bind, k2,
            Res.pure_eq]
        · simp only [dropRepeats, List.map_cons]
          rw [hw]
          exact h3.append k3
      | some p =>
        obtain ⟨hp, hpl⟩ := hprev p rfl
        have c1 := compare_eq_cmpVal cfg hm.valid hp.valid
        have c2 := compare_eq_cmpVal cfg.narrow hm.valid hp.valid
        by_cases hsk : SameKey m p
        · have hc0 := (cmpVal_eq_zero m p).2 hsk
          obtain ⟨a2, b2, q1, q2, q3⟩ := ih st (some m) d line col hpw'
            (fun p hp => by cases hp; exact ⟨hm, hl⟩) hv' hks' hline (fun x hx => by rw [← hl]; exact hnext x hx) ha
          refine ⟨a2, b2, ?_, ?_, ?_⟩
          · simp only [serializeLoop, serializeStep, hl, ne_eq, not_true_eq_false, if_false, c1, hc0, Res.ok_bind,
              if_true, Res.pure_eq, q1, List.nil_append]
          · simp only [serializeLoop, serializeStep, hl, ne_eq, not_true_eq_false, if_false, c2, hc0, Res.ok_bind,
              if_true, Res.pure_eq, q2, List.nil_append]
          · simp only [dropRepeats, hsk, if_true]
            exact q3
        · have hc0 : cmpVal m p ≠ 0 := fun h => hsk ((cmpVal_eq_zero m p).1 h)
          refine ⟨[','] ++ a ++ a', [','] ++ b ++ b', ?_, ?_, ?_⟩
          · simp only [serializeLoop, serializeStep, hl, ne_eq, not_true_eq_false, if_false, c1, hc0, Res.ok_bind,
              Res.pure_eq, h1, k1, List.cons_append, List.nil_append]
          · simp only [serializeLoop, serializeStep, hl, ne_eq, not_true_eq_false, if_false, c2, hc0, Res.ok_bind,
              Res.pure_eq, h2, k2, List.cons_append, List.nil_append]
          · simp only [dropRepeats, hsk, if_false, List.map_cons]
            rw [hw]
            exact ((Shrunk.same _).append h3).append k3
    · have hr : (toRaw S.array N.array m).line ≠ line := by rw [rl]; omega
      obtain ⟨line', hl'⟩ : ∃ line' : Nat, m.generated.line = line' + 1 := ⟨(m.generated.line - 1).toNat, by omega⟩
      have hr' : (toRaw S.array N.array m).line = line' := by rw [rl]; omega
      obtain ⟨a, b, st', h1, h2, h3, h4, h5⟩ := segmentText_shrunk cfg hS hN hSl hNl hm (hks m (by simp))
        (st := { st with generatedColumn := 0, generatedLine := m.generated.line }) (d := d) (col := 0)
        ⟨rfl, ha.oc, ha.ol, ha.nm, ha.sr, by omega, ha.boc, ha.bol, ha.bnm, ha.bsr⟩
      obtain ⟨a', b', k1, k2, k3⟩ := ih st' (some m) _ line' m.generated.column.toNat hpw'
        (fun p hp => by cases hp; exact ⟨hm, by rw [h5]⟩) hv' hks' (by rw [h5]; exact hl')
        (fun x hx => by rw [h5]; exact hnext x hx) h4
      have adv := fun c => advanceLine_up c st.generatedLine m.generated.line (by unfold IsI32; omega)
        (by unfold IsI32; omega) hml2
      have hsk : dropRepeats prev (m :: ms) = m :: dropRepeats (some m) ms := by
        cases prev with
        | none => rfl
        | some p =>
          simp only [dropRepeats]
          rw [if_neg]
          intro hsk
          exact hl (by rw [hsk.1]; exact (hprev p rfl).2)
      refine ⟨List.replicate (m.generated.line - st.generatedLine).toNat ';' ++ a ++ a',
        List.replicate (m.generated.line - st.generatedLine).toNat ';' ++ b ++ b', ?_, ?_, ?_⟩
      · simp only [serializeLoop, serializeStep, ne_eq, hl, not_false_eq_true, if_true, adv, Res.ok_bind, Res.pure_eq,
          h1, k1]
      · simp only [serializeLoop, serializeStep, ne_eq, hl, not_false_eq_true, if_true, adv, Res.ok_bind, Res.pure_eq,
          h2, k2]
      · rw [hsk, List.map_cons, writtenFrom, if_neg hr, hr', rc]
        exact ((Shrunk.same _).append h3).append k3

end RSM
