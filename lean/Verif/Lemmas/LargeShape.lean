import Verif.Props.Output
import Verif.Lemmas.LargeDeltas
/-! # The segments of an emitted text, whatever is encoded -/

namespace RSM
open Spec

theorem Digits.comma {t : Text} (h : Digits t) : ',' ∉ t := fun hm => by
  have := h _ hm; revert this; decide +kernel

theorem Digits.semi {t : Text} (h : Digits t) : ';' ∉ t := fun hm => by
  have := h _ hm; revert this; decide +kernel

/-- What is encoded is read as one number, not negative if that to be encoded is not. -/
theorem encode_field (cfg : Cfg) {v : Int} (h : -2147483648 < v ∧ v ≤ 2147483647) {a : Text}
    (ha : base64vlqEncode cfg v = .ok a) :
    a ≠ [] ∧ ∃ w, (∀ rest, decodeVlq (a ++ rest) = some (w, rest)) ∧ (0 ≤ v → 0 ≤ w) := by
  by_cases hs : cfg.ptr64 = true ∧ 1073741824 ≤ v.natAbs
  · have key : ∀ x : Int, x < 0 → IsI32 x → (0 ≤ v → x % 2 = 0) → vlqLoop cfg x = .ok a →
        a ≠ [] ∧ ∃ w, (∀ rest, decodeVlq (a ++ rest) = some (w, rest)) ∧ (0 ≤ v → 0 ≤ w) := by
      intro x hx hi he hl
      rw [vlqLoop_neg64 cfg hs.1 x hi hx] at hl
      cases hl
      refine ⟨by simp, unsign (x % 32).toNat, fun rest => ?_, fun hv => ?_⟩
      · simp [decodeVlq, decodeUnsigned, digitValue_digitChar (show (x % 32).toNat < 64 by omega),
          show (x % 32).toNat < 32 by omega]
      · have := he hv
        unfold unsign
        split <;> omega
    unfold base64vlqEncode toVlqSigned at ha
    by_cases hv : v < 0
    · have h1 : cfg.arith (-v) = .ok (-v) := cfg.arith_ok (by unfold IsI32; omega)
      have h2 : cfg.arith (wrap32 (-v * 2) + 1) = .ok (wrap32 (-v * 2) + 1) :=
        cfg.arith_ok (by unfold IsI32 wrap32; omega)
      simp only [hv, if_true, h1, Res.ok_bind, h2] at ha
      exact key _ (by unfold wrap32; omega) (by unfold IsI32 wrap32; omega) (by omega) ha
    · simp only [hv, if_false, Res.ok_bind] at ha
      exact key _ (by unfold wrap32; omega) (by unfold IsI32 wrap32; omega) (fun _ => by unfold wrap32; omega) ha
  · rw [encode_eq_of cfg v h (fun h64 => by
      have : ¬ 1073741824 ≤ v.natAbs := fun hn => hs ⟨h64, hn⟩
      omega)] at ha
    cases ha
    exact ⟨encU_ne_nil _, v, fun rest => by simp [decodeVlq, decodeUnsigned_encU, unsign_signed], id⟩

theorem decodeSegment_first {line col : Nat} {st st' : DState} {cs rest : List Char} {v : Int}
    (hd : decodeVlq cs = some (v, rest)) {r : RawMapping} (h : decodeSegment line col st cs = some (r, st')) :
    r.line = line ∧ (r.column : Int) = col + v := by
  have hoff : ∀ {c : Nat}, offset col v = some c → (c : Int) = col + v := by
    intro c hc
    unfold offset at hc
    split at hc
    · cases hc; omega
    · cases hc
  have hf : ∀ fs, decodeFields cs = some fs → ∃ fs', fs = v :: fs' := by
    intro fs hfs
    cases cs with
    | nil => simp [decodeVlq, decodeUnsigned] at hd
    | cons c cs =>
      rw [decodeFields, hd] at hfs
      dsimp only at hfs
      split at hfs
      · split at hfs
        · cases hfs
        · cases hfs; exact ⟨_, rfl⟩
      · cases hfs
  unfold decodeSegment at h
  split at h
  · rename_i a hfs
    obtain ⟨_, e⟩ := hf _ hfs
    cases e
    simp only [Option.bind_eq_bind, Option.bind_eq_some_iff] at h
    obtain ⟨c, h1, h2⟩ := h
    cases h2
    exact ⟨rfl, hoff h1⟩
  · rename_i a s l k hfs
    obtain ⟨_, e⟩ := hf _ hfs
    cases e
    simp only [Option.bind_eq_bind, Option.bind_eq_some_iff] at h
    obtain ⟨c, h1, s', _, l', _, k', _, h2⟩ := h
    cases h2
    exact ⟨rfl, hoff h1⟩
  · rename_i a s l k n hfs
    obtain ⟨_, e⟩ := hf _ hfs
    cases e
    simp only [Option.bind_eq_bind, Option.bind_eq_some_iff] at h
    obtain ⟨c, h1, s', _, l', _, k', _, n', _, h2⟩ := h
    cases h2
    exact ⟨rfl, hoff h1⟩
  · cases h

/-- The segment written for a mapping does not go back, if the mapping is not before the column reached. -/
theorem segmentText_forward {cfg : Cfg} {S N : ArraySet} {st : SerState} {m : Mapping} {seg : Text} {st' : SerState}
    (h : segmentText cfg S N st m = .ok (seg, st')) (h1 : 0 ≤ st.generatedColumn)
    (h2 : st.generatedColumn ≤ m.generated.column) (h3 : m.generated.column ≤ 2147483647) :
    seg ≠ [] ∧ ∀ line col d r d', decodeSegment line col d seg = some (r, d') → r.line = line ∧ col ≤ r.column := by
  have ha : cfg.arith (m.generated.column - st.generatedColumn) = .ok (m.generated.column - st.generatedColumn) :=
    cfg.arith_ok (by unfold IsI32; omega)
  simp only [segmentText, ha, Res.ok_bind, Res.bind_eq_ok, Res.pure_eq, Except.ok.injEq, Prod.mk.injEq] at h
  obtain ⟨t, e1, ⟨t', st1⟩, e2, rfl, _⟩ := h
  obtain ⟨k1, w, k2, k3⟩ := encode_field cfg (by omega) e1
  refine ⟨by simp [k1], ?_⟩
  intro line col d r d' hd
  obtain ⟨l, c⟩ := decodeSegment_first (k2 t') hd
  have := k3 (by omega)
  exact ⟨l, by omega⟩

theorem nameField_column_aux {cfg : Cfg} {st : SerState} {r : Text × SerState} {w : Int}
    (h : (cfg.arith (w - st.name) >>= fun d => base64vlqEncode cfg d >>= fun t =>
      pure (t, { st with name := w })) = .ok r) : r.2.generatedColumn = st.generatedColumn := by
  rw [Res.bind_eq_ok] at h
  obtain ⟨d, _, h⟩ := h
  rw [Res.bind_eq_ok] at h
  obtain ⟨t, ht, h⟩ := h
  simp only [Res.pure_eq, Except.ok.injEq] at h
  subst h
  rfl

theorem nameField_column {cfg : Cfg} {N : ArraySet} {st : SerState} {m : Mapping} {r : Text × SerState}
    (h : nameField cfg N st m = .ok r) : r.2.generatedColumn = st.generatedColumn := by
  cases hn : m.name with
  | none =>
    rw [nameField_none cfg N st hn] at h
    simp only [Except.ok.injEq] at h
    subst h
    rfl
  | some n =>
    cases hi : N.indexOf n with
    | none =>
      simp only [nameField, hn, hi, unwrap, Res.error_bind, reduceCtorEq] at h
    | some i =>
      have e : nameField cfg N st m = (cfg.arith (wrap32 i - st.name) >>= fun d =>
          base64vlqEncode cfg d >>= fun t => pure (t, { st with name := wrap32 i })) := by
        simp only [nameField, hn, hi, unwrap, Res.ok_bind]
      rw [e] at h
      exact nameField_column_aux h

theorem originalFields_column {cfg : Cfg} {S N : ArraySet} {st : SerState} {m : Mapping} {r : Text × SerState}
    (h : originalFields cfg S N st m = .ok r) : r.2.generatedColumn = st.generatedColumn := by
  unfold originalFields at h
  split at h
  · simp only [Res.bind_eq_ok, Res.pure_eq, Except.ok.injEq] at h
    obtain ⟨i, _, d, _, t1, h1, o, _, l, _, d2, _, t2, h2, d3, _, t3, h3, x, h4, rfl⟩ := h
    exact (nameField_column h4 :)
  · cases h
    rfl

theorem segmentText_column {cfg : Cfg} {S N : ArraySet} {st : SerState} {m : Mapping} {seg : Text} {st' : SerState}
    (h : segmentText cfg S N st m = .ok (seg, st')) : st'.generatedColumn = m.generated.column := by
  simp only [segmentText, Res.bind_eq_ok, Res.pure_eq, Except.ok.injEq, Prod.mk.injEq] at h
  obtain ⟨d, _, t, _, x, h2, _, rfl⟩ := h
  exact originalFields_column h2

/-- What follows a segment. -/
def Follows (t : List Char) : Prop := t = [] ∨ (∃ u, t = ',' :: u) ∨ ∃ u, t = ';' :: u

theorem segs_split {line col : Nat} {d : DState} {seg t l : List Char} {ls : List (List Char)} (hc : ',' ∉ seg)
    (ht : Follows t) (hl : splitOn ';' t = l :: ls) {raws : List RawMapping}
    (h : (do
        let (ms, d) ← decodeSegments line col d (splitOn ',' (seg ++ l))
        let rest ← decodeLines (line + 1) d ls
        some (ms ++ rest)) = some raws) :
    ∃ r d1 rs, raws = r :: rs ∧ decodeSegment line col d seg = some (r, d1) ∧ decodeMid line r.column d1 t = some rs := by
  have hcase : l = [] ∨ ∃ u, l = ',' :: u := by
    rcases ht with rfl | ⟨u, rfl⟩ | ⟨u, rfl⟩
    · simp only [splitOn, List.cons.injEq] at hl; exact .inl hl.1.symm
    · obtain ⟨l', ls', h'⟩ := splitOn_cons_of ';' u
      simp only [splitOn, h'] at hl
      rw [if_neg (by decide)] at hl
      simp only [List.cons.injEq] at hl
      exact .inr ⟨_, hl.1.symm⟩
    · rw [splitOn_sep] at hl
      simp only [List.cons.injEq] at hl
      exact .inl hl.1.symm
  rcases hcase with rfl | ⟨u, rfl⟩
  · rw [List.append_nil, splitOn_self ',' hc] at h
    simp only [decodeSegments, Option.bind_eq_bind, Option.bind_eq_some_iff, Option.some.injEq] at h
    obtain ⟨⟨ms, d2⟩, ⟨⟨r, d1⟩, h1, ⟨rs, d3⟩, h2, h3⟩, rest, h4, h5⟩ := h
    simp only [Prod.mk.injEq] at h2 h3
    obtain ⟨rfl, rfl⟩ := h2
    obtain ⟨rfl, rfl⟩ := h3
    refine ⟨r, d1, rest, by simpa using h5.symm, h1, ?_⟩
    unfold decodeMid
    rw [hl]
    exact h4
  · rw [splitOn_append ',' hc (splitOn_sep ',' u), List.append_nil] at h
    simp only [decodeSegments, Option.bind_eq_bind, Option.bind_eq_some_iff, Option.some.injEq] at h
    obtain ⟨⟨ms, d2⟩, ⟨⟨r, d1⟩, h1, ⟨rs, d3⟩, h2, h3⟩, rest, h4, h5⟩ := h
    simp only [Prod.mk.injEq] at h3
    obtain ⟨rfl, rfl⟩ := h3
    refine ⟨r, d1, rs ++ rest, by simpa using h5.symm, h1, ?_⟩
    unfold decodeMid
    rw [hl]
    simp [h2, h4]

theorem decode_start_inv {line : Nat} {d : DState} {seg t : List Char} (hne : seg ≠ []) (hs : Digits seg) (ht : Follows t)
    {raws : List RawMapping} (h : decodeLines line d (splitOn ';' (seg ++ t)) = some raws) :
    ∃ r d1 rs, raws = r :: rs ∧ decodeSegment line 0 d seg = some (r, d1) ∧ decodeMid line r.column d1 t = some rs := by
  obtain ⟨l, ls, hl⟩ := splitOn_cons_of ';' t
  rw [splitOn_append ';' hs.semi hl] at h
  simp only [decodeLines] at h
  rw [if_neg (by simp [hne])] at h
  exact segs_split hs.comma ht hl h

theorem decode_comma_inv {line col : Nat} {d : DState} {seg t : List Char} (hs : Digits seg) (ht : Follows t)
    {raws : List RawMapping} (h : decodeMid line col d (',' :: (seg ++ t)) = some raws) :
    ∃ r d1 rs, raws = r :: rs ∧ decodeSegment line col d seg = some (r, d1) ∧ decodeMid line r.column d1 t = some rs := by
  obtain ⟨l, ls, hl⟩ := splitOn_cons_of ';' t
  unfold decodeMid at h
  rw [show splitOn ';' (',' :: (seg ++ t)) = (',' :: (seg ++ l)) :: ls by
    simp [splitOn, splitOn_append ';' hs.semi hl]] at h
  simp only [if_true] at h
  exact segs_split hs.comma ht hl h

/-- Order of segments by generated position. -/
def rawLE (r s : RawMapping) : Prop := r.line < s.line ∨ (r.line = s.line ∧ r.column ≤ s.column)

theorem rawLE.trans {a b c : RawMapping} (h : rawLE a b) (k : rawLE b c) : rawLE a c := by
  unfold rawLE at *; omega

/-- However wrong the numbers, the text that follows a segment decodes, if at all, to as many segments as there are
mappings without repeats, in generated order. -/
theorem serializeLoop_shape (cfg : Cfg) {S N : ArraySet} :
    ∀ (ms : List Mapping) (st : SerState) (p : Mapping), (p :: ms).Pairwise posLE →
      (∀ m ∈ p :: ms, m.Encodable cfg.narrow) → st.generatedLine = p.generated.line →
      st.generatedColumn = p.generated.column → ∀ a, serializeLoop cfg S N st (some p) ms = .ok a →
      Follows a ∧ ∀ (line col : Nat) d raws, (line : Int) + 1 = p.generated.line → decodeMid line col d a = some raws →
        raws.length = (dropRepeats (some p) ms).length ∧ raws.Pairwise rawLE ∧
        ∀ r ∈ raws, line < r.line ∨ (line = r.line ∧ col ≤ r.column) := by
  intro ms
  induction ms with
  | nil =>
    intro st p _ _ _ _ a h
    cases h
    refine ⟨.inl rfl, ?_⟩
    intro line col d raws _ h
    rw [decodeMid_nil] at h
    cases h
    simp [dropRepeats]
  | cons m ms ih =>
    intro st p hpw hv hline hcol a h
    have hm := hv m (by simp)
    have hp := hv p (by simp)
    have hml := hm.line
    have hmc := hm.column
    have hpc := hp.column
    have hpl := hp.line
    have hlim : (cfg.narrow.vlqLimit : Int) = 2147483648 := rfl
    rw [hlim] at hmc hpc
    have hpm : posLE p m := (List.pairwise_cons.1 hpw).1 m (by simp)
    have hpw' := (List.pairwise_cons.1 hpw).2
    have hv' : ∀ x ∈ m :: ms, x.Encodable cfg.narrow := fun x hx => hv x (by simp only [List.mem_cons] at hx ⊢; exact .inr hx)
    simp only [serializeLoop, Res.bind_eq_ok] at h
    obtain ⟨⟨t1, st1⟩, h1, t2, h2, h3⟩ := h
    cases h3
    have hnext : ∀ {seg : Text} {st0 : SerState}, segmentText cfg S N st0 m = .ok (seg, st1) →
        st1.generatedLine = st0.generatedLine ∧ st1.generatedColumn = m.generated.column := by
      intro seg st0 hs
      exact ⟨(segmentText_digits hs).2, segmentText_column hs⟩
    unfold serializeStep at h1
    by_cases hl : m.generated.line = st.generatedLine
    · rw [if_neg (by simp [hl])] at h1
      simp only [compare_eq_cmpVal cfg hm.valid hp.valid, Res.ok_bind] at h1
      have hle : p.generated.column ≤ m.generated.column := by unfold posLE at hpm; omega
      by_cases hsk : SameKey m p
      · rw [if_pos ((cmpVal_eq_zero m p).2 hsk)] at h1
        cases h1
        obtain ⟨k1, k2⟩ := ih _ m hpw' hv' hl.symm (by rw [hcol, hsk.1]) t2 h2
        refine ⟨k1, ?_⟩
        intro line col d raws e1 e2
        simp only [dropRepeats, hsk, if_true]
        exact k2 line col d raws (by omega) e2
      · rw [if_neg fun h => hsk ((cmpVal_eq_zero m p).1 h)] at h1
        simp only [Res.bind_eq_ok, Res.pure_eq, Except.ok.injEq, Prod.mk.injEq] at h1
        obtain ⟨⟨seg, st2⟩, h4, rfl, rfl⟩ := h1
        obtain ⟨f1, f2⟩ := hnext h4
        obtain ⟨g1, g2⟩ := segmentText_forward h4 (by omega) (by omega) (by omega)
        obtain ⟨k1, k2⟩ := ih _ m hpw' hv' (by rw [f1, hl]) f2 t2 h2
        refine ⟨.inr (.inl ⟨_, rfl⟩), ?_⟩
        intro line col d raws e1 e2
        obtain ⟨r, d1, rs, rfl, e3, e4⟩ := decode_comma_inv (segmentText_digits h4).1 k1 e2
        obtain ⟨q1, q2⟩ := g2 _ _ _ _ _ e3
        obtain ⟨q3, q4, q5⟩ := k2 line r.column d1 rs (by omega) e4
        simp only [dropRepeats, hsk, if_false, List.length_cons]
        refine ⟨by omega, List.pairwise_cons.2 ⟨fun s hs => ?_, q4⟩, fun s hs => ?_⟩
        · have := q5 s hs; unfold rawLE; omega
        · rcases List.mem_cons.1 hs with rfl | hs
          · omega
          · have := q5 s hs; omega
    · rw [if_pos hl] at h1
      have hlt : p.generated.line < m.generated.line := by unfold posLE at hpm; omega
      simp only [advanceLine_up cfg st.generatedLine m.generated.line (by unfold IsI32; omega) (by unfold IsI32; omega)
        (by omega), Res.ok_bind, Res.bind_eq_ok, Res.pure_eq, Except.ok.injEq, Prod.mk.injEq] at h1
      obtain ⟨⟨seg, st2⟩, h4, rfl, rfl⟩ := h1
      obtain ⟨f1, f2⟩ := hnext h4
      obtain ⟨g1, g2⟩ := segmentText_forward h4 (by simp) (by simp only; omega) (by omega)
      obtain ⟨k1, k2⟩ := ih _ m hpw' hv' f1 f2 t2 h2
      obtain ⟨n, hn⟩ : ∃ n, (m.generated.line - st.generatedLine).toNat = n + 1 :=
        ⟨(m.generated.line - st.generatedLine).toNat - 1, by omega⟩
      have hsk : ¬ SameKey m p := fun h => by have := h.1; rw [this] at hlt; omega
      rw [hn]
      refine ⟨.inr (.inr ⟨List.replicate n ';' ++ seg ++ t2, by simp [List.replicate_succ]⟩), ?_⟩
      intro line col d raws e1 e2
      rw [List.append_assoc, decode_mid_semis] at e2
      obtain ⟨r, d1, rs, rfl, e3, e4⟩ := decode_start_inv g1 (segmentText_digits h4).1 k1 e2
      obtain ⟨q1, q2⟩ := g2 _ _ _ _ _ e3
      obtain ⟨q3, q4, q5⟩ := k2 _ r.column d1 rs (by omega) e4
      simp only [dropRepeats, hsk, if_false, List.length_cons]
      refine ⟨by omega, List.pairwise_cons.2 ⟨fun s hs => ?_, q4⟩, fun s hs => ?_⟩
      · have := q5 s hs; unfold rawLE; omega
      · rcases List.mem_cons.1 hs with rfl | hs
        · omega
        · have := q5 s hs; omega

theorem serializeLoop_shape_all (cfg : Cfg) {S N : ArraySet} (ms : List Mapping) (hpw : ms.Pairwise posLE)
    (hv : ∀ m ∈ ms, m.Encodable cfg.narrow) {a : Text} (h : serializeLoop cfg S N SerState.init none ms = .ok a)
    {raws : List RawMapping} (hd : decodeMappings a = some raws) :
    raws.length = (dropRepeats none ms).length ∧ raws.Pairwise rawLE := by
  cases ms with
  | nil => cases h; cases hd; exact ⟨rfl, .nil⟩
  | cons m ms =>
    have hm := hv m (by simp)
    have hml := hm.line
    have hmc := hm.column
    have hlim : (cfg.narrow.vlqLimit : Int) = 2147483648 := rfl
    rw [hlim] at hmc
    simp only [serializeLoop, Res.bind_eq_ok] at h
    obtain ⟨⟨t1, st1⟩, h1, t2, h2, h3⟩ := h
    cases h3
    have key : ∀ {st : SerState} {seg : Text} {line : Nat}, segmentText cfg S N st m = .ok (seg, st1) →
        st.generatedLine = m.generated.line → st.generatedColumn = 0 → (line : Int) + 1 = m.generated.line →
        decodeLines line ⟨0, 0, 0, 0⟩ (splitOn ';' (seg ++ t2)) = some raws →
        raws.length = (dropRepeats none (m :: ms)).length ∧ raws.Pairwise rawLE := by
      intro st seg line h4 e1 e2 e3 e4
      obtain ⟨g1, g2⟩ := segmentText_forward h4 (by omega) (by omega) (by omega)
      obtain ⟨k1, k2⟩ := serializeLoop_shape cfg ms st1 m hpw hv (by rw [(segmentText_digits h4).2, e1])
        (segmentText_column h4) t2 h2
      obtain ⟨r, d1, rs, rfl, e5, e6⟩ := decode_start_inv g1 (segmentText_digits h4).1 k1 e4
      obtain ⟨q1, q2⟩ := g2 _ _ _ _ _ e5
      obtain ⟨q3, q4, q5⟩ := k2 _ r.column d1 rs e3 e6
      refine ⟨by simp only [dropRepeats, List.length_cons]; omega, List.pairwise_cons.2 ⟨fun s hs => ?_, q4⟩⟩
      have := q5 s hs
      unfold rawLE
      omega
    unfold serializeStep at h1
    by_cases hl : m.generated.line = 1
    · rw [if_neg (by simp [hl, SerState.init])] at h1
      exact key (line := 0) h1 hl.symm rfl (by omega) hd
    · rw [if_pos (by simpa [SerState.init] using hl)] at h1
      simp only [advanceLine_up cfg SerState.init.generatedLine m.generated.line (by decide) (by unfold IsI32; omega)
        hml.1, Res.ok_bind, Res.bind_eq_ok, Res.pure_eq, Except.ok.injEq, Prod.mk.injEq] at h1
      obtain ⟨⟨seg, st2⟩, h4, rfl, rfl⟩ := h1
      rw [decodeMappings, List.append_assoc, decode_semis] at hd
      exact key h4 rfl rfl (by simp only [SerState.init]; omega) hd

end RSM
