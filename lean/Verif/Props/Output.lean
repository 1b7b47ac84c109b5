import Verif.Props.Generator
/-! # Properties C61 and C62: the parts of the generator's output that do not depend on the mappings,
and the shape of the emitted text -/

namespace RSM

open Spec

/-! ## C61 -/

/-- C61. Whatever was called before, a map the generator gives has version 3, the `file` and
`sourceRoot` given to `new`, and no sections. -/
theorem C61_fixed_fields (U : UrlLib) (cfg : Cfg) (file root : Option String) (skip : Bool)
    (ops : List GOp) (g g' : Generator) (j : SourceMapJson)
    (h : (Generator.new file root skip).run U cfg ops = .ok g) (hj : g.asJson U cfg = .ok (j, g')) :
    j.version = 3 ∧ j.file = file ∧ j.sourceRoot = root ∧ j.sections = none := by
  obtain ⟨h1, h2, _⟩ := gRun_new h
  obtain ⟨_, _, _, _, _, _, _, _, rfl⟩ := asJson_ok hj
  exact ⟨rfl, h1, h2, rfl⟩

/-- The same generator with another `skipValidation`. -/
def Generator.withSkip (b : Bool) (g : Generator) : Generator := { g with skipValidation := b }

theorem addMapping_withSkip (cfg : Cfg) (g : Generator) (b : Bool) (m : Mapping) :
    (g.withSkip b).addMapping cfg m = (g.addMapping cfg m).map (Generator.withSkip b) := by
  simp only [Generator.addMapping, Generator.withSkip]
  cases g.mappings.add cfg m <;> rfl

theorem setSourceContent_withSkip (U : UrlLib) (g : Generator) (b : Bool) (s : String) (c : Option String) :
    (g.withSkip b).setSourceContent U s c = (g.setSourceContent U s c).map (Generator.withSkip b) := by
  simp only [Generator.setSourceContent, Generator.withSkip]
  cases Generator.contentKey U g.sourceRoot s with
  | error e => rfl
  | ok k => cases c <;> rfl

theorem sourcesContent_withSkip (U : UrlLib) (g : Generator) (b : Bool) :
    (g.withSkip b).sourcesContent U = g.sourcesContent U := by
  have hgen : ∀ l : List String, Generator.generateSourcesContents U (g.withSkip b) g.sourceRoot l =
      Generator.generateSourcesContents U g g.sourceRoot l := by
    intro l
    induction l with
    | nil => rfl
    | cons s l ih => simp only [Generator.generateSourcesContents, ih]; rfl
  have h := hgen g.sources.toVec
  simp only [Generator.sourcesContent]
  rw [show (g.withSkip b).sourceRoot = g.sourceRoot from rfl, show (g.withSkip b).sources = g.sources from rfl, h]
  rfl

theorem asJson_withSkip (U : UrlLib) (cfg : Cfg) (g : Generator) (b : Bool) :
    (g.withSkip b).asJson U cfg = (g.asJson U cfg).map fun r => (r.1, r.2.withSkip b) := by
  simp only [Generator.asJson, sourcesContent_withSkip]
  cases g.sourcesContent U with
  | error e => rfl
  | ok x =>
    simp only [Res.ok_bind, Generator.serializeMappings, Generator.withSkip]
    cases g.mappings.toArray cfg with
    | error e => rfl
    | ok y =>
      simp only [Res.ok_bind]
      cases serializeLoop cfg g.sources g.names SerState.init none y.1 <;> rfl

theorem run_withSkip (U : UrlLib) (cfg : Cfg) : ∀ (ops : List GOp) (g : Generator) (b : Bool),
    (g.withSkip b).run U cfg ops = (g.run U cfg ops).map (Generator.withSkip b) := by
  intro ops
  induction ops with
  | nil => intro g b; rfl
  | cons op ops ih =>
    intro g b
    have hstep : (g.withSkip b).step U cfg op = (g.step U cfg op).map (Generator.withSkip b) := by
      cases op with
      | add m => exact addMapping_withSkip cfg g b m
      | setContent s c => exact setSourceContent_withSkip U g b s c
      | asJson =>
        simp only [Generator.step, asJson_withSkip]
        cases g.asJson U cfg <;> rfl
    simp only [Generator.run, hstep]
    cases g.step U cfg op with
    | error e => rfl
    | ok g1 => exact ih g1 b

/-- C61. The `skip_validation` given to `new` has no influence on the map given in the end, nor on whether
some call panics. -/
theorem C61_skip_validation (U : UrlLib) (cfg : Cfg) (file root : Option String) (b₁ b₂ : Bool)
    (ops : List GOp) :
    ((Generator.new file root b₁).run U cfg ops >>= fun g => g.asJson U cfg).map Prod.fst =
    ((Generator.new file root b₂).run U cfg ops >>= fun g => g.asJson U cfg).map Prod.fst := by
  have h : Generator.new file root b₁ = (Generator.new file root b₂).withSkip b₁ := rfl
  rw [h, run_withSkip]
  cases (Generator.new file root b₂).run U cfg ops with
  | error e => rfl
  | ok g =>
    have h2 : (Except.map (Generator.withSkip b₁) (.ok g : Res Generator) >>= fun g => g.asJson U cfg) =
      (g.withSkip b₁).asJson U cfg := rfl
    rw [h2, asJson_withSkip]
    cases hj : g.asJson U cfg with
    | error e => simp only [Res.ok_bind, hj]; rfl
    | ok r => simp only [Res.ok_bind, hj]; rfl

/-! ## C62 -/

/-- The characters a `mappings` text is made of: base64 digits and the two separators. -/
def MapChar (c : Char) : Prop := (digitValue c).isSome = true ∨ c = ',' ∨ c = ';'

theorem base64Encode_digit {v : Int} {c : Char} (h : base64Encode v = some c) :
    (digitValue c).isSome = true := by
  have hmem : c ∈ intToCharMap := by
    unfold base64Encode at h
    split at h
    · exact List.mem_of_getElem? h
    · cases h
  have : ∀ c ∈ intToCharMap, (digitValue c).isSome = true := by decide +kernel
  exact this c hmem

theorem vlqLoopWith_digits (step : Int → Int × Int)
    (dec : ∀ v, (step v).2 > 0 → vlqMeasure (step v).2 < vlqMeasure v) (v : Int) :
    ∀ t, vlqLoopWith step dec v = .ok t → ∀ c ∈ t, (digitValue c).isSome = true := by
  induction v using vlqLoopWith.induct step dec with
  | case1 v hn =>
    intro t ht
    rw [vlqLoopWith, hn] at ht
    cases ht
  | case2 v c hc hpos ih =>
    intro t ht
    rw [vlqLoopWith, hc] at ht
    simp only [hpos, dif_pos, Res.bind_eq_ok, Res.pure_eq, Except.ok.injEq] at ht
    obtain ⟨rest, hr, rfl⟩ := ht
    intro x hx
    rcases List.mem_cons.1 hx with rfl | hx
    · exact base64Encode_digit hc
    · exact ih rest hr x hx
  | case3 v c hc hpos =>
    intro t ht
    rw [vlqLoopWith, hc] at ht
    simp only [hpos, dif_neg, not_false_eq_true, Except.ok.injEq] at ht
    subst ht
    intro x hx
    simp only [List.mem_cons, List.not_mem_nil, or_false] at hx
    subst hx
    exact base64Encode_digit hc

/-- A text of base64 digits. -/
def Digits (t : Text) : Prop := ∀ c ∈ t, (digitValue c).isSome = true

theorem Digits.append {s t : Text} (hs : Digits s) (ht : Digits t) : Digits (s ++ t) := by
  intro c hc
  rcases List.mem_append.1 hc with h | h
  · exact hs c h
  · exact ht c h

theorem encode_digits {cfg : Cfg} {v : Int} {t : Text} (h : base64vlqEncode cfg v = .ok t) : Digits t := by
  simp only [base64vlqEncode, Res.bind_eq_ok] at h
  obtain ⟨x, _, h⟩ := h
  exact vlqLoopWith_digits _ _ x t h

theorem nameField_aux {cfg : Cfg} {st : SerState} {r : Text × SerState} {w : Int}
    (h : (cfg.arith (w - st.name) >>= fun d => base64vlqEncode cfg d >>= fun t =>
      pure (t, { st with name := w })) = .ok r) : Digits r.1 ∧ r.2.generatedLine = st.generatedLine := by
  rw [Res.bind_eq_ok] at h
  obtain ⟨d, _, h⟩ := h
  rw [Res.bind_eq_ok] at h
  obtain ⟨t, ht, h⟩ := h
  simp only [Res.pure_eq, Except.ok.injEq] at h
  subst h
  exact ⟨encode_digits ht, rfl⟩

theorem nameField_digits {cfg : Cfg} {N : ArraySet} {st : SerState} {m : Mapping} {r : Text × SerState}
    (h : nameField cfg N st m = .ok r) : Digits r.1 ∧ r.2.generatedLine = st.generatedLine := by
  cases hn : m.name with
  | none =>
    rw [nameField_none cfg N st hn] at h
    simp only [Except.ok.injEq] at h
    subst h
    exact ⟨(by intro c hc; cases hc), rfl⟩
  | some n =>
    cases hi : N.indexOf n with
    | none =>
      simp only [nameField, hn, hi, unwrap, Res.error_bind, reduceCtorEq] at h
    | some i =>
      have e : nameField cfg N st m = (cfg.arith (wrap32 i - st.name) >>= fun d =>
          base64vlqEncode cfg d >>= fun t => pure (t, { st with name := wrap32 i })) := by
        simp only [nameField, hn, hi, unwrap, Res.ok_bind]
      rw [e] at h
      exact nameField_aux h

theorem originalFields_digits {cfg : Cfg} {S N : ArraySet} {st : SerState} {m : Mapping} {r : Text × SerState}
    (h : originalFields cfg S N st m = .ok r) : Digits r.1 ∧ r.2.generatedLine = st.generatedLine := by
  unfold originalFields at h
  split at h
  · simp only [Res.bind_eq_ok, Res.pure_eq, Except.ok.injEq] at h
    obtain ⟨i, _, d, _, t1, h1, o, _, l, _, d2, _, t2, h2, d3, _, t3, h3, x, h4, rfl⟩ := h
    obtain ⟨h5, h6⟩ := nameField_digits h4
    exact ⟨(((encode_digits h1).append (encode_digits h2)).append (encode_digits h3)).append h5, h6⟩
  · cases h
    exact ⟨(by intro c hc; cases hc), rfl⟩

theorem segmentText_digits {cfg : Cfg} {S N : ArraySet} {st : SerState} {m : Mapping} {r : Text × SerState}
    (h : segmentText cfg S N st m = .ok r) : Digits r.1 ∧ r.2.generatedLine = st.generatedLine := by
  simp only [segmentText, Res.bind_eq_ok, Res.pure_eq, Except.ok.injEq] at h
  obtain ⟨d, _, t, h1, x, h2, rfl⟩ := h
  obtain ⟨h3, h4⟩ := originalFields_digits h2
  exact ⟨(encode_digits h1).append h3, h4⟩

theorem advanceLoop_semis {cfg : Cfg} {line : Int} : ∀ {fuel : Nat} {prev : Int} {t : Text},
    advanceLoop cfg line fuel prev = .ok t → ∀ c ∈ t, c = ';' := by
  intro fuel
  induction fuel with
  | zero =>
    intro prev t h
    simp only [advanceLoop] at h
    split at h
    · cases h; simp
    · cases h
  | succ fuel ih =>
    intro prev t h
    simp only [advanceLoop] at h
    split at h
    · cases h; simp
    · simp only [Res.bind_eq_ok, Res.pure_eq, Except.ok.injEq] at h
      obtain ⟨p, _, r, hr, rfl⟩ := h
      intro c hc
      rcases List.mem_cons.1 hc with rfl | hc
      · rfl
      · exact ih hr c hc

/-- What one round of the loop emits, and the line it leaves. -/
theorem serializeStep_shape {cfg : Cfg} {S N : ArraySet} {st : SerState} {p : Option Mapping} {m : Mapping}
    {r : Text × SerState} (h : serializeStep cfg S N st p m = .ok r) :
    r.2.generatedLine = m.generated.line ∧
    ∃ sep seg, r.1 = sep ++ seg ∧ Digits seg ∧
      ((m.generated.line ≠ st.generatedLine ∧ advanceLine cfg st.generatedLine m.generated.line = .ok sep) ∨
       (m.generated.line = st.generatedLine ∧ (sep = [] ∨ sep = [',']))) := by
  unfold serializeStep at h
  split at h
  · rename_i hne
    simp only [Res.bind_eq_ok, Res.pure_eq, Except.ok.injEq] at h
    obtain ⟨semis, h1, x, h2, rfl⟩ := h
    obtain ⟨h3, h4⟩ := segmentText_digits h2
    exact ⟨h4, semis, x.1, rfl, h3, .inl ⟨hne, h1⟩⟩
  · rename_i hne
    have hne := Decidable.not_not.1 hne
    cases p with
    | none =>
      obtain ⟨h3, h4⟩ := segmentText_digits h
      exact ⟨h4.trans hne.symm, [], r.1, rfl, h3, .inr ⟨hne, .inl rfl⟩⟩
    | some p =>
      simp only [Res.bind_eq_ok] at h
      obtain ⟨c, _, h⟩ := h
      split at h
      · cases h
        exact ⟨hne.symm, [], [], rfl, (by intro c hc; cases hc), .inr ⟨hne, .inl rfl⟩⟩
      · simp only [Res.bind_eq_ok, Res.pure_eq, Except.ok.injEq] at h
        obtain ⟨x, h2, rfl⟩ := h
        obtain ⟨h3, h4⟩ := segmentText_digits h2
        exact ⟨h4.trans hne.symm, [','], x.1, rfl, h3, .inr ⟨hne, .inr rfl⟩⟩

theorem serializeLoop_chars {cfg : Cfg} {S N : ArraySet} : ∀ {ms : List Mapping} {st : SerState}
    {p : Option Mapping} {t : Text}, serializeLoop cfg S N st p ms = .ok t → ∀ c ∈ t, MapChar c := by
  intro ms
  induction ms with
  | nil => intro st p t h; cases h; simp
  | cons m ms ih =>
    intro st p t h
    simp only [serializeLoop, Res.bind_eq_ok, Res.pure_eq, Except.ok.injEq] at h
    obtain ⟨x, h1, r, h2, rfl⟩ := h
    obtain ⟨_, sep, seg, he, hd, hsep⟩ := serializeStep_shape h1
    intro c hc
    rw [he] at hc
    simp only [List.mem_append] at hc
    rcases hc with (hc | hc) | hc
    · rcases hsep with ⟨_, hs⟩ | ⟨_, rfl | rfl⟩
      · exact .inr (.inr (advanceLoop_semis hs c hc))
      · cases hc
      · simp only [List.mem_cons, List.not_mem_nil, or_false] at hc; exact .inr (.inl hc)
    · exact .inl (hd c hc)
    · exact ih h2 c hc

/-- C62. Whatever was added, if serialising returns then the emitted `mappings` consists of base64 digits,
commas and semicolons. -/
theorem C62_alphabet (U : UrlLib) (cfg : Cfg) (g g' : Generator) (j : SourceMapJson)
    (hj : g.asJson U cfg = .ok (j, g')) :
    ∃ text, j.mappings = some text ∧
      ∀ c ∈ text.toList, (digitValue c).isSome = true ∨ c = ',' ∨ c = ';' := by
  obtain ⟨_, out, l, t, _, _, h3, _, rfl⟩ := asJson_ok hj
  refine ⟨_, rfl, ?_⟩
  rw [String.toList_ofList]
  exact serializeLoop_chars h3

theorem digits_no_semi {t : Text} (h : Digits t) : t.count ';' = 0 := by
  rw [List.count_eq_zero]
  intro hc
  have h1 := h _ hc
  exact absurd h1 (by decide)

/-- The line the text ends in. -/
theorem serializeLoop_lines {cfg : Cfg} {S N : ArraySet} : ∀ {ms : List Mapping} {st : SerState}
    {p : Option Mapping} {t : Text}, serializeLoop cfg S N st p ms = .ok t →
    1 ≤ st.generatedLine → IsI32 st.generatedLine →
    (∀ m ∈ ms, st.generatedLine ≤ m.generated.line ∧ IsI32 m.generated.line) → ms.Pairwise posLE →
    (t.count ';' : Int) + st.generatedLine = ((ms.getLast?).map fun m => m.generated.line).getD st.generatedLine := by
  intro ms
  induction ms with
  | nil => intro st p t h _ _ _ _; cases h; simp
  | cons m ms ih =>
    intro st p t h h1 h2 h3 h4
    simp only [serializeLoop, Res.bind_eq_ok, Res.pure_eq, Except.ok.injEq] at h
    obtain ⟨x, h5, r, h6, rfl⟩ := h
    obtain ⟨hl, sep, seg, he, hd, hsep⟩ := serializeStep_shape h5
    have hm := h3 m (by simp)
    have hpw := List.pairwise_cons.1 h4
    have ih := ih h6 (by rw [hl]; omega) (by rw [hl]; exact hm.2) (by
      intro y hy
      have := hpw.1 y hy
      unfold posLE at this
      exact ⟨by rw [hl]; omega, (h3 y (by simp [hy])).2⟩) hpw.2
    have hc : (sep.count ';' : Int) = m.generated.line - st.generatedLine := by
      rcases hsep with ⟨_, hs⟩ | ⟨hs, rfl | rfl⟩
      · rw [advanceLine_up cfg _ _ h2 hm.2 hm.1] at hs
        cases hs
        simp only [List.count_replicate_self]
        omega
      · simp; omega
      · simp; omega
    rw [he, List.count_append, List.count_append, digits_no_semi hd]
    rw [hl] at ih
    have : (((m :: ms).getLast?).map fun m => m.generated.line).getD st.generatedLine =
        ((ms.getLast?).map fun m => m.generated.line).getD m.generated.line := by
      cases ms with
      | nil => simp
      | cons a ms => simp [List.getLast?_cons]
    rw [this, ← ih]
    push_cast
    omega

/-- C62. The text has one semicolon for every line before the last line with a mapping: if the greatest
generated line among the added mappings is `n`, there are `n - 1` semicolons. -/
theorem C62_line_count (U : UrlLib) (cfg : Cfg) (file root : Option String) (skip : Bool)
    (ops : List GOp) (g g' : Generator) (j : SourceMapJson)
    (hval : ∀ m ∈ gAdded ops, m.Valid ∧ 1 ≤ m.generated.line ∧ IsI32 m.generated.line)
    (h : (Generator.new file root skip).run U cfg ops = .ok g) (hj : g.asJson U cfg = .ok (j, g'))
    (last : Mapping) (hlast : last ∈ gAdded ops)
    (hmax : ∀ m ∈ gAdded ops, m.generated.line ≤ last.generated.line) :
    ∃ text, j.mappings = some text ∧ (text.toList.count ';' : Int) = last.generated.line - 1 := by
  obtain ⟨_, _, h3, _⟩ := gRun_new h
  obtain ⟨_, out, l, t, _, h4, h5, _, rfl⟩ := asJson_ok hj
  refine ⟨_, rfl, ?_⟩
  rw [String.toList_ofList]
  obtain ⟨l', h6, hinv⟩ := run_valid cfg (mlOps ops) MappingList.new MappingList.inv_new (by
    rw [added_mlOps]; exact fun m hm => (hval m hm).1)
  rw [h3] at h6
  cases h6
  obtain ⟨out', l'', h7, _, _, hperm, hpw, _⟩ := toArray_valid cfg hinv
  rw [h4] at h7
  cases h7
  have hp2 : out.Perm (gAdded ops) := by
    have := run_perm cfg _ _ _ h3
    rw [added_mlOps] at this
    exact hperm.trans (by simpa [MappingList.new] using this)
  have key := serializeLoop_lines h5 (by decide) (by decide) (by
    intro m hm
    have := hval m (hp2.mem_iff.1 hm)
    exact ⟨this.2.1, this.2.2⟩) hpw
  have hmem : last ∈ out := hp2.mem_iff.2 hlast
  have hge : out.getLast? = some (out.getLast (List.ne_nil_of_mem hmem)) := List.getLast?_eq_some_getLast _
  rw [hge] at key
  simp only [Option.map_some, Option.getD_some, SerState.init] at key
  have hle : (out.getLast (List.ne_nil_of_mem hmem)).generated.line ≤ last.generated.line :=
    hmax _ (hp2.mem_iff.1 (List.getLast_mem _))
  have hge2 : last.generated.line ≤ (out.getLast (List.ne_nil_of_mem hmem)).generated.line := by
    have hd : out = out.dropLast ++ [out.getLast (List.ne_nil_of_mem hmem)] :=
      (List.dropLast_concat_getLast _).symm
    rw [hd] at hpw hmem
    rcases List.mem_append.1 hmem with hx | hx
    · have := (List.pairwise_append.1 hpw).2.2 _ hx _ (List.mem_singleton.2 rfl)
      unfold posLE at this
      omega
    · rw [List.mem_singleton] at hx
      exact Int.le_of_eq (congrArg (fun m => m.generated.line) hx)
  omega

/-- The out-of-order history of `Verif/Props/Generator.lean`, whose last line is 4. -/
example (U : UrlLib) (cfg : Cfg) : ∃ g j g' text,
    (Generator.new (some "min.js") none false).run U cfg gxOps = .ok g ∧ g.asJson U cfg = .ok (j, g') ∧
    j.version = 3 ∧ j.file = some "min.js" ∧ j.sourceRoot = none ∧ j.mappings = some text ∧
    text.toList.count ';' = 3 := by
  obtain ⟨g, j, g', h1, h2⟩ := serialize_encodable U cfg (some "min.js") false gxOps gxOps_enc
    (tables_small (by decide)).1 (tables_small (by decide)).2
  obtain ⟨a1, a2, a3, _⟩ := C61_fixed_fields U cfg (some "min.js") none false gxOps g g' j h1 h2
  obtain ⟨text, b1, b2⟩ := C62_line_count U cfg (some "min.js") none false gxOps g g' j (by
    intro m hm
    refine ⟨(gxOps_enc (cfg := cfg) m hm).valid, ?_⟩
    revert m
    decide) h1 h2 gxR (by decide) (by decide)
  refine ⟨g, j, g', text, h1, h2, a1, a2, a3, b1, ?_⟩
  have : gxR.generated.line = 4 := rfl
  omega

end RSM
