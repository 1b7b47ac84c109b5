import Verif.Props.JoinedByHand
/-! # Property C138: text inserted into the generated text or taken out of it -/

namespace RSM
open Spec BasicConsumer

variable {E : Env}

/-- Where a segment gets if the one at `f` gets to `t`: those on the line of `f` keep their distance from it, those on other
lines are moved by lines. Before `f` nothing is moved. -/
def Spec.RawMapping.edited (f t : Nat × Nat) (r : RawMapping) : RawMapping :=
  if r.line < f.1 ∨ r.line = f.1 ∧ r.column < f.2 then r
  else if r.line = f.1 then ⟨t.1, r.column + t.2 - f.2, r.original⟩
  else ⟨r.line + t.1 - f.1, r.column, r.original⟩

/-- In order of generated positions, no two at one position. -/
def InOrder (raws : List RawMapping) : Prop :=
  raws.Pairwise fun r s => r.line < s.line ∨ r.line = s.line ∧ r.column < s.column

theorem deltas_original {col col' : Nat} {d : DState} {r r' : RawMapping}
    (h : (deltas col' d r').tail = (deltas col d r).tail) : r'.original = r.original := by
  obtain ⟨_, _, o⟩ := r
  obtain ⟨_, _, o'⟩ := r'
  cases o with
  | none => cases o' with
    | none => rfl
    | some o' => simp [deltas] at h
  | some o => cases o' with
    | none => simp [deltas] at h
    | some o' =>
      obtain ⟨a, b, c, n⟩ := o
      obtain ⟨a', b', c', n'⟩ := o'
      cases n <;> cases n' <;> simp [deltas] at h ⊢ <;> omega

theorem after_of_original {d : DState} {r r' : RawMapping} (h : r'.original = r.original) : DState.after d r' = DState.after d r := by
  simp only [DState.after, h]

theorem segment_moved {line col line' col' : Nat} {d d1 d1' : DState} {s : List Char} {x x' : RawMapping}
    (h : decodeSegment line col d s = some (x, d1)) (h' : decodeSegment line' col' d s = some (x', d1')) :
    x'.original = x.original ∧ d1' = d1 ∧ (x'.column : Int) - col' = x.column - col := by
  obtain ⟨hf, rfl⟩ := decodeSegment_inv h
  obtain ⟨hf', rfl⟩ := decodeSegment_inv h'
  rw [hf] at hf'
  have e := Option.some.inj hf'
  have ho := deltas_original (congrArg List.tail e).symm
  refine ⟨ho, after_of_original ho, ?_⟩
  simp only [deltas, List.cons.injEq] at e
  exact e.1.symm

theorem segments_moved {line line' : Nat} {δ : Int} : ∀ {ss : List (List Char)} {col col' : Nat} {d d1 d1' : DState}
    {ms ms' : List RawMapping}, (col' : Int) = col + δ → decodeSegments line col d ss = some (ms, d1) →
    decodeSegments line' col' d ss = some (ms', d1') →
    ms' = ms.map (fun x => ⟨line', (x.column + δ).toNat, x.original⟩) ∧ d1' = d1
  | [], _, _, _, _, _, _, _, _, h, h' => by
    simp only [decodeSegments, Option.some.injEq, Prod.mk.injEq] at h h'
    obtain ⟨rfl, rfl⟩ := h
    obtain ⟨rfl, rfl⟩ := h'
    exact ⟨rfl, rfl⟩
  | s :: ss, col, col', d, d1, d1', ms, ms', hc, h, h' => by
    simp only [decodeSegments, Option.bind_eq_bind, Option.bind_eq_some_iff, Option.some.injEq, Prod.mk.injEq] at h h'
    obtain ⟨⟨r, d2⟩, h1, ⟨rs, d3⟩, h2, rfl, rfl⟩ := h
    obtain ⟨⟨r', d2'⟩, h1', ⟨rs', d3'⟩, h2', rfl, rfl⟩ := h'
    obtain ⟨e1, rfl, e3⟩ := segment_moved h1 h1'
    obtain ⟨rfl, rfl⟩ := segments_moved (by show (r'.column : Int) = r.column + δ; omega) h2 h2'
    refine ⟨?_, rfl⟩
    rw [List.map_cons]
    congr 1
    have := decodeSegment_line h1'
    obtain ⟨l', c', o'⟩ := r'
    simp only at e1 e3 this
    rw [e1, this]
    simp only [RawMapping.mk.injEq, true_and, and_true]
    omega

theorem lines_moved : ∀ {ls : List (List Char)} {line line' : Nat} {d : DState} {ms ms' : List RawMapping},
    decodeLines line d ls = some ms → decodeLines line' d ls = some ms' →
    ms' = ms.map fun x => ⟨x.line + line' - line, x.column, x.original⟩
  | [], _, _, _, _, _, h, h' => by
    simp only [decodeLines, Option.some.injEq] at h h'
    subst h
    subst h'
    rfl
  | l :: ls, line, line', d, ms, ms', h, h' => by
    rw [decodeLines_one] at h h'
    simp only [Option.bind_eq_some_iff, Option.some.injEq] at h h'
    obtain ⟨⟨rs, d1⟩, h1, rest, h2, rfl⟩ := h
    obtain ⟨⟨rs', d1'⟩, h1', rest', h2', rfl⟩ := h'
    have key : rs' = rs.map (fun x => ⟨x.line + line' - line, x.column, x.original⟩) ∧ d1' = d1 := by
      split at h1
      · rename_i hl
        rw [if_pos hl] at h1'
        simp only [Option.some.injEq, Prod.mk.injEq] at h1 h1'
        obtain ⟨rfl, rfl⟩ := h1
        obtain ⟨rfl, rfl⟩ := h1'
        exact ⟨rfl, rfl⟩
      · rename_i hl
        rw [if_neg hl] at h1'
        obtain ⟨rfl, rfl⟩ := segments_moved (δ := 0) (by simp) h1 h1'
        refine ⟨List.map_congr_left fun x hx => ?_, rfl⟩
        have := decodeSegments_line h1 x hx
        simp only [RawMapping.mk.injEq, and_true]
        omega
    obtain ⟨rfl, rfl⟩ := key
    rw [lines_moved h2 h2', List.map_append]
    congr 1
    refine List.map_congr_left fun x hx => ?_
    have := decodeLines_line h2 x hx
    simp only [RawMapping.mk.injEq, and_true]
    omega

theorem mid_moved {line col line' col' : Nat} {d : DState} {t : List Char} {rs rs' : List RawMapping}
    (h : decodeMid line col d t = some rs) (h' : decodeMid line' col' d t = some rs') :
    rs' = rs.map fun x => if x.line = line then ⟨line', x.column + col' - col, x.original⟩
      else ⟨x.line + line' - line, x.column, x.original⟩ := by
  unfold decodeMid at h h'
  obtain ⟨l, ls, hl⟩ := splitOn_cons_of ';' t
  rw [hl] at h h'
  simp only at h h'
  cases l with
  | nil =>
    simp only at h h'
    rw [lines_moved h h']
    refine List.map_congr_left fun x hx => ?_
    have := decodeLines_line h x hx
    rw [if_neg (by omega)]
    simp only [RawMapping.mk.injEq, and_true]
    omega
  | cons c r =>
    simp only at h h'
    split at h
    · rename_i hc
      rw [if_pos hc] at h'
      simp only [Option.bind_eq_bind, Option.bind_eq_some_iff, Option.some.injEq] at h h'
      obtain ⟨⟨ms, d1⟩, h1, rest, h2, rfl⟩ := h
      obtain ⟨⟨ms', d1'⟩, h1', rest', h2', rfl⟩ := h'
      obtain ⟨rfl, rfl⟩ := segments_moved (δ := (col' : Int) - col) (by omega) h1 h1'
      rw [lines_moved h2 h2', List.map_append]
      congr 1
      · refine List.map_congr_left fun x hx => ?_
        rw [if_pos (decodeSegments_line h1 x hx)]
        simp only [RawMapping.mk.injEq, true_and, and_true]
        omega
      · refine List.map_congr_left fun x hx => ?_
        have := decodeLines_line h2 x hx
        rw [if_neg (by omega)]
        simp only [RawMapping.mk.injEq, and_true]
        omega
    · cases h

/-- Where the segments after one at `r` get, if that one gets to `r'`. -/
def Spec.RawMapping.follow (r r' x : RawMapping) : RawMapping :=
  if x.line = r.line then ⟨r'.line, x.column + r'.column - r.column, x.original⟩
  else ⟨x.line + r'.line - r.line, x.column, x.original⟩

theorem numbers_changed {line line' col col' : Nat} {d d1 d1' : DState} {a a' : Int} {ns : List Int} {r r' : RawMapping}
    (h : decodeSegment line col d ((a :: ns).flatMap vlqText) = some (r, d1))
    (h' : decodeSegment line' col' d ((a' :: ns).flatMap vlqText) = some (r', d1')) :
    r'.original = r.original ∧ d1' = d1 := by
  obtain ⟨hf, rfl⟩ := decodeSegment_inv h
  obtain ⟨hf', rfl⟩ := decodeSegment_inv h'
  have ho := deltas_original (col := col) (col' := col') (d := d) (r := r) (r' := r') (by
    rw [fields_numbers hf, fields_numbers hf']
    rfl)
  exact ⟨ho, after_of_original ho⟩

theorem mid_read {line col : Nat} {d : DState} {sep : Text} {ns : List Int} {t : List Char} {rs : List RawMapping}
    (hne : sep ≠ []) (hs : ∀ c ∈ sep, c = ',' ∨ c = ';') (hn : ns ≠ []) (ht : Follows t)
    (h : decodeMid line col d (sep ++ (ns.flatMap vlqText ++ t)) = some rs) :
    ∃ line' col' r d1 r₂, rs = r :: r₂ ∧ decodeSegment line' col' d (ns.flatMap vlqText) = some (r, d1) ∧
      decodeMid r.line r.column d1 t = some r₂ := by
  rcases mid_separators hne hs h with rfl | ⟨n, rfl⟩
  · obtain ⟨r, d1, rs, rfl, h1, h2⟩ := decode_comma_inv (numbers_digits ns) ht h
    exact ⟨_, _, r, d1, rs, rfl, h1, by rw [decodeSegment_line h1]; exact h2⟩
  · rw [decode_mid_semis] at h
    obtain ⟨r, d1, rs, rfl, h1, h2⟩ := decode_start_inv (numbers_ne hn) (numbers_digits ns) ht h
    exact ⟨_, _, r, d1, rs, rfl, h1, by rw [decodeSegment_line h1]; exact h2⟩

theorem start_read {line : Nat} {d : DState} {sep : Text} {ns : List Int} {t : List Char} {rs : List RawMapping}
    (hs : ∀ c ∈ sep, c = ',' ∨ c = ';') (hn : ns ≠ []) (ht : Follows t)
    (h : decodeLines line d (splitOn ';' (sep ++ (ns.flatMap vlqText ++ t))) = some rs) :
    ∃ line' r d1 r₂, rs = r :: r₂ ∧ decodeSegment line' 0 d (ns.flatMap vlqText) = some (r, d1) ∧
      decodeMid r.line r.column d1 t = some r₂ := by
  obtain ⟨n, rfl⟩ := start_separators hs h
  rw [decode_semis] at h
  obtain ⟨r, d1, rs, rfl, h1, h2⟩ := decode_start_inv (numbers_ne hn) (numbers_digits ns) ht h
  exact ⟨_, r, d1, rs, rfl, h1, by rw [decodeSegment_line h1]; exact h2⟩

theorem mid_edited {z : Nat} {sep sep' : Text} {a a' : Int} {ns : List Int} {ps₂ : List (Text × List Int)} :
    ∀ {ps₁ : List (Text × List Int)} {line col : Nat} {d : DState} {rs rs' : List RawMapping},
    (∀ p ∈ ps₁ ++ (sep, a :: ns) :: ps₂, ∀ c ∈ p.1, c = ',' ∨ c = ';') →
    (∀ p ∈ ps₁ ++ (sep, a :: ns) :: ps₂, p.1 ≠ []) → (∀ p ∈ ps₁ ++ (sep, a :: ns) :: ps₂, p.2 ≠ []) →
    (∀ c ∈ sep', c = ',' ∨ c = ';') → sep' ≠ [] →
    decodeMid line col d (segText (ps₁ ++ (sep, a :: ns) :: ps₂) ++ List.replicate z ';') = some rs →
    decodeMid line col d (segText (ps₁ ++ (sep', a' :: ns) :: ps₂) ++ List.replicate z ';') = some rs' →
    ∃ r₁ r r' r₂, rs = r₁ ++ r :: r₂ ∧ rs' = r₁ ++ r' :: r₂.map (r.follow r') ∧ r₁.length = ps₁.length ∧
      r'.original = r.original
  | [], line, col, d, rs, rs', hb, ha, hn, hs', hne', h, h' => by
    simp only [List.nil_append] at h h' hb ha hn
    have hf : Follows (segText ps₂ ++ List.replicate z ';') :=
      segments_follow (fun p hp => hb p (by simp [hp])) (fun p hp => ha p (by simp [hp])) z
    rw [segText_cons] at h h'
    obtain ⟨l1, c1, r, d1, r₂, rfl, k1, k2⟩ := mid_read (ha _ (List.mem_cons_self ..)) (hb _ (List.mem_cons_self ..))
      (by simp) hf h
    obtain ⟨l2, c2, r', d2, r₂', rfl, k1', k2'⟩ := mid_read hne' hs' (by simp) hf h'
    obtain ⟨ho, rfl⟩ := numbers_changed k1 k1'
    exact ⟨[], r, r', r₂, rfl, by rw [mid_moved k2 k2']; rfl, rfl, ho⟩
  | (sp, ms) :: ps₁, line, col, d, rs, rs', hb, ha, hn, hs', hne', h, h' => by
    have hb' : ∀ p ∈ ps₁ ++ (sep, a :: ns) :: ps₂, ∀ c ∈ p.1, c = ',' ∨ c = ';' :=
      fun p hp => hb p (List.mem_cons_of_mem _ hp)
    have ha' : ∀ p ∈ ps₁ ++ (sep, a :: ns) :: ps₂, p.1 ≠ [] := fun p hp => ha p (List.mem_cons_of_mem _ hp)
    have hn' : ∀ p ∈ ps₁ ++ (sep, a :: ns) :: ps₂, p.2 ≠ [] := fun p hp => hn p (List.mem_cons_of_mem _ hp)
    have hf := segments_follow hb' ha' z
    have hf' : Follows (segText (ps₁ ++ (sep', a' :: ns) :: ps₂) ++ List.replicate z ';') := by
      refine segments_follow (fun p hp => ?_) (fun p hp => ?_) z
      · rcases List.mem_append.1 hp with hp | hp
        · exact hb' p (by simp [hp])
        · rcases List.mem_cons.1 hp with rfl | hp
          · exact hs'
          · exact hb' p (by simp [hp])
      · rcases List.mem_append.1 hp with hp | hp
        · exact ha' p (by simp [hp])
        · rcases List.mem_cons.1 hp with rfl | hp
          · exact hne'
          · exact ha' p (by simp [hp])
    rw [List.cons_append, segText_cons] at h h'
    rcases mid_separators (ha _ (List.mem_cons_self ..)) (hb _ (List.mem_cons_self ..)) h with hsep | ⟨n, hsep⟩ <;>
      simp only at hsep <;> subst hsep
    · obtain ⟨x, d1, t, rfl, k1, k2⟩ := decode_comma_inv (numbers_digits ms) hf h
      obtain ⟨x', d1', t', rfl, k1', k2'⟩ := decode_comma_inv (numbers_digits ms) hf' h'
      rw [k1] at k1'
      cases k1'
      obtain ⟨r₁, r, r', r₂, rfl, rfl, e1, e2⟩ := mid_edited hb' ha' hn' hs' hne' k2 k2'
      exact ⟨x :: r₁, r, r', r₂, rfl, rfl, by simp [e1], e2⟩
    · rw [decode_mid_semis] at h h'
      have hm := numbers_ne (hn _ (List.mem_cons_self ..))
      obtain ⟨x, d1, t, rfl, k1, k2⟩ := decode_start_inv hm (numbers_digits ms) hf h
      obtain ⟨x', d1', t', rfl, k1', k2'⟩ := decode_start_inv hm (numbers_digits ms) hf' h'
      rw [k1] at k1'
      cases k1'
      obtain ⟨r₁, r, r', r₂, rfl, rfl, e1, e2⟩ := mid_edited hb' ha' hn' hs' hne' k2 k2'
      exact ⟨x :: r₁, r, r', r₂, rfl, rfl, by simp [e1], e2⟩

/-- If what is before a segment and its first number are changed, and the text still decodes, then to the segments as they
were, this one and those on its line moved as it is, those on later lines moved by lines. -/
theorem C138_decodes {z : Nat} {sep sep' : Text} {a a' : Int} {ns : List Int} {ps₁ ps₂ : List (Text × List Int)}
    (hs : Segments (ps₁ ++ (sep, a :: ns) :: ps₂)) (hs' : Segments (ps₁ ++ (sep', a' :: ns) :: ps₂))
    {raws raws' : List RawMapping}
    (h : decodeMappings (segText (ps₁ ++ (sep, a :: ns) :: ps₂) ++ List.replicate z ';') = some raws)
    (h' : decodeMappings (segText (ps₁ ++ (sep', a' :: ns) :: ps₂) ++ List.replicate z ';') = some raws') :
    ∃ r₁ r r' r₂, raws = r₁ ++ r :: r₂ ∧ raws' = r₁ ++ r' :: r₂.map (r.follow r') ∧ r₁.length = ps₁.length ∧
      r'.original = r.original := by
  have hn : ∀ {ps : List (Text × List Int)}, Segments ps → ∀ p ∈ ps, p.2 ≠ [] := fun hs p hp e => by
    have := hs.numbers p hp
    rw [e] at this
    simp at this
  have hn₁ := hn hs
  obtain ⟨hb, ha, -⟩ := hs
  obtain ⟨hb', ha', -⟩ := hs'
  unfold decodeMappings at h h'
  cases ps₁ with
  | nil =>
    simp only [List.nil_append, List.tail_cons] at *
    have hf : Follows (segText ps₂ ++ List.replicate z ';') := segments_follow (fun p hp => hb p (by simp [hp])) ha z
    rw [segText_cons] at h h'
    obtain ⟨l1, r, d1, r₂, rfl, k1, k2⟩ := start_read (hb _ (List.mem_cons_self ..)) (by simp) hf h
    obtain ⟨l2, r', d2, r₂', rfl, k1', k2'⟩ := start_read (hb' _ (List.mem_cons_self ..)) (by simp) hf h'
    obtain ⟨ho, rfl⟩ := numbers_changed k1 k1'
    exact ⟨[], r, r', r₂, rfl, by rw [mid_moved k2 k2']; rfl, rfl, ho⟩
  | cons p ps₁ =>
    obtain ⟨sp, ms⟩ := p
    simp only [List.cons_append, List.tail_cons] at *
    have hb₁ : ∀ p ∈ ps₁ ++ (sep, a :: ns) :: ps₂, ∀ c ∈ p.1, c = ',' ∨ c = ';' :=
      fun p hp => hb p (List.mem_cons_of_mem _ hp)
    have hb₁' : ∀ p ∈ ps₁ ++ (sep', a' :: ns) :: ps₂, ∀ c ∈ p.1, c = ',' ∨ c = ';' :=
      fun p hp => hb' p (List.mem_cons_of_mem _ hp)
    rw [segText_cons] at h h'
    obtain ⟨n, rfl⟩ := start_separators (hb _ (List.mem_cons_self ..)) h
    rw [decode_semis] at h h'
    have hm := numbers_ne (hn₁ _ (List.mem_cons_self ..))
    obtain ⟨x, d1, t, rfl, k1, k2⟩ := decode_start_inv hm (numbers_digits ms) (segments_follow hb₁ ha z) h
    obtain ⟨x', d1', t', rfl, k1', k2'⟩ := decode_start_inv hm (numbers_digits ms) (segments_follow hb₁' ha' z) h'
    rw [k1] at k1'
    cases k1'
    obtain ⟨r₁, r, r', r₂, rfl, rfl, e1, e2⟩ := mid_edited hb₁ ha (fun p hp => hn₁ p (List.mem_cons_of_mem _ hp))
      (hb₁' _ (by simp)) (ha' (sep', a' :: ns) (by simp)) k2 k2'
    exact ⟨x :: r₁, r, r', r₂, rfl, rfl, by simp [e1], e2⟩

/-- Two maps whose mappings strings are alike but for what is before one segment, the one with `k` segments before it, and its
first number. -/
def EditedAt (k : Nat) (m m' : SourceMapJson) : Prop :=
  ∃ (ps₁ ps₂ : List (Text × List Int)) (sep sep' : Text) (a a' : Int) (ns : List Int) (z : Nat) (s s' : String),
    ps₁.length = k ∧ Segments (ps₁ ++ (sep, a :: ns) :: ps₂) ∧ Segments (ps₁ ++ (sep', a' :: ns) :: ps₂) ∧
    m.mappings = some s ∧ s.toList = segText (ps₁ ++ (sep, a :: ns) :: ps₂) ++ List.replicate z ';' ∧
    m'.mappings = some s' ∧ s'.toList = segText (ps₁ ++ (sep', a' :: ns) :: ps₂) ++ List.replicate z ';'

/-- So in all, if the segments are in order. -/
theorem C138_segments {k : Nat} {m m' : SourceMapJson} (hed : EditedAt k m m') {raws raws' : List RawMapping}
    (hseg : m.Segments raws) (hseg' : m'.Segments raws') (hord : InOrder raws) {r r' : RawMapping}
    (hr : raws[k]? = some r) (hr' : raws'[k]? = some r') : raws' = raws.map (RawMapping.edited r.genPos r'.genPos) := by
  obtain ⟨ps₁, ps₂, sep, sep', a, a', ns, z, s, s', rfl, hs, hs', q1, q2, q1', q2'⟩ := hed
  obtain ⟨_, h1, h, -⟩ := hseg
  obtain ⟨_, h1', h', -⟩ := hseg'
  rw [q1] at h1
  rw [q1'] at h1'
  cases h1
  cases h1'
  rw [q2] at h
  rw [q2'] at h'
  obtain ⟨r₁, r0, r0', r₂, rfl, rfl, e1, e2⟩ := C138_decodes hs hs' h h'
  rw [← e1, List.getElem?_append_right (Nat.le_refl _)] at hr hr'
  simp only [Nat.sub_self, List.getElem?_cons_zero, Option.some.injEq] at hr hr'
  subst hr
  subst hr'
  obtain ⟨-, o2, o3⟩ := List.pairwise_append.1 hord
  rw [List.pairwise_cons] at o2
  rw [List.map_append, List.map_cons]
  congr 1
  · rw [List.map_congr_left (g := id), List.map_id]
    intro x hx
    exact if_pos (o3 x hx r0 (by simp))
  · congr 1
    · unfold RawMapping.edited
      simp only [RawMapping.genPos]
      rw [if_neg (by omega), if_pos trivial, ← e2, Nat.add_sub_cancel_left]
    · refine List.map_congr_left fun x hx => ?_
      have := o2.1 x hx
      exact (if_neg (show ¬(x.line < r0.line ∨ x.line = r0.line ∧ x.column < r0.column) by omega)).symm

/-- The same of positions, lines counted from one. -/
def Position.edited (f t : Nat × Nat) (p : Position) : Position :=
  if p.line < f.1 + 1 ∨ p.line = f.1 + 1 ∧ p.column < f.2 then p
  else if p.line = f.1 + 1 then ⟨t.1 + 1, p.column + t.2 - f.2⟩
  else ⟨p.line + t.1 - f.1, p.column⟩

theorem edited_named (S N : List String) (f t : Nat × Nat) (r : RawMapping) :
    named S N (r.edited f t) = (named S N r).moved (Position.edited f t) := by
  obtain ⟨l, c, o⟩ := r
  have key : Position.edited f t ⟨l + 1, c⟩ =
      ⟨((⟨l, c, o⟩ : RawMapping).edited f t).line + 1, ((⟨l, c, o⟩ : RawMapping).edited f t).column⟩ := by
    unfold RawMapping.edited Position.edited
    by_cases h1 : l < f.1 ∨ l = f.1 ∧ c < f.2
    · rw [if_pos (by simp only; omega), if_pos h1]
    · rw [if_neg (by simp only; omega), if_neg h1]
      by_cases h2 : l = f.1
      · rw [if_pos (by simp only; omega), if_pos h2]
        simp only [Position.mk.injEq, true_and]
        omega
      · rw [if_neg (by simp only; omega), if_neg h2]
        simp only [Position.mk.injEq, and_true]
        omega
  have key' : ((⟨l, c, o⟩ : RawMapping).edited f t).original = o := by
    unfold RawMapping.edited
    split
    · rfl
    · split <;> rfl
  unfold named Mapping.moved
  rw [key, key']

theorem edited_carries {f t : Nat × Nat} {p : Position} (hp : Position.Le ⟨f.1 + 1, f.2⟩ p) :
    Carries (Position.edited f t) p ((t.1 : Int) - f.1) := by
  obtain ⟨l, c⟩ := p
  have after : ∀ {x : Position}, Position.Le ⟨l, c⟩ x → ¬ (x.line < f.1 + 1 ∨ x.line = f.1 + 1 ∧ x.column < f.2) := by
    intro x hx
    simp only [Position.Le] at hp hx
    omega
  refine ⟨fun {x y} hx hy => ?_, fun {x} hx => ?_, fun {x} hx hv => ?_⟩
  · have hx' := after hx
    have hy' := after hy
    unfold Position.edited
    rw [if_neg hx', if_neg hy']
    obtain ⟨xl, xc⟩ := x
    obtain ⟨yl, yc⟩ := y
    simp only at hx' hy'
    by_cases h1 : xl = f.1 + 1
    · by_cases h2 : yl = f.1 + 1
      · rw [if_pos h1, if_pos h2]
        simp only [Position.Le, true_and]
        omega
      · rw [if_pos h1, if_neg h2]
        simp only [Position.Le]
        omega
    · by_cases h2 : yl = f.1 + 1
      · rw [if_neg h1, if_pos h2]
        simp only [Position.Le]
        omega
      · rw [if_neg h1, if_neg h2]
        simp only [Position.Le]
        omega
  · unfold Position.edited
    rw [if_neg (after hx)]
    split <;> simp only <;> omega
  · have hx' := after hx
    unfold Position.edited
    rw [if_neg hx']
    split <;> simp only <;> omega

theorem pairwise_either {α : Type} {R : α → α → Prop} {x y : α} : ∀ {l : List α}, l.Pairwise R → x ∈ l → y ∈ l → x ≠ y →
    R x y ∨ R y x
  | a :: l, hl, h1, h2, hne => by
    obtain ⟨p1, p2⟩ := List.pairwise_cons.1 hl
    rcases List.mem_cons.1 h1 with rfl | h1' <;> rcases List.mem_cons.1 h2 with rfl | h2'
    · exact absurd rfl hne
    · exact .inl (p1 _ h2')
    · exact .inr (p1 _ h1')
    · exact pairwise_either p2 h1' h2' hne

theorem InOrder.once {S N : List String} {raws : List RawMapping} (h : InOrder raws) : GenOnce (raws.map (named S N)) := by
  intro x hx y hy hxy
  obtain ⟨r, hr, rfl⟩ := List.mem_map.1 hx
  obtain ⟨s, hs, rfl⟩ := List.mem_map.1 hy
  by_contra hne
  have := pairwise_either h hr hs fun e => hne (by rw [e])
  simp only [named, Position.mk.injEq] at hxy
  omega

/-- What is before the segment stays before it. -/
theorem before_edited {f t : Nat × Nat} {raws : List RawMapping} (hord : InOrder raws)
    (hord' : InOrder (raws.map (RawMapping.edited f t))) {r x : RawMapping} (hr : r ∈ raws) (hf : r.genPos = f)
    (hx : x ∈ raws) (hlt : x.line < f.1 ∨ x.line = f.1 ∧ x.column < f.2) : x.line < t.1 ∨ x.line = t.1 ∧ x.column < t.2 := by
  have hne : x ≠ r := by
    rintro rfl
    rw [← hf] at hlt
    simp only [RawMapping.genPos] at hlt
    omega
  have e1 : x.edited f t = x := if_pos hlt
  have e2 : (r.edited f t).line = t.1 ∧ (r.edited f t).column = t.2 := by
    subst hf
    unfold RawMapping.edited
    simp only [RawMapping.genPos]
    rw [if_neg (by omega), if_pos trivial]
    exact ⟨rfl, Nat.add_sub_cancel_left ..⟩
  have key := pairwise_either (hord.and (List.pairwise_map.1 hord')) hx hr hne
  rw [e1, e2.1, e2.2] at key
  subst hf
  simp only [RawMapping.genPos] at hlt
  rcases key with ⟨-, h⟩ | ⟨h, -⟩
  · exact h
  · omega

/-- From the segment on the edited map answers as the other, positions moved. -/
theorem C138_original (hL : E.maps.Laws) (hT : E.maps.Total) {k : Nat} {m m' : SourceMapJson} (hed : EditedAt k m m')
    {raws raws' : List RawMapping} (hseg : m.Segments raws) (hseg' : m'.Segments raws') (hord : InOrder raws)
    (hord' : InOrder raws') {r r' : RawMapping} (hr : raws[k]? = some r) (hr' : raws'[k]? = some r')
    {u u' : Option String} {c₀ c d₀ d : BasicConsumer E} (h : Built m u c₀) (hd : Built m' u' d₀)
    {N : List String} (hN : m.names = some N) (hN' : m'.names = some N)
    {ops ops' : List Op} (hrun : c₀.run ops = .ok c) (hrun' : d₀.run ops' = .ok d)
    (hsources : d.getSources = c.getSources) (hlen : c.getSources.length < 2147483648)
    (hfit : ∀ x ∈ raws, Fits c.getSources N 2147483648 x) (hfit' : ∀ x ∈ raws', Fits c.getSources N 2147483648 x)
    {p : Position} {b : Option Bias} (hp : 1 ≤ p.line ∧ 0 ≤ p.column)
    (hi : p.line ≤ 2147483647 ∧ p.column ≤ 2147483647)
    (hi' : (p.edited r.genPos r'.genPos).line ≤ 2147483647 ∧ (p.edited r.genPos r'.genPos).column ≤ 2147483647)
    (hfrom : Position.Le ⟨r.line + 1, r.column⟩ p) :
    (d.originalPositionFor (p.edited r.genPos r'.genPos) b).map (fun r => r.1.map stripMapping) =
      (c.originalPositionFor p b).map
        (fun q => q.1.map fun x => (stripMapping x).moved (Position.edited r.genPos r'.genPos)) := by
  have hmv := C138_segments hed hseg hseg' hord hr hr'
  have hmem := List.mem_of_getElem? hr
  have hc := edited_carries (f := r.genPos) (t := r'.genPos) (p := p) hfrom
  refine moved_original (g := id) (fun _ => ⟨rfl, rfl⟩) hL hT h hd hseg hseg' hN hN' (h.rel.run hL hrun)
    (hd.rel.run hL hrun') hlen (by rw [hsources]; exact hlen) hfit (by rw [hsources]; exact hfit') hord.once hc ?_ hp hi hi'
  rw [List.map_id, hsources, hmv, List.map_map]
  rw [hmv] at hord'
  intro y hy _
  constructor
  · intro hm
    obtain ⟨x, hx, rfl⟩ := List.mem_map.1 hm
    refine ⟨_, List.mem_map.2 ⟨x, hx, rfl⟩, ?_, edited_named ..⟩
    simp only [Function.comp, edited_named] at hy
    by_cases hlt : x.line < r.line ∨ x.line = r.line ∧ x.column < r.column
    · exfalso
      have hb := before_edited hord hord' hmem rfl hx hlt
      have h1 : ((named c.getSources N x).moved (Position.edited r.genPos r'.genPos)).generated =
          ⟨x.line + 1, x.column⟩ := by
        have : x.edited r.genPos r'.genPos = x := if_pos hlt
        rw [← edited_named, this]
        rfl
      rw [h1] at hy
      have h2 := hc.line (Position.Le.refl' p)
      have h3 : p.line = r.line + 1 → (p.edited r.genPos r'.genPos).column = p.column + r'.column - r.column := by
        intro e
        unfold Position.edited
        simp only [Position.Le] at hfrom
        rw [if_neg (by simp only [RawMapping.genPos]; omega), if_pos (show p.line = r.genPos.1 + 1 from e)]
        rfl
      simp only [Position.Le, RawMapping.genPos] at hy hfrom hb h2 h3
      omega
    · have hle : Position.Le ⟨r.line + 1, r.column⟩ (named c.getSources N x).generated := by
        simp only [Position.Le, named]
        omega
      exact ((edited_carries (f := r.genPos) (t := r'.genPos) (Position.Le.refl' ⟨r.line + 1, r.column⟩)).le hfrom hle).1 hy
  · rintro ⟨x, hx, -, rfl⟩
    obtain ⟨x, hx', rfl⟩ := List.mem_map.1 hx
    exact List.mem_map.2 ⟨x, hx', edited_named ..⟩

/-- On lines above the segment, but the last of them, before and after, nothing changes. -/
theorem C138_above (hL : E.maps.Laws) (hT : E.maps.Total) {k : Nat} {m m' : SourceMapJson} (hed : EditedAt k m m')
    {raws raws' : List RawMapping} (hseg : m.Segments raws) (hseg' : m'.Segments raws') (hord : InOrder raws)
    {r r' : RawMapping} (hr : raws[k]? = some r) (hr' : raws'[k]? = some r')
    {u u' : Option String} {c₀ c d₀ d : BasicConsumer E} (h : Built m u c₀) (hd : Built m' u' d₀)
    {N : List String} (hN : m.names = some N) (hN' : m'.names = some N)
    {ops ops' : List Op} (hrun : c₀.run ops = .ok c) (hrun' : d₀.run ops' = .ok d)
    (hsources : d.getSources = c.getSources) (hlen : c.getSources.length < 2147483648)
    (hfit : ∀ x ∈ raws, Fits c.getSources N 2147483648 x) (hfit' : ∀ x ∈ raws', Fits c.getSources N 2147483648 x)
    {p : Position} {b : Option Bias} (hp : 1 ≤ p.line ∧ 0 ≤ p.column)
    (hi : p.line ≤ 2147483647 ∧ p.column ≤ 2147483647) (habove : p.line < r.line ∧ p.line < r'.line) :
    (d.originalPositionFor p b).map (fun r => r.1.map stripMapping) =
      (c.originalPositionFor p b).map (fun r => r.1.map stripMapping) := by
  have hmv := C138_segments hed hseg hseg' hord hr hr'
  have key := after_original hL hT h hd hseg hseg' hN hN' (h.rel.run hL hrun) (hd.rel.run hL hrun') hlen
    (by rw [hsources]; exact hlen) hfit (by rw [hsources]; exact hfit') hord.once (p := p) (e := (0, 0)) (b := b) ?_ hp
    (by rw [Position.after_zero]; exact hi)
  · simpa only [Mapping.after_zero, Position.after_zero] using key
  · rw [hsources, hmv, List.map_map]
    intro y _ hy
    simp only [Mapping.after_zero, exists_eq_right']
    have small : ∀ x : RawMapping, x.line ≤ p.line → x.edited r.genPos r'.genPos = x := fun x hx =>
      if_pos (.inl (by simp only [RawMapping.genPos]; omega))
    constructor
    · intro hm
      obtain ⟨x, hx, rfl⟩ := List.mem_map.1 hm
      have hx' : x.line ≤ p.line := by
        simp only [Function.comp, named] at hy
        by_cases h1 : x.line < r.line
        · have : (x.edited r.genPos r'.genPos).line = x.line := by
            rw [show x.edited r.genPos r'.genPos = x from if_pos (.inl h1)]
          rw [this] at hy
          omega
        · exfalso
          have : (x.edited r.genPos r'.genPos).line = x.line ∨ r'.line ≤ (x.edited r.genPos r'.genPos).line := by
            unfold RawMapping.edited
            split
            · exact .inl rfl
            · split
              · exact .inr (Nat.le_refl _)
              · right; simp only [RawMapping.genPos]; omega
          omega
      exact List.mem_map.2 ⟨x, hx, by rw [Function.comp, small x hx']⟩
    · intro hm
      obtain ⟨x, hx, rfl⟩ := List.mem_map.1 hm
      have hx' : x.line ≤ p.line := by
        simp only [named] at hy
        omega
      exact List.mem_map.2 ⟨x, hx, by rw [Function.comp, small x hx']⟩

/-- Reverse lookups find what they found, moved. -/
theorem C138_generated (hL : E.maps.Laws) {k : Nat} {m m' : SourceMapJson} (hed : EditedAt k m m')
    {raws raws' : List RawMapping} (hseg : m.Segments raws) (hseg' : m'.Segments raws') (hord : InOrder raws)
    {r r' : RawMapping} (hr : raws[k]? = some r) (hr' : raws'[k]? = some r')
    {u u' : Option String} {c₀ c d₀ d : BasicConsumer E} (h : Built m u c₀) (hd : Built m' u' d₀) {N : List String}
    {ops ops' : List Op} (hrun : c₀.run ops = .ok c) (hrun' : d₀.run ops' = .ok d)
    (hsources : d.getSources = c.getSources) (hlen : c.getSources.length < 2147483648)
    (hfit : ∀ x ∈ raws, Fits c.getSources N 2147483648 x) (hfit' : ∀ x ∈ raws', Fits c.getSources N 2147483648 x)
    (honce : OrigOnce (raws.map (named c.getSources N))) (hnd : c.getSources.Nodup)
    {s : String} {i i' : Nat} {src : String} (hs : c.Knows s i) (hs' : d.Knows s i') (hsrc : c.getSources[i]? = some src)
    (hsrc' : c.getSources[i']? = some src)
    {l col : Int} {b : Option Bias} (hp : IsI32 l ∧ IsI32 col) {q q' : Option Mapping} {c' d' : BasicConsumer E}
    (hq : c.generatedPositionFor s l col b = .ok (q, c')) (hq' : d.generatedPositionFor s l col b = .ok (q', d')) :
    q'.map Mapping.unnamed = q.map fun x => x.unnamed.moved (Position.edited r.genPos r'.genPos) := by
  have hmv := C138_segments hed hseg hseg' hord hr hr'
  refine moved_generated hL h hd hseg hseg' hrun hrun' hlen (by rw [hsources]; exact hlen) hfit
    (by rw [hsources]; exact hfit') honce hnd (by rw [hsources]; exact hnd) hs hs' hsrc (by rw [hsources]; exact hsrc') ?_ hp
    hq hq'
  intro y _
  rw [hsources, hmv, List.map_map]
  constructor
  · intro hm
    obtain ⟨x, hx, rfl⟩ := List.mem_map.1 hm
    exact ⟨_, List.mem_map.2 ⟨x, hx, rfl⟩, edited_named ..⟩
  · rintro ⟨x, hx, rfl⟩
    obtain ⟨x, hx', rfl⟩ := List.mem_map.1 hx
    exact List.mem_map.2 ⟨x, hx', edited_named ..⟩

theorem visits_in_order (hL : E.maps.Laws) {m : SourceMapJson} {raws : List RawMapping} (hseg : m.Segments raws)
    {u : Option String} {c₀ c c' : BasicConsumer E} (h : Built m u c₀) {ops : List Op} (hrun : c₀.run ops = .ok c)
    (hord : InOrder raws) {l : List LibMapping} (hl : c.eachMapping .generated = .ok (l, c')) :
    l.map LibMapping.raw = raws := by
  obtain ⟨_, _, k1, k2, k3⟩ := C36_each_generated hL h hrun hseg
  rw [hl] at k1
  cases k1
  refine k2.eq_of_pairwise (le := fun a b => a.genLe b = true) ?_ ?_ ?_
  · intro x y hx hy h1 h2
    by_contra hne
    have := pairwise_either hord (k2.mem_iff.1 hx) hy hne
    simp only [RawMapping.genLe, decide_eq_true_eq] at h1 h2
    omega
  · exact k3.imp fun h => by simpa [RawMapping.genLe] using h
  · exact hord.imp fun {x y} h =>
      decide_eq_true (show x.line < y.line ∨ x.line = y.line ∧ x.column ≤ y.column by omega)

/-- What is visited in generated order is what was, moved. -/
theorem C138_visits (hL : E.maps.Laws) {k : Nat} {m m' : SourceMapJson} (hed : EditedAt k m m')
    {raws raws' : List RawMapping} (hseg : m.Segments raws) (hseg' : m'.Segments raws') (hord : InOrder raws)
    (hord' : InOrder raws') {r r' : RawMapping} (hr : raws[k]? = some r) (hr' : raws'[k]? = some r')
    {u u' : Option String} {c₀ c c' d₀ d d' : BasicConsumer E} (h : Built m u c₀) (hd : Built m' u' d₀)
    {ops ops' : List Op} (hrun : c₀.run ops = .ok c) (hrun' : d₀.run ops' = .ok d) {l l' : List LibMapping}
    (hl : c.eachMapping .generated = .ok (l, c')) (hl' : d.eachMapping .generated = .ok (l', d')) :
    l'.map LibMapping.raw = (l.map LibMapping.raw).map (RawMapping.edited r.genPos r'.genPos) := by
  rw [visits_in_order hL hseg h hrun hord hl, visits_in_order hL hseg' hd hrun' hord' hl']
  exact C138_segments hed hseg hseg' hord hr hr'

/-- The demo map after a line break was put before its fifth segment, and the new line indented by four columns. -/
def demoBroken : SourceMapJson :=
  { demoMap with
    mappings := some "CAAC,IAAI,IAAM,SAAUA;IAClB,OAAOC,IAAID;CCDb,IAAI,IAAM,SAAUE,GAClB,OAAOA" }

def demoBrokenRaws : List RawMapping :=
  [⟨0, 1, some ⟨0, 0, 1, none⟩⟩, ⟨0, 5, some ⟨0, 0, 5, none⟩⟩, ⟨0, 9, some ⟨0, 0, 11, none⟩⟩,
    ⟨0, 18, some ⟨0, 0, 21, some 0⟩⟩, ⟨1, 4, some ⟨0, 1, 3, none⟩⟩, ⟨1, 11, some ⟨0, 1, 10, some 1⟩⟩,
    ⟨1, 15, some ⟨0, 1, 14, some 0⟩⟩, ⟨2, 1, some ⟨1, 0, 1, none⟩⟩, ⟨2, 5, some ⟨1, 0, 5, none⟩⟩,
    ⟨2, 9, some ⟨1, 0, 11, none⟩⟩, ⟨2, 18, some ⟨1, 0, 21, some 2⟩⟩, ⟨2, 21, some ⟨1, 1, 3, none⟩⟩,
    ⟨2, 28, some ⟨1, 1, 10, some 2⟩⟩]

/-- The segments of the demo map before and after the fifth. -/
def demoFirstFour : List (Text × List Int) :=
  [([], [1, 0, 0, 1]), ([','], [4, 0, 0, 4]), ([','], [4, 0, 0, 6]), ([','], [9, 0, 0, 10, 0])]

def demoLastEight : List (Text × List Int) :=
  [([','], [7, 0, 0, 7, 1]), ([','], [4, 0, 0, 4, -1]), ([';'], [1, 1, -1, -13]), ([','], [4, 0, 0, 4]),
    ([','], [4, 0, 0, 6]), ([','], [9, 0, 0, 10, 2]), ([','], [3, 0, 1, -18]), ([','], [7, 0, 0, 7, 0])]

/-- The hypotheses hold of the two: the fifth segment moves from line 0, column 21, to line 1, column 4. -/
theorem broken_fits : EditedAt 4 demoMap demoBroken ∧ demoMap.Segments demoRaws ∧ demoBroken.Segments demoBrokenRaws ∧
    InOrder demoRaws ∧ InOrder demoBrokenRaws ∧ demoRaws[4]? = some ⟨0, 21, some ⟨0, 1, 3, none⟩⟩ ∧
    demoBrokenRaws[4]? = some ⟨1, 4, some ⟨0, 1, 3, none⟩⟩ ∧ ∃ c d : BasicConsumer demoEnv,
    Built demoMap none c ∧ Built demoBroken none d ∧ d.getSources = c.getSources ∧
    (∀ x ∈ demoRaws, Fits c.getSources ["bar", "baz", "n"] 2147483648 x) ∧
    (∀ x ∈ demoBrokenRaws, Fits c.getSources ["bar", "baz", "n"] 2147483648 x) ∧
    OrigOnce (demoRaws.map (named c.getSources ["bar", "baz", "n"])) := by
  obtain ⟨c, hc, h⟩ := Res.of_test (r := demoConsumer demoMap)
    (fun c => decide (c.getSources = ["one.js", "two.js"])) (by decide +kernel)
  obtain ⟨d, hd, h'⟩ := Res.of_test (r := demoConsumer demoBroken)
    (fun c => decide (c.getSources = ["one.js", "two.js"])) (by decide +kernel)
  simp only [decide_eq_true_eq] at h h'
  refine ⟨⟨demoFirstFour, demoLastEight, [','], [';'], 3, 4, [0, 1, -18], 0, _, _, rfl, ⟨by decide, by decide, by decide⟩,
      ⟨by decide, by decide, by decide⟩, rfl, by decide +kernel, rfl, by decide +kernel⟩,
    ⟨_, rfl, by decide +kernel, by simp [demoRaws, RawMapping.U32]⟩,
    ⟨_, rfl, by decide +kernel, by simp [demoBrokenRaws, RawMapping.U32]⟩, by unfold InOrder; decide +kernel,
    by unfold InOrder; decide +kernel, rfl, rfl, c, d, .inr hc, .inr hd, by rw [h, h'], ?_, ?_, ?_⟩
  · rw [h]; simp [demoRaws, Fits]
  · rw [h]; simp [demoBrokenRaws, Fits]
  · rw [h]; unfold OrigOnce; decide +kernel

/-- What was at line 1, column 33, is at line 2, column 16, and what was on line 2 is on line 3. -/
theorem C138_case : Position.edited (0, 21) (1, 4) ⟨1, 33⟩ = ⟨2, 16⟩ ∧ Position.edited (0, 21) (1, 4) ⟨2, 1⟩ = ⟨3, 1⟩ ∧
    demoAsk demoMap (fun c => c.originalPositionFor ⟨1, 33⟩ (some .lub)) =
      .ok (some ⟨⟨2, 1⟩, some ⟨1, 1⟩, some "two.js", none, none⟩) ∧
    demoAsk demoBroken (fun c => c.originalPositionFor ⟨2, 16⟩ (some .lub)) =
      .ok (some ⟨⟨3, 1⟩, some ⟨1, 1⟩, some "two.js", none, none⟩) ∧
    demoAsk demoMap (fun c => c.generatedPositionFor "one.js" 2 3 (some .lub)) =
      .ok (some ⟨⟨1, 21⟩, some ⟨1, 3⟩, some "one.js", some "bar", none⟩) ∧
    demoAsk demoBroken (fun c => c.generatedPositionFor "one.js" 2 3 (some .lub)) =
      .ok (some ⟨⟨2, 4⟩, some ⟨1, 3⟩, some "one.js", some "bar", none⟩) := by
  refine ⟨?_, ?_, ?_, ?_, ?_, ?_⟩ <;> decide +kernel

end RSM
