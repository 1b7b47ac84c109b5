import Verif.Lemmas.Decode
/-! # Texts decoding to given segments, and the shortest of them -/

namespace RSM

open Spec

/-! ## What a text with given segments looks like -/

theorem splitOn_eq_cons {sep : Char} {t l : List Char} {ls : List (List Char)} (h : splitOn sep t = l :: ls) :
    sep ∉ l ∧ ((ls = [] ∧ t = l) ∨ ∃ t', t = l ++ sep :: t' ∧ splitOn sep t' = ls) := by
  induction t generalizing l ls with
  | nil => simp only [splitOn, List.cons.injEq] at h; obtain ⟨rfl, rfl⟩ := h; simp
  | cons c t ih =>
    simp only [splitOn] at h
    split at h
    · rename_i hc
      subst hc
      simp only [List.cons.injEq] at h
      obtain ⟨rfl, rfl⟩ := h
      exact ⟨by simp, .inr ⟨t, rfl, rfl⟩⟩
    · rename_i hc
      obtain ⟨p, ps, hp⟩ := splitOn_cons_of sep t
      rw [hp] at h
      simp only [List.cons.injEq] at h
      obtain ⟨rfl, rfl⟩ := h
      obtain ⟨h1, h2⟩ := ih hp
      refine ⟨by simp only [List.mem_cons, not_or]; exact ⟨fun e => hc e.symm, h1⟩, ?_⟩
      rcases h2 with ⟨rfl, rfl⟩ | ⟨t', rfl, h2⟩
      · exact .inl ⟨rfl, rfl⟩
      · exact .inr ⟨t', rfl, h2⟩

theorem decodeSegment_line {line col : Nat} {d d' : DState} {cs : List Char} {r : RawMapping}
    (h : decodeSegment line col d cs = some (r, d')) : r.line = line := by
  unfold decodeSegment at h
  split at h <;> simp only [Option.bind_eq_bind, Option.bind_eq_some_iff, Option.some.injEq, Prod.mk.injEq,
    reduceCtorEq] at h
  · obtain ⟨_, _, rfl, _⟩ := h; rfl
  · obtain ⟨_, _, _, _, _, _, _, _, rfl, _⟩ := h; rfl
  · obtain ⟨_, _, _, _, _, _, _, _, _, _, rfl, _⟩ := h; rfl

theorem decodeSegments_line : ∀ {ss : List (List Char)} {line col : Nat} {d d' : DState} {ms : List RawMapping},
    decodeSegments line col d ss = some (ms, d') → ∀ m ∈ ms, m.line = line
  | [], _, _, _, _, _, h => by simp only [decodeSegments, Option.some.injEq, Prod.mk.injEq] at h; simp [← h.1]
  | s :: ss, line, col, d, d', ms, h => by
    simp only [decodeSegments, Option.bind_eq_bind, Option.bind_eq_some_iff, Option.some.injEq, Prod.mk.injEq] at h
    obtain ⟨⟨r, d1⟩, h1, ⟨rs, d2⟩, h2, rfl, _⟩ := h
    intro m hm
    rcases List.mem_cons.1 hm with rfl | hm
    · exact decodeSegment_line h1
    · exact decodeSegments_line h2 m hm

theorem decodeLines_line : ∀ {ls : List (List Char)} {line : Nat} {d : DState} {ms : List RawMapping},
    decodeLines line d ls = some ms → ∀ m ∈ ms, line ≤ m.line
  | [], _, _, _, h => by simp only [decodeLines, Option.some.injEq] at h; simp [← h]
  | l :: ls, line, d, ms, h => by
    intro m hm
    by_cases hn : l = []
    · subst hn
      simp only [decodeLines, if_true, Option.bind_eq_bind, Option.bind_some, List.nil_append,
        Option.bind_eq_some_iff, Option.some.injEq] at h
      obtain ⟨rs, h2, rfl⟩ := h
      exact Nat.le_of_succ_le (decodeLines_line h2 m hm)
    · simp only [decodeLines, if_neg hn, Option.bind_eq_bind, Option.bind_eq_some_iff, Option.some.injEq] at h
      obtain ⟨⟨r, d1⟩, h1, rs, h2, rfl⟩ := h
      rcases List.mem_append.1 hm with hm | hm
      · exact Nat.le_of_eq (decodeSegments_line h1 m hm).symm
      · exact Nat.le_of_succ_le (decodeLines_line h2 m hm)

/-- The first segment of the rest of a line, and what follows it. -/
theorem segments_inv {line col : Nat} {d : DState} {text l : List Char} {ls : List (List Char)} {raw : RawMapping}
    {out : List RawMapping} (hl : splitOn ';' text = l :: ls)
    (h : (do
        let (ms, d) ← decodeSegments line col d (splitOn ',' l)
        let rest ← decodeLines (line + 1) d ls
        some (ms ++ rest)) = some (raw :: out)) :
    ∃ seg t d1, text = seg ++ t ∧ decodeSegment line col d seg = some (raw, d1) ∧
      decodeMid line raw.column d1 t = some out := by
  obtain ⟨seg, segs, hs⟩ := splitOn_cons_of ',' l
  rw [hs] at h
  simp only [decodeSegments, Option.bind_eq_bind, Option.bind_eq_some_iff, Option.some.injEq] at h
  obtain ⟨⟨ms, d2⟩, ⟨⟨r, d1⟩, h1, ⟨rs, d3⟩, h2, h3⟩, rest, h4, h5⟩ := h
  simp only [Prod.mk.injEq] at h3
  obtain ⟨rfl, rfl⟩ := h3
  simp only [List.cons_append, List.cons.injEq] at h5
  obtain ⟨rfl, rfl⟩ := h5
  obtain ⟨n1, h6⟩ := splitOn_eq_cons hs
  obtain ⟨n2, h7⟩ := splitOn_eq_cons hl
  rcases h6 with ⟨rfl, rfl⟩ | ⟨l', rfl, rfl⟩
  · simp only [decodeSegments, Option.some.injEq, Prod.mk.injEq] at h2
    obtain ⟨rfl, rfl⟩ := h2
    rcases h7 with ⟨rfl, rfl⟩ | ⟨t', rfl, rfl⟩
    · refine ⟨text, [], d1, by simp, h1, ?_⟩
      simp only [decodeLines, Option.some.injEq] at h4
      simp [decodeMid_nil, ← h4]
    · refine ⟨l, ';' :: t', d1, rfl, h1, ?_⟩
      unfold decodeMid
      rw [splitOn_sep]
      simpa using h4
  · have n3 : ';' ∉ ',' :: l' := fun hm => n2 (by simp only [List.mem_append]; exact .inr hm)
    have key : ∀ t, splitOn ';' t = (',' :: l') :: ls → decodeMid line r.column d1 t = some (rs ++ rest) := by
      intro t ht
      unfold decodeMid
      rw [ht]
      simp [h2, h4]
    rcases h7 with ⟨rfl, rfl⟩ | ⟨t', rfl, rfl⟩
    · exact ⟨seg, ',' :: l', d1, rfl, h1, key _ (splitOn_self ';' n3)⟩
    · refine ⟨seg, ',' :: l' ++ ';' :: t', d1, by simp, h1, key _ ?_⟩
      have := splitOn_append ';' (t := ';' :: t') n3 (splitOn_sep ';' t')
      simpa using this

/-- At the start of a line: a segment of this line, or the end of the line. -/
theorem decodeLines_inv {line : Nat} {d : DState} {text : List Char} {raw : RawMapping} {out : List RawMapping}
    (h : decodeLines line d (splitOn ';' text) = some (raw :: out)) :
    (raw.line = line ∧ ∃ seg t d1, text = seg ++ t ∧ decodeSegment line 0 d seg = some (raw, d1) ∧
      decodeMid line raw.column d1 t = some out) ∨
    (line < raw.line ∧ ∃ t, text = ';' :: t ∧ decodeLines (line + 1) d (splitOn ';' t) = some (raw :: out)) := by
  obtain ⟨l, ls, hl⟩ := splitOn_cons_of ';' text
  rw [hl] at h
  by_cases hn : l = []
  · subst hn
    have h' : decodeLines (line + 1) d ls = some (raw :: out) := by
      simp only [decodeLines, if_true, Option.bind_eq_bind, Option.bind_some, List.nil_append] at h
      cases hx : decodeLines (line + 1) d ls with
      | none => rw [hx] at h; cases h
      | some x => rw [hx] at h; simpa using h
    obtain ⟨_, h7⟩ := splitOn_eq_cons hl
    rcases h7 with ⟨rfl, rfl⟩ | ⟨t', rfl, rfl⟩
    · simp [decodeLines] at h'
    · exact .inr ⟨decodeLines_line h' raw (by simp), t', rfl, h'⟩
  · simp only [decodeLines, if_neg hn] at h
    obtain ⟨seg, t, d1, h1, h2, h3⟩ := segments_inv hl h
    exact .inl ⟨decodeSegment_line h2, seg, t, d1, h1, h2, h3⟩

/-- After a segment: a further segment of this line, or the end of the line. -/
theorem decodeMid_inv {line col : Nat} {d : DState} {text : List Char} {raw : RawMapping} {out : List RawMapping}
    (h : decodeMid line col d text = some (raw :: out)) :
    (raw.line = line ∧ ∃ seg t d1, text = ',' :: (seg ++ t) ∧ decodeSegment line col d seg = some (raw, d1) ∧
      decodeMid line raw.column d1 t = some out) ∨
    (line < raw.line ∧ ∃ t, text = ';' :: t ∧ decodeLines (line + 1) d (splitOn ';' t) = some (raw :: out)) := by
  obtain ⟨l, ls, hl⟩ := splitOn_cons_of ';' text
  unfold decodeMid at h
  rw [hl] at h
  simp only at h
  obtain ⟨n2, h7⟩ := splitOn_eq_cons hl
  cases l with
  | nil =>
    simp only at h
    rcases h7 with ⟨rfl, rfl⟩ | ⟨t', rfl, rfl⟩
    · simp [decodeLines] at h
    · exact .inr ⟨decodeLines_line h raw (by simp), t', rfl, h⟩
  | cons c r =>
    simp only at h
    split at h
    · rename_i hc
      subst hc
      have n3 : ';' ∉ r := fun hm => n2 (List.mem_cons_of_mem _ hm)
      obtain ⟨text', rfl, hl'⟩ : ∃ text', text = ',' :: text' ∧ splitOn ';' text' = r :: ls := by
        rcases h7 with ⟨rfl, rfl⟩ | ⟨t', rfl, rfl⟩
        · exact ⟨r, rfl, splitOn_self ';' n3⟩
        · refine ⟨r ++ ';' :: t', rfl, ?_⟩
          simpa using splitOn_append ';' (t := ';' :: t') n3 (splitOn_sep ';' t')
      obtain ⟨seg, t, d1, h1, h2, h3⟩ := segments_inv hl' h
      exact .inl ⟨decodeSegment_line h2, seg, t, d1, by rw [h1], h2, h3⟩
    · cases h

/-- Empty lines before the line of the first segment. -/
theorem decodeLines_skip {d : DState} {raw : RawMapping} {out : List RawMapping} : ∀ (n : Nat) {line : Nat}
    {text : List Char}, raw.line = line + n → decodeLines line d (splitOn ';' text) = some (raw :: out) →
    ∃ t, text = List.replicate n ';' ++ t ∧ decodeLines raw.line d (splitOn ';' t) = some (raw :: out)
  | 0, line, text, h1, h2 => ⟨text, rfl, by rw [h1]; exact h2⟩
  | n + 1, line, text, h1, h2 => by
    rcases decodeLines_inv h2 with ⟨h, _⟩ | ⟨_, t, rfl, h⟩
    · omega
    · obtain ⟨t', rfl, h'⟩ := decodeLines_skip n (by omega) h
      exact ⟨t', rfl, h'⟩

/-! ## The shortest fields -/

theorem unsigned_shortest : ∀ {cs rest : List Char} {n : Nat}, decodeUnsigned cs = some (n, rest) →
    ∀ m, m ≤ n → (encU m).length + rest.length ≤ cs.length
  | [], _, _, h => by simp [decodeUnsigned] at h
  | c :: cs, rest, n, h => by
    intro m hm
    simp only [decodeUnsigned] at h
    split at h
    · cases h
    · rename_i v hv
      split at h
      · rename_i hlt
        simp only [Option.some.injEq, Prod.mk.injEq] at h
        obtain ⟨rfl, rfl⟩ := h
        rw [encU, dif_pos (by omega)]
        simp; omega
      · split at h
        · cases h
        · rename_i hi rest' hd
          simp only [Option.some.injEq, Prod.mk.injEq] at h
          obtain ⟨rfl, rfl⟩ := h
          have hv64 : v < 64 := by
            unfold digitValue at hv
            split at hv
            · rename_i hc
              obtain ⟨h1, h2⟩ := hc
              have : c.toNat ≤ 'Z'.toNat := h2
              cases hv
              have : 'Z'.toNat = 90 := rfl
              have : 'A'.toNat = 65 := rfl
              omega
            · split at hv
              · rename_i hc
                have : c.toNat ≤ 'z'.toNat := hc.2
                cases hv
                have : 'z'.toNat = 122 := rfl
                have : 'a'.toNat = 97 := rfl
                omega
              · split at hv
                · rename_i hc
                  have : c.toNat ≤ '9'.toNat := hc.2
                  cases hv
                  have : '9'.toNat = 57 := rfl
                  have : '0'.toNat = 48 := rfl
                  omega
                · split at hv
                  · cases hv; omega
                  · split at hv
                    · cases hv; omega
                    · cases hv
          rw [encU]
          split
          · have := unsigned_shortest hd 0 (by omega)
            rw [encU] at this
            simp at this ⊢; omega
          · have := unsigned_shortest hd (m / 32) (by omega)
            simp; omega

theorem vlq_shortest {cs rest : List Char} {v : Int} (h : decodeVlq cs = some (v, rest)) :
    (encU (signed v)).length + rest.length ≤ cs.length := by
  unfold decodeVlq at h
  split at h
  · cases h
  · rename_i n rest' hd
    simp only [Option.some.injEq, Prod.mk.injEq] at h
    obtain ⟨rfl, rfl⟩ := h
    refine unsigned_shortest hd _ ?_
    unfold signed unsign; split <;> split <;> omega

theorem fields_shortest : ∀ (k : Nat) {cs : List Char} {ds : List Int}, cs.length ≤ k →
    decodeFields cs = some ds → (encAll ds).length ≤ cs.length
  | k, [], ds, _, h => by
    simp only [decodeFields, Option.some.injEq] at h
    subst h; simp [encAll]
  | 0, _ :: _, _, hk, _ => by simp at hk
  | k + 1, c :: cs, ds, hk, h => by
    rw [decodeFields] at h
    split at h
    · cases h
    · rename_i v rest hd
      split at h
      · rename_i hlt
        split at h
        · cases h
        · rename_i vs hr
          simp only [Option.some.injEq] at h
          subst h
          rw [encAll_cons, List.length_append]
          have h1 := vlq_shortest hd
          have h2 := fields_shortest k (by omega) hr
          omega
      · cases h

theorem offset_inv {b v : Nat} {x : Int} (h : offset b x = some v) : x = (v : Int) - b := by
  unfold offset at h
  split at h
  · simp only [Option.some.injEq] at h; omega
  · cases h

/-- The differences a segment is made of. -/
def deltas (col : Nat) (d : DState) (r : RawMapping) : List Int :=
  ((r.column : Int) - col) ::
    match r.original with
    | none => []
    | some o => [(o.source : Int) - d.source, (o.line : Int) - d.line, (o.column : Int) - d.column] ++
      match o.name with
      | none => []
      | some n => [(n : Int) - d.name]

/-- The running values after a segment. -/
def DState.after (d : DState) (r : RawMapping) : DState :=
  match r.original with
  | none => d
  | some o => ⟨o.source, o.line, o.column, o.name.getD d.name⟩

theorem decodeSegment_inv {line col : Nat} {d d' : DState} {cs : List Char} {r : RawMapping}
    (h : decodeSegment line col d cs = some (r, d')) :
    decodeFields cs = some (deltas col d r) ∧ d' = DState.after d r := by
  unfold decodeSegment at h
  split at h <;> simp only [Option.bind_eq_bind, Option.bind_eq_some_iff, Option.some.injEq, Prod.mk.injEq,
    reduceCtorEq] at h
  · rename_i hf
    obtain ⟨c, h1, rfl, rfl⟩ := h
    rw [hf, offset_inv h1]; exact ⟨rfl, rfl⟩
  · rename_i hf
    obtain ⟨c, h1, s, h2, l, h3, k, h4, rfl, rfl⟩ := h
    rw [hf, offset_inv h1, offset_inv h2, offset_inv h3, offset_inv h4]; exact ⟨rfl, rfl⟩
  · rename_i hf
    obtain ⟨c, h1, s, h2, l, h3, k, h4, n, h5, rfl, rfl⟩ := h
    rw [hf, offset_inv h1, offset_inv h2, offset_inv h3, offset_inv h4, offset_inv h5]; exact ⟨rfl, rfl⟩

theorem segment_shortest {line col : Nat} {d d' : DState} {cs : List Char} {r : RawMapping}
    (h : decodeSegment line col d cs = some (r, d')) :
    (encAll (deltas col d r)).length ≤ cs.length ∧ d' = DState.after d r := by
  obtain ⟨h1, h2⟩ := decodeSegment_inv h
  exact ⟨fields_shortest _ (Nat.le_refl _) h1, h2⟩

end RSM
