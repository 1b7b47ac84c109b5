import Verif.Props.PutBelow
import Verif.Props.JoinedText
/-! # Property C137: two maps put one below the other -/

namespace RSM
open Spec BasicConsumer

variable {E : Env}

/-- Segments as they are separated in a text that decodes: line ends before the first, a comma or line ends before the
others. -/
structure Lined (ps : List (Text × List Int)) : Prop where
  first : ∀ p ∈ ps.head?, ∃ n, p.1 = List.replicate n ';'
  others : ∀ p ∈ ps.tail, p.1 = [','] ∨ ∃ n, p.1 = List.replicate (n + 1) ';'
  numbers : ∀ p ∈ ps, p.2 ≠ []

/-- What has to be added to the first numbers of segments so that, read from `d'` on, they are those read from `d` on and
counted from `e`. -/
def gap (d d' e : DState) : Change :=
  ⟨0, d.source + e.source - d'.source, d.line + e.line - d'.line, d.column + e.column - d'.column,
    d.name + e.name - d'.name⟩

def Spec.DState.Small (d : DState) : Prop :=
  d.source < 2147483648 ∧ d.line < 2147483648 ∧ d.column < 2147483648 ∧ d.name < 2147483648

/-- All numbers of the segment are below 2^31. -/
def Spec.RawMapping.Small (r : RawMapping) : Prop :=
  r.line < 2147483648 ∧ r.column < 2147483648 ∧ ∀ o ∈ r.original, o.source < 2147483648 ∧ o.line < 2147483648 ∧ o.column < 2147483648 ∧
    ∀ n ∈ o.name, n < 2147483648

theorem numbers_encAll (ns : List Int) : ns.flatMap vlqText = encAll ns := by
  unfold encAll vlqText
  rw [List.flatMap_def]

theorem fields_numbers : ∀ {ns ds : List Int}, decodeFields (ns.flatMap vlqText) = some ds → ds = ns
  | [], ds, h => by
    simp only [List.flatMap_nil, decodeFields, Option.some.injEq] at h
    exact h.symm
  | n :: ns, ds, h => by
    rw [List.flatMap_cons] at h
    have hv := vlqText_read n (ns.flatMap vlqText)
    obtain ⟨c, cs, hc⟩ := List.exists_cons_of_ne_nil (encU_ne_nil (signed n))
    rw [show vlqText n = c :: cs from hc, List.cons_append] at h hv
    rw [decodeFields, hv] at h
    simp only at h
    split at h
    · split at h
      · cases h
      · rename_i vs hr
        cases h
        rw [fields_numbers hr]
    · cases h

theorem offset_of {b v : Nat} (h : v < 4294967296) {x : Int} (hx : x = (v : Int) - b) : offset b x = some v := by
  subst hx
  unfold offset
  rw [if_pos (by omega)]
  congr 1
  omega

/-- One segment: its text changed, read from the other numbers. -/
theorem segment_changed {line col k : Nat} {d d1 d' e : DState} {ns : List Int} {r : RawMapping}
    (h : decodeSegment line col d (ns.flatMap vlqText) = some (r, d1)) (hr : (r.counted k e).Small) (hd : d'.Small)
    (hcol : col < 2147483648) :
    ∃ ns' d1', (∀ sep ps, change (gap d d' e) ((sep, ns) :: ps) = (sep, ns') :: change (gap d1 d1' e) ps) ∧
      decodeSegment (line + k) col d' (ns'.flatMap vlqText) = some (r.counted k e, d1') ∧ d1'.Small := by
  obtain ⟨hf, rfl⟩ := decodeSegment_inv h
  have hns := fields_numbers hf
  have hl := decodeSegment_line h
  obtain ⟨rl, rc, o⟩ := r
  simp only at hl
  subst hl
  obtain ⟨-, hr1, hr2⟩ := hr
  simp only [RawMapping.counted] at hr1
  obtain ⟨q1, q2, q3, q4⟩ := hd
  cases o with
  | none =>
    simp only [deltas] at hns
    subst hns
    refine ⟨[(rc : Int) - col], d', ?_, ?_, ⟨q1, q2, q3, q4⟩⟩
    · intro sep ps
      simp [change, gap, DState.after]
    · unfold decodeSegment
      rw [numbers_encAll, decodeFields_encAll _ (by simp; omega)]
      simp only [Option.bind_eq_bind]
      rw [offset_of (v := rc) (by omega) rfl]
      rfl
  | some o =>
    obtain ⟨s, l, c, n⟩ := o
    obtain ⟨u1, u2, u3, u4⟩ := hr2 _ rfl
    simp only at u1 u2 u3 u4
    cases n with
    | none =>
      simp only [deltas, List.append_nil] at hns
      subst hns
      refine ⟨[(rc : Int) - col, ((s + e.source : Nat) : Int) - d'.source, ((l + e.line : Nat) : Int) - d'.line,
        ((c + e.column : Nat) : Int) - d'.column], ⟨s + e.source, l + e.line, c + e.column, d'.name⟩, ?_, ?_, u1, u2, u3, q4⟩
      · intro sep ps
        simp only [change, gap, DState.after, Option.getD_none, ite_self, Int.add_zero, List.cons.injEq, Prod.mk.injEq,
          true_and, and_true]
        refine ⟨⟨?_, ?_, ?_⟩, ?_⟩
        · push_cast; omega
        · push_cast; omega
        · push_cast; omega
        · congr 2 <;> push_cast <;> omega
      · unfold decodeSegment
        rw [numbers_encAll, decodeFields_encAll _ (by
          simp only [List.mem_cons, List.not_mem_nil, or_false]
          rintro x (rfl | rfl | rfl | rfl) <;> omega)]
        simp only [Option.bind_eq_bind]
        rw [offset_of (v := rc) (by omega) rfl, offset_of (v := s + e.source) (by omega) rfl,
          offset_of (v := l + e.line) (by omega) rfl, offset_of (v := c + e.column) (by omega) rfl]
        rfl
    | some n =>
      have u5 : n + e.name < 2147483648 := u4 _ rfl
      simp only [deltas, List.cons_append, List.nil_append] at hns
      subst hns
      refine ⟨[(rc : Int) - col, ((s + e.source : Nat) : Int) - d'.source, ((l + e.line : Nat) : Int) - d'.line,
        ((c + e.column : Nat) : Int) - d'.column, ((n + e.name : Nat) : Int) - d'.name],
        ⟨s + e.source, l + e.line, c + e.column, n + e.name⟩, ?_, ?_, u1, u2, u3, u5⟩
      · intro sep ps
        simp only [change, gap, DState.after, Option.getD_some, ite_self, Int.add_zero, List.cons.injEq, Prod.mk.injEq,
          true_and, and_true]
        refine ⟨⟨?_, ?_, ?_, ?_⟩, ?_⟩
        · push_cast; omega
        · push_cast; omega
        · push_cast; omega
        · push_cast; omega
        · congr 2 <;> push_cast <;> omega
      · unfold decodeSegment
        rw [numbers_encAll, decodeFields_encAll _ (by
          simp only [List.mem_cons, List.not_mem_nil, or_false]
          rintro x (rfl | rfl | rfl | rfl | rfl) <;> omega)]
        simp only [Option.bind_eq_bind]
        rw [offset_of (v := rc) (by omega) rfl, offset_of (v := s + e.source) (by omega) rfl,
          offset_of (v := l + e.line) (by omega) rfl, offset_of (v := c + e.column) (by omega) rfl,
          offset_of (v := n + e.name) (by omega) rfl]
        rfl

theorem semis_only (line : Nat) (d : DState) (z : Nat) :
    decodeLines line d (splitOn ';' (List.replicate z ';')) = some [] := by
  have := decode_semis line d z []
  rw [List.append_nil] at this
  rw [this]
  rfl

theorem mid_semis_only (line col : Nat) (d : DState) (z : Nat) : decodeMid line col d (List.replicate z ';') = some [] := by
  cases z with
  | zero => rfl
  | succ z =>
    have := decode_mid_semis line col d z []
    rw [List.append_nil] at this
    rw [this]
    rfl

theorem numbers_ne {ns : List Int} (h : ns ≠ []) : ns.flatMap vlqText ≠ [] := by
  obtain ⟨n, ns, rfl⟩ := List.exists_cons_of_ne_nil h
  obtain ⟨c, cs, hc⟩ := List.exists_cons_of_ne_nil (encU_ne_nil (signed n))
  rw [List.flatMap_cons, show vlqText n = c :: cs from hc]
  simp

theorem segment_ne {line col : Nat} {d : DState} {cs : List Char} {x : RawMapping × DState}
    (h : decodeSegment line col d cs = some x) : cs ≠ [] := by
  rintro rfl
  simp [decodeSegment, decodeFields] at h

theorem lined_follows {ps : List (Text × List Int)} (hs : ∀ p ∈ ps, p.1 = [','] ∨ ∃ n, p.1 = List.replicate (n + 1) ';')
    (z : Nat) : Follows (segText ps ++ List.replicate z ';') := by
  cases ps with
  | nil => cases z with
    | zero => exact .inl rfl
    | succ z => exact .inr (.inr ⟨List.replicate z ';', rfl⟩)
  | cons p ps =>
    obtain ⟨sep, ns⟩ := p
    rcases hs _ (List.mem_cons_self ..) with h | ⟨n, h⟩ <;> simp only at h <;> subst h
    · exact .inr (.inl ⟨ns.flatMap vlqText ++ segText ps ++ List.replicate z ';', by simp [segText]⟩)
    · exact .inr (.inr ⟨List.replicate n ';' ++ ns.flatMap vlqText ++ segText ps ++ List.replicate z ';', by
        simp [segText, List.replicate_succ]⟩)

theorem segText_cons (sep : Text) (ns : List Int) (ps : List (Text × List Int)) (r : Text) :
    segText ((sep, ns) :: ps) ++ r = sep ++ (ns.flatMap vlqText ++ (segText ps ++ r)) := by
  simp [segText]

theorem mid_changed {k z : Nat} {e : DState} : ∀ {ps : List (Text × List Int)} {line col : Nat} {d d' : DState}
    {rs : List RawMapping}, (∀ p ∈ ps, p.1 = [','] ∨ ∃ n, p.1 = List.replicate (n + 1) ';') → (∀ p ∈ ps, p.2 ≠ []) →
    decodeMid line col d (segText ps ++ List.replicate z ';') = some rs → (∀ r ∈ rs, (r.counted k e).Small) → d'.Small →
    col < 2147483648 →
    decodeMid (line + k) col d' (segText (change (gap d d' e) ps) ++ List.replicate z ';') =
      some (rs.map (RawMapping.counted k e))
  | [], line, col, d, d', rs, _, _, h, _, _, _ => by
    simp only [segText, List.flatMap_nil, List.nil_append, change] at h ⊢
    rw [mid_semis_only] at h ⊢
    cases h
    rfl
  | (sep, ns) :: ps, line, col, d, d', rs, hs, hn, h, hu, hd, hcol => by
    have hs' : ∀ p ∈ ps, p.1 = [','] ∨ ∃ n, p.1 = List.replicate (n + 1) ';' := fun p hp => hs p (by simp [hp])
    have hn' : ∀ p ∈ ps, p.2 ≠ [] := fun p hp => hn p (by simp [hp])
    rw [segText_cons] at h
    rcases hs _ (List.mem_cons_self ..) with hsep | ⟨n, hsep⟩ <;> simp only at hsep <;> subst hsep
    · obtain ⟨r, d1, rs, rfl, h1, h2⟩ := decode_comma_inv (numbers_digits ns) (lined_follows hs' z) h
      obtain ⟨ns', d1', c1, c2, c3⟩ := segment_changed (k := k) h1 (hu r (by simp)) hd hcol
      rw [c1, segText_cons, List.singleton_append]
      exact decode_comma_segment (numbers_digits ns').comma (numbers_digits ns').semi c2
        (mid_changed hs' hn' h2 (fun x hx => hu x (by simp [hx])) c3 (hu r (by simp)).2.1)
    · rw [decode_mid_semis] at h
      obtain ⟨r, d1, rs, rfl, h1, h2⟩ := decode_start_inv (numbers_ne (hn _ (List.mem_cons_self ..))) (numbers_digits ns)
        (lined_follows hs' z) h
      obtain ⟨ns', d1', c1, c2, c3⟩ := segment_changed (k := k) h1 (hu r (by simp)) hd (by omega)
      rw [c1, segText_cons, decode_mid_semis, show line + k + (n + 1) = line + (n + 1) + k by omega]
      exact decode_start_segment (segment_ne c2) (numbers_digits ns').comma (numbers_digits ns').semi c2
        (mid_changed hs' hn' h2 (fun x hx => hu x (by simp [hx])) c3 (hu r (by simp)).2.1)

theorem lines_changed {k z : Nat} {e : DState} {ps : List (Text × List Int)} {line : Nat} {d d' : DState}
    {rs : List RawMapping} (hl : Lined ps)
    (h : decodeLines line d (splitOn ';' (segText ps ++ List.replicate z ';')) = some rs)
    (hu : ∀ r ∈ rs, (r.counted k e).Small) (hd : d'.Small) :
    decodeLines (line + k) d' (splitOn ';' (segText (change (gap d d' e) ps) ++ List.replicate z ';')) =
      some (rs.map (RawMapping.counted k e)) := by
  obtain ⟨hf, hs, hn⟩ := hl
  cases ps with
  | nil =>
    simp only [segText, List.flatMap_nil, List.nil_append, change] at h ⊢
    rw [semis_only] at h ⊢
    cases h
    rfl
  | cons p ps =>
    obtain ⟨sep, ns⟩ := p
    obtain ⟨n, hsep⟩ := hf _ rfl
    simp only at hsep
    subst hsep
    rw [segText_cons, decode_semis] at h
    obtain ⟨r, d1, rs, rfl, h1, h2⟩ := decode_start_inv (numbers_ne (hn _ (List.mem_cons_self ..))) (numbers_digits ns)
      (lined_follows hs z) h
    obtain ⟨ns', d1', c1, c2, c3⟩ := segment_changed (k := k) h1 (hu r (by simp)) hd (by omega)
    rw [c1, segText_cons, decode_semis, show line + k + n = line + n + k by omega]
    exact decode_start_segment (segment_ne c2) (numbers_digits ns').comma (numbers_digits ns').semi c2
      (mid_changed hs (fun p hp => hn p (by simp [hp])) h2 (fun x hx => hu x (by simp [hx])) c3 (hu r (by simp)).2.1)

theorem segments_empty (line col : Nat) (d : DState) (ss : List (List Char)) : decodeSegments line col d ([] :: ss) = none := by
  simp [decodeSegments, decodeSegment, decodeFields]

theorem start_comma (line : Nat) (d : DState) (t : List Char) : decodeLines line d (splitOn ';' (',' :: t)) = none := by
  obtain ⟨l, ls, hl⟩ := splitOn_cons_of ';' t
  rw [show splitOn ';' (',' :: t) = (',' :: l) :: ls by simp [splitOn, hl], decodeLines_one, if_neg (by simp), splitOn_sep,
    segments_empty]
  rfl

theorem mid_comma_separator (line col : Nat) (d : DState) {c : Char} (hc : c = ',' ∨ c = ';') (t : List Char) :
    decodeMid line col d (',' :: c :: t) = none := by
  obtain ⟨l, ls, hl⟩ := splitOn_cons_of ';' t
  unfold decodeMid
  rcases hc with rfl | rfl
  · rw [show splitOn ';' (',' :: ',' :: t) = (',' :: ',' :: l) :: ls by simp [splitOn, hl]]
    simp only [if_true, splitOn_sep, segments_empty]
    rfl
  · rw [show splitOn ';' (',' :: ';' :: t) = [','] :: splitOn ';' t by simp [splitOn]]
    simp only [if_true, show splitOn ',' ([] : List Char) = [[]] from rfl, segments_empty]
    rfl

theorem start_separators {d : DState} {t : List Char} {rs : List RawMapping} : ∀ {sep : Text} {line : Nat},
    (∀ c ∈ sep, c = ',' ∨ c = ';') → decodeLines line d (splitOn ';' (sep ++ t)) = some rs →
    ∃ n, sep = List.replicate n ';'
  | [], _, _, _ => ⟨0, rfl⟩
  | c :: sep, line, hs, h => by
    rcases hs c (by simp) with rfl | rfl
    · rw [List.cons_append, start_comma] at h
      cases h
    · have := decode_semis line d 1 (sep ++ t)
      rw [List.replicate_one, List.singleton_append] at this
      rw [List.cons_append, this] at h
      obtain ⟨n, rfl⟩ := start_separators (fun c hc => hs c (by simp [hc])) h
      exact ⟨n + 1, rfl⟩

theorem mid_separators {line col : Nat} {d : DState} {t : List Char} {rs : List RawMapping} {sep : Text} (hne : sep ≠ [])
    (hs : ∀ c ∈ sep, c = ',' ∨ c = ';') (h : decodeMid line col d (sep ++ t) = some rs) :
    sep = [','] ∨ ∃ n, sep = List.replicate (n + 1) ';' := by
  obtain ⟨c, sep, rfl⟩ := List.exists_cons_of_ne_nil hne
  rcases hs c (by simp) with rfl | rfl
  · cases sep with
    | nil => exact .inl rfl
    | cons c sep =>
      rw [List.cons_append, List.cons_append, mid_comma_separator _ _ _ (hs c (by simp))] at h
      cases h
  · have := decode_mid_semis line col d 0 (sep ++ t)
    rw [List.replicate_one, List.singleton_append] at this
    rw [List.cons_append, this] at h
    obtain ⟨n, rfl⟩ := start_separators (fun c hc => hs c (by simp [hc])) h
    exact .inr ⟨n, rfl⟩

theorem segments_follow {ps : List (Text × List Int)} (hb : ∀ p ∈ ps, ∀ c ∈ p.1, c = ',' ∨ c = ';')
    (hne : ∀ p ∈ ps, p.1 ≠ []) (z : Nat) : Follows (segText ps ++ List.replicate z ';') := by
  cases ps with
  | nil => cases z with
    | zero => exact .inl rfl
    | succ z => exact .inr (.inr ⟨List.replicate z ';', rfl⟩)
  | cons p ps =>
    obtain ⟨sep, ns⟩ := p
    obtain ⟨c, sep, rfl⟩ := List.exists_cons_of_ne_nil (hne _ (List.mem_cons_self ..))
    rw [segText_cons]
    rcases hb _ (List.mem_cons_self ..) c (by simp) with rfl | rfl
    · exact .inr (.inl ⟨_, rfl⟩)
    · exact .inr (.inr ⟨_, rfl⟩)

theorem mid_lined {z : Nat} : ∀ {ps : List (Text × List Int)} {line col : Nat} {d : DState} {rs : List RawMapping},
    (∀ p ∈ ps, ∀ c ∈ p.1, c = ',' ∨ c = ';') → (∀ p ∈ ps, p.1 ≠ []) → (∀ p ∈ ps, p.2 ≠ []) →
    decodeMid line col d (segText ps ++ List.replicate z ';') = some rs →
    ∀ p ∈ ps, p.1 = [','] ∨ ∃ n, p.1 = List.replicate (n + 1) ';'
  | [], _, _, _, _, _, _, _, _ => by simp
  | (sep, ns) :: ps, line, col, d, rs, hb, ha, hn, h => by
    have hb' : ∀ p ∈ ps, ∀ c ∈ p.1, c = ',' ∨ c = ';' := fun p hp => hb p (by simp [hp])
    have ha' : ∀ p ∈ ps, p.1 ≠ [] := fun p hp => ha p (by simp [hp])
    have hn' : ∀ p ∈ ps, p.2 ≠ [] := fun p hp => hn p (by simp [hp])
    rw [segText_cons] at h
    have first := mid_separators (ha _ (List.mem_cons_self ..)) (hb _ (List.mem_cons_self ..)) h
    intro p hp
    rcases List.mem_cons.1 hp with rfl | hp'
    · exact first
    · rcases first with rfl | ⟨n, rfl⟩
      · obtain ⟨r, d1, rs, rfl, -, h2⟩ := decode_comma_inv (numbers_digits ns) (segments_follow hb' ha' z) h
        exact mid_lined hb' ha' hn' h2 p hp'
      · rw [decode_mid_semis] at h
        obtain ⟨r, d1, rs, rfl, -, h2⟩ := decode_start_inv (numbers_ne (hn _ (List.mem_cons_self ..))) (numbers_digits ns)
          (segments_follow hb' ha' z) h
        exact mid_lined hb' ha' hn' h2 p hp'

/-- Segments of a text that decodes are separated so. -/
theorem Segments.lined {ps : List (Text × List Int)} (hs : Segments ps) {z : Nat} {rs : List RawMapping}
    (h : decodeMappings (segText ps ++ List.replicate z ';') = some rs) : Lined ps := by
  obtain ⟨hb, ha, hn⟩ := hs
  have hn' : ∀ p ∈ ps, p.2 ≠ [] := fun p hp e => by
    have := hn p hp
    rw [e] at this
    simp at this
  cases ps with
  | nil => exact ⟨by simp, by simp, by simp⟩
  | cons p ps =>
    obtain ⟨sep, ns⟩ := p
    unfold decodeMappings at h
    rw [segText_cons] at h
    obtain ⟨n, rfl⟩ := start_separators (hb _ (List.mem_cons_self ..)) h
    rw [decode_semis] at h
    have hb' : ∀ p ∈ ps, ∀ c ∈ p.1, c = ',' ∨ c = ';' := fun p hp => hb p (by simp [hp])
    obtain ⟨r, d1, rs, rfl, -, h2⟩ := decode_start_inv (numbers_ne (hn' _ (List.mem_cons_self ..))) (numbers_digits ns)
      (segments_follow hb' ha z) h
    exact ⟨fun p hp => ⟨n, by cases hp; rfl⟩, mid_lined hb' ha (fun p hp => hn' p (List.mem_cons_of_mem _ hp)) h2, hn'⟩

/-- What has to be added to the numbers of the second text: to make the first source number one counted after the sources
before it, and the original line and column and the name ones not counted from the last of the first text. -/
def belowChange (raws : List RawMapping) (sources names : Nat) : Change :=
  ⟨0, sources - (lastValues raws).source, -(lastValues raws).line, -(lastValues raws).column, names - (lastValues raws).name⟩

/-- The text put together: the second with four numbers changed. -/
theorem C137_decodes {a : List Char} {ra rb : List RawMapping} {ps : List (Text × List Int)} {z nS nN : Nat}
    (ha : decodeMappings a = some ra) (hl : Segments ps) (hb : decodeMappings (segText ps ++ List.replicate z ';') = some rb)
    (hsa : ∀ r ∈ ra, r.Small) (hu : ∀ r ∈ rb, (r.counted (a.count ';' + 1) ⟨nS, 0, 0, nN⟩).Small) :
    decodeMappings (a ++ ';' :: (segText (change (belowChange ra nS nN) ps) ++ List.replicate z ';')) =
      some (ra ++ rb.map (RawMapping.counted (a.count ';' + 1) ⟨nS, 0, 0, nN⟩)) := by
  unfold decodeMappings at *
  rw [splitOn_lines]
  refine decodeLines_join ha ?_
  have hsmall : (lastValues ra).Small := by
    have hmem : ∀ o ∈ ra.filterMap (·.original), o.source < 2147483648 ∧ o.line < 2147483648 ∧ o.column < 2147483648 ∧
        ∀ n ∈ o.name, n < 2147483648 := by
      intro o ho
      obtain ⟨r, hr, hro⟩ := List.mem_filterMap.1 ho
      exact (hsa r hr).2.2 o hro
    unfold lastValues DState.Small
    simp only
    generalize ra.filterMap (·.original) = os at *
    refine ⟨?_, ?_, ?_, ?_⟩
    · cases ho : os.getLast? with
      | none => simp
      | some o => simpa using (hmem o (List.mem_of_getLast? ho)).1
    · cases ho : os.getLast? with
      | none => simp
      | some o => simpa using (hmem o (List.mem_of_getLast? ho)).2.1
    · cases ho : os.getLast? with
      | none => simp
      | some o => simpa using (hmem o (List.mem_of_getLast? ho)).2.2.1
    · cases ho : (os.filterMap (·.name)).getLast? with
      | none => simp
      | some n =>
        obtain ⟨o, ho', hn⟩ := List.mem_filterMap.1 (List.mem_of_getLast? ho)
        simpa using (hmem o ho').2.2.2 n hn
  have := lines_changed (d' := lastValues ra) (hl.lined hb) hb hu hsmall
  rw [lastValues_fold, splitOn_count]
  rw [Nat.zero_add] at this ⊢
  rw [← this]
  congr 5
  simp [belowChange, gap]

theorem Spec.RawMapping.Small.u32 {r : RawMapping} (h : r.Small) : r.U32 := by
  obtain ⟨h1, h2, h3⟩ := h
  refine ⟨by omega, by omega, fun o ho => ?_⟩
  obtain ⟨u1, u2, u3, u4⟩ := h3 o ho
  exact ⟨by omega, by omega, by omega, fun n hn => by have := u4 n hn; omega⟩

/-- The map put together decodes to the segments of the first, then those of the second further down, with source and name
numbers counted after those before. -/
theorem C137_segments {m m' j : SourceMapJson} {ra rb : List RawMapping} (ha : m.Segments ra) (hb : m'.Segments rb)
    {a b t : String} (hma : m.mappings = some a) (hmb : m'.mappings = some b) (hj : j.mappings = some t)
    {ps : List (Text × List Int)} {z nS nN : Nat} (hl : Segments ps) (hbt : b.toList = segText ps ++ List.replicate z ';')
    (ht : t.toList = a.toList ++ ';' :: (segText (change (belowChange ra nS nN) ps) ++ List.replicate z ';'))
    (hsa : ∀ r ∈ ra, r.Small) (hu : ∀ r ∈ rb, (r.counted (a.toList.count ';' + 1) ⟨nS, 0, 0, nN⟩).Small) :
    j.Segments (ra ++ rb.map (RawMapping.counted (a.toList.count ';' + 1) ⟨nS, 0, 0, nN⟩)) := by
  obtain ⟨_, h1, h2, h3⟩ := ha
  obtain ⟨_, h1', h2', -⟩ := hb
  rw [hma] at h1
  rw [hmb] at h1'
  cases h1
  cases h1'
  rw [hbt] at h2'
  refine ⟨t, hj, by rw [ht]; exact C137_decodes h2 hl h2' hsa hu, fun r hr => ?_⟩
  rcases List.mem_append.1 hr with hr | hr
  · exact h3 r hr
  · obtain ⟨r, hr', rfl⟩ := List.mem_map.1 hr
    exact (hu r hr').u32

theorem counted_here (nS nN : Nat) (m : Mapping) : m.counted ⟨nS, 0, 0, nN⟩ = m := by
  obtain ⟨g, o, s, n, l⟩ := m
  cases o <;> simp [Mapping.counted]

/-- On the lines of the second the whole answers as the second, moved down. -/
theorem C137_original (hL : E.maps.Laws) (hT : E.maps.Total) {m m' j : SourceMapJson} {ra rb : List RawMapping}
    (ha : m.Segments ra) (hb : m'.Segments rb)
    {a b t : String} (hma : m.mappings = some a) (hmb : m'.mappings = some b) (hj : j.mappings = some t)
    {ps : List (Text × List Int)} {z nS nN : Nat} (hl : Segments ps) (hbt : b.toList = segText ps ++ List.replicate z ';')
    (ht : t.toList = a.toList ++ ';' :: (segText (change (belowChange ra nS nN) ps) ++ List.replicate z ';'))
    (hsa : ∀ r ∈ ra, r.Small) (hu : ∀ r ∈ rb, (r.counted (a.toList.count ';' + 1) ⟨nS, 0, 0, nN⟩).Small)
    {u u' : Option String} {c₀ c d₀ d : BasicConsumer E} (h : Built m' u c₀) (hd : Built j u' d₀)
    {N N' : List String} (hN : m'.names = some N) (hN' : j.names = some N')
    {ops ops' : List Op} (hrun : c₀.run ops = .ok c) (hrun' : d₀.run ops' = .ok d)
    (hnames : ∀ i < N.length, N'[i + nN]? = N[i]?)
    (hsources : ∀ i < c.getSources.length, d.getSources[i + nS]? = c.getSources[i]?)
    (hlen : c.getSources.length < 2147483648) (hlen' : d.getSources.length < 2147483648)
    (hfit : ∀ x ∈ rb, Fits c.getSources N 2147483648 x)
    (hfit' : ∀ x ∈ ra ++ rb.map (RawMapping.counted (a.toList.count ';' + 1) ⟨nS, 0, 0, nN⟩),
      Fits d.getSources N' 2147483648 x)
    (honce : GenOnce (rb.map (named c.getSources N))) {p : Position} {bias : Option Bias}
    (hp : 1 ≤ p.line ∧ 0 ≤ p.column)
    (hi : p.line + (a.toList.count ';' + 1 : Nat) ≤ 2147483647 ∧ p.column ≤ 2147483647) :
    (d.originalPositionFor ⟨p.line + (a.toList.count ';' + 1 : Nat), p.column⟩ bias).map (fun r => r.1.map stripMapping) =
      (c.originalPositionFor p bias).map (fun r => r.1.map fun x => (stripMapping x).after (a.toList.count ';' + 1, 0)) := by
  have key := counted_original hL hT hb (C137_segments ha hb hma hmb hj hl hbt ht hsa hu) (lines_within ha hma) h hd hN hN'
    hrun hrun' hnames hsources hlen hlen' hfit hfit' honce (bias := bias) hp hi
  rw [key]
  congr 1
  funext r
  congr 1
  funext x
  rw [counted_here]

/-- A source only the second speaks of is found where the second has it, moved down. -/
theorem C137_generated (hL : E.maps.Laws) {m m' j : SourceMapJson} {ra rb : List RawMapping}
    (ha : m.Segments ra) (hb : m'.Segments rb)
    {a b t : String} (hma : m.mappings = some a) (hmb : m'.mappings = some b) (hj : j.mappings = some t)
    {ps : List (Text × List Int)} {z nS nN : Nat} (hl : Segments ps) (hbt : b.toList = segText ps ++ List.replicate z ';')
    (ht : t.toList = a.toList ++ ';' :: (segText (change (belowChange ra nS nN) ps) ++ List.replicate z ';'))
    (hsa : ∀ r ∈ ra, r.Small) (hu : ∀ r ∈ rb, (r.counted (a.toList.count ';' + 1) ⟨nS, 0, 0, nN⟩).Small)
    {u u' : Option String} {c₀ c d₀ d : BasicConsumer E} (h : Built m' u c₀) (hd : Built j u' d₀) {N N' : List String}
    {ops ops' : List Op} (hrun : c₀.run ops = .ok c) (hrun' : d₀.run ops' = .ok d)
    (hnames : ∀ i < N.length, N'[i + nN]? = N[i]?)
    (hsources : ∀ i < c.getSources.length, d.getSources[i + nS]? = c.getSources[i]?)
    (hlen : c.getSources.length < 2147483648) (hlen' : d.getSources.length < 2147483648)
    (hfit : ∀ x ∈ rb, Fits c.getSources N 2147483648 x)
    (hfit' : ∀ x ∈ ra ++ rb.map (RawMapping.counted (a.toList.count ';' + 1) ⟨nS, 0, 0, nN⟩),
      Fits d.getSources N' 2147483648 x)
    (honce : OrigOnce (rb.map (named c.getSources N))) (hnd : c.getSources.Nodup) (hnd' : d.getSources.Nodup)
    {s src : String} {i i' : Nat} (hs : c.Knows s i) (hs' : d.Knows s i') (hi : c.getSources[i]? = some src)
    (hi' : d.getSources[i']? = some src) (honly : ∀ x ∈ ra, (named d.getSources N' x).source ≠ some src)
    {l col : Int} {bias : Option Bias} (hp : IsI32 l ∧ IsI32 col) {r r' : Option Mapping} {c' d' : BasicConsumer E}
    (hr : c.generatedPositionFor s l col bias = .ok (r, c')) (hr' : d.generatedPositionFor s l col bias = .ok (r', d')) :
    r'.map Mapping.unnamed = r.map fun x => x.unnamed.after (a.toList.count ';' + 1, 0) := by
  refine after_generated hL h hd hb (C137_segments ha hb hma hmb hj hl hbt ht hsa hu) hrun hrun' hlen hlen' hfit hfit' honce
    hnd hnd' hs hs' hi hi' ?_ hp hr hr'
  intro y hy
  have same : ∀ r ∈ rb, named d.getSources N' (r.counted (a.toList.count ';' + 1) ⟨nS, 0, 0, nN⟩) =
      (named c.getSources N r).after (a.toList.count ';' + 1, 0) := fun r hr => by
    rw [counted_named (e := ⟨nS, 0, 0, nN⟩) hsources hnames (hfit r hr), counted_here]
  rw [List.map_append, List.mem_append]
  constructor
  · rintro (hm | hm)
    · obtain ⟨x, hx, rfl⟩ := List.mem_map.1 hm
      exact absurd hy (honly x hx)
    · obtain ⟨_, hm', rfl⟩ := List.mem_map.1 hm
      obtain ⟨x, hx, rfl⟩ := List.mem_map.1 hm'
      exact ⟨_, List.mem_map.2 ⟨x, hx, rfl⟩, same x hx⟩
  · rintro ⟨x, hx, rfl⟩
    obtain ⟨x, hx', rfl⟩ := List.mem_map.1 hx
    exact .inr (List.mem_map.2 ⟨_, List.mem_map.2 ⟨x, hx', rfl⟩, same x hx'⟩)

/-- On the lines of the first but the last it answers as the first. -/
theorem C137_first (hL : E.maps.Laws) (hT : E.maps.Total) {m m' j : SourceMapJson} {ra rb : List RawMapping}
    (ha : m.Segments ra) (hb : m'.Segments rb)
    {a b t : String} (hma : m.mappings = some a) (hmb : m'.mappings = some b) (hj : j.mappings = some t)
    {ps : List (Text × List Int)} {z nS nN : Nat} (hl : Segments ps) (hbt : b.toList = segText ps ++ List.replicate z ';')
    (ht : t.toList = a.toList ++ ';' :: (segText (change (belowChange ra nS nN) ps) ++ List.replicate z ';'))
    (hsa : ∀ r ∈ ra, r.Small) (hu : ∀ r ∈ rb, (r.counted (a.toList.count ';' + 1) ⟨nS, 0, 0, nN⟩).Small)
    {u u' : Option String} {c₀ c d₀ d : BasicConsumer E} (h : Built m u c₀) (hd : Built j u' d₀)
    {N N' : List String} (hN : m.names = some N) (hN' : j.names = some N') (hnames : N <+: N')
    {ops ops' : List Op} (hrun : c₀.run ops = .ok c) (hrun' : d₀.run ops' = .ok d)
    (hsources : c.getSources <+: d.getSources)
    (hlen : c.getSources.length < 2147483648) (hlen' : d.getSources.length < 2147483648)
    (hfit : ∀ x ∈ ra, Fits c.getSources N 2147483648 x)
    (hfit' : ∀ x ∈ ra ++ rb.map (RawMapping.counted (a.toList.count ';' + 1) ⟨nS, 0, 0, nN⟩),
      Fits d.getSources N' 2147483648 x)
    (honce : GenOnce (ra.map (named c.getSources N))) {p : Position} {bias : Option Bias}
    (hp : 1 ≤ p.line ∧ 0 ≤ p.column) (hi : p.line ≤ 2147483647 ∧ p.column ≤ 2147483647)
    (hwithin : p.line ≤ a.toList.count ';') :
    (d.originalPositionFor p bias).map (fun r => r.1.map stripMapping) =
      (c.originalPositionFor p bias).map (fun r => r.1.map stripMapping) :=
  C135_original hL hT h hd ha (C137_segments ha hb hma hmb hj hl hbt ht hsa hu) hma hj (.inl rfl) (.inr ⟨_, ht⟩) hN hN'
    (.inl hnames) hrun hrun' (.inl hsources) hlen hlen' hfit hfit' honce hp hi hwithin

/-- What is visited in generated order: the first, then the second moved down. -/
theorem C137_visits (hL : E.maps.Laws) {m m' j : SourceMapJson} {ra rb : List RawMapping} (ha : m.Segments ra)
    (hb : m'.Segments rb) {a b t : String} (hma : m.mappings = some a) (hmb : m'.mappings = some b)
    (hj : j.mappings = some t)
    {ps : List (Text × List Int)} {z nS nN : Nat} (hl : Segments ps) (hbt : b.toList = segText ps ++ List.replicate z ';')
    (ht : t.toList = a.toList ++ ';' :: (segText (change (belowChange ra nS nN) ps) ++ List.replicate z ';'))
    (hsa : ∀ r ∈ ra, r.Small) (hu : ∀ r ∈ rb, (r.counted (a.toList.count ';' + 1) ⟨nS, 0, 0, nN⟩).Small)
    {u u' u'' : Option String} {b₀ b₁ b₂ c₀ c c' d₀ d d' : BasicConsumer E} (hA : Built m u b₀) (hB : Built m' u' c₀)
    (hJ : Built j u'' d₀) {ops ops' ops'' : List Op} (hrunA : b₀.run ops = .ok b₁) (hrunB : c₀.run ops' = .ok c)
    (hrunJ : d₀.run ops'' = .ok d) (hda : GenDistinct ra) (hdb : GenDistinct rb) {la lb lj : List LibMapping}
    (hla : b₁.eachMapping .generated = .ok (la, b₂)) (hlb : c.eachMapping .generated = .ok (lb, c'))
    (hlj : d.eachMapping .generated = .ok (lj, d')) :
    lj.map LibMapping.raw = la.map LibMapping.raw ++
      (lb.map LibMapping.raw).map (RawMapping.counted (a.toList.count ';' + 1) ⟨nS, 0, 0, nN⟩) :=
  counted_visits hL ha hb (C137_segments ha hb hma hmb hj hl hbt ht hsa hu) (lines_within ha hma) hA hB hJ hrunA hrunB hrunJ
    hda hdb hla hlb hlj

/-! ## Two maps put together -/

/-- A small map about another source. -/
def demoThird : SourceMapJson :=
  { demoMap with sources := some ["three.js"], names := some ["m"], sourcesContent := none, mappings := some "AAAA;CACAA" }

/-- The demo map and below it the small one: four numbers of the small one are changed. -/
def demoBoth : SourceMapJson :=
  { demoMap with
    sources := some ["one.js", "two.js", "three.js"], names := some ["bar", "baz", "n", "m"], sourcesContent := none,
    mappings := some "CAAC,IAAI,IAAM,SAAUA,GAClB,OAAOC,IAAID;CCDb,IAAI,IAAM,SAAUE,GAClB,OAAOA;ACDV;CACAC" }

/-- The segments of the small one. -/
def demoThirdSegs : List (Text × List Int) := [([], [0, 0, 0, 0]), ([';'], [1, 0, 1, 0, 0])]

/-- The hypotheses hold of the three. -/
theorem put_together_fits : belowChange demoRaws 2 3 = ⟨0, 1, -1, -10, 1⟩ ∧ ∃ c₁ c d : BasicConsumer demoEnv,
    Built demoMap none c₁ ∧ Built demoThird none c ∧ Built demoBoth none d ∧ demoMap.Segments demoRaws ∧
    demoThird.Segments demoBelowRaws ∧ Segments demoThirdSegs ∧
    (∃ a b t : String, demoMap.mappings = some a ∧ demoThird.mappings = some b ∧ demoBoth.mappings = some t ∧
      b.toList = segText demoThirdSegs ++ List.replicate 0 ';' ∧
      t.toList = a.toList ++ ';' :: (segText (change (belowChange demoRaws 2 3) demoThirdSegs) ++ List.replicate 0 ';') ∧
      a.toList.count ';' + 1 = 2) ∧
    (∀ r ∈ demoRaws, r.Small) ∧ (∀ r ∈ demoBelowRaws, (r.counted 2 ⟨2, 0, 0, 3⟩).Small) ∧
    (∀ i < ["m"].length, ["bar", "baz", "n", "m"][i + 3]? = ["m"][i]?) ∧
    (∀ i < c.getSources.length, d.getSources[i + 2]? = c.getSources[i]?) ∧ c₁.getSources <+: d.getSources ∧
    (∀ x ∈ demoRaws, Fits c₁.getSources ["bar", "baz", "n"] 2147483648 x) ∧
    (∀ x ∈ demoBelowRaws, Fits c.getSources ["m"] 2147483648 x) ∧
    (∀ x ∈ demoRaws ++ demoBelowRaws.map (RawMapping.counted 2 ⟨2, 0, 0, 3⟩),
      Fits d.getSources ["bar", "baz", "n", "m"] 2147483648 x) ∧
    GenOnce (demoRaws.map (named c₁.getSources ["bar", "baz", "n"])) ∧
    GenOnce (demoBelowRaws.map (named c.getSources ["m"])) ∧ GenDistinct demoRaws ∧ GenDistinct demoBelowRaws := by
  obtain ⟨c₁, hc₁, h₁⟩ := Res.of_test (r := demoConsumer demoMap)
    (fun c => decide (c.getSources = ["one.js", "two.js"])) (by decide +kernel)
  obtain ⟨c, hc, h⟩ := Res.of_test (r := demoConsumer demoThird)
    (fun c => decide (c.getSources = ["three.js"])) (by decide +kernel)
  obtain ⟨d, hd, h'⟩ := Res.of_test (r := demoConsumer demoBoth)
    (fun c => decide (c.getSources = ["one.js", "two.js", "three.js"])) (by decide +kernel)
  simp only [decide_eq_true_eq] at h₁ h h'
  refine ⟨by decide +kernel, c₁, c, d, .inr hc₁, .inr hc, .inr hd,
    ⟨_, rfl, by decide +kernel, by simp [demoRaws, RawMapping.U32]⟩,
    ⟨_, rfl, by decide +kernel, by simp [demoBelowRaws, RawMapping.U32]⟩,
    ⟨by decide, by decide, by decide⟩,
    ⟨_, _, _, rfl, rfl, rfl, by decide +kernel, by decide +kernel, by decide +kernel⟩, ?_, ?_, by decide, ?_, ?_, ?_, ?_, ?_,
    ?_, ?_, ?_, ?_⟩
  · simp [demoRaws, RawMapping.Small]
  · simp [demoBelowRaws, RawMapping.counted, RawMapping.Small]
  · rw [h, h']; decide
  · rw [h₁, h']; exact ⟨["three.js"], rfl⟩
  · rw [h₁]; decide +kernel
  · rw [h]; decide +kernel
  · rw [h']; decide +kernel
  · rw [h₁]; unfold GenOnce; decide +kernel
  · rw [h]; unfold GenOnce; decide +kernel
  · unfold GenDistinct; decide +kernel
  · unfold GenDistinct; decide +kernel

/-- The line 2 of the small map is line 4 of the whole; source, name and original position are those of the small one. -/
theorem C137_case :
    demoAsk demoThird (fun c => c.originalPositionFor ⟨1, 5⟩ (some .lub)) =
      .ok (some ⟨⟨2, 1⟩, some ⟨2, 0⟩, some "three.js", some "m", none⟩) ∧
    demoAsk demoBoth (fun c => c.originalPositionFor ⟨3, 5⟩ (some .lub)) =
      .ok (some ⟨⟨4, 1⟩, some ⟨2, 0⟩, some "three.js", some "m", none⟩) := by
  refine ⟨?_, ?_⟩ <;> decide +kernel

/-- Asked for `three.js` the whole answers two lines further down. (The names are looked up under the source number.) -/
theorem C137_generated_case :
    demoAsk demoThird (fun c => c.generatedPositionFor "three.js" 2 0 (some .lub)) =
      .ok (some ⟨⟨2, 1⟩, some ⟨1, 0⟩, some "three.js", some "m", none⟩) ∧
    demoAsk demoBoth (fun c => c.generatedPositionFor "three.js" 2 0 (some .lub)) =
      .ok (some ⟨⟨4, 1⟩, some ⟨1, 0⟩, some "three.js", some "n", none⟩) ∧
    OrigOnce (demoBelowRaws.map (named ["three.js"] ["m"])) ∧
    ∀ x ∈ demoRaws, (named ["one.js", "two.js", "three.js"] ["bar", "baz", "n", "m"] x).source ≠ some "three.js" := by
  refine ⟨?_, ?_, ?_, ?_⟩ <;> first | decide +kernel | (unfold OrigOnce; decide +kernel)

end RSM
