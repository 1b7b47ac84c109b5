import Verif.Props.EditedText
/-! # Property C139: what the numbers of a mappings string add up to -/

namespace RSM
open Spec BasicConsumer

variable {E : Env}

/-- The sum of the numbers at place `j` in segments; a segment without such a number counts nothing. -/
def sumOf (j : Nat) (ps : List (Text × List Int)) : Int := (ps.map fun p => p.2.getD j 0).sum

/-- The semicolons before and between segments. -/
def semicolons (ps : List (Text × List Int)) : Nat := (ps.map fun p => p.1.count ';').sum

/-- Of some segments, those since the last semicolon. -/
def lastLine : List (Text × List Int) → List (Text × List Int)
  | [] => []
  | p :: ps => if semicolons ps = 0 then p :: ps else lastLine ps

/-- `r` is what the last of the segments says: its line is the number of semicolons, its column the sum of the first numbers
since the last of them, source, original line and column the sums of the second, third and fourth numbers, the name the sum of
the fifth ones. -/
structure Says (ps : List (Text × List Int)) (n : Nat) (r : RawMapping) : Prop where
  line : r.line = semicolons ps
  column : (r.column : Int) = sumOf 0 (lastLine ps)
  alone : r.original = none ↔ n = 1
  source : ∀ o, r.original = some o → (o.source : Int) = sumOf 1 ps
  origLine : ∀ o, r.original = some o → (o.line : Int) = sumOf 2 ps
  origColumn : ∀ o, r.original = some o → (o.column : Int) = sumOf 3 ps
  noName : ∀ o, r.original = some o → (o.name = none ↔ n = 4)
  name : ∀ o, r.original = some o → ∀ i, o.name = some i → (i : Int) = sumOf 4 ps

/-- The same, read after something else. -/
structure SaysAfter (line col : Nat) (d : DState) (ps : List (Text × List Int)) (n : Nat) (r : RawMapping) : Prop where
  line : r.line = line + semicolons ps
  column : (r.column : Int) = (if semicolons ps = 0 then (col : Int) else 0) + sumOf 0 (lastLine ps)
  alone : r.original = none ↔ n = 1
  source : ∀ o, r.original = some o → (o.source : Int) = d.source + sumOf 1 ps
  origLine : ∀ o, r.original = some o → (o.line : Int) = d.line + sumOf 2 ps
  origColumn : ∀ o, r.original = some o → (o.column : Int) = d.column + sumOf 3 ps
  noName : ∀ o, r.original = some o → (o.name = none ↔ n = 4)
  name : ∀ o, r.original = some o → ∀ i, o.name = some i → (i : Int) = d.name + sumOf 4 ps

theorem sumOf_cons (j : Nat) (sep : Text) (ns : List Int) (ps : List (Text × List Int)) :
    sumOf j ((sep, ns) :: ps) = ns.getD j 0 + sumOf j ps := by simp [sumOf]

theorem semicolons_cons (sep : Text) (ns : List Int) (ps : List (Text × List Int)) :
    semicolons ((sep, ns) :: ps) = sep.count ';' + semicolons ps := by simp [semicolons]

theorem lastLine_none : ∀ {ps : List (Text × List Int)}, semicolons ps = 0 → lastLine ps = ps
  | [], _ => rfl
  | (sep, ns) :: ps, h => by
    rw [semicolons_cons] at h
    unfold lastLine
    rw [if_pos (by omega)]

/-- One segment. -/
theorem says_one {line col : Nat} {d d1 : DState} {sep : Text} {ns : List Int} {r : RawMapping}
    (h : decodeSegment (line + sep.count ';') (if sep.count ';' = 0 then col else 0) d (ns.flatMap vlqText) = some (r, d1)) :
    SaysAfter line col d [(sep, ns)] ns.length r ∧ (d1.source : Int) = d.source + ns.getD 1 0 ∧
      (d1.line : Int) = d.line + ns.getD 2 0 ∧ (d1.column : Int) = d.column + ns.getD 3 0 ∧
      (d1.name : Int) = d.name + ns.getD 4 0 := by
  have hl := decodeSegment_line h
  obtain ⟨hf, rfl⟩ := decodeSegment_inv h
  have e := fields_numbers hf
  subst e
  obtain ⟨l, c, o⟩ := r
  simp only at hl
  subst hl
  have hsum : ∀ (j : Nat) (ds : List Int), sumOf j [(sep, ds)] = ds.getD j 0 := fun j ds => by simp [sumOf]
  have hsemi : semicolons [(sep, deltas (if sep.count ';' = 0 then col else 0) d ⟨line + sep.count ';', c, o⟩)] =
    sep.count ';' := by simp [semicolons]
  have hll : lastLine [(sep, deltas (if sep.count ';' = 0 then col else 0) d ⟨line + sep.count ';', c, o⟩)] =
    [(sep, deltas (if sep.count ';' = 0 then col else 0) d ⟨line + sep.count ';', c, o⟩)] := rfl
  have hcol : (c : Int) = (if sep.count ';' = 0 then (col : Int) else 0) +
      ((c : Int) - ((if sep.count ';' = 0 then col else 0 : Nat) : Int)) := by split <;> omega
  cases o with
  | none =>
    refine ⟨⟨by rw [hsemi], ?_, by simp [deltas], ?_, ?_, ?_, ?_, ?_⟩, ?_, ?_, ?_, ?_⟩
    · rw [hsemi, hll, hsum]
      exact hcol
    all_goals simp [deltas, DState.after]
  | some o =>
    obtain ⟨s, l, oc, n⟩ := o
    refine ⟨⟨by rw [hsemi], ?_, ?_, ?_, ?_, ?_, ?_, ?_⟩, ?_, ?_, ?_, ?_⟩
    · rw [hsemi, hll, hsum]
      exact hcol
    all_goals cases n <;> simp [deltas, DState.after, hsum] <;> omega

/-- One segment more before. -/
theorem says_more {line col : Nat} {d d1 : DState} {sep : Text} {ns : List Int} {ps : List (Text × List Int)} {n n₀ : Nat}
    {r r₀ : RawMapping} (h₀ : SaysAfter line col d [(sep, ns)] n₀ r₀) (h : SaysAfter r₀.line r₀.column d1 ps n r)
    (e1 : (d1.source : Int) = d.source + ns.getD 1 0) (e2 : (d1.line : Int) = d.line + ns.getD 2 0)
    (e3 : (d1.column : Int) = d.column + ns.getD 3 0) (e4 : (d1.name : Int) = d.name + ns.getD 4 0) :
    SaysAfter line col d ((sep, ns) :: ps) n r := by
  have k1 := h₀.line
  have k2 := h₀.column
  rw [semicolons_cons] at k1 k2
  simp only [semicolons, List.map_nil, List.sum_nil, Nat.add_zero] at k1 k2
  rw [show lastLine [(sep, ns)] = [(sep, ns)] from rfl, sumOf_cons] at k2
  simp only [sumOf, List.map_nil, List.sum_nil, Int.add_zero] at k2
  have hcol := h.column
  refine ⟨?_, ?_, h.alone, fun o ho => ?_, fun o ho => ?_, fun o ho => ?_, h.noName, fun o ho i hi => ?_⟩
  · rw [h.line, k1, semicolons_cons]
    omega
  · rw [semicolons_cons]
    by_cases hz : semicolons ps = 0
    · rw [if_pos hz, lastLine_none hz] at hcol
      rw [hcol, k2]
      unfold lastLine
      rw [if_pos hz, sumOf_cons, hz, Nat.add_zero]
      omega
    · rw [if_neg hz] at hcol
      rw [hcol, if_neg (by omega)]
      conv => rhs; unfold lastLine
      rw [if_neg hz]
  · rw [h.source o ho, sumOf_cons, e1]; omega
  · rw [h.origLine o ho, sumOf_cons, e2]; omega
  · rw [h.origColumn o ho, sumOf_cons, e3]; omega
  · rw [h.name o ho i hi, sumOf_cons, e4]; omega

theorem mid_says {z : Nat} : ∀ {ps : List (Text × List Int)} {line col : Nat} {d : DState} {rs : List RawMapping},
    (∀ p ∈ ps, ∀ c ∈ p.1, c = ',' ∨ c = ';') → (∀ p ∈ ps, p.1 ≠ []) → (∀ p ∈ ps, p.2 ≠ []) →
    decodeMid line col d (segText ps ++ List.replicate z ';') = some rs →
    rs.length = ps.length ∧ ∀ (i : Nat) (r : RawMapping) (p : Text × List Int), rs[i]? = some r → ps[i]? = some p →
      SaysAfter line col d (ps.take (i + 1)) p.2.length r
  | [], line, col, d, rs, _, _, _, h => by
    refine ⟨?_, fun i r p _ h => by simp at h⟩
    simp only [segText, List.flatMap_nil, List.nil_append] at h
    rw [mid_semis_only] at h
    cases h
    rfl
  | (sep, ns) :: ps, line, col, d, rs, hb, ha, hn, h => by
    have hb' : ∀ p ∈ ps, ∀ c ∈ p.1, c = ',' ∨ c = ';' := fun p hp => hb p (List.mem_cons_of_mem _ hp)
    have ha' : ∀ p ∈ ps, p.1 ≠ [] := fun p hp => ha p (List.mem_cons_of_mem _ hp)
    have hn' : ∀ p ∈ ps, p.2 ≠ [] := fun p hp => hn p (List.mem_cons_of_mem _ hp)
    have hf := segments_follow hb' ha' z
    rw [segText_cons] at h
    have key : ∃ r d1 rs', rs = r :: rs' ∧
        decodeSegment (line + sep.count ';') (if sep.count ';' = 0 then col else 0) d (ns.flatMap vlqText) = some (r, d1) ∧
        decodeMid r.line r.column d1 (segText ps ++ List.replicate z ';') = some rs' := by
      rcases mid_separators (ha _ (List.mem_cons_self ..)) (hb _ (List.mem_cons_self ..)) h with hsep | ⟨n, hsep⟩ <;>
        simp only at hsep <;> subst hsep
      · obtain ⟨r, d1, rs', rfl, h1, h2⟩ := decode_comma_inv (numbers_digits ns) hf h
        exact ⟨r, d1, rs', rfl, h1, by rw [decodeSegment_line h1]; exact h2⟩
      · rw [decode_mid_semis] at h
        obtain ⟨r, d1, rs', rfl, h1, h2⟩ := decode_start_inv (numbers_ne (hn _ (List.mem_cons_self ..)))
          (numbers_digits ns) hf h
        refine ⟨r, d1, rs', rfl, ?_, by rw [decodeSegment_line h1]; exact h2⟩
        rw [List.count_replicate_self, if_neg (by omega)]
        exact h1
    obtain ⟨r₀, d1, rs', rfl, h1, h2⟩ := key
    obtain ⟨s1, e1, e2, e3, e4⟩ := says_one h1
    obtain ⟨ih1, ih2⟩ := mid_says hb' ha' hn' h2
    refine ⟨by simp [ih1], fun i r p hr hp => ?_⟩
    cases i with
    | zero =>
      simp only [List.getElem?_cons_zero, Option.some.injEq] at hr hp
      subst hr
      subst hp
      exact s1
    | succ i =>
      rw [List.getElem?_cons_succ] at hr hp
      rw [List.take_succ_cons]
      exact says_more s1 (ih2 i r p hr hp) e1 e2 e3 e4

/-- What the numbers of a mappings string add up to: in as many segments as there are, each as `Says`. -/
theorem C139_decodes {z : Nat} {ps : List (Text × List Int)} (hs : Segments ps) {raws : List RawMapping}
    (h : decodeMappings (segText ps ++ List.replicate z ';') = some raws) :
    raws.length = ps.length ∧ ∀ (i : Nat) (r : RawMapping) (p : Text × List Int), raws[i]? = some r → ps[i]? = some p →
      Says (ps.take (i + 1)) p.2.length r := by
  have hn : ∀ p ∈ ps, p.2 ≠ [] := fun p hp e => by
    have := hs.numbers p hp
    rw [e] at this
    simp at this
  obtain ⟨hb, ha, -⟩ := hs
  have up : ∀ {q : List (Text × List Int)} {n : Nat} {r : RawMapping}, SaysAfter 0 0 ⟨0, 0, 0, 0⟩ q n r → Says q n r := by
    intro q n r h
    refine ⟨by simpa using h.line, by simpa using h.column, h.alone, fun o ho => by simpa using h.source o ho,
      fun o ho => by simpa using h.origLine o ho, fun o ho => by simpa using h.origColumn o ho, h.noName,
      fun o ho i hi => by simpa using h.name o ho i hi⟩
  unfold decodeMappings at h
  cases ps with
  | nil =>
    refine ⟨?_, fun i r p _ h => by simp at h⟩
    simp only [segText, List.flatMap_nil, List.nil_append] at h
    rw [← List.append_nil (List.replicate z ';'), decode_semis] at h
    simp only [splitOn, decodeLines] at h
    simpa using h.symm
  | cons p ps =>
    obtain ⟨sep, ns⟩ := p
    have hb' : ∀ p ∈ ps, ∀ c ∈ p.1, c = ',' ∨ c = ';' := fun p hp => hb p (List.mem_cons_of_mem _ hp)
    simp only [List.tail_cons] at ha
    have hn' : ∀ p ∈ ps, p.2 ≠ [] := fun p hp => hn p (List.mem_cons_of_mem _ hp)
    rw [segText_cons] at h
    obtain ⟨n, hsep⟩ := start_separators (hb _ (List.mem_cons_self ..)) h
    simp only at hsep
    subst hsep
    rw [decode_semis] at h
    obtain ⟨r₀, d1, rs', rfl, h1, h2⟩ := decode_start_inv (numbers_ne (hn _ (List.mem_cons_self ..))) (numbers_digits ns)
      (segments_follow hb' ha z) h
    rw [show 0 + n = r₀.line from (decodeSegment_line h1).symm] at h2
    obtain ⟨s1, e1, e2, e3, e4⟩ := says_one (line := 0) (col := 0) (sep := List.replicate n ';') (by
      rw [List.count_replicate_self, ite_self]
      exact h1)
    obtain ⟨ih1, ih2⟩ := mid_says hb' ha hn' h2
    refine ⟨by simp [ih1], fun i r p hr hp => up ?_⟩
    cases i with
    | zero =>
      simp only [List.getElem?_cons_zero, Option.some.injEq] at hr hp
      subst hr
      subst hp
      exact s1
    | succ i =>
      rw [List.getElem?_cons_succ] at hr hp
      rw [List.take_succ_cons]
      exact says_more s1 (ih2 i r p hr hp) e1 e2 e3 e4

/-- The other way round: one segment. -/
theorem says_one_reads {line col : Nat} {d : DState} {sep : Text} {ns : List Int} {r : RawMapping}
    (hn : ns.length = 1 ∨ ns.length = 4 ∨ ns.length = 5) (h : SaysAfter line col d [(sep, ns)] ns.length r) (hr : r.Small)
    (hd : d.Small) (hcol : col < 2147483648) :
    decodeSegment (line + sep.count ';') (if sep.count ';' = 0 then col else 0) d (ns.flatMap vlqText) =
      some (r, DState.after d r) ∧ (DState.after d r).Small := by
  obtain ⟨q1, q2, q3, q4⟩ := hd
  obtain ⟨-, hr1, hr2⟩ := hr
  obtain ⟨h1, h2, h3, h4, h5, h6, h7, h8⟩ := h
  have hsum : ∀ (j : Nat) (ds : List Int), sumOf j [(sep, ds)] = ds.getD j 0 := fun j ds => by simp [sumOf]
  rw [show semicolons [(sep, ns)] = sep.count ';' by simp [semicolons]] at h1 h2
  rw [show lastLine [(sep, ns)] = [(sep, ns)] from rfl, hsum] at h2
  simp only [hsum] at h4 h5 h6 h8
  generalize hb : (if sep.count ';' = 0 then col else 0) = base at *
  have h2' : (r.column : Int) = base + ns.getD 0 0 := by
    rw [h2, ← hb]
    split <;> simp
  have hbase : base < 2147483648 := by rw [← hb]; split <;> omega
  clear h2 hb
  obtain ⟨l, c, o⟩ := r
  simp only at h1 h2' h3 h4 h5 h6 h7 h8 hr1 hr2
  subst h1
  cases o with
  | none =>
    have hlen : ns.length = 1 := h3.1 rfl
    obtain ⟨a, rfl⟩ := List.length_eq_one_iff.1 hlen
    simp only [List.getD_cons_zero] at h2'
    refine ⟨?_, q1, q2, q3, q4⟩
    unfold decodeSegment
    rw [numbers_encAll, decodeFields_encAll _ (by simp; omega)]
    simp only [Option.bind_eq_bind]
    rw [offset_of (v := c) (by omega) (by omega)]
    rfl
  | some o =>
    obtain ⟨s, l, k, n⟩ := o
    obtain ⟨u1, u2, u3, u4⟩ := hr2 _ rfl
    specialize h4 _ rfl
    specialize h5 _ rfl
    specialize h6 _ rfl
    specialize h7 _ rfl
    specialize h8 _ rfl
    have hlen1 : ns.length ≠ 1 := fun e => by simpa using h3.2 e
    simp only at u1 u2 u3 u4 h4 h5 h6 h7 h8
    cases n with
    | none =>
      have hlen : ns.length = 4 := h7.1 rfl
      obtain ⟨a1, a2, a3, a4, rfl⟩ : ∃ a1 a2 a3 a4, ns = [a1, a2, a3, a4] := by
        match ns, hlen with
        | [a1, a2, a3, a4], _ => exact ⟨a1, a2, a3, a4, rfl⟩
      change (c : Int) = base + a1 at h2'
      change (s : Int) = d.source + a2 at h4
      change (l : Int) = d.line + a3 at h5
      change (k : Int) = d.column + a4 at h6
      refine ⟨?_, u1, u2, u3, q4⟩
      unfold decodeSegment
      rw [numbers_encAll, decodeFields_encAll _ (by
        simp only [List.mem_cons, List.not_mem_nil, or_false]
        rintro x (rfl | rfl | rfl | rfl) <;> omega)]
      simp only [Option.bind_eq_bind]
      rw [offset_of (v := c) (by omega) (by omega), offset_of (v := s) (by omega) (by omega),
        offset_of (v := l) (by omega) (by omega), offset_of (v := k) (by omega) (by omega)]
      rfl
    | some n =>
      specialize h8 _ rfl
      have u5 : n < 2147483648 := u4 _ rfl
      have hlen : ns.length = 5 := by
        have : ns.length ≠ 4 := fun e => by simpa using h7.2 e
        omega
      obtain ⟨a1, a2, a3, a4, a5, rfl⟩ : ∃ a1 a2 a3 a4 a5, ns = [a1, a2, a3, a4, a5] := by
        match ns, hlen with
        | [a1, a2, a3, a4, a5], _ => exact ⟨a1, a2, a3, a4, a5, rfl⟩
      change (c : Int) = base + a1 at h2'
      change (s : Int) = d.source + a2 at h4
      change (l : Int) = d.line + a3 at h5
      change (k : Int) = d.column + a4 at h6
      change (n : Int) = d.name + a5 at h8
      refine ⟨?_, u1, u2, u3, u5⟩
      unfold decodeSegment
      rw [numbers_encAll, decodeFields_encAll _ (by
        simp only [List.mem_cons, List.not_mem_nil, or_false]
        rintro x (rfl | rfl | rfl | rfl | rfl) <;> omega)]
      simp only [Option.bind_eq_bind]
      rw [offset_of (v := c) (by omega) (by omega), offset_of (v := s) (by omega) (by omega),
        offset_of (v := l) (by omega) (by omega), offset_of (v := k) (by omega) (by omega),
        offset_of (v := n) (by omega) (by omega)]
      rfl

/-- One segment less before. -/
theorem says_less {line col : Nat} {d d1 : DState} {sep : Text} {ns : List Int} {ps : List (Text × List Int)} {n n₀ : Nat}
    {r r₀ : RawMapping} (h₀ : SaysAfter line col d [(sep, ns)] n₀ r₀) (h : SaysAfter line col d ((sep, ns) :: ps) n r)
    (e1 : (d1.source : Int) = d.source + ns.getD 1 0) (e2 : (d1.line : Int) = d.line + ns.getD 2 0)
    (e3 : (d1.column : Int) = d.column + ns.getD 3 0) (e4 : (d1.name : Int) = d.name + ns.getD 4 0) :
    SaysAfter r₀.line r₀.column d1 ps n r := by
  have k1 := h₀.line
  have k2 := h₀.column
  rw [semicolons_cons] at k1 k2
  simp only [semicolons, List.map_nil, List.sum_nil, Nat.add_zero] at k1 k2
  rw [show lastLine [(sep, ns)] = [(sep, ns)] from rfl, sumOf_cons] at k2
  simp only [sumOf, List.map_nil, List.sum_nil, Int.add_zero] at k2
  have hcol := h.column
  rw [semicolons_cons] at hcol
  refine ⟨?_, ?_, h.alone, fun o ho => ?_, fun o ho => ?_, fun o ho => ?_, h.noName, fun o ho i hi => ?_⟩
  · rw [h.line, k1, semicolons_cons]
    omega
  · by_cases hz : semicolons ps = 0
    · rw [if_pos hz, lastLine_none hz, k2]
      unfold lastLine at hcol
      rw [if_pos hz, sumOf_cons, hz, Nat.add_zero] at hcol
      rw [hcol]
      omega
    · rw [if_neg hz]
      unfold lastLine at hcol
      rw [if_neg (by omega), if_neg hz] at hcol
      exact hcol
  · rw [h.source o ho, sumOf_cons, e1]; omega
  · rw [h.origLine o ho, sumOf_cons, e2]; omega
  · rw [h.origColumn o ho, sumOf_cons, e3]; omega
  · rw [h.name o ho i hi, sumOf_cons, e4]; omega

theorem mid_reads {z : Nat} : ∀ {ps : List (Text × List Int)} {line col : Nat} {d : DState} {rs : List RawMapping},
    (∀ p ∈ ps, p.1 = [','] ∨ ∃ n, p.1 = List.replicate (n + 1) ';') →
    (∀ p ∈ ps, p.2.length = 1 ∨ p.2.length = 4 ∨ p.2.length = 5) → rs.length = ps.length → d.Small → col < 2147483648 →
    (∀ (i : Nat) (r : RawMapping) (p : Text × List Int), rs[i]? = some r → ps[i]? = some p →
      SaysAfter line col d (ps.take (i + 1)) p.2.length r ∧ r.Small) →
    decodeMid line col d (segText ps ++ List.replicate z ';') = some rs
  | [], line, col, d, rs, _, _, hlen, _, _, _ => by
    obtain rfl := List.length_eq_zero_iff.1 hlen
    simp only [segText, List.flatMap_nil, List.nil_append]
    rw [mid_semis_only]
  | (sep, ns) :: ps, line, col, d, rs, hs, hn, hlen, hd, hcol, h => by
    obtain ⟨r₀, rs, rfl⟩ := List.exists_cons_of_length_eq_add_one (n := ps.length) (by simpa using hlen)
    have hs' : ∀ p ∈ ps, p.1 = [','] ∨ ∃ n, p.1 = List.replicate (n + 1) ';' := fun p hp => hs p (by simp [hp])
    have hn' : ∀ p ∈ ps, p.2.length = 1 ∨ p.2.length = 4 ∨ p.2.length = 5 := fun p hp => hn p (by simp [hp])
    obtain ⟨s1, sm⟩ := h 0 r₀ (sep, ns) rfl rfl
    obtain ⟨k1, k2⟩ := says_one_reads (hn _ (List.mem_cons_self ..)) s1 sm hd hcol
    obtain ⟨-, e1, e2, e3, e4⟩ := says_one k1
    have ih := mid_reads (z := z) (line := r₀.line) (col := r₀.column) (rs := rs) hs' hn' (by simpa using hlen) k2 sm.2.1
      (fun i r p hr hp => by
        obtain ⟨s2, sm2⟩ := h (i + 1) r p (by simpa using hr) (by simpa using hp)
        rw [List.take_succ_cons] at s2
        exact ⟨says_less s1 s2 e1 e2 e3 e4, sm2⟩)
    rw [decodeSegment_line k1] at ih
    rw [segText_cons]
    rcases hs _ (List.mem_cons_self ..) with hsep | ⟨n, hsep⟩ <;> simp only at hsep <;> subst hsep
    · rw [List.singleton_append]
      exact decode_comma_segment (numbers_digits ns).comma (numbers_digits ns).semi k1 ih
    · rw [List.count_replicate_self, if_neg (by omega)] at k1
      rw [List.count_replicate_self] at ih
      rw [decode_mid_semis]
      exact decode_start_segment (segment_ne k1) (numbers_digits ns).comma (numbers_digits ns).semi k1 ih

/-- And the other way round: what the numbers add up to, the string decodes to. -/
theorem C139_reads {z : Nat} {ps : List (Text × List Int)} (hl : Lined ps)
    (hn : ∀ p ∈ ps, p.2.length = 1 ∨ p.2.length = 4 ∨ p.2.length = 5) {raws : List RawMapping}
    (hlen : raws.length = ps.length) (h : ∀ (i : Nat) (r : RawMapping) (p : Text × List Int), raws[i]? = some r →
      ps[i]? = some p → Says (ps.take (i + 1)) p.2.length r ∧ r.Small) :
    decodeMappings (segText ps ++ List.replicate z ';') = some raws := by
  have up : ∀ {q : List (Text × List Int)} {n : Nat} {r : RawMapping}, Says q n r → SaysAfter 0 0 ⟨0, 0, 0, 0⟩ q n r := by
    intro q n r h
    refine ⟨by simpa using h.line, by simpa using h.column, h.alone, fun o ho => by simpa using h.source o ho,
      fun o ho => by simpa using h.origLine o ho, fun o ho => by simpa using h.origColumn o ho, h.noName,
      fun o ho i hi => by simpa using h.name o ho i hi⟩
  have hd : DState.Small ⟨0, 0, 0, 0⟩ := by unfold DState.Small; decide
  unfold decodeMappings
  obtain ⟨l1, l2, -⟩ := hl
  cases ps with
  | nil =>
    obtain rfl := List.length_eq_zero_iff.1 hlen
    simp only [segText, List.flatMap_nil, List.nil_append]
    rw [← List.append_nil (List.replicate z ';'), decode_semis]
    rfl
  | cons p ps =>
    obtain ⟨sep, ns⟩ := p
    obtain ⟨r₀, rs, rfl⟩ := List.exists_cons_of_length_eq_add_one (n := ps.length) (by simpa using hlen)
    obtain ⟨n, hsep⟩ := l1 _ rfl
    simp only at hsep
    subst hsep
    obtain ⟨s1, sm⟩ := h 0 r₀ (List.replicate n ';', ns) rfl rfl
    have s1 := up s1
    obtain ⟨k1, k2⟩ := says_one_reads (hn _ (List.mem_cons_self ..)) s1 sm hd (by omega)
    obtain ⟨-, e1, e2, e3, e4⟩ := says_one k1
    have ih := mid_reads (z := z) (line := r₀.line) (col := r₀.column) (ps := ps) (rs := rs) l2 (fun p hp => hn p (by simp [hp]))
      (by simpa using hlen) k2 sm.2.1 (fun i r p hr hp => by
        obtain ⟨s2, sm2⟩ := h (i + 1) r p (by simpa using hr) (by simpa using hp)
        have s2 := up s2
        rw [List.take_succ_cons] at s2
        exact ⟨says_less s1 s2 e1 e2 e3 e4, sm2⟩)
    rw [decodeSegment_line k1] at ih
    rw [List.count_replicate_self, ite_self] at k1
    rw [List.count_replicate_self] at ih
    rw [segText_cons, decode_semis]
    exact decode_start_segment (segment_ne k1) (numbers_digits ns).comma (numbers_digits ns).semi k1 ih

/-- The mappings of `m` are these segments. -/
def Written (m : SourceMapJson) (ps : List (Text × List Int)) : Prop :=
  Segments ps ∧ ∃ (s : String) (z : Nat), m.mappings = some s ∧ s.toList = segText ps ++ List.replicate z ';'

theorem Written.says {m : SourceMapJson} {ps : List (Text × List Int)} (hw : Written m ps) {raws : List RawMapping}
    (hseg : m.Segments raws) : raws.length = ps.length ∧ ∀ (i : Nat) (r : RawMapping) (p : Text × List Int),
      raws[i]? = some r → ps[i]? = some p → Says (ps.take (i + 1)) p.2.length r := by
  obtain ⟨hs, s, z, q1, q2⟩ := hw
  obtain ⟨_, h1, h, -⟩ := hseg
  rw [q1] at h1
  cases h1
  rw [q2] at h
  exact C139_decodes hs h

/-- The mappings visited are, in some order, as many as there are segments, and what these say; in the order of the segments
if they are in order of their generated positions. -/
theorem C139_visits (hL : E.maps.Laws) {m : SourceMapJson} {ps : List (Text × List Int)} (hw : Written m ps)
    {raws : List RawMapping} (hseg : m.Segments raws) {u : Option String} {c₀ c c' : BasicConsumer E} (h : Built m u c₀)
    {ops : List Op} (hrun : c₀.run ops = .ok c) {l : List LibMapping} (hl : c.eachMapping .generated = .ok (l, c')) :
    l.length = ps.length ∧ ∃ said : List RawMapping, (l.map LibMapping.raw).Perm said ∧
      (∀ (i : Nat) (r : RawMapping) (p : Text × List Int), said[i]? = some r → ps[i]? = some p →
        Says (ps.take (i + 1)) p.2.length r) ∧ (InOrder said → l.map LibMapping.raw = said) := by
  obtain ⟨h1, h2⟩ := hw.says hseg
  obtain ⟨_, _, k1, k2, k3⟩ := C36_each_generated hL h hrun hseg
  rw [hl] at k1
  cases k1
  refine ⟨?_, raws, k2, h2, fun ho => visits_in_order hL hseg h hrun ho hl⟩
  rw [← h1, ← k2.length_eq, List.length_map]

/-- The segments of the demo map. -/
def demoSegs : List (Text × List Int) := demoFirstFour ++ ([','], [3, 0, 1, -18]) :: demoLastEight

/-- The demo map is written so. Its last segment is on line 1, as there is one semicolon, at column 28 = 1 + 4 + 4 + 9 + 3 + 7,
and its original column is 10. -/
theorem C139_case : Written demoMap demoSegs ∧ demoMap.Segments demoRaws ∧ demoSegs.length = 13 ∧
    semicolons demoSegs = 1 ∧ sumOf 0 (lastLine demoSegs) = 28 ∧ sumOf 1 demoSegs = 1 ∧ sumOf 2 demoSegs = 1 ∧
    sumOf 3 demoSegs = 10 ∧ sumOf 4 demoSegs = 2 ∧ demoRaws[12]? = some ⟨1, 28, some ⟨1, 1, 10, some 2⟩⟩ := by
  refine ⟨⟨⟨by decide, by decide, by decide⟩, _, 0, rfl, by decide +kernel⟩,
    ⟨_, rfl, by decide +kernel, by simp [demoRaws, RawMapping.U32]⟩, ?_⟩
  decide +kernel

/-- The hypotheses of `C139_reads` hold of them. -/
theorem sums_fit : Lined demoSegs ∧ (∀ p ∈ demoSegs, p.2.length = 1 ∨ p.2.length = 4 ∨ p.2.length = 5) ∧
    demoRaws.length = demoSegs.length ∧ ∀ (i : Nat) (r : RawMapping) (p : Text × List Int), demoRaws[i]? = some r →
      demoSegs[i]? = some p → Says (demoSegs.take (i + 1)) p.2.length r ∧ r.Small := by
  have hw := C139_case.1
  obtain ⟨t, h1, h2, -⟩ := C139_case.2.1
  obtain ⟨k1, k2⟩ := hw.says C139_case.2.1
  obtain ⟨hs, s, z, q1, q2⟩ := hw
  rw [q1] at h1
  cases h1
  rw [q2] at h2
  refine ⟨hs.lined h2, by decide, k1, fun i r p hr hp => ⟨k2 i r p hr hp, ?_⟩⟩
  have : ∀ x ∈ demoRaws, x.Small := by simp [demoRaws, RawMapping.Small]
  exact this r (List.mem_of_getElem? hr)

end RSM
