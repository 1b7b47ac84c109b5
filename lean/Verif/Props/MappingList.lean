import Verif.Lemmas.MappingList
/-! # Properties C09-C12: comparing and collecting mappings -/

namespace RSM

/-- A concrete pair of valid mappings used below as witness. -/
def exA : Mapping := { generated := ⟨1, 0⟩, original := some ⟨1, 5⟩, source := some "a.js" }
def exB : Mapping := { generated := ⟨1, 0⟩, original := some ⟨1, 5⟩, source := some "b.js" }
def exZ : Mapping := { generated := ⟨1, 7⟩ }

theorem exA_valid : exA.Valid := ⟨by decide, by decide, rfl, by intro p hp; cases hp; decide⟩
theorem exB_valid : exB.Valid := ⟨by decide, by decide, rfl, by intro p hp; cases hp; decide⟩
theorem exZ_valid : exZ.Valid := ⟨by decide, by decide, rfl, by intro p hp; cases hp⟩

/-- C09. On valid mappings the comparison returns (never overflows) and its sign is antisymmetric. -/
theorem C09_compare_antisymmetric (cfg : Cfg) (a b : Mapping) (ha : a.Valid) (hb : b.Valid) :
    ∃ c d, compareByGeneratedPosInflated cfg a b = .ok c ∧
      compareByGeneratedPosInflated cfg b a = .ok d ∧ (c < 0 ↔ 0 < d) ∧ (c = 0 ↔ d = 0) ∧ (0 < c ↔ d < 0) :=
  ⟨_, _, compare_eq_cmpVal cfg ha hb, compare_eq_cmpVal cfg hb ha, lawful_cmpVal.anti a b,
    lawful_cmpVal.zero a b, (lawful_cmpVal.anti b a).symm⟩

/-- C09. The comparison is transitive on valid mappings. -/
theorem C09_compare_transitive (cfg : Cfg) (a b c : Mapping) (ha : a.Valid) (hb : b.Valid)
    (hc : c.Valid) (x y : Int) (h1 : compareByGeneratedPosInflated cfg a b = .ok x) (hx : x ≤ 0)
    (h2 : compareByGeneratedPosInflated cfg b c = .ok y) (hy : y ≤ 0) :
    ∃ z, compareByGeneratedPosInflated cfg a c = .ok z ∧ z ≤ 0 := by
  rw [compare_eq_cmpVal cfg ha hb] at h1
  rw [compare_eq_cmpVal cfg hb hc] at h2
  cases h1; cases h2
  exact ⟨_, compare_eq_cmpVal cfg ha hc, lawful_cmpVal.trans a b c hx hy⟩

/-- C09. Two valid mappings compare equal exactly when they agree on generated position, source,
original position and name. -/
theorem C09_compare_zero_iff (cfg : Cfg) (a b : Mapping) (ha : a.Valid) (hb : b.Valid) :
    compareByGeneratedPosInflated cfg a b = .ok 0 ↔ SameKey a b := by
  rw [compare_eq_cmpVal cfg ha hb, Except.ok.injEq, cmpVal_eq_zero]

/-- C09. The generated position decides first: line, then column. -/
theorem C09_compare_position_first (cfg : Cfg) (a b : Mapping) (ha : a.Valid) (hb : b.Valid)
    (h : a.generated.line < b.generated.line ∨
      (a.generated.line = b.generated.line ∧ a.generated.column < b.generated.column)) :
    ∃ c, compareByGeneratedPosInflated cfg a b = .ok c ∧ c < 0 :=
  ⟨_, compare_eq_cmpVal cfg ha hb, cmpVal_neg_of_pos (by unfold posLE; omega)⟩

/-- The remaining fields in order of significance: source (absent last), original line, original
column, name (absent last). Written out as the documented order, apart from the code. -/
inductive FieldsLT : Mapping → Mapping → Prop where
  | line {a b} : a.generated.line < b.generated.line → FieldsLT a b
  | column {a b} : a.generated.line = b.generated.line →
      a.generated.column < b.generated.column → FieldsLT a b
  | source {a b s t} : a.generated = b.generated → a.source = some s → b.source = some t → s < t →
      FieldsLT a b
  | sourceAbsent {a b s} : a.generated = b.generated → a.source = some s → b.source = none →
      FieldsLT a b
  | origLine {a b p q} : a.generated = b.generated → a.source = b.source → a.original = some p →
      b.original = some q → p.line < q.line → FieldsLT a b
  | origColumn {a b p q} : a.generated = b.generated → a.source = b.source → a.original = some p →
      b.original = some q → p.line = q.line → p.column < q.column → FieldsLT a b
  | name {a b s t} : a.generated = b.generated → a.source = b.source → a.original = b.original →
      a.name = some s → b.name = some t → s < t → FieldsLT a b
  | nameAbsent {a b s} : a.generated = b.generated → a.source = b.source → a.original = b.original →
      a.name = some s → b.name = none → FieldsLT a b

theorem strcmp_neg_iff (a b : Option String) : strcmp a b < 0 ↔
    (∃ s t, a = some s ∧ b = some t ∧ s < t) ∨ (∃ s, a = some s ∧ b = none) := by
  cases a with
  | none =>
    cases b <;> simp [strcmp]
  | some a =>
    cases b with
    | none => simp [strcmp]
    | some b =>
      by_cases h : a = b
      · subst h; simp [strcmp]
      · simp only [strcmp, Option.some.injEq, h, if_false]
        by_cases hba : b < a
        · have := String.lt_asymm hba
          simp [hba, this]
        · have := str_lt_of_not hba h
          simp [hba, this]

theorem cmpVal_neg_iff {a b : Mapping}
    (hu : a.generated = b.generated → a.source = b.source → a.original.isSome = b.original.isSome) :
    cmpVal a b < 0 ↔ FieldsLT a b := by
  have hpos : ∀ p q : Position, p.line = q.line → p.column = q.column → p = q := by
    intro p q h1 h2; cases p; cases q; simp_all
  constructor
  · intro h
    unfold cmpVal at h
    simp only [lexCmp] at h
    split at h
    · exact .line (by omega)
    · rename_i h1
      have e1 : a.generated.line = b.generated.line := by omega
      split at h
      · exact .column e1 (by omega)
      · rename_i h2
        have eg : a.generated = b.generated := hpos _ _ e1 (by omega)
        split at h
        · rcases (strcmp_neg_iff _ _).1 h with ⟨s, t, h3, h4, h5⟩ | ⟨s, h3, h4⟩
          · exact .source eg h3 h4 h5
          · exact .sourceAbsent eg h3 h4
        · rename_i h3
          have es := (strcmp_eq_zero a.source b.source).1 (by simpa using h3)
          have hiso := hu eg es
          rcases Option.eq_none_or_eq_some a.original with hao | ⟨p, hao⟩
          · rcases Option.eq_none_or_eq_some b.original with hbo | ⟨q, hbo⟩
            · simp only [hao, hbo, Option.map_none, optSub, ne_eq, not_true_eq_false, if_false] at h
              rcases (strcmp_neg_iff _ _).1 h with ⟨s, t, h5, h6, h7⟩ | ⟨s, h5, h6⟩
              · exact .name eg es (by rw [hao, hbo]) h5 h6 h7
              · exact .nameAbsent eg es (by rw [hao, hbo]) h5 h6
            · simp [hao, hbo] at hiso
          · rcases Option.eq_none_or_eq_some b.original with hbo | ⟨q, hbo⟩
            · simp [hao, hbo] at hiso
            · simp only [hao, hbo, Option.map_some, optSub] at h
              split at h
              · exact .origLine eg es hao hbo (by omega)
              · rename_i h4
                split at h
                · exact .origColumn eg es hao hbo (by omega) (by omega)
                · rename_i h5
                  have eo : a.original = b.original := by
                    rw [hao, hbo, hpos p q (by omega) (by omega)]
                  rcases (strcmp_neg_iff _ _).1 h with ⟨s, t, h6, h7, h8⟩ | ⟨s, h6, h7⟩
                  · exact .name eg es eo h6 h7 h8
                  · exact .nameAbsent eg es eo h6 h7
  · have hz : ∀ x : Option String, strcmp x x = 0 := fun x => (strcmp_eq_zero x x).2 rfl
    have hzo : ∀ x : Option Int, optSub x x = 0 := fun x => (optSub_eq_zero x x).2 rfl
    intro h
    cases h with
    | line h => exact cmpVal_neg_of_pos (by unfold posLE; omega)
    | column h1 h2 => exact cmpVal_neg_of_pos (by unfold posLE; omega)
    | source h1 h2 h3 h4 =>
      have := (strcmp_neg_iff a.source b.source).2 (.inl ⟨_, _, h2, h3, h4⟩)
      simp only [cmpVal, lexCmp, h1, Int.sub_self, ne_eq, not_true_eq_false, if_false,
        show ¬ strcmp a.source b.source = 0 by omega, not_false_eq_true, if_true, this]
    | sourceAbsent h1 h2 h3 =>
      have := (strcmp_neg_iff a.source b.source).2 (.inr ⟨_, h2, h3⟩)
      simp only [cmpVal, lexCmp, h1, Int.sub_self, ne_eq, not_true_eq_false, if_false,
        show ¬ strcmp a.source b.source = 0 by omega, not_false_eq_true, if_true, this]
    | @origLine p q h1 h2 h3 h4 h5 =>
      simp only [cmpVal, lexCmp, h1, h2, hz, h3, h4, Int.sub_self, ne_eq, not_true_eq_false, if_false,
        Option.map_some, optSub, show ¬ p.line - q.line = 0 by omega, not_false_eq_true, if_true]
      omega
    | @origColumn p q h1 h2 h3 h4 h5 h6 =>
      simp only [cmpVal, lexCmp, h1, h2, hz, h3, h4, h5, Int.sub_self, ne_eq, not_true_eq_false, if_false,
        Option.map_some, optSub, show ¬ p.column - q.column = 0 by omega, not_false_eq_true, if_true]
      omega
    | name h1 h2 h3 h4 h5 h6 =>
      have := (strcmp_neg_iff a.name b.name).2 (.inl ⟨_, _, h4, h5, h6⟩)
      simp only [cmpVal, lexCmp, h1, h2, hz, h3, hzo, Int.sub_self, ne_eq, not_true_eq_false, if_false, this]
    | nameAbsent h1 h2 h3 h4 h5 =>
      have := (strcmp_neg_iff a.name b.name).2 (.inr ⟨_, h4, h5⟩)
      simp only [cmpVal, lexCmp, h1, h2, hz, h3, hzo, Int.sub_self, ne_eq, not_true_eq_false, if_false, this]

/-- C09. The comparison is negative exactly when the first differing field, in the documented
order, is smaller. -/
theorem C09_compare_is_lexicographic (cfg : Cfg) (a b : Mapping) (ha : a.Valid) (hb : b.Valid) :
    (∃ c, compareByGeneratedPosInflated cfg a b = .ok c ∧ c < 0) ↔ FieldsLT a b := by
  rw [compare_eq_cmpVal cfg ha hb]
  simp only [Except.ok.injEq, exists_eq_left']
  exact cmpVal_neg_iff (fun _ es => by rw [ha.orig, hb.orig, es])

example : FieldsLT exA exB := .source rfl rfl rfl (by decide)

/-- C10. Whatever the interleaving of `add` and `to_array`, whenever `to_array` returns, it returns
a permutation of everything added. (No validity needed; a debug build may panic on overflow for
negative coordinates, see C11 for the absence of panics.) -/
theorem C10_mappinglist_permutation (cfg : Cfg) (ops : List MLOp) (l : MappingList)
    (out : List Mapping) (l' : MappingList) (h : MappingList.new.run cfg ops = .ok l)
    (hout : l.toArray cfg = .ok (out, l')) : out.Perm (added ops) := by
  have h1 := run_perm cfg ops MappingList.new l h
  have h2 := (toArray_perm cfg hout).1
  exact h2.trans (by simpa [MappingList.new] using h1)

/-- C10. `unsorted_for_each` calls back once for every mapping added, with the indices 0, 1, 2, ...; in order of
insertion if `to_array` has not been called. -/
theorem C10_unsorted_for_each (cfg : Cfg) (ops : List MLOp) (l : MappingList)
    (h : MappingList.new.run cfg ops = .ok l) :
    (l.unsortedForEach.map Prod.fst).Perm (added ops) ∧
    l.unsortedForEach.map Prod.snd = List.range (added ops).length ∧
    (.toArray ∉ ops → l.unsortedForEach.map Prod.fst = added ops) := by
  have h1 := run_perm cfg ops MappingList.new l h
  simp only [MappingList.new, List.nil_append] at h1
  refine ⟨by simpa [MappingList.unsortedForEach] using h1, ?_, ?_⟩
  · rw [← h1.length_eq]
    simp [MappingList.unsortedForEach, List.range_eq_range']
  · intro hn
    simp only [MappingList.unsortedForEach, List.zipIdx_map_fst]
    have : ∀ (ops : List MLOp) (l l' : MappingList), .toArray ∉ ops → l.run cfg ops = .ok l' →
        l'.array = l.array ++ added ops := by
      intro ops
      induction ops with
      | nil => intro l l' _ h; cases h; simp [added]
      | cons op ops ih =>
        intro l l' hn h
        simp only [MappingList.run, Res.bind_eq_ok] at h
        obtain ⟨l1, h1, h2⟩ := h
        have h3 := ih l1 l' (fun hm => hn (by simp [hm])) h2
        cases op with
        | toArray => simp at hn
        | add m =>
          simp only [MappingList.step, MappingList.add, Res.bind_eq_ok] at h1
          obtain ⟨b, _, h1⟩ := h1
          rw [h3]
          split at h1 <;> cases h1 <;> simp [added]
    simpa [MappingList.new] using this ops _ _ hn h

/-- Insertion order before `to_array`. -/
example (cfg : Cfg) : ∃ l, MappingList.new.run cfg [.add exZ, .add exA] = .ok l ∧
    l.unsortedForEach = [(exZ, 0), (exA, 1)] := ⟨_, rfl, rfl⟩

/-- C11. For valid mappings no history panics, and `to_array` is in order of generated position
after every history. -/
theorem C11_mappinglist_sorted (cfg : Cfg) (ops : List MLOp) (hv : ∀ m ∈ added ops, m.Valid) :
    ∃ l out l', MappingList.new.run cfg ops = .ok l ∧ l.toArray cfg = .ok (out, l') ∧
      out.Perm (added ops) ∧ out.Pairwise posLE := by
  obtain ⟨l, h1, h2⟩ := run_valid cfg ops MappingList.new MappingList.inv_new hv
  obtain ⟨out, l', h3, _, _, h4, h5, _⟩ := toArray_valid cfg h2
  refine ⟨l, out, l', h1, h3, ?_, h5⟩
  exact C10_mappinglist_permutation cfg ops l out l' h1 h3

/-- The hypotheses are met by a history with an out-of-order insertion and an intermediate read. -/
example : ∀ m ∈ added [.add exZ, .add exA, .toArray, .add exB], m.Valid := by
  intro m hm
  simp only [added, List.mem_cons, List.not_mem_nil, or_false] at hm
  rcases hm with rfl | rfl | rfl
  · exact exZ_valid
  · exact exA_valid
  · exact exB_valid

/-- C12 (refutation). The order among mappings with one generated position depends on insertion
order: adding `exA, exB` and adding `exB, exA` gives different arrays. -/
theorem C12_mappinglist_canonical_refuted (cfg : Cfg) :
    ∃ ops₁ ops₂ l₁ l₂ out₁ out₂ l₁' l₂', (∀ m ∈ added ops₁, m.Valid) ∧
      (added ops₁).Perm (added ops₂) ∧
      MappingList.new.run cfg ops₁ = .ok l₁ ∧ MappingList.new.run cfg ops₂ = .ok l₂ ∧
      l₁.toArray cfg = .ok (out₁, l₁') ∧ l₂.toArray cfg = .ok (out₂, l₂') ∧ out₁ ≠ out₂ := by
  refine ⟨[.add exA, .add exB], [.add exB, .add exA],
    ⟨[exA, exB], true, some exB⟩, ⟨[exB, exA], true, some exA⟩, [exA, exB], [exB, exA], _, _,
    ?_, List.Perm.swap _ _ _, rfl, rfl, rfl, rfl, by decide⟩
  intro m hm
  simp only [added, List.mem_cons, List.not_mem_nil, or_false] at hm
  rcases hm with rfl | rfl
  · exact exA_valid
  · exact exB_valid

/-- C12 (what is true). For two histories adding the same valid mappings the sequence of generated
positions is the same, and if no two of the mappings share a generated position the whole output
is the same. Missing: the order among mappings sharing a position, where the property is false. -/
theorem C12_mappinglist_canonical_partial (cfg : Cfg) (ops₁ ops₂ : List MLOp)
    (hv : ∀ m ∈ added ops₁, m.Valid) (hp : (added ops₁).Perm (added ops₂)) :
    ∃ l₁ l₂ out₁ out₂ l₁' l₂', MappingList.new.run cfg ops₁ = .ok l₁ ∧
      MappingList.new.run cfg ops₂ = .ok l₂ ∧
      l₁.toArray cfg = .ok (out₁, l₁') ∧ l₂.toArray cfg = .ok (out₂, l₂') ∧
      out₁.map Mapping.generated = out₂.map Mapping.generated ∧
      ((∀ a ∈ added ops₁, ∀ b ∈ added ops₁, a.generated = b.generated → a = b) → out₁ = out₂) := by
  have hv2 : ∀ m ∈ added ops₂, m.Valid := fun m hm => hv m (hp.mem_iff.2 hm)
  obtain ⟨l₁, out₁, l₁', h1, h2, h3, h4⟩ := C11_mappinglist_sorted cfg ops₁ hv
  obtain ⟨l₂, out₂, l₂', k1, k2, k3, k4⟩ := C11_mappinglist_sorted cfg ops₂ hv2
  have hperm : out₁.Perm out₂ := h3.trans (hp.trans k3.symm)
  have hpos : ∀ p q : Position, p.line = q.line → p.column = q.column → p = q := by
    intro p q h1 h2; cases p; cases q; simp_all
  refine ⟨l₁, l₂, out₁, out₂, l₁', l₂', h1, k1, h2, k2, ?_, ?_⟩
  · have e1 : (out₁.map Mapping.generated).Pairwise
        (fun p q => p.line < q.line ∨ (p.line = q.line ∧ p.column ≤ q.column)) :=
      List.pairwise_map.2 h4
    have e2 : (out₂.map Mapping.generated).Pairwise
        (fun p q => p.line < q.line ∨ (p.line = q.line ∧ p.column ≤ q.column)) :=
      List.pairwise_map.2 k4
    refine List.Perm.eq_of_pairwise ?_ e1 e2 (hperm.map _)
    intro p q _ _ h1 h2
    exact hpos p q (by omega) (by omega)
  · intro hinj
    refine List.Perm.eq_of_pairwise ?_ h4 k4 hperm
    intro a b ha hb h1 h2
    unfold posLE at h1 h2
    exact hinj a (h3.mem_iff.1 ha) b (h3.mem_iff.1 (hperm.mem_iff.2 hb)) (hpos _ _ (by omega) (by omega))

end RSM
