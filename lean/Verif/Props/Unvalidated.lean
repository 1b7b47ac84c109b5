import Verif.Props.MappingList
/-! # Property C84: the order of mappings that were not validated

`compare_by_generated_pos_inflated` leaves the original positions out when either is missing. That is harmless for validated
mappings, and no order at all for others. -/

namespace RSM

/-- All coordinates are among the `2^31` numbers from `lo` on; nothing is asked about which fields are present. -/
structure Mapping.Within (lo : Int) (m : Mapping) : Prop where
  gl : lo ≤ m.generated.line ∧ m.generated.line ≤ lo + 2147483647
  gc : lo ≤ m.generated.column ∧ m.generated.column ≤ lo + 2147483647
  range : ∀ p, m.original = some p →
    lo ≤ p.line ∧ p.line ≤ lo + 2147483647 ∧ lo ≤ p.column ∧ p.column ≤ lo + 2147483647

/-- Of the mappings with one generated position and one source, all have an original position or none has. -/
def Uniform (ms : List Mapping) : Prop :=
  ∀ a ∈ ms, ∀ b ∈ ms, a.generated = b.generated → a.source = b.source →
    a.original.isSome = b.original.isSome

theorem Mapping.Valid.ranged {m : Mapping} (h : m.Valid) : m.Within 0 := ⟨h.gl, h.gc, h.range⟩

/-- An `i32` from which `2^31` numbers are `i32`s that differ by no more than an `i32`. -/
def WindowStart (lo : Int) : Prop := -2147483647 ≤ lo ∧ lo ≤ 0

instance (lo : Int) : Decidable (WindowStart lo) := by unfold WindowStart; infer_instance

theorem uniform_of_valid {ms : List Mapping} (h : ∀ m ∈ ms, m.Valid) : Uniform ms := by
  intro a ha b hb _ hs
  rw [(h a ha).orig, (h b hb).orig, hs]

theorem compare_ranged (cfg : Cfg) {lo : Int} {a b : Mapping} (ha : a.Within lo) (hb : b.Within lo)
    (hu : a.generated = b.generated → a.source = b.source → a.original.isSome = b.original.isSome) :
    compareByGeneratedPosInflated cfg a b = .ok (cmpVal a b) := by
  have h1 := cfg.arith_ok (x := a.generated.line - b.generated.line)
    (by have := ha.gl; have := hb.gl; unfold IsI32; omega)
  have h2 := cfg.arith_ok (x := a.generated.column - b.generated.column)
    (by have := ha.gc; have := hb.gc; unfold IsI32; omega)
  unfold compareByGeneratedPosInflated cmpVal
  simp only [h1, h2, Res.ok_bind, lexCmp, Res.pure_eq]
  split
  · rfl
  rename_i hl
  split
  · rfl
  rename_i hc
  split
  · rfl
  rename_i hs
  have hg : a.generated = b.generated := by
    have : ∀ p q : Position, p.line = q.line → p.column = q.column → p = q := by
      intro p q h1 h2; cases p; cases q; simp_all
    exact this _ _ (by omega) (by omega)
  have hiso := hu hg ((strcmp_eq_zero _ _).1 (by simpa using hs))
  unfold compareOriginalThenName
  rcases Option.eq_none_or_eq_some a.original with hao | ⟨p, hao⟩
  · rcases Option.eq_none_or_eq_some b.original with hbo | ⟨q, hbo⟩
    · simp [hao, hbo, optSub]
    · simp [hao, hbo] at hiso
  · rcases Option.eq_none_or_eq_some b.original with hbo | ⟨q, hbo⟩
    · simp [hao, hbo] at hiso
    · have r1 := ha.range p hao
      have r2 := hb.range q hbo
      have h3 := cfg.arith_ok (x := p.line - q.line) (by unfold IsI32; omega)
      have h4 := cfg.arith_ok (x := p.column - q.column) (by unfold IsI32; omega)
      simp only [hao, hbo, h3, h4, Res.ok_bind, Res.pure_eq, Option.map_some, optSub]
      split
      · rfl
      · split <;> rfl

theorem sortBy_ranged (cfg : Cfg) {lo : Int} {l : List Mapping} (h : ∀ m ∈ l, m.Within lo) (hu : Uniform l) :
    MappingList.sortBy cfg l = .ok (l.mergeSort cmpLE) := by
  have hcmp : ∀ a ∈ l, ∀ b ∈ l, compareByGeneratedPosInflated cfg a b = .ok (cmpVal a b) :=
    fun a ha b hb => compare_ranged cfg (h a ha) (h b hb) (hu a ha b hb)
  have hle : ∀ a ∈ l, ∀ b ∈ l, MappingList.sortLE cfg a b = cmpLE a b := by
    intro a ha b hb
    simp [MappingList.sortLE, hcmp a ha b hb, cmpLE]
  unfold MappingList.sortBy
  rw [if_pos]
  · congr 1
    exact mergeSort_congr hle
  · simp only [MappingList.consistent, List.all_eq_true, Bool.and_eq_true]
    intro a ha b hb
    refine ⟨⟨?_, ?_⟩, fun c hc => ?_⟩
    · rw [hcmp a ha b hb]; rfl
    · rw [hle a ha b hb, hle b hb a ha]; exact cmpLE_total a b
    · rw [hle a ha b hb, hle b hb c hc, hle a ha c hc]
      have := cmpLE_trans a b c
      cases h1 : cmpLE a b <;> cases h2 : cmpLE b c <;> simp_all

/-- As `MappingList.Inv`, for mappings with coordinates in range. -/
structure MappingList.InvR (lo : Int) (l : MappingList) : Prop where
  ranged : ∀ m ∈ l.array, m.Within lo
  sorted : l.sorted = true → l.array.Pairwise posLE
  lastNone : l.last = none → ∀ m ∈ l.array, posLE m MappingList.beforeAll
  lastSome : ∀ x, l.last = some x → x ∈ l.array ∧ ∀ m ∈ l.array, posLE m x

theorem after_ranged (cfg : Cfg) {lo : Int} (hlo : WindowStart lo) {l : MappingList} (h : l.InvR lo) {m : Mapping}
    (hm : m.Within lo) :
    generatedPositionAfter cfg (l.last.getD MappingList.beforeAll) m
      = .ok (decide (posLE (l.last.getD MappingList.beforeAll) m)) := by
  unfold generatedPositionAfter
  by_cases hp : posLE (l.last.getD MappingList.beforeAll) m
  · have hp' := hp
    unfold posLE at hp'
    rw [if_pos (by omega)]; simp [hp]
  · have hp' := hp
    unfold posLE at hp'
    rw [if_neg (by omega)]
    cases hl : l.last with
    | none =>
      rw [hl] at hp
      simp only [Option.getD_none] at hp ⊢
      simp only [hl, Option.getD_none, MappingList.beforeAll] at hp'
      have hb : MappingList.beforeAll.Within lo := by
        have := hm.gl
        have := hm.gc
        unfold WindowStart at hlo
        refine ⟨?_, ?_, by intro p hp; cases hp⟩ <;> simp only [MappingList.beforeAll] <;> omega
      rw [compare_ranged cfg hb hm (fun e => absurd (by unfold posLE; rw [e]; omega) hp)]
      simp only [Res.ok_bind, Res.pure_eq, Except.ok.injEq]
      have hneg : ¬ cmpVal MappingList.beforeAll m ≤ 0 := fun hc => hp (posLE_of_cmpVal hc)
      simp [hp, hneg]
    | some x =>
      rw [hl] at hp
      simp only [Option.getD_some] at hp ⊢
      have hx := h.ranged x (h.lastSome x hl).1
      rw [compare_ranged cfg hx hm (fun e => absurd (by unfold posLE; rw [e]; omega) hp)]
      simp only [Res.ok_bind, Res.pure_eq, Except.ok.injEq]
      have hneg : ¬ cmpVal x m ≤ 0 := fun hc => hp (posLE_of_cmpVal hc)
      simp [hp, hneg]

theorem add_ranged (cfg : Cfg) {lo : Int} (hlo : WindowStart lo) {l : MappingList} (h : l.InvR lo) {m : Mapping}
    (hm : m.Within lo) : ∃ l', l.add cfg m = .ok l' ∧ l'.InvR lo ∧ l'.array = l.array ++ [m] := by
  unfold MappingList.add
  rw [after_ranged cfg hlo h hm]
  simp only [Res.ok_bind, decide_eq_true_eq, Res.pure_eq]
  have hval : ∀ x ∈ l.array ++ [m], x.Within lo := by
    intro x hx
    rcases List.mem_append.1 hx with hx | hx
    · exact h.ranged x hx
    · simp only [List.mem_singleton] at hx; subst hx; exact hm
  split
  · rename_i hp
    have hle : ∀ x ∈ l.array, posLE x m := by
      intro x hx
      cases hl : l.last with
      | none =>
        rw [hl] at hp
        exact posLE_trans (h.lastNone hl x hx) hp
      | some y =>
        rw [hl] at hp
        exact posLE_trans ((h.lastSome y hl).2 x hx) hp
    refine ⟨_, rfl, ⟨hval, ?_, by simp, ?_⟩, rfl⟩
    · intro hs
      rw [List.pairwise_append]
      refine ⟨h.sorted hs, by simp, ?_⟩
      intro a ha b hb
      simp only [List.mem_singleton] at hb
      subst hb; exact hle a ha
    · intro x hx
      simp only [Option.some.injEq] at hx
      subst hx
      refine ⟨by simp, ?_⟩
      intro a ha
      rcases List.mem_append.1 ha with ha | ha
      · exact hle a ha
      · simp only [List.mem_singleton] at ha; subst ha; unfold posLE; omega
  · rename_i hp
    refine ⟨_, rfl, ⟨hval, by simp, ?_, ?_⟩, rfl⟩
    · intro hl
      simp only at hl
      rw [hl] at hp
      intro a ha
      rcases List.mem_append.1 ha with ha | ha
      · exact h.lastNone hl a ha
      · simp only [List.mem_singleton] at ha; subst ha
        rcases posLE_total a MappingList.beforeAll with h1 | h1
        · exact h1
        · exact absurd h1 hp
    · intro x hx
      simp only at hx
      have hx' := h.lastSome x hx
      refine ⟨by simp [hx'.1], ?_⟩
      intro a ha
      rcases List.mem_append.1 ha with ha | ha
      · exact hx'.2 a ha
      · simp only [List.mem_singleton] at ha; subst ha
        rw [hx] at hp
        rcases posLE_total a x with h1 | h1
        · exact h1
        · exact absurd h1 hp

theorem toArray_ranged (cfg : Cfg) {lo : Int} {l : MappingList} (h : l.InvR lo) (hu : Uniform l.array) :
    ∃ out l', l.toArray cfg = .ok (out, l') ∧ l'.InvR lo ∧ l'.array = out ∧ out.Perm l.array ∧
      out.Pairwise posLE := by
  unfold MappingList.toArray
  cases hs : l.sorted with
  | true => exact ⟨_, _, rfl, h, rfl, List.Perm.refl _, h.sorted hs⟩
  | false =>
    rw [sortBy_ranged cfg h.ranged hu]
    simp only [Bool.not_false, if_true, Res.ok_bind, Res.pure_eq]
    have hsorted : (l.array.mergeSort cmpLE).Pairwise posLE := by
      refine List.Pairwise.imp ?_ (List.pairwise_mergeSort cmpLE_trans cmpLE_total l.array)
      intro a b hab
      exact posLE_of_cmpVal (by simpa [cmpLE] using hab)
    refine ⟨_, _, rfl, ⟨?_, fun _ => hsorted, ?_, ?_⟩, rfl, List.mergeSort_perm _ _, hsorted⟩
    · intro m hm; exact h.ranged m (List.mem_mergeSort.1 hm)
    · intro hl m hm
      exact h.lastNone hl m (List.mem_mergeSort.1 hm)
    · intro x hx
      have := h.lastSome x hx
      exact ⟨List.mem_mergeSort.2 this.1, fun m hm => this.2 m (List.mem_mergeSort.1 hm)⟩

theorem run_ranged (cfg : Cfg) {lo : Int} (hlo : WindowStart lo) : ∀ (ops : List MLOp) (l : MappingList), l.InvR lo →
    (∀ m ∈ added ops, m.Within lo) → Uniform (l.array ++ added ops) →
    ∃ l', l.run cfg ops = .ok l' ∧ l'.InvR lo := by
  intro ops
  induction ops with
  | nil => intro l h _ _; exact ⟨l, rfl, h⟩
  | cons op ops ih =>
    intro l h hv hu
    cases op with
    | add m =>
      obtain ⟨l1, h1, h2, h3⟩ := add_ranged cfg hlo h (hv m (by simp [added]))
      obtain ⟨l', h4, h5⟩ := ih l1 h2 (fun x hx => hv x (by simp [added, hx]))
        (by rw [h3]; simpa [added] using hu)
      exact ⟨l', by simp [MappingList.run, MappingList.step, h1, h4], h5⟩
    | toArray =>
      obtain ⟨out, l1, h1, h2, h3, h4, _⟩ := toArray_ranged cfg h
        (fun a ha b hb => hu a (by simp [ha]) b (by simp [hb]))
      obtain ⟨l', h5, h6⟩ := ih l1 h2 (by simpa [added] using hv) (by
        rw [h3]
        intro a ha b hb
        have hm : ∀ x, x ∈ out ++ added ops → x ∈ l.array ++ added (.toArray :: ops) := by
          intro x hx
          simp only [added, List.mem_append] at hx ⊢
          exact hx.imp h4.mem_iff.1 id
        exact hu a (hm a ha) b (hm b hb))
      exact ⟨l', by simp [MappingList.run, MappingList.step, h1, h5], h6⟩

/-- C84 (what is true). If, of the mappings with one generated position and one source, all have an original position
or none has, then the comparison is the documented lexicographic order on them, and every history of `add` and
`to_array` returns, with everything added, in generated order; the mappings need not be valid: a source without an
original position, an original position without a source, a name without either, line 0 and negative coordinates are all fine, as long
as all coordinates lie among `2^31` consecutive numbers. Missing: histories mixing the two, and coordinates further
apart, where the property is false. -/
theorem C84_mappings_ordered_partial (cfg : Cfg) (lo : Int) (hlo : WindowStart lo) (ops : List MLOp)
    (hr : ∀ m ∈ added ops, m.Within lo) (hu : Uniform (added ops)) :
    (∀ a ∈ added ops, ∀ b ∈ added ops, ∃ c d, compareByGeneratedPosInflated cfg a b = .ok c ∧
      compareByGeneratedPosInflated cfg b a = .ok d ∧ (c < 0 ↔ 0 < d) ∧ (c = 0 ↔ SameKey a b)) ∧
    (∀ a ∈ added ops, ∀ b ∈ added ops, ∀ c ∈ added ops, ∀ x y,
      compareByGeneratedPosInflated cfg a b = .ok x → x ≤ 0 →
      compareByGeneratedPosInflated cfg b c = .ok y → y ≤ 0 →
      ∃ z, compareByGeneratedPosInflated cfg a c = .ok z ∧ z ≤ 0) ∧
    ∃ l out l', MappingList.new.run cfg ops = .ok l ∧ l.toArray cfg = .ok (out, l') ∧
      out.Perm (added ops) ∧ out.Pairwise posLE := by
  have hcmp : ∀ a ∈ added ops, ∀ b ∈ added ops, compareByGeneratedPosInflated cfg a b = .ok (cmpVal a b) :=
    fun a ha b hb => compare_ranged cfg (hr a ha) (hr b hb) (hu a ha b hb)
  refine ⟨?_, ?_, ?_⟩
  · intro a ha b hb
    exact ⟨_, _, hcmp a ha b hb, hcmp b hb a ha, lawful_cmpVal.anti a b, cmpVal_eq_zero a b⟩
  · intro a ha b hb c hc x y h1 hx h2 hy
    rw [hcmp a ha b hb] at h1
    rw [hcmp b hb c hc] at h2
    cases h1; cases h2
    exact ⟨_, hcmp a ha c hc, lawful_cmpVal.trans a b c hx hy⟩
  · obtain ⟨l, h1, h2⟩ := run_ranged cfg hlo ops MappingList.new
      ⟨by simp [MappingList.new], by simp [MappingList.new], by simp [MappingList.new], by simp [MappingList.new]⟩ hr
      (by simpa [MappingList.new] using hu)
    have hp := run_perm cfg ops MappingList.new l h1
    simp only [MappingList.new, List.nil_append] at hp
    obtain ⟨out, l', h3, _, _, h4, h5⟩ := toArray_ranged cfg h2
      (fun a ha b hb => hu a (hp.mem_iff.1 ha) b (hp.mem_iff.1 hb))
    exact ⟨l, out, l', h1, h3, h4.trans hp, h5⟩

/-- Mappings that `validate_mapping` refuses, met by the hypotheses: a source without an original position, and an
original position without a source, out of order. -/
def looseA : Mapping := { generated := ⟨2, 0⟩, source := some "a.js", name := some "n" }
def looseB : Mapping := { generated := ⟨-4, 3⟩, original := some ⟨0, -7⟩ }

example : ∀ m ∈ added [.add looseA, .toArray, .add looseB], m.Within (-10) := by
  intro m hm
  simp only [added, List.mem_cons, List.not_mem_nil, or_false] at hm
  rcases hm with rfl | rfl
  · exact ⟨by decide, by decide, by intro p hp; cases hp⟩
  · exact ⟨by decide, by decide, by intro p hp; cases hp; decide⟩

example : Uniform (added [.add looseA, .toArray, .add looseB]) := by
  intro a ha b hb
  simp only [added, List.mem_cons, List.not_mem_nil, or_false] at ha hb
  rcases ha with rfl | rfl <;> rcases hb with rfl | rfl <;> decide

/-- Three mappings at one generated position with one source. -/
def cycA : Mapping := { generated := ⟨1, 0⟩, source := some "s", name := some "m" }
def cycB : Mapping := { generated := ⟨1, 0⟩, source := some "s", original := some ⟨1, 0⟩, name := some "z" }
def cycC : Mapping := { generated := ⟨1, 0⟩, source := some "s", original := some ⟨2, 0⟩, name := some "a" }

/-- C84 (refutation). Three mappings with coordinates in range, of which one has a source and no original position,
are each less than the next, around a circle: no order puts them in sequence, and what `sort_by` does with them the
standard library does not say. -/
theorem C84_cycle_refuted (cfg : Cfg) : ∃ a b c x y z, a.Within 0 ∧ b.Within 0 ∧ c.Within 0 ∧
    compareByGeneratedPosInflated cfg a b = .ok x ∧ x < 0 ∧
    compareByGeneratedPosInflated cfg b c = .ok y ∧ y < 0 ∧
    compareByGeneratedPosInflated cfg c a = .ok z ∧ z < 0 := by
  refine ⟨cycA, cycB, cycC, -1, -1, -1, ?_, ?_, ?_, ?_, by decide, ?_, by decide, ?_, by decide⟩
  · exact ⟨by decide, by decide, by intro p hp; cases hp⟩
  · exact ⟨by decide, by decide, by intro p hp; cases hp; decide⟩
  · exact ⟨by decide, by decide, by intro p hp; cases hp; decide⟩
  all_goals
    rcases cfg with ⟨c, p⟩
    cases c <;> cases p <;> rfl

/-- C84. So for a generator without validation: no arrangement of the three, however they were added, is one in which
nothing comes after something greater. -/
theorem C84_no_arrangement (cfg : Cfg) (out : List Mapping) (h : out.Perm [cycA, cycB, cycC]) :
    ¬ out.Pairwise fun a b => ∃ c, compareByGeneratedPosInflated cfg a b = .ok c ∧ c ≤ 0 := by
  have hneg : ∀ {a b : Mapping} {x : Int}, compareByGeneratedPosInflated cfg a b = .ok x → 0 < x →
      ¬ ∃ c, compareByGeneratedPosInflated cfg a b = .ok c ∧ c ≤ 0 := by
    rintro a b x h1 h2 ⟨c, h3, h4⟩
    rw [h1] at h3; cases h3; omega
  have e1 : compareByGeneratedPosInflated cfg cycB cycA = .ok 1 := by
    rcases cfg with ⟨c, p⟩; cases c <;> cases p <;> rfl
  have e2 : compareByGeneratedPosInflated cfg cycC cycB = .ok 1 := by
    rcases cfg with ⟨c, p⟩; cases c <;> cases p <;> rfl
  have e3 : compareByGeneratedPosInflated cfg cycA cycC = .ok 1 := by
    rcases cfg with ⟨c, p⟩; cases c <;> cases p <;> rfl
  have n1 := hneg e1 (by decide)
  have n2 := hneg e2 (by decide)
  have n3 := hneg e3 (by decide)
  intro hp
  have hmem := fun x => h.mem_iff (a := x)
  have hlen := h.length_eq
  match out, hlen with
  | [x, y, z], _ =>
    simp only [List.pairwise_cons, List.mem_cons, List.not_mem_nil, or_false, forall_eq_or_imp, forall_eq] at hp hmem
    have dab : cycA ≠ cycB := by decide
    have dac : cycA ≠ cycC := by decide
    have dbc : cycB ≠ cycC := by decide
    have dba := dab.symm
    have dca := dac.symm
    have dcb := dbc.symm
    have hx := (hmem x).1 (by simp)
    have hy := (hmem y).1 (by simp)
    have hz := (hmem z).1 (by simp)
    have ha := (hmem cycA).2 (by simp)
    have hb := (hmem cycB).2 (by simp)
    have hc := (hmem cycC).2 (by simp)
    obtain ⟨⟨p1, p2⟩, p3, _⟩ := hp
    clear h hmem hlen e1 e2 e3 hneg
    rcases hx with rfl | rfl | rfl <;> rcases hy with rfl | rfl | rfl <;> rcases hz with rfl | rfl | rfl <;>
      simp_all

/-- C84 (refutation). Two mappings whose lines are `2^31` apart, one more than `C84_mappings_ordered_partial` allows: adding
the earlier one second panics in a debug build, and in a release build the list takes it for the later one and
hands the two out in the wrong order. -/
theorem C84_wide_refuted (cfg : Cfg) : ∃ a b : Mapping, IsI32 a.generated.line ∧ IsI32 b.generated.line ∧
    a.generated.line - b.generated.line = 2147483648 ∧ ¬ posLE a b ∧
    (cfg.overflowChecks = true → MappingList.new.run cfg [.add a, .add b] = .error .overflow) ∧
    (cfg.overflowChecks = false → ∃ l, MappingList.new.run cfg [.add a, .add b] = .ok l ∧
      l.toArray cfg = .ok ([a, b], l)) := by
  refine ⟨{ generated := ⟨2147483647, 0⟩ }, { generated := ⟨-1, 0⟩ }, by decide, by decide, by decide, by decide, ?_, ?_⟩
  · rcases cfg with ⟨c, p⟩
    rintro ⟨⟩
    rfl
  · rcases cfg with ⟨c, p⟩
    rintro ⟨⟩
    exact ⟨_, rfl, rfl⟩

end RSM
