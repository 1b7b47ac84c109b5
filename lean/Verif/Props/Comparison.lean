import Verif.Props.MappingList
/-! # Property C103: the numbers the comparisons return -/

namespace RSM

/-- How far one text is from another: absent after present. -/
inductive TextOrder : Option String → Option String → Int → Prop where
  | same {s} : TextOrder s s 0
  | less {s t} : s < t → TextOrder (some s) (some t) (-1)
  | more {s t} : t < s → TextOrder (some s) (some t) 1
  | lastAbsent {s} : TextOrder (some s) none (-1)
  | firstAbsent {s} : TextOrder none (some s) 1

/-- The differences of two mappings, most significant first, each as an integer. -/
inductive Differences : Mapping → Mapping → List Int → Prop where
  | both {a b p q s n} : a.original = some p → b.original = some q → TextOrder a.source b.source s →
      TextOrder a.name b.name n →
      Differences a b [a.generated.line - b.generated.line, a.generated.column - b.generated.column, s,
        p.line - q.line, p.column - q.column, n]
  | notBoth {a b s n} : (a.original = none ∨ b.original = none) → TextOrder a.source b.source s →
      TextOrder a.name b.name n →
      Differences a b [a.generated.line - b.generated.line, a.generated.column - b.generated.column, s, n]

/-- `d` is the first number of the list that is not 0; 0 if there is none. -/
def FirstNonzero (l : List Int) (d : Int) : Prop :=
  (d = 0 ∧ ∀ x ∈ l, x = 0) ∨ (d ≠ 0 ∧ ∃ pre post, l = pre ++ d :: post ∧ ∀ x ∈ pre, x = 0)

/-- All coordinates are values of type `i32`, as they are in the program. -/
structure Mapping.Typed (m : Mapping) : Prop where
  line : IsI32 m.generated.line
  column : IsI32 m.generated.column
  original : ∀ p, m.original = some p → IsI32 p.line ∧ IsI32 p.column

/-- C103: `strcmp` returns -1, 0 or 1. -/
theorem C103_strcmp (a b : Option String) (r : Int) : strcmp a b = r ↔ TextOrder a b r := by
  constructor
  · rintro rfl
    by_cases h : a = b
    · subst h
      rw [(strcmp_eq_zero a a).2 rfl]
      exact .same
    · unfold strcmp
      simp only [if_neg h]
      cases a with
      | none => cases b with
        | none => exact absurd rfl h
        | some b => exact .firstAbsent
      | some a => cases b with
        | none => exact .lastAbsent
        | some b =>
          simp only
          split
          · rename_i hba; exact .more hba
          · rename_i hba
            exact .less (str_lt_of_not hba (fun e => h (by rw [e])))
  · intro h
    cases h with
    | same => exact (strcmp_eq_zero _ _).2 rfl
    | @less s t h =>
      have h1 : s ≠ t := fun e => String.lt_irrefl t (e ▸ h)
      have h2 : ¬ t < s := String.lt_asymm h
      simp [strcmp, h1, h2]
    | @more s t h =>
      have h1 : s ≠ t := fun e => String.lt_irrefl t (e ▸ h)
      simp [strcmp, h1, h]
    | lastAbsent => simp [strcmp]
    | firstAbsent => simp [strcmp]

/-- What becomes of a difference. -/
def outcome (cfg : Cfg) (d : Int) (r : Res Int) : Prop :=
  (IsI32 d → r = .ok d) ∧
  (¬ IsI32 d → cfg.overflowChecks = true → r = .error .overflow) ∧
  (¬ IsI32 d → cfg.overflowChecks = false → r = .ok (if 0 < d then d - 4294967296 else d + 4294967296))

theorem arith_outcome (cfg : Cfg) {x y : Int} (hx : IsI32 x) (hy : IsI32 y) :
    outcome cfg (x - y) (cfg.arith (x - y)) := by
  unfold IsI32 at hx hy
  refine ⟨fun h => cfg.arith_ok h, fun h hc => ?_, fun h hc => ?_⟩
  · simp [Cfg.arith, h, hc]
  · have e : wrap32 (x - y) = if 0 < x - y then x - y - 4294967296 else x - y + 4294967296 := by
      unfold IsI32 at h
      unfold wrap32
      split <;> omega
    simp [Cfg.arith, h, hc, e]

theorem outcome_step (cfg : Cfg) {x y : Int} (hx : IsI32 x) (hy : IsI32 y) {l : List Int} {rest : Res Int}
    (hrest : ∃ d, FirstNonzero l d ∧ outcome cfg d rest) :
    ∃ d, FirstNonzero ((x - y) :: l) d ∧ outcome cfg d (cfg.arith (x - y) >>= fun c => if c ≠ 0 then pure c else rest) := by
  by_cases h0 : x - y = 0
  · obtain ⟨d, h1, h2⟩ := hrest
    refine ⟨d, ?_, ?_⟩
    · rcases h1 with ⟨h, k⟩ | ⟨h, pre, post, k1, k2⟩
      · exact .inl ⟨h, by simpa [h0] using k⟩
      · exact .inr ⟨h, (x - y) :: pre, post, by simp [k1], by simpa [h0] using k2⟩
    · rw [h0, cfg.arith_ok (by decide)]
      simpa using h2
  · refine ⟨x - y, .inr ⟨h0, [], l, rfl, by simp⟩, ?_⟩
    obtain ⟨h1, h2, h3⟩ := arith_outcome cfg hx hy
    refine ⟨fun h => ?_, fun h hc => ?_, fun h hc => ?_⟩
    · rw [h1 h]; simp [h0]
    · rw [h2 h hc]; rfl
    · rw [h3 h hc]
      unfold IsI32 at hx hy
      have : (if 0 < x - y then x - y - 4294967296 else x - y + 4294967296) ≠ 0 := by split <;> omega
      simp only [Res.ok_bind, if_pos this, Res.pure_eq]

theorem outcome_text (cfg : Cfg) {l : List Int} {a b : Option String} {rest : Res Int}
    (hrest : ∃ d, FirstNonzero l d ∧ outcome cfg d rest) :
    ∃ d, FirstNonzero (strcmp a b :: l) d ∧ outcome cfg d (if strcmp a b ≠ 0 then pure (strcmp a b) else rest) := by
  have hs : IsI32 (strcmp a b) := by
    have := (C103_strcmp a b _).1 rfl
    generalize strcmp a b = r at this
    cases this <;> decide
  by_cases h0 : strcmp a b = 0
  · obtain ⟨d, h1, h2⟩ := hrest
    refine ⟨d, ?_, by simpa [h0] using h2⟩
    rcases h1 with ⟨h, k⟩ | ⟨h, pre, post, k1, k2⟩
    · exact .inl ⟨h, by simpa [h0] using k⟩
    · exact .inr ⟨h, strcmp a b :: pre, post, by simp [k1], by simpa [h0] using k2⟩
  · refine ⟨strcmp a b, .inr ⟨h0, [], l, rfl, by simp⟩, fun _ => by simp [h0], fun h => absurd hs h, fun h => absurd hs h⟩

theorem outcome_last (cfg : Cfg) (a b : Option String) :
    ∃ d, FirstNonzero [strcmp a b] d ∧ outcome cfg d (pure (strcmp a b)) := by
  have := outcome_text cfg (l := []) (a := a) (b := b) (rest := pure 0)
    ⟨0, .inl ⟨rfl, by simp⟩, fun _ => rfl, fun h => absurd (by decide) h, fun h => absurd (by decide) h⟩
  by_cases h0 : strcmp a b = 0
  · simpa [h0] using this
  · simpa [h0] using this

/-- C103. The comparison of any two mappings returns their first difference: coordinates as the difference of the two
numbers, texts as -1 or 1, and 0 if there is none; original positions count only where both mappings have one. A
difference that is no `i32` is the only way it can fail: a build with overflow checks panics, another returns the
difference off by `2^32`, so with the wrong sign. -/
theorem C103_comparison (cfg : Cfg) (a b : Mapping) (ha : a.Typed) (hb : b.Typed) :
    ∃ l d, Differences a b l ∧ FirstNonzero l d ∧ outcome cfg d (compareByGeneratedPosInflated cfg a b) := by
  have hs := (C103_strcmp a.source b.source _).1 rfl
  have hn := (C103_strcmp a.name b.name _).1 rfl
  have main : ∀ tl, (∃ d, FirstNonzero tl d ∧ outcome cfg d (compareOriginalThenName cfg a b)) →
      ∃ d, FirstNonzero ((a.generated.line - b.generated.line) :: (a.generated.column - b.generated.column) ::
        strcmp a.source b.source :: tl) d ∧ outcome cfg d (compareByGeneratedPosInflated cfg a b) :=
    fun tl h => outcome_step cfg ha.line hb.line (outcome_step cfg ha.column hb.column (outcome_text cfg h))
  unfold compareOriginalThenName at main
  rcases Option.eq_none_or_eq_some a.original with hao | ⟨p, hao⟩
  · simp only [hao] at main
    obtain ⟨d, h1, h2⟩ := main _ (outcome_last cfg a.name b.name)
    exact ⟨_, d, .notBoth (.inl hao) hs hn, h1, h2⟩
  · rcases Option.eq_none_or_eq_some b.original with hbo | ⟨q, hbo⟩
    · simp only [hao, hbo] at main
      obtain ⟨d, h1, h2⟩ := main _ (outcome_last cfg a.name b.name)
      exact ⟨_, d, .notBoth (.inr hbo) hs hn, h1, h2⟩
    · simp only [hao, hbo] at main
      obtain ⟨d, h1, h2⟩ := main _ (outcome_step cfg (ha.original p hao).1 (hb.original q hbo).1
        (outcome_step cfg (ha.original p hao).2 (hb.original q hbo).2 (outcome_last cfg a.name b.name)))
      exact ⟨_, d, .both hao hbo hs hn, h1, h2⟩

/-- C103. There is only one such list and one such number. -/
theorem C103_determined {a b : Mapping} {l l' : List Int} {d d' : Int} (h1 : Differences a b l) (h2 : FirstNonzero l d)
    (k1 : Differences a b l') (k2 : FirstNonzero l' d') : l = l' ∧ d = d' := by
  have e : l = l' := by
    cases h1 <;> cases k1 <;> simp_all [← C103_strcmp]
  subst e
  refine ⟨rfl, ?_⟩
  rcases h2 with ⟨h, k⟩ | ⟨h, pre, post, rfl, k⟩
  · rcases k2 with ⟨h', k'⟩ | ⟨h', pre, post, rfl, k'⟩
    · omega
    · exact absurd (k d' (by simp)) h'
  · rcases k2 with ⟨h', k'⟩ | ⟨h', pre', post', e, k'⟩
    · exact absurd (k' d (by simp)) h
    · clear h1 k1
      induction pre generalizing pre' with
      | nil => cases pre' with
        | nil => exact (List.cons.inj e).1
        | cons x pre' => exact absurd ((List.cons.inj e).1.trans (k' x (by simp))) h
      | cons y pre ih => cases pre' with
        | nil => exact absurd ((List.cons.inj e).1.symm.trans (k y (by simp))) h'
        | cons x pre' =>
          exact ih (fun x hx => k x (by simp [hx])) pre' (List.cons.inj e).2 (fun x hx => k' x (by simp [hx]))

/-- Two mappings that differ by 5 in their original columns, and in their names, which do not count then. -/
example (cfg : Cfg) : compareByGeneratedPosInflated cfg
    { generated := ⟨1, 2⟩, source := some "s", original := some ⟨3, 9⟩, name := some "a" }
    { generated := ⟨1, 2⟩, source := some "s", original := some ⟨3, 4⟩, name := some "b" } = .ok 5 := by
  obtain ⟨_ | _, _ | _⟩ := cfg <;> rfl

example : Mapping.Typed { generated := ⟨2147483647, -2147483648⟩, original := some ⟨0, -5⟩ } :=
  ⟨by decide, by decide, by intro p h; cases h; decide⟩

/-- Lines `2^31` apart: without overflow checks the comparison has the wrong sign. -/
example : compareByGeneratedPosInflated ⟨false, true⟩ { generated := ⟨2147483647, 0⟩ } { generated := ⟨-1, 0⟩ } =
    .ok (-2147483648) := rfl

end RSM
