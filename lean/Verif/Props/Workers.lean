import Verif.Lemmas.Workers
import Verif.Props.Indexed
import Verif.Dep.Demo
/-! # The section workers, step by step: C93 -/

namespace RSM

open IndexedConsumer

variable {E : Env}

/-- Every worker has made its section. -/
def Pool.Finished (p : Pool E) (l : List (IdxSection E)) (n : Nat) : Prop :=
  l.length = n ∧ ∀ (i : Nat) (x : IdxSection E), l[i]? = some x → p.worker i = .done x

/-- The worker has made its section or panicked. -/
def Worker.Ended : Worker E → Prop
  | .done _ => True
  | .panicked => True
  | _ => False

/-- The worker is between taking the lock and the end of the closure. -/
def Worker.Holds : Worker E → Prop
  | .locked => True
  | .compared => True
  | .written => True
  | _ => False

/-- Any distinct indices are the beginning of a schedule. -/
theorem extend_schedule {n : Nat} {order : List Nat} (hnd : order.Nodup) (hlt : ∀ i ∈ order, i < n) :
    ∃ rest, IsSchedule n (order ++ rest) := by
  refine ⟨(List.range n).filter (· ∉ order), ?_⟩
  refine (List.perm_ext_iff_of_nodup ?_ List.nodup_range).2 fun i => ?_
  · refine List.nodup_append.2 ⟨hnd, List.filter_sublist.nodup List.nodup_range, ?_⟩
    rintro a ha b hb rfl
    simp [ha] at hb
  · simp only [List.mem_append, List.mem_filter, List.mem_range, decide_not, Bool.not_eq_true', decide_eq_false_iff_not]
    constructor
    · rintro (h | h)
      · exact hlt i h
      · exact h.1
    · intro h
      by_cases hm : i ∈ order
      · exact .inl hm
      · exact .inr ⟨h, hm⟩

section

variable {m : SourceMapJson} {u : Option String} {secs : List (JsonSection SourceMapJson)}

/-- C93. However the steps of the workers are interleaved, if they all come to their end the consumer is that of some order
in which they take the lock; and each such order is an interleaving. -/
theorem C93_returns (hv : m.version = 3) (hs : m.sections = some secs) (c : IndexedConsumer E) :
    (∃ is p, Pool.exec u secs Pool.start is = some p ∧ c.sourceMap = m ∧ p.Finished c.sections secs.length) ↔
      ∃ schedule, IsSchedule secs.length schedule ∧ fromSourceMapJson schedule m u = .ok c := by
  have hfrom : ∀ schedule, fromSourceMapJson schedule m u = .ok c ↔
      c.sourceMap = m ∧ collectSections u secs schedule = .ok c.sections := by
    intro schedule
    have hv' : ¬ m.version ≠ supportedSourceMapVersion := by simp [hv, supportedSourceMapVersion]
    simp only [fromSourceMapJson, if_neg hv', hs, unwrap, Res.ok_bind, Res.bind_eq_ok, Res.pure_eq, Except.ok.injEq]
    constructor
    · rintro ⟨l, h, rfl⟩; exact ⟨rfl, h⟩
    · rintro ⟨h1, h⟩; exact ⟨_, h, by rw [← h1]⟩
  constructor
  · rintro ⟨is, p, he, hm, hlen, hl⟩
    obtain ⟨order, hi⟩ := Pool.inv_start.exec he
    have hmem : ∀ i, i ∈ order ↔ i < secs.length := by
      intro i
      rw [hi.done]
      constructor
      · rintro ⟨x, hx⟩; exact hi.inside i (by rw [hx]; simp)
      · intro h
        exact ⟨_, hl i _ (List.getElem?_eq_getElem (hlen ▸ h))⟩
    have hsch : IsSchedule secs.length order :=
      (List.perm_ext_iff_of_nodup hi.nodup List.nodup_range).2 fun i => by rw [hmem]; simp
    refine ⟨order, hsch, (hfrom order).2 ⟨hm, ?_⟩⟩
    have hmk : ∀ (i : Nat) s, secs[i]? = some s → ∃ x, c.sections[i]? = some x ∧ Makes u s x := by
      intro i s hs'
      have hilt : i < c.sections.length := hlen ▸ (List.getElem?_eq_some_iff.1 hs').1
      refine ⟨_, List.getElem?_eq_getElem hilt, ?_⟩
      obtain ⟨s', h1, h2⟩ := hi.makes i _ (hl i _ (List.getElem?_eq_getElem hilt))
      rw [hs'] at h1
      cases h1
      exact h2
    obtain ⟨l, hl'⟩ := collect_total (E := E) (u := u) hsch (fun i s h => by
      obtain ⟨x, _, hx⟩ := hmk i s h
      exact ⟨x, hx⟩) hi.pw
    rw [hl']
    congr 1
    obtain ⟨a1, a2, _⟩ := collect_ok hsch hl'
    apply List.ext_getElem?
    intro i
    by_cases h : i < secs.length
    · have hs' := List.getElem?_eq_getElem h
      obtain ⟨x, hx, mx⟩ := a2 i _ hs'
      obtain ⟨y, hy, my⟩ := hmk i _ hs'
      rw [hx, hy, mx.unique my]
    · rw [List.getElem?_eq_none (by omega), List.getElem?_eq_none (by omega)]
  · rintro ⟨schedule, hsch, hc⟩
    obtain ⟨hm, hc⟩ := (hfrom schedule).1 hc
    simp only [collectSections, Res.bind_eq_ok] at hc
    obtain ⟨acc, h1, h2⟩ := hc
    obtain ⟨h3, h4⟩ := mapM_ok h2
    obtain ⟨r1, _⟩ := Pool.run_all (u := u) (secs := secs) (is := schedule) (p := (Pool.start : Pool E))
      (acc := HMap.empty) ⟨rfl, rfl, fun _ _ => rfl⟩ (hsch.nodup_iff.2 List.nodup_range)
      (fun i hi => by simpa using hsch.mem_iff.1 hi)
    obtain ⟨steps, p, e1, e2⟩ := r1 acc h1 (by intro i x hx; simp at hx)
    refine ⟨steps, p, e1, hm, by simpa using h3, fun i x hx => e2 i x ?_⟩
    have hilt : i < secs.length := by
      have := (List.getElem?_eq_some_iff.1 hx).1
      simpa [h3] using this
    obtain ⟨y, hy, hy'⟩ := h4 i i (by rw [List.getElem?_range hilt])
    rw [hx] at hy'
    cases hy'
    cases hg : acc.get? i with
    | none => rw [hg] at hy; cases hy
    | some z => rw [hg] at hy; cases hy; rfl

/-- C93. Some interleaving has a worker panic exactly if, in some order of taking the lock, the construction panics. -/
theorem C93_panics (hv : m.version = 3) (hs : m.sections = some secs) :
    (∃ is, ∃ p : Pool E, Pool.exec u secs Pool.start is = some p ∧ ∃ i, p.worker i = .panicked) ↔
      ∃ schedule e, IsSchedule secs.length schedule ∧ fromSourceMapJson (E := E) schedule m u = .error e := by
  have hv' : ¬ m.version ≠ supportedSourceMapVersion := by simp [hv, supportedSourceMapVersion]
  constructor
  · rintro ⟨is, p, he, hp⟩
    obtain ⟨order, hi⟩ := Pool.inv_start.exec he
    have key : ∃ schedule, IsSchedule secs.length schedule ∧
        ∀ l : List (IdxSection E), collectSections u secs schedule ≠ .ok l := by
      rcases hi.bad (.inr hp) with ⟨i, s, h1, h2⟩ | ⟨bad, h1, h2, h3⟩
      · refine ⟨List.range secs.length, List.Perm.refl _, fun l hl => h2 ?_⟩
        obtain ⟨_, a2, _⟩ := collect_ok (List.Perm.refl _) hl
        obtain ⟨x, _, hx⟩ := a2 i s h1
        exact ⟨x, hx⟩
      · obtain ⟨rest, hsch⟩ := extend_schedule h1 h2
        refine ⟨_, hsch, fun l hl => h3 ?_⟩
        obtain ⟨_, _, a3⟩ := collect_ok hsch hl
        refine List.Pairwise.sublist ?_ a3
        simp only [Pool.seen, offsetsAlong, List.filterMap_append, List.map_append, ← List.cons_append]
        exact List.sublist_append_left _ _
    obtain ⟨schedule, hsch, hno⟩ := key
    cases hc : collectSections (E := E) u secs schedule with
    | ok l => exact absurd hc (hno l)
    | error e =>
      exact ⟨schedule, e, hsch, by simp [fromSourceMapJson, hv', hs, unwrap, hc]⟩
  · rintro ⟨schedule, e, hsch, hc⟩
    simp only [fromSourceMapJson, if_neg hv', hs, unwrap, Res.ok_bind] at hc
    obtain ⟨_, r2⟩ := Pool.run_all (u := u) (secs := secs) (is := schedule) (p := (Pool.start : Pool E))
      (acc := HMap.empty) ⟨rfl, rfl, fun _ _ => rfl⟩ (hsch.nodup_iff.2 List.nodup_range)
      (fun i hi => by simpa using hsch.mem_iff.1 hi)
    cases hr : runSchedule (E := E) u secs schedule ⟨-1, 0⟩ HMap.empty with
    | error e' =>
      obtain ⟨steps, p, i, e1, e2⟩ := r2 e' hr
      exact ⟨steps, p, e1, i, e2⟩
    | ok acc =>
      obtain ⟨g1, _, _⟩ := runSchedule_ok hr
      obtain ⟨l, hl⟩ := mapM_total (f := fun i => unwrap (acc.get? i)) (l := List.range secs.length)
        (fun i hi => by
          obtain ⟨s, x, _, _, hx⟩ := g1 i (hsch.mem_iff.2 hi)
          exact ⟨x, by simp [hx, unwrap]⟩)
      have : collectSections (E := E) u secs schedule = .ok l := by simp [collectSections, hr, hl]
      rw [this] at hc
      simp at hc

/-- C93. No deadlock: at any time some worker can go on, or all have ended. -/
theorem C93_progress {is : List Nat} {p : Pool E} (h : Pool.exec u secs Pool.start is = some p) :
    (∃ i p', Pool.step u secs p i = some p') ∨ ∀ i < secs.length, (p.worker i).Ended := by
  obtain ⟨order, hi⟩ := Pool.inv_start.exec h
  by_cases hall : ∀ i < secs.length, (p.worker i).Ended
  · exact .inr hall
  · refine .inl ?_
    cases hl : p.lock with
    | some i =>
      have hin := (hi.lock i).1 hl
      have hlt : i < secs.length := hi.inside i (by intro e; rw [e] at hin; exact hin)
      refine ⟨i, ?_⟩
      simp only [Pool.step, List.getElem?_eq_getElem hlt]
      cases hw : p.worker i <;> simp only [hw, Pool.InLock] at hin ⊢
      · split <;> exact ⟨_, rfl⟩
      · exact ⟨_, rfl⟩
      · split <;> exact ⟨_, rfl⟩
    | none =>
      obtain ⟨i, hne⟩ := Classical.not_forall.1 hall
      obtain ⟨hlt, hne⟩ := Classical.not_imp.1 hne
      refine ⟨i, ?_⟩
      have hin : ¬ Pool.InLock (p.worker i) := fun hh => by
        have := (hi.lock i).2 hh
        rw [hl] at this
        cases this
      simp only [Pool.step, List.getElem?_eq_getElem hlt, hl]
      cases hw : p.worker i <;> simp only [hw, Pool.InLock, Worker.Ended, not_true] at hin hne ⊢
      · exact ⟨_, rfl⟩
      · simp only [Option.isSome_none, Bool.false_eq_true, if_false]
        split <;> exact ⟨_, rfl⟩

/-- C93. No execution goes on for ever: no worker makes more than five steps. -/
theorem C93_finite {is : List Nat} {p : Pool E} (h : Pool.exec u secs Pool.start is = some p) :
    (∀ i ∈ is, i < secs.length) ∧ ∀ i, is.count i ≤ 5 := by
  obtain ⟨h1, h2⟩ := Pool.exec_rank h
  refine ⟨h1, fun i => ?_⟩
  have := h2 i
  simp only [Pool.start, Pool.rank] at this
  omega

/-- C93. Mutual exclusion: two workers are never both between taking the lock and the end of the closure. -/
theorem C93_exclusion {is : List Nat} {p : Pool E} (h : Pool.exec u secs Pool.start is = some p) {i j : Nat}
    (hi : (p.worker i).Holds) (hj : (p.worker j).Holds) : i = j := by
  obtain ⟨order, hI⟩ := Pool.inv_start.exec h
  have hh : ∀ {w : Worker E}, w.Holds → Pool.InLock w := by
    intro w hw; cases w <;> exact hw
  exact (hI.only (hh hi) (hh hj)).symm

/-- C93. An execution that cannot go on has made all sections, or a worker has panicked. -/
theorem C93_outcome {is : List Nat} {p : Pool E} (h : Pool.exec u secs Pool.start is = some p)
    (hend : ∀ i, Pool.step u secs p i = none) :
    (∃ l, p.Finished l secs.length) ∨ ∃ i, p.worker i = .panicked := by
  by_cases hp : ∃ i, p.worker i = .panicked
  · exact .inr hp
  · refine .inl ?_
    have hall : ∀ i < secs.length, ∃ x, p.worker i = .done x := by
      rcases C93_progress h with ⟨i, p', h'⟩ | hall
      · rw [hend i] at h'; cases h'
      · intro i hi
        have := hall i hi
        cases hw : p.worker i <;> simp only [hw, Worker.Ended] at this
        · exact ⟨_, rfl⟩
        · exact absurd ⟨i, hw⟩ hp
    refine ⟨(List.range secs.length).attach.map fun i => (hall i.1 (by simpa using i.2)).choose, by simp, ?_⟩
    intro i x hx
    simp only [List.getElem?_map, Option.map_eq_some_iff] at hx
    obtain ⟨j, h1, rfl⟩ := hx
    obtain ⟨h2, h3⟩ := List.getElem?_eq_some_iff.1 h1
    have hj : j.1 = i := by rw [← h3]; simp
    rw [← hj]
    exact (hall j.1 (by simpa using j.2)).choose_spec

/-- C93. Two executions that come to their end make the same sections. -/
theorem C93_same {is₁ is₂ : List Nat} {p₁ p₂ : Pool E} (h₁ : Pool.exec u secs Pool.start is₁ = some p₁)
    (h₂ : Pool.exec u secs Pool.start is₂ = some p₂) {l₁ l₂ : List (IdxSection E)} (f₁ : p₁.Finished l₁ secs.length)
    (f₂ : p₂.Finished l₂ secs.length) : l₁ = l₂ := by
  have key : ∀ m : SourceMapJson, m.version = 3 → m.sections = some secs → l₁ = l₂ := by
    intro m hv hs
    obtain ⟨s₁, a₁, b₁⟩ := (C93_returns (u := u) hv hs ⟨m, l₁⟩).1 ⟨is₁, p₁, h₁, rfl, f₁⟩
    obtain ⟨s₂, a₂, b₂⟩ := (C93_returns (u := u) hv hs ⟨m, l₂⟩).1 ⟨is₂, p₂, h₂, rfl, f₂⟩
    exact congrArg IndexedConsumer.sections (C41_schedule_independent hs a₁ a₂ b₁ b₂)
  exact key ⟨3, none, none, none, none, none, none, some secs⟩ rfl rfl

/-- C93. The race: sections that are fine by themselves and in order, two of them at different offsets. One execution makes
them all, another has a worker panic. -/
theorem C93_race (hv : m.version = 3) (hs : m.sections = some secs) (hok : ∀ s ∈ secs, SectionOk E u s)
    (hpos : ∀ s ∈ secs, 0 ≤ s.offset.line) {i j : Nat} {a b : JsonSection SourceMapJson} (hij : i < j)
    (ha : secs[i]? = some a) (hb : secs[j]? = some b) (hlt : a.offset.Lt b.offset) :
    (∃ is, ∃ p : Pool E, ∃ l, Pool.exec u secs Pool.start is = some p ∧ p.Finished l secs.length) ∧
    ∃ is, ∃ p : Pool E, Pool.exec u secs Pool.start is = some p ∧ ∃ k, p.worker k = .panicked := by
  constructor
  · obtain ⟨sch, h1, c, h2⟩ := C40_invalid_map_accepted_refuted m u hv hs hok hpos
    obtain ⟨is, p, h3, _, h4⟩ := (C93_returns (u := u) hv hs c).2 ⟨sch, h1, h2⟩
    exact ⟨is, p, c.sections, h3, h4⟩
  · obtain ⟨sch, h1, h2⟩ := C40_valid_map_rejected_refuted (E := E) m u hs hij ha hb hlt
    refine (C93_panics hv hs).2 ⟨sch, ?_⟩
    cases hc : fromSourceMapJson (E := E) sch m u with
    | ok c => exact absurd hc (h2 c)
    | error e => exact ⟨e, h1, rfl⟩

end

/-- What has become of the first two workers. -/
def Pool.firstTwo (p : Pool E) : List (Option Bool) :=
  [p.worker 0, p.worker 1].map fun
    | .done _ => some true
    | .panicked => some false
    | _ => none

/-- Two sections with the workers' steps mixed: both are made, or the first worker finds the lock taken, then an offset
after its own; and it cannot take the lock while the second holds it. -/
example :
    ((Pool.exec none (demoIndexed.sections.getD []) (Pool.start (E := demoEnv)) [0, 1, 0, 0, 0, 0, 1, 1, 1, 1]).map
      (·.firstTwo)) = some [some true, some true] ∧
    ((Pool.exec none (demoIndexed.sections.getD []) (Pool.start (E := demoEnv)) [0, 1, 1, 1, 1, 1, 0, 0]).map
      (·.firstTwo)) = some [some false, some true] ∧
    ((Pool.exec none (demoIndexed.sections.getD []) (Pool.start (E := demoEnv)) [0, 1, 1, 0]).map (·.firstTwo)) = none :=
  ⟨rfl, rfl, rfl⟩

end RSM
