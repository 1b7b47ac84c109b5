import Verif.Model.Workers
import Verif.Lemmas.Indexed
/-! # The section workers step by step: invariant -/

namespace RSM

open IndexedConsumer

namespace Pool

variable {E : Env} {u : Option String} {secs : List (JsonSection SourceMapJson)}

/-- The worker holds the lock. -/
def InLock : Worker E → Prop
  | .locked => True
  | .compared => True
  | .written => True
  | _ => False

/-- The offsets seen, after the first. -/
def seen (secs : List (JsonSection SourceMapJson)) (order : List Nat) : List Position :=
  ⟨-1, 0⟩ :: offsetsAlong secs order

/-- Something is wrong with the sections: one of them cannot be made, or some order of them is decreasing. -/
def Bad (E : Env) (u : Option String) (secs : List (JsonSection SourceMapJson)) : Prop :=
  (∃ (i : Nat) (s : JsonSection SourceMapJson), secs[i]? = some s ∧ ¬ ∃ x : IdxSection E, Makes u s x) ∨
  ∃ order, order.Nodup ∧ (∀ i ∈ order, i < secs.length) ∧ ¬ (seen secs order).Pairwise Position.Le

/-- What is true after every step; `order` are the workers that are done, in the order in which they had the lock. -/
structure Inv (u : Option String) (secs : List (JsonSection SourceMapJson)) (p : Pool E) (order : List Nat) : Prop where
  nodup : order.Nodup
  done : ∀ i, i ∈ order ↔ ∃ x, p.worker i = .done x
  makes : ∀ i x, p.worker i = .done x → ∃ s, secs[i]? = some s ∧ Makes u s x
  pw : (seen secs order).Pairwise Position.Le
  inside : ∀ i, p.worker i ≠ .idle → i < secs.length
  url : ∀ i s, secs[i]? = some s → (p.worker i = .checked ∨ InLock (p.worker i)) → s.url = none
  lock : ∀ i, p.lock = some i ↔ InLock (p.worker i)
  clean : p.lock ≠ none → p.poisoned = false
  last : p.poisoned = false → (∀ i, p.worker i ≠ .written) →
    p.last ∈ seen secs order ∧ ∀ a ∈ seen secs order, a.Le p.last
  cmp : ∀ i s, secs[i]? = some s → p.worker i = .compared → p.last.Le s.offset
  wr : ∀ i s, secs[i]? = some s → p.worker i = .written → p.last = s.offset ∧ ∀ a ∈ seen secs order, a.Le s.offset
  bad : (p.poisoned = true ∨ ∃ i, p.worker i = .panicked) → Bad E u secs

theorem Le.trans {a b c : Position} (h1 : a.Le b) (h2 : b.Le c) : a.Le c := by
  unfold Position.Le at *; omega

theorem not_le_of_lt {a b : Position} (h : b.line < a.line ∨ (b.line = a.line ∧ b.column < a.column)) : ¬ a.Le b := by
  unfold Position.Le; omega

theorem le_of_not_lt {a b : Position} (h : ¬ (b.line < a.line ∨ (b.line = a.line ∧ b.column < a.column))) : a.Le b := by
  unfold Position.Le; omega

theorem seen_append (order : List Nat) {i : Nat} {s : JsonSection SourceMapJson} (h : secs[i]? = some s) :
    seen secs (order ++ [i]) = seen secs order ++ [s.offset] := by
  simp [seen, offsetsAlong, h]

theorem makeSection_ok {s : JsonSection SourceMapJson} (hu : s.url = none) {x : IdxSection E} :
    makeSection u s = .ok x ↔ Makes u s x := by
  simp only [makeSection, Res.bind_eq_ok, Res.pure_eq, Except.ok.injEq, Makes]
  constructor
  · rintro ⟨l, h1, c, h2, k, h3, rfl⟩
    exact ⟨hu, h1, h2, h3⟩
  · rintro ⟨_, h1, h2, h3⟩
    exact ⟨_, h1, _, h2, _, h3, rfl⟩

theorem inv_start : Inv u secs (start : Pool E) [] where
  nodup := .nil
  done := by simp [start]
  makes := by simp [start]
  pw := by simp [seen, offsetsAlong]
  inside := by simp [start]
  url := by simp [start, InLock]
  lock := by simp [start, InLock]
  clean := by simp [start]
  last := by
    intro _ _
    refine ⟨by simp [start, seen], ?_⟩
    simp only [seen, offsetsAlong, List.filterMap_nil, List.map_nil, List.mem_singleton]
    rintro a rfl
    simp [start, Position.Le]
  cmp := by simp [start]
  wr := by simp [start]
  bad := by simp [start]

theorem set_self (p : Pool E) (i : Nat) (w : Worker E) : (p.set i w).worker i = w := by simp [set]

theorem set_ne (p : Pool E) {i j : Nat} (h : j ≠ i) (w : Worker E) : (p.set i w).worker j = p.worker j := by
  simp [set, h]

/-- A step that neither takes, holds nor gives back the lock. -/
theorem Inv.move {p : Pool E} {order : List Nat} (h : Inv u secs p order) {i : Nat} {s : JsonSection SourceMapJson}
    (hs : secs[i]? = some s) {w : Worker E} (hd : ∀ x, p.worker i ≠ .done x) (hl : ¬ InLock (p.worker i))
    (hw : w = .checked ∧ s.url = none ∨ w = .panicked ∧ Bad E u secs) : Inv u secs (p.set i w) order := by
  have hlt : i < secs.length := (List.getElem?_eq_some_iff.1 hs).1
  have hwl : ¬ InLock w := by rcases hw with ⟨rfl, _⟩ | ⟨rfl, _⟩ <;> simp [InLock]
  have hwd : ∀ x, w ≠ .done x := by rcases hw with ⟨rfl, _⟩ | ⟨rfl, _⟩ <;> simp
  have hnw : ∀ {w' : Worker E}, InLock w' → w ≠ w' := fun h e => hwl (e ▸ h)
  refine ⟨h.nodup, ?_, ?_, h.pw, ?_, ?_, ?_, h.clean, ?_, ?_, ?_, ?_⟩
  · intro j
    rw [h.done]
    by_cases e : j = i
    · subst e
      rw [set_self]
      exact iff_of_false (fun ⟨x, hx⟩ => hd x hx) (fun ⟨x, hx⟩ => hwd x hx)
    · rw [set_ne p e]
  · intro j x hx
    by_cases e : j = i
    · subst e; rw [set_self] at hx; exact absurd hx (hwd x)
    · rw [set_ne p e] at hx; exact h.makes j x hx
  · intro j hj
    by_cases e : j = i
    · rw [e]; exact hlt
    · rw [set_ne p e] at hj; exact h.inside j hj
  · intro j t ht hj
    by_cases e : j = i
    · subst e
      rw [set_self] at hj
      rw [hs] at ht
      cases ht
      rcases hw with ⟨_, hu⟩ | ⟨rfl, _⟩
      · exact hu
      · simp [InLock] at hj
    · rw [set_ne p e] at hj; exact h.url j t ht hj
  · intro j
    by_cases e : j = i
    · subst e
      rw [set_self]
      exact iff_of_false (fun hx => hl ((h.lock j).1 hx)) hwl
    · rw [set_ne p e]; exact h.lock j
  · intro h1 h2
    refine h.last h1 fun j hj => ?_
    by_cases e : j = i
    · subst e; exact hl (by rw [hj]; trivial)
    · exact h2 j (by rw [set_ne p e]; exact hj)
  · intro j t ht hj
    by_cases e : j = i
    · subst e; rw [set_self] at hj; exact absurd hj (hnw trivial)
    · rw [set_ne p e] at hj; exact h.cmp j t ht hj
  · intro j t ht hj
    by_cases e : j = i
    · subst e; rw [set_self] at hj; exact absurd hj (hnw trivial)
    · rw [set_ne p e] at hj; exact h.wr j t ht hj
  · rintro (h1 | ⟨j, hj⟩)
    · exact h.bad (.inl h1)
    · by_cases e : j = i
      · subst e
        rw [set_self] at hj
        rcases hw with ⟨rfl, _⟩ | ⟨_, hb⟩
        · cases hj
        · exact hb
      · rw [set_ne p e] at hj; exact h.bad (.inr ⟨j, hj⟩)

/-- Only one worker holds the lock. -/
theorem Inv.only {p : Pool E} {order : List Nat} (h : Inv u secs p order) {i j : Nat} (hi : InLock (p.worker i))
    (hj : InLock (p.worker j)) : j = i := by
  have h1 := (h.lock i).2 hi
  have h2 := (h.lock j).2 hj
  rw [h1] at h2
  cases h2
  rfl

/-- Taking the lock, or a step while holding it. -/
theorem Inv.hold {p : Pool E} {order : List Nat} (h : Inv u secs p order) {i : Nat} {s : JsonSection SourceMapJson}
    (hs : secs[i]? = some s) {w : Worker E} {q : Position} (hp : p.poisoned = false)
    (hfree : p.lock = none ∧ p.worker i = .checked ∨ InLock (p.worker i))
    (hw : (w = .locked ∧ q = p.last ∧ ∀ j, p.worker j ≠ .written) ∨
      (w = .compared ∧ q = p.last ∧ p.worker i ≠ .written ∧ p.last.Le s.offset) ∨
      (w = .written ∧ q = s.offset ∧ ∀ a ∈ seen secs order, a.Le s.offset)) :
    Inv u secs { p.set i w with lock := some i, last := q } order := by
  have hlt : i < secs.length := (List.getElem?_eq_some_iff.1 hs).1
  have hwl : InLock w := by rcases hw with ⟨rfl, _⟩ | ⟨rfl, _⟩ | ⟨rfl, _⟩ <;> trivial
  have hother : ∀ j, j ≠ i → ¬ InLock (p.worker j) := by
    intro j hj hjl
    rcases hfree with ⟨h1, _⟩ | h1
    · rw [(h.lock j).2 hjl] at h1; cases h1
    · exact hj (h.only h1 hjl)
  have hd : ∀ x, p.worker i ≠ .done x := by
    rintro x hx
    rcases hfree with ⟨_, h1⟩ | h1 <;> rw [hx] at h1
    · cases h1
    · exact h1
  have hu : s.url = none := h.url i s hs (hfree.imp (fun h => h.2) id)
  have hset : ∀ j, ({ p.set i w with lock := some i, last := q } : Pool E).worker j = (p.set i w).worker j :=
    fun _ => rfl
  refine ⟨h.nodup, ?_, ?_, h.pw, ?_, ?_, ?_, fun _ => hp, ?_, ?_, ?_, ?_⟩
  · intro j
    rw [h.done, hset]
    by_cases e : j = i
    · subst e
      rw [set_self]
      exact iff_of_false (fun ⟨x, hx⟩ => hd x hx) (fun ⟨x, hx⟩ => by rw [hx] at hwl; exact hwl)
    · rw [set_ne p e]
  · intro j x hx
    rw [hset] at hx
    by_cases e : j = i
    · subst e; rw [set_self] at hx; rw [hx] at hwl; exact hwl.elim
    · rw [set_ne p e] at hx; exact h.makes j x hx
  · intro j hj
    rw [hset] at hj
    by_cases e : j = i
    · rw [e]; exact hlt
    · rw [set_ne p e] at hj; exact h.inside j hj
  · intro j t ht hj
    rw [hset] at hj
    by_cases e : j = i
    · subst e
      rw [hs] at ht
      cases ht
      exact hu
    · rw [set_ne p e] at hj; exact h.url j t ht hj
  · intro j
    rw [hset]
    by_cases e : j = i
    · subst e
      rw [set_self]
      exact iff_of_true rfl hwl
    · rw [set_ne p e]
      exact iff_of_false (fun hx => e (Option.some.inj hx).symm) (hother j e)
  · intro _ h2
    have hi := h2 i
    rw [hset, set_self] at hi
    have hnw : ∀ j, p.worker j ≠ .written := by
      rcases hw with ⟨_, _, hh⟩ | ⟨_, _, hh, _⟩ | ⟨hh, _⟩
      · exact hh
      · intro j hj
        by_cases e : j = i
        · subst e; exact hh hj
        · exact hother j e (by rw [hj]; trivial)
      · exact absurd hh hi
    have hq : q = p.last := by
      rcases hw with ⟨_, hh, _⟩ | ⟨_, hh, _⟩ | ⟨hh, _⟩
      · exact hh
      · exact hh
      · exact absurd hh hi
    show q ∈ seen secs order ∧ ∀ a ∈ seen secs order, a.Le q
    rw [hq]
    exact h.last hp hnw
  · intro j t ht hj
    rw [hset] at hj
    by_cases e : j = i
    · subst e
      rw [set_self] at hj
      rw [hs] at ht
      cases ht
      rcases hw with ⟨hh, _⟩ | ⟨_, hq, _, hh⟩ | ⟨hh, _⟩
      · rw [hh] at hj; cases hj
      · show q.Le _
        rw [hq]; exact hh
      · rw [hh] at hj; cases hj
    · rw [set_ne p e] at hj; exact absurd (show InLock (p.worker j) by rw [hj]; trivial) (hother j e)
  · intro j t ht hj
    rw [hset] at hj
    by_cases e : j = i
    · subst e
      rw [set_self] at hj
      rw [hs] at ht
      cases ht
      rcases hw with ⟨hh, _⟩ | ⟨hh, _⟩ | ⟨_, hq, hh⟩
      · rw [hh] at hj; cases hj
      · rw [hh] at hj; cases hj
      · exact ⟨hq, hh⟩
    · rw [set_ne p e] at hj; exact absurd (show InLock (p.worker j) by rw [hj]; trivial) (hother j e)
  · rintro (h1 | ⟨j, hj⟩)
    · exact h.bad (.inl h1)
    · rw [hset] at hj
      by_cases e : j = i
      · subst e; rw [set_self] at hj; rw [hj] at hwl; exact hwl.elim
      · rw [set_ne p e] at hj; exact h.bad (.inr ⟨j, hj⟩)

/-- Giving the lock back, with the section made or in a panic. -/
theorem Inv.release {p : Pool E} {order : List Nat} (h : Inv u secs p order) {i : Nat} {s : JsonSection SourceMapJson}
    (hs : secs[i]? = some s) (hi : InLock (p.worker i)) :
    (Bad E u secs → Inv u secs { p.set i .panicked with lock := none, poisoned := true } order) ∧
    ∀ x, Makes u s x → p.worker i = .written →
      Inv u secs { p.set i (.done x) with lock := none } (order ++ [i]) := by
  have hlt : i < secs.length := (List.getElem?_eq_some_iff.1 hs).1
  have hother : ∀ j, j ≠ i → ¬ InLock (p.worker j) := fun j hj hjl => hj (h.only hi hjl)
  have hd : ∀ x, p.worker i ≠ .done x := by
    rintro x hx; rw [hx] at hi; exact hi
  have hno : i ∉ order := fun hm => by
    obtain ⟨x, hx⟩ := (h.done i).1 hm
    exact hd x hx
  constructor
  · intro hb
    have hset : ∀ j, ({ p.set i .panicked with lock := none, poisoned := true } : Pool E).worker j =
        (p.set i .panicked).worker j := fun _ => rfl
    refine ⟨h.nodup, ?_, ?_, h.pw, ?_, ?_, ?_, (fun hx => absurd rfl hx), (fun hx => by cases hx), ?_, ?_, (fun _ => hb)⟩
    · intro j
      rw [h.done, hset]
      by_cases e : j = i
      · subst e
        rw [set_self]
        exact iff_of_false (fun ⟨x, hx⟩ => hd x hx) (fun ⟨x, hx⟩ => by cases hx)
      · rw [set_ne p e]
    · intro j x hx
      rw [hset] at hx
      by_cases e : j = i
      · subst e; rw [set_self] at hx; cases hx
      · rw [set_ne p e] at hx; exact h.makes j x hx
    · intro j hj
      rw [hset] at hj
      by_cases e : j = i
      · rw [e]; exact hlt
      · rw [set_ne p e] at hj; exact h.inside j hj
    · intro j t ht hj
      rw [hset] at hj
      by_cases e : j = i
      · subst e
        rw [set_self] at hj
        simp [InLock] at hj
      · rw [set_ne p e] at hj; exact h.url j t ht hj
    · intro j
      rw [hset]
      by_cases e : j = i
      · subst e
        rw [set_self]
        exact iff_of_false (by simp) (by simp [InLock])
      · rw [set_ne p e]
        exact iff_of_false (by simp) (hother j e)
    · intro j t ht hj
      rw [hset] at hj
      by_cases e : j = i
      · subst e; rw [set_self] at hj; cases hj
      · rw [set_ne p e] at hj; exact absurd (show InLock (p.worker j) by rw [hj]; trivial) (hother j e)
    · intro j t ht hj
      rw [hset] at hj
      by_cases e : j = i
      · subst e; rw [set_self] at hj; cases hj
      · rw [set_ne p e] at hj; exact absurd (show InLock (p.worker j) by rw [hj]; trivial) (hother j e)
  · intro x hx hw
    obtain ⟨w1, w2⟩ := h.wr i s hs hw
    have hset : ∀ j, ({ p.set i (.done x) with lock := none } : Pool E).worker j =
        (p.set i (.done x)).worker j := fun _ => rfl
    refine ⟨?_, ?_, ?_, ?_, ?_, ?_, ?_, (fun hx => absurd rfl hx), ?_, ?_, ?_, ?_⟩
    · exact List.nodup_append.2 ⟨h.nodup, by simp, by
        intro a ha b hb
        simp only [List.mem_singleton] at hb
        subst hb
        rintro rfl
        exact hno ha⟩
    · intro j
      rw [hset, List.mem_append, List.mem_singleton, h.done]
      by_cases e : j = i
      · subst e
        rw [set_self]
        exact iff_of_true (.inr rfl) ⟨x, rfl⟩
      · rw [set_ne p e]
        simp [e]
    · intro j y hy
      rw [hset] at hy
      by_cases e : j = i
      · subst e; rw [set_self] at hy; cases hy; exact ⟨s, hs, hx⟩
      · rw [set_ne p e] at hy; exact h.makes j y hy
    · rw [seen_append order hs, List.pairwise_append]
      refine ⟨h.pw, by simp, fun a ha b hb => ?_⟩
      simp only [List.mem_singleton] at hb
      subst hb
      exact w2 a ha
    · intro j hj
      rw [hset] at hj
      by_cases e : j = i
      · rw [e]; exact hlt
      · rw [set_ne p e] at hj; exact h.inside j hj
    · intro j t ht hj
      rw [hset] at hj
      by_cases e : j = i
      · subst e
        rw [set_self] at hj
        simp [InLock] at hj
      · rw [set_ne p e] at hj; exact h.url j t ht hj
    · intro j
      rw [hset]
      by_cases e : j = i
      · subst e
        rw [set_self]
        exact iff_of_false (by simp) (by simp [InLock])
      · rw [set_ne p e]
        exact iff_of_false (by simp) (hother j e)
    · intro _ _
      rw [seen_append order hs]
      show p.last ∈ seen secs order ++ [s.offset] ∧ ∀ a ∈ seen secs order ++ [s.offset], a.Le p.last
      rw [w1]
      refine ⟨by simp, fun a ha => ?_⟩
      rcases List.mem_append.1 ha with ha | ha
      · exact w2 a ha
      · simp only [List.mem_singleton] at ha
        subst ha
        unfold Position.Le; omega
    · intro j t ht hj
      rw [hset] at hj
      by_cases e : j = i
      · subst e; rw [set_self] at hj; cases hj
      · rw [set_ne p e] at hj; exact absurd (show InLock (p.worker j) by rw [hj]; trivial) (hother j e)
    · intro j t ht hj
      rw [hset] at hj
      by_cases e : j = i
      · subst e; rw [set_self] at hj; cases hj
      · rw [set_ne p e] at hj; exact absurd (show InLock (p.worker j) by rw [hj]; trivial) (hother j e)
    · rintro (h1 | ⟨j, hj⟩)
      · exact h.bad (.inl h1)
      · rw [hset] at hj
        by_cases e : j = i
        · subst e; rw [set_self] at hj; cases hj
        · rw [set_ne p e] at hj; exact h.bad (.inr ⟨j, hj⟩)

theorem Inv.step {p p' : Pool E} {order : List Nat} (h : Inv u secs p order) {i : Nat}
    (hst : step u secs p i = some p') : ∃ order', Inv u secs p' order' := by
  unfold Pool.step at hst
  cases hs : secs[i]? with
  | none => rw [hs] at hst; cases hst
  | some s =>
    rw [hs] at hst
    cases hw : p.worker i with
    | idle =>
      simp only [hw, Option.some.injEq] at hst
      subst hst
      refine ⟨order, h.move hs (by simp [hw]) (by simp [hw, InLock]) ?_⟩
      cases hu : s.url with
      | none => exact .inl ⟨by simp, rfl⟩
      | some t => exact .inr ⟨by simp, .inl ⟨i, s, hs, fun ⟨x, hx⟩ => by rw [hx.1] at hu; cases hu⟩⟩
    | checked =>
      simp only [hw] at hst
      cases hl : p.lock with
      | some j => simp [hl] at hst
      | none =>
        cases hp : p.poisoned with
        | true =>
          simp only [hl, hp, Option.isSome_none, Bool.false_eq_true, if_false, if_true, Option.some.injEq] at hst
          subst hst
          exact ⟨order, h.move hs (by simp [hw]) (by simp [hw, InLock]) (.inr ⟨rfl, h.bad (.inl hp)⟩)⟩
        | false =>
          simp only [hl, hp, Option.isSome_none, Bool.false_eq_true, if_false, Option.some.injEq] at hst
          subst hst
          exact ⟨order, h.hold (q := p.last) hs hp (.inl ⟨hl, hw⟩) (.inl ⟨rfl, rfl, fun j hj => by
            have := (h.lock j).2 (by rw [hj]; trivial)
            rw [hl] at this
            cases this⟩)⟩
    | locked =>
      have hin : InLock (p.worker i) := by rw [hw]; trivial
      have hp : p.poisoned = false := h.clean (by rw [(h.lock i).2 hin]; simp)
      have hnw : ∀ j, p.worker j ≠ .written := by
        intro j hj
        have := h.only hin (j := j) (by rw [hj]; trivial)
        subst this
        rw [hw] at hj
        cases hj
      have hlast := h.last hp hnw
      have hlk : p.lock = some i := (h.lock i).2 hin
      simp only [hw] at hst
      split at hst
      · rename_i hlt
        simp only [Option.some.injEq] at hst
        subst hst
        refine ⟨order, (h.release hs hin).1 (.inr ⟨order ++ [i], ?_, ?_, ?_⟩)⟩
        · refine List.nodup_append.2 ⟨h.nodup, by simp, ?_⟩
          intro a ha b hb
          simp only [List.mem_singleton] at hb
          subst hb
          rintro rfl
          obtain ⟨x, hx⟩ := (h.done a).1 ha
          rw [hw] at hx
          cases hx
        · intro j hj
          rcases List.mem_append.1 hj with hj | hj
          · obtain ⟨x, hx⟩ := (h.done j).1 hj
            exact h.inside j (by rw [hx]; simp)
          · simp only [List.mem_singleton] at hj
            subst hj
            exact (List.getElem?_eq_some_iff.1 hs).1
        · rw [seen_append order hs, List.pairwise_append]
          rintro ⟨_, _, hh⟩
          exact not_le_of_lt hlt (hh p.last hlast.1 s.offset (by simp))
      · rename_i hlt
        simp only [Option.some.injEq] at hst
        subst hst
        have := h.hold (q := p.last) (w := .compared) hs hp (.inr hin) (.inr (.inl ⟨rfl, rfl, by rw [hw]; simp, le_of_not_lt hlt⟩))
        refine ⟨order, ?_⟩
        rw [← hlk] at this
        exact this
    | compared =>
      have hin : InLock (p.worker i) := by rw [hw]; trivial
      have hp : p.poisoned = false := h.clean (by rw [(h.lock i).2 hin]; simp)
      have hlk : p.lock = some i := (h.lock i).2 hin
      have hnw : ∀ j, p.worker j ≠ .written := by
        intro j hj
        have := h.only hin (j := j) (by rw [hj]; trivial)
        subst this
        rw [hw] at hj
        cases hj
      simp only [hw, Option.some.injEq] at hst
      subst hst
      have hle := h.cmp i s hs hw
      have := h.hold (q := s.offset) (w := .written) hs hp (.inr hin) (.inr (.inr ⟨rfl, rfl, fun a ha =>
        Le.trans ((h.last hp hnw).2 a ha) hle⟩))
      refine ⟨order, ?_⟩
      rw [← hlk] at this
      exact this
    | written =>
      have hin : InLock (p.worker i) := by rw [hw]; trivial
      have hu : s.url = none := h.url i s hs (.inr hin)
      simp only [hw] at hst
      cases hm : makeSection (E := E) u s with
      | ok x =>
        simp only [hm, Option.some.injEq] at hst
        subst hst
        exact ⟨_, (h.release hs hin).2 x ((makeSection_ok hu).1 hm) hw⟩
      | error e =>
        simp only [hm, Option.some.injEq] at hst
        subst hst
        refine ⟨order, (h.release hs hin).1 (.inl ⟨i, s, hs, fun ⟨x, hx⟩ => ?_⟩)⟩
        rw [(makeSection_ok hu).2 hx] at hm
        cases hm
    | done x => simp [hw] at hst
    | panicked => simp [hw] at hst

theorem Inv.exec {is : List Nat} : ∀ {p p' : Pool E} {order : List Nat}, Inv u secs p order →
    exec u secs p is = some p' → ∃ order', Inv u secs p' order' := by
  induction is with
  | nil => intro p p' order h he; cases he; exact ⟨order, h⟩
  | cons i is ih =>
    intro p p' order h he
    simp only [Pool.exec, Option.bind_eq_bind, Option.bind_eq_some_iff] at he
    obtain ⟨q, h1, h2⟩ := he
    obtain ⟨order', h3⟩ := h.step h1
    exact ih h3 h2

theorem exec_append {a b : List Nat} : ∀ {p : Pool E}, exec u secs p (a ++ b) = (exec u secs p a).bind (exec u secs · b) := by
  induction a with
  | nil => intro p; rfl
  | cons i a ih =>
    intro p
    simp only [List.cons_append, Pool.exec, Option.bind_eq_bind]
    cases Pool.step u secs p i with
    | none => rfl
    | some q => exact ih

/-- The lock is free and not poisoned, and the workers given have not begun. -/
def Ready (p : Pool E) (is : List Nat) : Prop :=
  p.lock = none ∧ p.poisoned = false ∧ ∀ i ∈ is, p.worker i = .idle

/-- One worker runs through, if it can. -/
theorem run_one {p : Pool E} {i : Nat} {s : JsonSection SourceMapJson} (h : Ready p [i]) (hs : secs[i]? = some s) :
    (∀ x q, buildSection u p.last s = .ok (x, q) →
      ∃ p', exec u secs p [i, i, i, i, i] = some p' ∧ p'.lock = none ∧ p'.poisoned = false ∧ p'.last = q ∧
        p'.worker i = .done x ∧ ∀ j, j ≠ i → p'.worker j = p.worker j) ∧
    (∀ e, buildSection (E := E) u p.last s = .error e → ∃ is p', exec u secs p is = some p' ∧ p'.worker i = .panicked) := by
  obtain ⟨h1, h2, h3⟩ := h
  have h3 : p.worker i = .idle := h3 i (by simp)
  unfold buildSection
  cases hu : s.url with
  | some t =>
    refine ⟨fun x q hb => by simp at hb, fun e _ => ⟨[i], ?_⟩⟩
    simp [Pool.exec, Pool.step, hs, h3, hu, set]
  | none =>
    by_cases hlt : s.offset.line < p.last.line ∨ (s.offset.line = p.last.line ∧ s.offset.column < p.last.column)
    · refine ⟨fun x q hb => by simp [hlt] at hb, fun e _ => ⟨[i, i, i], ?_⟩⟩
      simp [Pool.exec, Pool.step, hs, h3, hu, set, h1, h2, hlt]
    · have hmk : (do
          let line ← E.cfg.arith (s.offset.line + 1)
          let column ← E.cfg.arith (s.offset.column + 1)
          let c ← BasicConsumer.fromSourceMapJson s.map u
          pure ((⟨⟨line, column⟩, c⟩ : IdxSection E), s.offset) : Res (IdxSection E × Position)) =
          (makeSection (E := E) u s).bind fun x => .ok (x, s.offset) := by
        simp only [makeSection, bind, Except.bind, pure, Except.pure]
        cases E.cfg.arith (s.offset.line + 1) with
        | error e => rfl
        | ok a =>
          cases E.cfg.arith (s.offset.column + 1) with
          | error e => rfl
          | ok b =>
            cases BasicConsumer.fromSourceMapJson (E := E) s.map u with
            | error e => rfl
            | ok c => rfl
      simp only [Option.isSome_none, Bool.false_eq_true, if_false, if_neg hlt]
      rw [hmk]
      cases hm : makeSection (E := E) u s with
      | ok x =>
        refine ⟨fun y q hb => ?_, fun e he => by simp [Except.bind] at he⟩
        simp only [Except.bind, Except.ok.injEq, Prod.mk.injEq] at hb
        obtain ⟨rfl, rfl⟩ := hb
        refine ⟨⟨fun j => if j = i then .done x else p.worker j, none, s.offset, false⟩, ?_, rfl, rfl, rfl, by simp, ?_⟩
        · simp only [Pool.exec, Pool.step, hs, h3, hu, set, h1, h2, hlt, hm, Option.isSome_none, Bool.false_eq_true,
            if_false, if_true, Option.bind_eq_bind, Option.bind_some, Option.some.injEq, Pool.mk.injEq, and_true]
          funext j
          by_cases e : j = i <;> simp [e]
        · intro j hj
          simp [hj]
      | error e =>
        refine ⟨fun y q hb => by simp [Except.bind] at hb, fun e _ => ⟨[i, i, i, i, i], ?_⟩⟩
        simp [Pool.exec, Pool.step, hs, h3, hu, set, h1, h2, hlt, hm]

theorem Ready.tail {p p' : Pool E} {i : Nat} {is : List Nat} (h : Ready p (i :: is)) (hnd : i ∉ is)
    (h1 : p'.lock = none) (h2 : p'.poisoned = false) (h3 : ∀ j, j ≠ i → p'.worker j = p.worker j) : Ready p' is :=
  ⟨h1, h2, fun j hj => by rw [h3 j (fun e => hnd (e ▸ hj)), h.2.2 j (by simp [hj])]⟩

/-- The workers one after the other. -/
theorem run_all {is : List Nat} : ∀ {p : Pool E} {acc : HMap Nat (IdxSection E)}, Ready p is → is.Nodup →
    (∀ i ∈ is, i < secs.length) →
    (∀ acc', runSchedule u secs is p.last acc = .ok acc' → (∀ i x, acc.get? i = some x → p.worker i = .done x) →
      ∃ steps p', exec u secs p steps = some p' ∧ ∀ i x, acc'.get? i = some x → p'.worker i = .done x) ∧
    (∀ e, runSchedule u secs is p.last acc = .error e →
      ∃ steps p' i, exec u secs p steps = some p' ∧ p'.worker i = .panicked) := by
  induction is with
  | nil =>
    intro p acc _ _ _
    refine ⟨fun acc' h hd => ?_, fun e h => by simp [runSchedule] at h⟩
    simp only [runSchedule, Except.ok.injEq] at h
    subst h
    exact ⟨[], p, rfl, hd⟩
  | cons i is ih =>
    intro p acc hr hnd hlt
    obtain ⟨hni, hnd⟩ := List.nodup_cons.1 hnd
    have hi : i < secs.length := hlt i (by simp)
    have hs : secs[i]? = some secs[i] := List.getElem?_eq_getElem hi
    have hr1 : Ready p [i] := ⟨hr.1, hr.2.1, fun j hj => hr.2.2 j (by simp at hj; simp [hj])⟩
    obtain ⟨g1, g2⟩ := run_one (u := u) hr1 hs
    cases hb : buildSection (E := E) u p.last secs[i] with
    | error e =>
      refine ⟨fun acc' h => by simp [runSchedule, index, hs, hb] at h, fun e' _ => ?_⟩
      obtain ⟨steps, p', e1, e2⟩ := g2 e hb
      exact ⟨steps, p', i, e1, e2⟩
    | ok r =>
      obtain ⟨x, q⟩ := r
      obtain ⟨p', e1, e2, e3, e4, e5, e6⟩ := g1 x q hb
      obtain ⟨i1, i2⟩ := ih (p := p') (acc := acc.insert i x) (hr.tail hni e2 e3 e6) hnd
        (fun j hj => hlt j (by simp [hj]))
      rw [e4] at i1 i2
      constructor
      · intro acc' h hd
        simp only [runSchedule, index, hs, hb, Res.ok_bind] at h
        obtain ⟨steps, p'', e7, e8⟩ := i1 acc' h (by
          intro j y hy
          rw [HMap.get?_insert] at hy
          by_cases e : j = i
          · subst e
            simp at hy
            rw [e5, hy]
          · rw [if_neg e] at hy
            rw [e6 j e]
            exact hd j y hy)
        exact ⟨[i, i, i, i, i] ++ steps, p'', by rw [exec_append, e1]; exact e7, e8⟩
      · intro e h
        simp only [runSchedule, index, hs, hb, Res.ok_bind] at h
        obtain ⟨steps, p'', j, e7, e8⟩ := i2 e h
        exact ⟨[i, i, i, i, i] ++ steps, p'', j, by rw [exec_append, e1]; exact e7, e8⟩

/-- How many steps a worker still has at most. -/
def rank : Worker E → Nat
  | .idle => 5
  | .checked => 4
  | .locked => 3
  | .compared => 2
  | .written => 1
  | .done _ => 0
  | .panicked => 0

theorem step_rank {p p' : Pool E} {i : Nat} (h : step u secs p i = some p') :
    i < secs.length ∧ rank (p'.worker i) < rank (p.worker i) ∧ ∀ j, j ≠ i → p'.worker j = p.worker j := by
  unfold Pool.step at h
  cases hs : secs[i]? with
  | none => rw [hs] at h; cases h
  | some s =>
    refine ⟨(List.getElem?_eq_some_iff.1 hs).1, ?_⟩
    rw [hs] at h
    cases hw : p.worker i <;> simp only [hw] at h
    · simp only [Option.some.injEq] at h
      subst h
      refine ⟨?_, fun j hj => set_ne p hj _⟩
      rw [set_self]
      split <;> simp [rank]
    · split at h
      · cases h
      · split at h <;> (simp only [Option.some.injEq] at h; subst h; exact ⟨by simp [set, rank], fun j hj => set_ne p hj _⟩)
    · split at h <;> (simp only [Option.some.injEq] at h; subst h; exact ⟨by simp [set, rank], fun j hj => set_ne p hj _⟩)
    · simp only [Option.some.injEq] at h
      subst h
      exact ⟨by simp [set, rank], fun j hj => set_ne p hj _⟩
    · split at h <;> (simp only [Option.some.injEq] at h; subst h; exact ⟨by simp [set, rank], fun j hj => set_ne p hj _⟩)
    · cases h
    · cases h

theorem exec_rank {is : List Nat} : ∀ {p p' : Pool E}, exec u secs p is = some p' →
    (∀ i ∈ is, i < secs.length) ∧ ∀ i, is.count i + rank (p'.worker i) ≤ rank (p.worker i) := by
  induction is with
  | nil => intro p p' h; cases h; simp
  | cons i is ih =>
    intro p p' h
    simp only [Pool.exec, Option.bind_eq_bind, Option.bind_eq_some_iff] at h
    obtain ⟨q, h1, h2⟩ := h
    obtain ⟨a1, a2⟩ := ih h2
    obtain ⟨b1, b2, b3⟩ := step_rank h1
    refine ⟨fun j hj => ?_, fun j => ?_⟩
    · rcases List.mem_cons.1 hj with rfl | hj
      · exact b1
      · exact a1 j hj
    · have := a2 j
      by_cases e : j = i
      · subst e
        simp only [List.count_cons_self]
        omega
      · rw [List.count_cons_of_ne (Ne.symm e)]
        rw [b3 j e] at this
        exact this

end Pool

end RSM
