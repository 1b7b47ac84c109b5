import Verif.Model.MappingList
import Verif.Spec.Mapping
/-! # The mapping comparison as a lawful lexicographic order -/

namespace RSM

/-- An integer-valued comparison function whose sign is antisymmetric and transitive. -/
structure LawfulCmp {α : Type} (f : α → α → Int) : Prop where
  anti : ∀ a b, f a b < 0 ↔ 0 < f b a
  trans : ∀ a b c, f a b ≤ 0 → f b c ≤ 0 → f a c ≤ 0

namespace LawfulCmp

variable {α : Type} {f g : α → α → Int}

theorem zero (h : LawfulCmp f) (a b : α) : f a b = 0 ↔ f b a = 0 := by
  have h1 := h.anti a b; have h2 := h.anti b a; omega

theorem total (h : LawfulCmp f) (a b : α) : f a b ≤ 0 ∨ f b a ≤ 0 := by
  have h1 := h.anti b a; omega

theorem refl (h : LawfulCmp f) (a : α) : f a a = 0 := by
  have h1 := h.anti a a; omega

theorem neg_of_zero_neg (h : LawfulCmp f) {a b c : α} (h1 : f a b = 0) (h2 : f b c < 0) : f a c < 0 := by
  have hle := h.trans a b c (by omega) (by omega)
  by_cases h0 : f a c = 0
  · have := h.trans c a b (by have := (h.zero a c).1 h0; omega) (by omega)
    have := (h.anti b c).1 h2
    omega
  · omega

theorem neg_of_neg_zero (h : LawfulCmp f) {a b c : α} (h1 : f a b < 0) (h2 : f b c = 0) : f a c < 0 := by
  have hle := h.trans a b c (by omega) (by omega)
  by_cases h0 : f a c = 0
  · have := h.trans b c a (by omega) (by have := (h.zero a c).1 h0; omega)
    have := (h.anti a b).1 h1
    omega
  · omega

theorem neg_of_neg_neg (h : LawfulCmp f) {a b c : α} (h1 : f a b < 0) (h2 : f b c < 0) : f a c < 0 := by
  have hle := h.trans a b c (by omega) (by omega)
  by_cases h0 : f a c = 0
  · have := h.trans b c a (by omega) (by have := (h.zero a c).1 h0; omega)
    have := (h.anti a b).1 h1
    omega
  · omega

theorem zero_trans (h : LawfulCmp f) {a b c : α} (h1 : f a b = 0) (h2 : f b c = 0) : f a c = 0 := by
  have := h.trans a b c (by omega) (by omega)
  have := h.trans c b a (by have := (h.zero b c).1 h2; omega) (by have := (h.zero a b).1 h1; omega)
  have := h.anti a c
  have := h.anti c a
  omega

end LawfulCmp

/-- Compare by `f`, break ties by `g`. -/
def lexCmp {α : Type} (f g : α → α → Int) (a b : α) : Int := if f a b ≠ 0 then f a b else g a b

theorem LawfulCmp.lex {α : Type} {f g : α → α → Int} (hf : LawfulCmp f) (hg : LawfulCmp g) :
    LawfulCmp (lexCmp f g) := by
  constructor
  · intro a b
    unfold lexCmp
    have h0 := hf.zero a b
    have h1 := hf.anti a b
    have h2 := hg.anti a b
    by_cases h : f a b = 0
    · simp [h, h0.1 h, h2]
    · have : f b a ≠ 0 := fun e => h (h0.2 e)
      simp [h, this, h1]
  · intro a b c h1 h2
    unfold lexCmp at *
    by_cases hab : f a b = 0
    · by_cases hbc : f b c = 0
      · have := hf.zero_trans hab hbc
        simp only [hab, hbc, this, ne_eq, not_true_eq_false, if_false] at *
        exact hg.trans a b c h1 h2
      · simp only [hbc, ne_eq, not_false_eq_true, if_true] at h2
        have := hf.neg_of_zero_neg hab (show f b c < 0 by omega)
        simp only [show f a c ≠ 0 by omega, ne_eq, not_false_eq_true, if_true]; omega
    · simp only [hab, ne_eq, not_false_eq_true, if_true] at h1
      have hlt : f a b < 0 := by omega
      have : f a c < 0 := by
        by_cases hbc : f b c = 0
        · exact hf.neg_of_neg_zero hlt hbc
        · simp only [hbc, ne_eq, not_false_eq_true, if_true] at h2
          exact hf.neg_of_neg_neg hlt (by omega)
      simp only [show f a c ≠ 0 by omega, ne_eq, not_false_eq_true, if_true]; omega

theorem LawfulCmp.comap {α β : Type} {f : β → β → Int} (h : LawfulCmp f) (k : α → β) :
    LawfulCmp (fun a b => f (k a) (k b)) :=
  ⟨fun _ _ => h.anti _ _, fun _ _ _ => h.trans _ _ _⟩

theorem lawful_sub : LawfulCmp (fun a b : Int => a - b) :=
  ⟨fun a b => by omega, fun a b c => by omega⟩

theorem strcmp_eq_zero (a b : Option String) : strcmp a b = 0 ↔ a = b := by
  by_cases h : a = b
  · simp [strcmp, h]
  · simp only [h, iff_false]
    cases a with
    | none => simp [strcmp, h]
    | some a => cases b with
      | none => simp [strcmp]
      | some b => simp only [strcmp, h, if_false]; split <;> simp

theorem str_lt_of_not {a b : String} (h1 : ¬ b < a) (h2 : a ≠ b) : a < b := by
  rcases String.le_total a b with h | h
  · rcases Decidable.em (a < b) with h' | h'
    · exact h'
    · exact absurd (String.le_antisymm h (String.not_lt.1 h')) h2
  · exact absurd (String.le_antisymm (String.not_lt.1 h1) h) h2

theorem lawful_strcmp : LawfulCmp strcmp := by
  constructor
  · intro a b
    by_cases h : a = b
    · subst h; simp [strcmp]
    · have h' : ¬ b = a := fun e => h e.symm
      cases a with
      | none => cases b with
        | none => exact absurd rfl h
        | some b => simp [strcmp]
      | some a => cases b with
        | none => simp [strcmp]
        | some b =>
          have hne : a ≠ b := fun e => h (by rw [e])
          simp only [strcmp, Option.some.injEq, hne, hne.symm, if_false]
          by_cases hba : b < a
          · have : ¬ a < b := String.lt_asymm hba
            simp [hba, this]
          · have : a < b := str_lt_of_not hba hne
            simp [hba, this]
  · intro a b c h1 h2
    by_cases hab : a = b
    · subst hab; exact h2
    by_cases hbc : b = c
    · subst hbc; exact h1
    by_cases hac : a = c
    · subst hac; simp [strcmp]
    cases a with
    | none => simp [strcmp, hab] at h1
    | some a => cases b with
      | none => simp [strcmp, hbc] at h2
      | some b => cases c with
        | none => simp [strcmp]
        | some c =>
          have hab' : a ≠ b := fun e => hab (by rw [e])
          have hbc' : b ≠ c := fun e => hbc (by rw [e])
          simp only [strcmp, hab, hbc, hac, if_false] at *
          by_cases hba : b < a
          · simp [hba] at h1
          by_cases hcb : c < b
          · simp [hcb] at h2
          have l1 : a < b := str_lt_of_not hba hab'
          have l2 : b < c := str_lt_of_not hcb hbc'
          have : ¬ c < a := String.lt_asymm (String.lt_trans l1 l2)
          simp [this]

/-- Comparison of optional integers, absent last. -/
def optSub : Option Int → Option Int → Int
  | some a, some b => a - b
  | none, none => 0
  | none, some _ => 1
  | some _, none => -1

theorem lawful_optSub : LawfulCmp optSub := by
  constructor
  · intro a b; cases a <;> cases b <;> simp [optSub]; omega
  · intro a b c; cases a <;> cases b <;> cases c <;> simp [optSub]; omega

/-- The fields compared, most significant first. -/
def cmpVal : Mapping → Mapping → Int :=
  lexCmp (fun a b => a.generated.line - b.generated.line) <|
  lexCmp (fun a b => a.generated.column - b.generated.column) <|
  lexCmp (fun a b => strcmp a.source b.source) <|
  lexCmp (fun a b => optSub (a.original.map Position.line) (b.original.map Position.line)) <|
  lexCmp (fun a b => optSub (a.original.map Position.column) (b.original.map Position.column)) <|
  (fun a b => strcmp a.name b.name)

theorem lawful_cmpVal : LawfulCmp cmpVal := by
  unfold cmpVal
  refine (lawful_sub.comap (fun m : Mapping => m.generated.line)).lex ?_
  refine (lawful_sub.comap (fun m : Mapping => m.generated.column)).lex ?_
  refine (lawful_strcmp.comap (fun m : Mapping => m.source)).lex ?_
  refine (lawful_optSub.comap (fun m : Mapping => m.original.map Position.line)).lex ?_
  refine (lawful_optSub.comap (fun m : Mapping => m.original.map Position.column)).lex ?_
  exact lawful_strcmp.comap (fun m : Mapping => m.name)

theorem compare_eq_cmpVal (cfg : Cfg) {a b : Mapping} (ha : a.Valid) (hb : b.Valid) :
    compareByGeneratedPosInflated cfg a b = .ok (cmpVal a b) := by
  have h1 := cfg.arith_ok (x := a.generated.line - b.generated.line)
    (by have := ha.gl; have := hb.gl; unfold IsI32; omega)
  have h2 := cfg.arith_ok (x := a.generated.column - b.generated.column)
    (by have := ha.gc; have := hb.gc; unfold IsI32; omega)
  unfold compareByGeneratedPosInflated cmpVal
  simp only [h1, h2, Res.ok_bind, lexCmp, Res.pure_eq]
  split
  · rfl
  split
  · rfl
  split
  · rfl
  rename_i hs
  have hsrc : a.source = b.source := (strcmp_eq_zero _ _).1 (by simpa using hs)
  have hiso : a.original.isSome = b.original.isSome := by rw [ha.orig, hb.orig, hsrc]
  unfold compareOriginalThenName
  rcases Option.eq_none_or_eq_some a.original with hao | ⟨p, hao⟩
  · rcases Option.eq_none_or_eq_some b.original with hbo | ⟨q, hbo⟩
    · simp [hao, hbo, optSub]
    · simp [hao, hbo] at hiso
  · rcases Option.eq_none_or_eq_some b.original with hbo | ⟨q, hbo⟩
    · simp [hao, hbo] at hiso
    · have r1 := ha.range p hao
      have r2 := hb.range q hbo
      have h3 := cfg.arith_ok (x := p.line - q.line) (by unfold IsI32; omega)
      have h4 := cfg.arith_ok (x := p.column - q.column) (by unfold IsI32; omega)
      simp only [hao, hbo, h3, h4, Res.ok_bind, Res.pure_eq, Option.map_some, optSub]
      split
      · rfl
      · split <;> rfl

theorem posLE_trans {a b c : Mapping} (h1 : posLE a b) (h2 : posLE b c) : posLE a c := by
  unfold posLE at *; omega

theorem posLE_total (a b : Mapping) : posLE a b ∨ posLE b a := by unfold posLE; omega

theorem posLE_of_cmpVal {a b : Mapping} (h : cmpVal a b ≤ 0) : posLE a b := by
  unfold cmpVal at h
  simp only [lexCmp] at h
  unfold posLE
  split at h
  · omega
  · split at h <;> omega

theorem cmpVal_neg_of_pos {a b : Mapping} (h : ¬ posLE b a) : cmpVal a b < 0 := by
  have := lawful_cmpVal.anti a b
  by_cases hc : cmpVal b a ≤ 0
  · exact absurd (posLE_of_cmpVal hc) h
  · omega

theorem optSub_eq_zero (a b : Option Int) : optSub a b = 0 ↔ a = b := by
  cases a <;> cases b <;> simp [optSub]; omega

theorem cmpVal_eq_zero (a b : Mapping) : cmpVal a b = 0 ↔ SameKey a b := by
  unfold cmpVal SameKey
  simp only [lexCmp]
  have hp : ∀ p q : Position, p = q ↔ p.line = q.line ∧ p.column = q.column := by
    intro p q; cases p; cases q; simp
  have ho : ∀ p q : Option Position, p = q ↔
      p.map Position.line = q.map Position.line ∧ p.map Position.column = q.map Position.column := by
    intro p q
    cases p <;> cases q <;> simp [hp]
  rw [hp, ho]
  split
  · constructor
    · intro h; omega
    · rintro ⟨⟨h, _⟩, _⟩; omega
  · split
    · constructor
      · intro h; omega
      · rintro ⟨⟨_, h⟩, _⟩; omega
    · split
      · rename_i h
        have := strcmp_eq_zero a.source b.source
        constructor
        · intro h'; exact absurd h' h
        · rintro ⟨_, h', _⟩; exact absurd (this.2 h') h
      · rename_i h1 h2 h3
        have h3' := (strcmp_eq_zero a.source b.source).1 (by simpa using h3)
        split
        · rename_i h
          have := optSub_eq_zero (a.original.map Position.line) (b.original.map Position.line)
          constructor
          · intro h'; exact absurd h' h
          · rintro ⟨_, _, ⟨h', _⟩, _⟩; exact absurd (this.2 h') h
        · rename_i h4
          have h4' := (optSub_eq_zero _ _).1 (by simpa using h4)
          split
          · rename_i h
            have := optSub_eq_zero (a.original.map Position.column) (b.original.map Position.column)
            constructor
            · intro h'; exact absurd h' h
            · rintro ⟨_, _, ⟨_, h'⟩, _⟩; exact absurd (this.2 h') h
          · rename_i h5
            have h5' := (optSub_eq_zero _ _).1 (by simpa using h5)
            rw [strcmp_eq_zero]
            constructor
            · intro h6; exact ⟨by omega, h3', ⟨h4', h5'⟩, h6⟩
            · rintro ⟨_, _, _, h6⟩; exact h6

end RSM
