import Verif.Model.Program
import Verif.Props.Create
/-! # Property C114: the program of the crate -/

namespace RSM
open Spec BasicConsumer

variable {E : Env}

/-- A consumer of the map can be built and its mappings visited. -/
def Visitable (E : Env) (m : SourceMapJson) : Prop :=
  m.mappings.isSome ∧ ∃ S, m.sources = some S ∧ ∀ s ∈ S, ∃ t, sourceUrl E m.sourceRoot s none = .ok t

/-- C114: the program ends without a panic exactly if the file can be read, is a map, and a consumer of the map can be
built; if the map is not indexed it must have mappings, which need not be well-formed. -/
theorem C114_ends (schedule : List Nat) (file : Option Text) :
    (∃ l, program (E := E) schedule file = .ok l) ↔
      ∃ raw m, file = some raw ∧ fromStr E.json raw = some m ∧
        ((m.sections = none ∧ Visitable E m) ∨
         (m.sections ≠ none ∧ ∃ c : IndexedConsumer E, IndexedConsumer.fromSourceMapJson schedule m none = .ok c)) := by
  cases file with
  | none => simp [program, unwrap, Res.error_bind]
  | some raw =>
    simp only [program, unwrap, Res.ok_bind, createConsumer, Option.some.injEq]
    cases hm : fromStr E.json raw with
    | none => simp [Res.ok_bind, Res.error_bind, hm]
    | some m =>
      simp only [exists_and_left, exists_eq_left', hm, Option.some.injEq]
      cases hs : m.sections with
      | some ss =>
        simp only [Option.isSome_some, if_true, reduceCtorEq, false_and, false_or, ne_eq, not_false_eq_true, true_and]
        cases hc : IndexedConsumer.fromSourceMapJson (E := E) schedule m none with
        | error e => simp [Res.error_bind]
        | ok c => simp [Res.ok_bind, Res.pure_eq]
      | none =>
        simp only [Option.isSome_none, Bool.false_eq_true, if_false, true_and, ne_eq, not_true_eq_false, false_and, or_false]
        simp only [BasicConsumer.fromSourceMapJson, BasicConsumer.build, Visitable]
        cases hS : m.sources with
        | none => simp [unwrap, Res.error_bind]
        | some S =>
          simp only [unwrap, Res.ok_bind, Option.some.injEq, exists_eq_left']
          cases hu : S.mapM (fun s => sourceUrl E m.sourceRoot s none) with
          | error e =>
            simp only [Res.error_bind]
            constructor
            · rintro ⟨_, h⟩; cases h
            · rintro ⟨_, h⟩
              obtain ⟨bs, hbs⟩ := mapM_ok_of h
              rw [hu] at hbs; cases hbs
          | ok urls =>
            have hall : ∀ s ∈ S, ∃ t, sourceUrl E m.sourceRoot s none = .ok t := by
              intro s hs
              cases ht : sourceUrl E m.sourceRoot s none with
              | ok t => exact ⟨t, rfl⟩
              | error _ =>
                obtain ⟨e, he⟩ := mapM_error_of (f := fun s => sourceUrl E m.sourceRoot s none) hs
                  (fun b hb => by simp only [ht] at hb; cases hb)
                rw [hu] at he; cases he
            simp only [Res.ok_bind, Res.pure_eq, eachMapping, parseMappings]
            cases hmp : m.mappings with
            | none => simp [unwrap, Res.error_bind]
            | some t =>
              simp only [unwrap, Res.ok_bind, Option.isSome_some, true_and]
              refine ⟨fun _ => hall, fun _ => ?_⟩
              cases hp : E.maps.parse t.toList with
              | none => exact ⟨[], rfl⟩
              | some M => exact ⟨_, rfl⟩

/-- C114: if it ends, it has visited the segments of the map, each once, by generated position; nothing if the map is
indexed. -/
theorem C114_visits (hL : E.maps.Laws) {schedule : List Nat} {raw : Text} {m : SourceMapJson}
    (hm : fromStr E.json raw = some m) {l : List LibMapping} (h : program (E := E) schedule (some raw) = .ok l) :
    (m.sections ≠ none → l = []) ∧
    ∀ raws, m.sections = none → m.Segments raws → (l.map LibMapping.raw).Perm raws ∧
      (l.map LibMapping.raw).Pairwise (fun a b => a.line < b.line ∨ (a.line = b.line ∧ a.column ≤ b.column)) := by
  simp only [program, unwrap, Res.ok_bind, createConsumer, hm] at h
  constructor
  · intro hs
    rw [if_pos (by cases h : m.sections <;> simp_all)] at h
    cases hc : IndexedConsumer.fromSourceMapJson (E := E) schedule m none with
    | error e => rw [hc] at h; cases h
    | ok c => rw [hc] at h; cases h; rfl
  · intro raws hs hseg
    rw [if_neg (by simp [hs])] at h
    cases hc : BasicConsumer.fromSourceMapJson (E := E) m none with
    | error e => rw [hc] at h; cases h
    | ok c =>
      rw [hc] at h
      obtain ⟨l', c', h1, h2⟩ := C36_each_generated hL (.inr hc) (ops := []) rfl hseg
      simp only [Res.ok_bind, Res.pure_eq, h1, Except.ok.injEq] at h
      subst h
      exact h2

/-- C114: a file that is read and is a map, but has no sources or no mappings, makes it panic. -/
theorem C114_panics {schedule : List Nat} {raw : Text} {m : SourceMapJson} (hm : fromStr E.json raw = some m)
    (hs : m.sections = none) (h : m.sources = none ∨ m.mappings = none) :
    ∃ e, program (E := E) schedule (some raw) = .error e := by
  cases hp : program (E := E) schedule (some raw) with
  | error e => exact ⟨e, rfl⟩
  | ok l =>
    obtain ⟨raw', m', h1, h2, h3⟩ := (C114_ends schedule (some raw)).1 ⟨l, hp⟩
    cases h1
    rw [hm] at h2
    cases h2
    rcases h3 with ⟨_, v1, S, v2, _⟩ | ⟨h4, _⟩
    · rcases h with h | h
      · rw [h] at v2; cases v2
      · rw [h] at v1; cases v1
    · exact absurd hs h4

/-- The program on the map of the examples: it ends and visits the thirteen segments. -/
example : ∃ l, program (E := demoEnv) [] (some (toStr demoEnv.json demoMap)) = .ok l ∧
    l.map LibMapping.raw = demoRaws := by
  obtain ⟨l, h1, h2⟩ := Res.of_test (r := program (E := demoEnv) [] (some (toStr demoEnv.json demoMap)))
    (fun l => decide (l.map LibMapping.raw = demoRaws)) (by decide +kernel)
  exact ⟨l, h1, by simpa using h2⟩

/-- Without mappings it panics, with ill-formed ones it does not. -/
example : program (E := demoEnv) [] (some (toStr demoEnv.json { demoMap with mappings := none })) = .error .unwrap ∧
    program (E := demoEnv) [] (some (toStr demoEnv.json { demoMap with mappings := some "!" })) = .ok [] := by
  constructor <;> decide +kernel

end RSM
