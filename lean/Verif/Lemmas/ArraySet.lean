import Verif.Model.ArraySet
/-! # Invariant of `ArraySet` -/

namespace RSM

namespace Spec

/-- The distinct elements of a list in order of first occurrence. -/
def firstOccurrences : List String → List String
  | [] => []
  | s :: l => s :: (firstOccurrences l).filter (fun t => t ≠ s)

end Spec

open Spec

theorem mem_firstOccurrences (l : List String) (s : String) : s ∈ firstOccurrences l ↔ s ∈ l := by
  induction l with
  | nil => simp [firstOccurrences]
  | cons a l ih =>
    simp only [firstOccurrences, List.mem_cons, List.mem_filter, ih]
    by_cases h : s = a <;> simp [h]

theorem nodup_firstOccurrences (l : List String) : (firstOccurrences l).Nodup := by
  induction l with
  | nil => simp [firstOccurrences]
  | cons a l ih =>
    simp only [firstOccurrences, List.nodup_cons]
    exact ⟨by simp [List.mem_filter], ih.filter _⟩

theorem firstOccurrences_snoc (l : List String) (s : String) :
    firstOccurrences (l ++ [s]) = if s ∈ l then firstOccurrences l else firstOccurrences l ++ [s] := by
  induction l with
  | nil => simp [firstOccurrences]
  | cons a l ih =>
    simp only [List.cons_append, firstOccurrences, ih, List.mem_cons]
    by_cases hl : s ∈ l
    · simp [hl]
    · by_cases ha : s = a
      · subst ha; simp [hl, List.filter_append]
      · simp [hl, ha, List.filter_append]

theorem idxOf?_snoc (l : List String) (s t : String) :
    (l ++ [s]).idxOf? t =
      if t ∈ l then l.idxOf? t else if t = s then some l.length else none := by
  induction l with
  | nil =>
    by_cases h : t = s
    · subst h; simp [List.idxOf?_cons]
    · have h' : ¬ s = t := fun e => h e.symm
      simp [List.idxOf?_cons, h, h']
  | cons a l ih =>
    simp only [List.cons_append, List.idxOf?_cons, ih, List.mem_cons, List.length_cons]
    by_cases ha : a = t
    · subst ha; simp
    · have ha' : ¬ t = a := fun h => ha h.symm
      simp only [beq_iff_eq, ha, if_false, ha', false_or]
      by_cases hl : t ∈ l
      · simp [hl]
      · by_cases hs : t = s
        · subst hs; simp [hl]
        · simp [hl, hs]

namespace ArraySet

/-- Invariant: the map sends each string to its first index in the array. -/
structure Inv (a : ArraySet) : Prop where
  get : ∀ s, a.set.get? s = a.array.idxOf? s
  len : a.set.len = (firstOccurrences a.array).length

theorem inv_new : Inv new := ⟨fun s => by simp [new], rfl⟩

theorem Inv.has_iff {a : ArraySet} (h : a.Inv) (s : String) : a.has s = true ↔ s ∈ a.array := by
  unfold has HMap.contains
  rw [h.get, List.isSome_idxOf?]

theorem Inv.add {a : ArraySet} (h : a.Inv) (s : String) (d : Bool) : (a.add s d).Inv := by
  unfold ArraySet.add
  by_cases hs : a.has s = true
  · have hm := (h.has_iff s).1 hs
    cases d
    · simpa [hs] using h
    · refine ⟨fun t => ?_, ?_⟩
      · simp only [hs, Bool.not_true, Bool.or_true, if_true, Bool.false_eq_true, if_false]
        rw [h.get, idxOf?_snoc]
        by_cases ht : t ∈ a.array
        · simp [ht]
        · have : t ≠ s := fun e => ht (e ▸ hm)
          simp [ht, this]
      · simp only [hs, Bool.not_true, Bool.or_true, if_true, Bool.false_eq_true, if_false]
        rw [h.len, firstOccurrences_snoc]; simp [hm]
  · have hm : s ∉ a.array := fun hm => hs ((h.has_iff s).2 hm)
    have hs' : a.has s = false := by simpa using hs
    refine ⟨fun t => ?_, ?_⟩
    · simp only [hs', Bool.not_false, Bool.true_or, if_true]
      rw [HMap.get?_insert, idxOf?_snoc, h.get]
      by_cases ht : t = s
      · subst ht; simp [hm]
      · simp only [ht, if_false]
        by_cases hta : t ∈ a.array
        · simp [hta]
        · simp [hta]
    · simp only [hs', Bool.not_false, Bool.true_or, if_true]
      rw [HMap.len_insert_of_none, h.len, firstOccurrences_snoc]
      · simp [hm]
      · rw [h.get]; simpa using hm

theorem toVec_add {a : ArraySet} (h : a.Inv) (s : String) (d : Bool) :
    (a.add s d).array = if s ∈ a.array ∧ d = false then a.array else a.array ++ [s] := by
  unfold ArraySet.add
  by_cases hs : a.has s = true
  · have hm := (h.has_iff s).1 hs
    cases d <;> simp [hs, hm]
  · have hm : s ∉ a.array := fun hm => hs ((h.has_iff s).2 hm)
    have hs' : a.has s = false := by simpa using hs
    simp [hs', hm]

/-- A history of `add` calls. -/
def run (a : ArraySet) (ops : List (String × Bool)) : ArraySet :=
  ops.foldl (fun a op => a.add op.1 op.2) a

theorem Inv.run {a : ArraySet} (h : a.Inv) (ops : List (String × Bool)) : (a.run ops).Inv := by
  induction ops generalizing a with
  | nil => exact h
  | cons op ops ih => exact ih (h.add op.1 op.2)

theorem mem_run {a : ArraySet} (h : a.Inv) (ops : List (String × Bool)) (s : String) :
    s ∈ (a.run ops).array ↔ s ∈ a.array ∨ s ∈ ops.map Prod.fst := by
  induction ops generalizing a with
  | nil => simp [ArraySet.run]
  | cons op ops ih =>
    have := ih (h.add op.1 op.2)
    simp only [ArraySet.run, List.foldl_cons] at this ⊢
    rw [this, toVec_add h]
    split
    · rename_i hc
      simp only [List.map_cons, List.mem_cons]
      constructor
      · rintro (h1 | h1)
        · exact .inl h1
        · exact .inr (.inr h1)
      · rintro (h1 | rfl | h1)
        · exact .inl h1
        · exact .inl hc.1
        · exact .inr h1
    · simp [or_assoc]

theorem run_prefix {a : ArraySet} (h : a.Inv) (ops : List (String × Bool)) :
    a.array <+: (a.run ops).array := by
  induction ops generalizing a with
  | nil => simp [ArraySet.run]
  | cons op ops ih =>
    have := ih (h.add op.1 op.2)
    simp only [ArraySet.run, List.foldl_cons] at this ⊢
    refine List.IsPrefix.trans ?_ this
    rw [toVec_add h]
    split
    · simp
    · simp

end ArraySet

end RSM
