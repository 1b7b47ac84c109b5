import Verif.Lemmas.ArraySet
/-! # Properties C06-C08: `ArraySet` -/

namespace RSM

open Spec

/-- C06. After any history of additions, membership is "was added", and the index of a string is
the position of its first occurrence in `to_vec`. -/
theorem C06_arrayset_refines (ops : List (String × Bool)) (s : String) :
    ((ArraySet.new.run ops).has s = true ↔ s ∈ ops.map Prod.fst) ∧
    (∀ i, (ArraySet.new.run ops).indexOf s = some i ↔
      (ArraySet.new.run ops).toVec[i]? = some s ∧
        ∀ j, j < i → (ArraySet.new.run ops).toVec[j]? ≠ some s) ∧
    ((ArraySet.new.run ops).indexOf s = none ↔ s ∉ ops.map Prod.fst) := by
  have hinv := ArraySet.inv_new.run ops
  have hmem := ArraySet.mem_run ArraySet.inv_new ops s
  simp only [ArraySet.new, List.not_mem_nil, false_or] at hmem
  refine ⟨(hinv.has_iff s).trans hmem, ?_, ?_⟩
  · intro i
    unfold ArraySet.indexOf ArraySet.toVec
    rw [hinv.get, List.idxOf?, List.findIdx?_eq_some_iff_getElem]
    constructor
    · rintro ⟨hi, hp, hj⟩
      refine ⟨by simp [List.getElem?_eq_getElem hi] at *; exact hp, ?_⟩
      intro j hji heq
      have := hj j hji
      rw [List.getElem?_eq_getElem (by omega)] at heq
      simp at this heq
      exact this heq
    · rintro ⟨hi, hj⟩
      obtain ⟨hlt, he⟩ := List.getElem?_eq_some_iff.1 hi
      refine ⟨hlt, by simpa using he, ?_⟩
      intro j hji
      have := hj j hji
      rw [List.getElem?_eq_getElem (by omega)] at this
      simpa using this
  · unfold ArraySet.indexOf
    rw [hinv.get, List.idxOf?_eq_none_iff, ← hmem]
    rfl

/-- C07. Without duplicates `to_vec` is the distinct strings in order of first addition. -/
theorem C07_arrayset_distinct (l : List String) :
    (ArraySet.fromArray l false).toVec = firstOccurrences l ∧
    (ArraySet.fromArray l false).toVec.Nodup := by
  have key : (ArraySet.fromArray l false).toVec = firstOccurrences l := by
    suffices h : ∀ (a : ArraySet) (l₀ : List String), a.Inv → a.array = firstOccurrences l₀ →
        (l.foldl (fun s i => s.add i false) a).array = firstOccurrences (l₀ ++ l) by
      simpa [ArraySet.fromArray, ArraySet.toVec] using h ArraySet.new [] ArraySet.inv_new rfl
    induction l with
    | nil => intro a l₀ _ h; simpa using h
    | cons s l ih =>
      intro a l₀ hinv h
      have := ih (a.add s false) (l₀ ++ [s]) (hinv.add s false) (by
        rw [ArraySet.toVec_add hinv, h, firstOccurrences_snoc]; simp [mem_firstOccurrences])
      simpa using this
  exact ⟨key, key ▸ nodup_firstOccurrences l⟩

/-- C07. With duplicates allowed nothing is dropped or reordered. -/
theorem C07_arrayset_duplicates (l : List String) : (ArraySet.fromArray l true).toVec = l := by
  suffices h : ∀ (a : ArraySet), (l.foldl (fun s i => s.add i true) a).array = a.array ++ l by
    simpa [ArraySet.fromArray, ArraySet.toVec, ArraySet.new] using h ArraySet.new
  induction l with
  | nil => simp
  | cons s l ih =>
    intro a
    simp only [List.foldl_cons]
    rw [ih]
    simp [ArraySet.add]

/-- The strings a history keeps, in order: an addition counts if duplicates are allowed in it, or if its string was not
added before. `seen` is what was added before. -/
def Spec.kept (seen : List String) : List (String × Bool) → List String
  | [] => []
  | (s, d) :: ops => if d = true ∨ s ∉ seen then s :: kept (s :: seen) ops else kept (s :: seen) ops

/-- C07. `to_vec` after any history, in which duplicates may be allowed in some additions and not in others. -/
theorem C07_arrayset_history (ops : List (String × Bool)) : (ArraySet.new.run ops).toVec = kept [] ops := by
  suffices h : ∀ (a : ArraySet) (seen : List String), a.Inv → (∀ s, s ∈ a.array ↔ s ∈ seen) →
      (a.run ops).array = a.array ++ kept seen ops by
    simpa [ArraySet.toVec, ArraySet.new] using h ArraySet.new [] ArraySet.inv_new (by simp [ArraySet.new])
  induction ops with
  | nil => intro a seen _ _; simp [ArraySet.run, kept]
  | cons op ops ih =>
    intro a seen hinv hseen
    obtain ⟨s, d⟩ := op
    have hadd := ArraySet.toVec_add hinv s d
    have := ih (a.add s d) (s :: seen) (hinv.add s d) (fun t => by
      rw [hadd]
      split
      · rename_i hc
        rw [hseen, List.mem_cons]
        exact ⟨.inr, fun h => h.elim (fun e => e ▸ (hseen s).1 hc.1) id⟩
      · rw [List.mem_append, hseen, List.mem_singleton, List.mem_cons]
        exact ⟨Or.symm, Or.symm⟩)
    simp only [ArraySet.run, List.foldl_cons] at this ⊢
    rw [this, hadd, kept]
    by_cases hc : d = true ∨ s ∉ seen
    · rw [if_pos hc, if_neg (by rw [hseen]; rintro ⟨h1, rfl⟩; exact hc.elim (by simp) (· h1))]
      simp
    · have hd : d = false := by simpa using fun e => hc (.inl e)
      have hs : s ∈ seen := Classical.byContradiction fun e => hc (.inr e)
      rw [if_neg hc, if_pos ⟨(hseen s).2 hs, hd⟩]

example : kept [] [("a", false), ("b", false), ("a", false), ("a", true)] = ["a", "b", "a"] := by decide

/-- C07. `size` counts the distinct strings added, whatever the flags. -/
theorem C07_arrayset_size (ops : List (String × Bool)) :
    (ArraySet.new.run ops).size = (firstOccurrences (ops.map Prod.fst)).length := by
  have hinv := ArraySet.inv_new.run ops
  unfold ArraySet.size
  rw [hinv.len]
  apply List.Perm.length_eq
  rw [List.perm_ext_iff_of_nodup (nodup_firstOccurrences _) (nodup_firstOccurrences _)]
  intro s
  rw [mem_firstOccurrences, mem_firstOccurrences]
  have := ArraySet.mem_run ArraySet.inv_new ops s
  simpa [ArraySet.new] using this

/-- C08. An index, once assigned, never changes, and `at` maps it back to the string. -/
theorem C08_arrayset_stable (ops later : List (String × Bool)) (s : String) (i : Nat)
    (h : (ArraySet.new.run ops).indexOf s = some i) :
    (ArraySet.new.run (ops ++ later)).indexOf s = some i ∧
    ((ArraySet.new.run (ops ++ later)).toVec.length < 2 ^ 31 →
      (ArraySet.new.run (ops ++ later)).atIdx (i : Int) = some s) := by
  have h6 := (C06_arrayset_refines ops s).2.1 i
  have h6' := (C06_arrayset_refines (ops ++ later) s).2.1 i
  have hpre : (ArraySet.new.run ops).array <+: (ArraySet.new.run (ops ++ later)).array := by
    have := ArraySet.run_prefix (ArraySet.inv_new.run ops) later
    simpa [ArraySet.run, List.foldl_append] using this
  obtain ⟨t, ht⟩ := hpre
  obtain ⟨h1, h2⟩ := h6.1 h
  unfold ArraySet.toVec at *
  obtain ⟨hlt, _⟩ := List.getElem?_eq_some_iff.1 h1
  have hget : ∀ j, j ≤ i → (ArraySet.new.run (ops ++ later)).array[j]? = (ArraySet.new.run ops).array[j]? := by
    intro j hj
    rw [← ht, List.getElem?_append_left (by omega)]
  have hidx : (ArraySet.new.run (ops ++ later)).indexOf s = some i := by
    rw [h6']
    exact ⟨by rw [hget i (Nat.le_refl i)]; exact h1, fun j hj => by rw [hget j (by omega)]; exact h2 j hj⟩
  refine ⟨hidx, fun hlen => ?_⟩
  have hi : (ArraySet.new.run (ops ++ later)).array[i]? = some s := by
    rw [hget i (Nat.le_refl i)]; exact h1
  obtain ⟨hlt', _⟩ := List.getElem?_eq_some_iff.1 hi
  unfold ArraySet.atIdx
  rw [wrap32_of_isI32 (by unfold IsI32; simp at hlen; omega), if_pos (by omega)]
  simpa using hi

/-- C08. `at` is bounds-checked: `None` below zero and past the end, the element otherwise. -/
theorem C08_arrayset_at (a : ArraySet) (hlen : a.toVec.length < 2 ^ 31) (k : Int) :
    a.atIdx k = if 0 ≤ k then a.toVec[k.toNat]? else none := by
  unfold ArraySet.atIdx ArraySet.toVec at *
  rw [wrap32_of_isI32 (by unfold IsI32; simp at hlen; omega)]
  by_cases hk : 0 ≤ k
  · by_cases hl : k < a.array.length
    · rw [if_pos ⟨hk, hl⟩, if_pos hk]
    · rw [if_neg (by omega), if_pos hk, List.getElem?_eq_none (by omega)]
  · rw [if_neg (by omega), if_neg hk]

/-- A history with a repetition under both flags meets the hypotheses above. -/
example : (ArraySet.new.run [("a", false), ("b", false), ("a", false), ("a", true)]).indexOf "b" = some 1
    ∧ (ArraySet.new.run [("a", false), ("b", false), ("a", false), ("a", true)]).toVec = ["a", "b", "a"] := by
  decide

end RSM
