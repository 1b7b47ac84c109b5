/-!
# `std::collections::HashMap`

Only lookup, insertion, removal, emptiness and length are used by the modelled code, never the
iteration order, so the map is an association list in which a key occurs at most once.
-/

namespace RSM

/-- A finite map. -/
structure HMap (α β : Type) where
  entries : List (α × β)
deriving DecidableEq, Repr

namespace HMap

variable {α β : Type} [DecidableEq α]

/-- `HashMap::new`, `Default::default`. -/
def empty : HMap α β := ⟨[]⟩

/-- `HashMap::get`. -/
def get? (m : HMap α β) (k : α) : Option β := m.entries.lookup k

/-- `HashMap::contains_key`. -/
def contains (m : HMap α β) (k : α) : Bool := (m.get? k).isSome

/-- `HashMap::remove`. -/
def remove (m : HMap α β) (k : α) : HMap α β := ⟨m.entries.filter (fun e => e.1 ≠ k)⟩

/-- `HashMap::insert`. -/
def insert (m : HMap α β) (k : α) (v : β) : HMap α β := ⟨(k, v) :: (m.remove k).entries⟩

/-- `HashMap::len`. -/
def len (m : HMap α β) : Nat := m.entries.length

/-- `HashMap::is_empty`. -/
def isEmpty (m : HMap α β) : Bool := m.entries.isEmpty

@[simp] theorem get?_empty (k : α) : (empty : HMap α β).get? k = none := rfl

theorem lookup_filter (l : List (α × β)) (k j : α) :
    (l.filter (fun e => decide (e.1 ≠ k))).lookup j = if j = k then none else l.lookup j := by
  induction l with
  | nil => simp
  | cons e l ih =>
    obtain ⟨a, b⟩ := e
    by_cases hak : a = k
    · subst hak
      simp only [ne_eq, not_true_eq_false, decide_false, Bool.false_eq_true, not_false_eq_true,
        List.filter_cons_of_neg]
      rw [ih]
      split
      · rfl
      · rename_i h; rw [List.lookup_cons, show (j == a) = false by simpa using h]
    · rw [List.filter_cons_of_pos (by simpa using hak), List.lookup_cons, List.lookup_cons, ih]
      by_cases hja : j = a
      · subst hja; simp [hak]
      · rw [show (j == a) = false by simpa using hja]

theorem get?_remove (m : HMap α β) (k j : α) :
    (m.remove k).get? j = if j = k then none else m.get? j := lookup_filter m.entries k j

theorem get?_insert (m : HMap α β) (k j : α) (v : β) :
    (m.insert k v).get? j = if j = k then some v else m.get? j := by
  unfold insert get?
  simp only [List.lookup_cons]
  by_cases h : j = k
  · simp [h]
  · have := get?_remove m k j
    unfold get? at this
    rw [this, show (j == k) = false by simpa using h]; simp [h]

theorem len_insert_of_none (m : HMap α β) (k : α) (v : β) (h : m.get? k = none) :
    (m.insert k v).len = m.len + 1 := by
  unfold insert len remove
  simp only [List.length_cons, Nat.add_right_cancel_iff]
  congr 1
  rw [List.filter_eq_self]
  intro e he
  simp only [ne_eq, decide_eq_true_eq]
  intro hk
  subst hk
  unfold get? at h
  have := List.lookup_eq_none_iff.1 h e he
  simp at this

end HMap

end RSM
