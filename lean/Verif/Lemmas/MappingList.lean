import Verif.Lemmas.Compare
/-! # Invariant of `MappingList` -/

namespace RSM

/-- A call on a `MappingList`. -/
inductive MLOp where
  | add (m : Mapping)
  | toArray
deriving DecidableEq, Repr

namespace MappingList

/-- The effect of one call on the list. -/
def step (cfg : Cfg) (l : MappingList) : MLOp → Res MappingList
  | .add m => l.add cfg m
  | .toArray => do
    let r ← l.toArray cfg
    pure r.2

/-- A history of calls, stopping at the first panic. -/
def run (cfg : Cfg) (l : MappingList) : List MLOp → Res MappingList
  | [] => .ok l
  | op :: ops => do
    let l ← l.step cfg op
    run cfg l ops

end MappingList

/-- The mappings added by a history, in order. -/
def added : List MLOp → List Mapping
  | [] => []
  | .add m :: ops => m :: added ops
  | .toArray :: ops => added ops

theorem mergeSort_congr {α : Type} {r s : α → α → Bool} {l : List α}
    (h : ∀ a ∈ l, ∀ b ∈ l, r a b = s a b) : l.mergeSort r = l.mergeSort s := by
  have := List.map_mergeSort (r := r) (s := s) (f := id) (l := l) (by simpa using h)
  simpa using this

/-- "Not greater" by the compared fields. -/
def cmpLE (a b : Mapping) : Bool := decide (cmpVal a b ≤ 0)

theorem cmpLE_trans (a b c : Mapping) (h1 : cmpLE a b = true) (h2 : cmpLE b c = true) :
    cmpLE a c = true := by
  simp only [cmpLE, decide_eq_true_eq] at *
  exact lawful_cmpVal.trans a b c h1 h2

theorem cmpLE_total (a b : Mapping) : (cmpLE a b || cmpLE b a) = true := by
  simp only [cmpLE, Bool.or_eq_true, decide_eq_true_eq]
  exact lawful_cmpVal.total a b

theorem sortBy_valid (cfg : Cfg) {l : List Mapping} (h : ∀ m ∈ l, m.Valid) :
    MappingList.sortBy cfg l = .ok (l.mergeSort cmpLE) := by
  unfold MappingList.sortBy
  rw [if_pos]
  · congr 1
    apply mergeSort_congr
    intro a ha b hb
    simp [MappingList.sortLE, compare_eq_cmpVal cfg (h a ha) (h b hb), cmpLE]
  · have hle : ∀ a ∈ l, ∀ b ∈ l, MappingList.sortLE cfg a b = cmpLE a b := by
      intro a ha b hb
      simp [MappingList.sortLE, compare_eq_cmpVal cfg (h a ha) (h b hb), cmpLE]
    simp only [MappingList.consistent, List.all_eq_true, Bool.and_eq_true]
    intro a ha b hb
    refine ⟨⟨?_, ?_⟩, fun c hc => ?_⟩
    · rw [compare_eq_cmpVal cfg (h a ha) (h b hb)]; rfl
    · rw [hle a ha b hb, hle b hb a ha]; exact cmpLE_total a b
    · rw [hle a ha b hb, hle b hb c hc, hle a ha c hc]
      have := cmpLE_trans a b c
      cases h1 : cmpLE a b <;> cases h2 : cmpLE b c <;> simp_all

theorem sortBy_perm (cfg : Cfg) {l l' : List Mapping} (h : MappingList.sortBy cfg l = .ok l') :
    l'.Perm l := by
  unfold MappingList.sortBy at h
  split at h
  · cases h; exact List.mergeSort_perm _ _
  · exact (MappingList.unspecifiedSort cfg l).2 _ h

theorem toArray_perm (cfg : Cfg) {l l' : MappingList} {out : List Mapping}
    (h : l.toArray cfg = .ok (out, l')) : out.Perm l.array ∧ l'.array = out := by
  unfold MappingList.toArray at h
  split at h
  · cases hs : MappingList.sortBy cfg l.array with
    | error e => rw [hs] at h; simp at h
    | ok s =>
      rw [hs] at h
      simp only [Res.ok_bind, Res.pure_eq, Except.ok.injEq, Prod.mk.injEq] at h
      obtain ⟨rfl, rfl⟩ := h
      exact ⟨sortBy_perm cfg hs, rfl⟩
  · simp only [Except.ok.injEq, Prod.mk.injEq] at h
    obtain ⟨rfl, rfl⟩ := h
    exact ⟨List.Perm.refl _, rfl⟩

theorem add_array (cfg : Cfg) {l l' : MappingList} {m : Mapping} (h : l.add cfg m = .ok l') :
    l'.array = l.array ++ [m] := by
  unfold MappingList.add at h
  rw [Res.bind_eq_ok] at h
  obtain ⟨b, _, h⟩ := h
  split at h <;> (cases h; rfl)

theorem run_perm (cfg : Cfg) : ∀ (ops : List MLOp) (l l' : MappingList),
    l.run cfg ops = .ok l' → l'.array.Perm (l.array ++ added ops) := by
  intro ops
  induction ops with
  | nil => intro l l' h; cases h; simp [added]
  | cons op ops ih =>
    intro l l' h
    simp only [MappingList.run] at h
    rw [Res.bind_eq_ok] at h
    obtain ⟨l1, h1, h2⟩ := h
    have := ih l1 l' h2
    cases op with
    | add m =>
      rw [add_array cfg h1] at this
      simpa [added] using this
    | toArray =>
      simp only [MappingList.step] at h1
      rw [Res.bind_eq_ok] at h1
      obtain ⟨⟨out, l2⟩, h3, h4⟩ := h1
      cases h4
      have hp := toArray_perm cfg h3
      simp only at this
      rw [hp.2] at this
      exact this.trans (hp.1.append_right _)

/-- Invariant of a list holding only valid mappings: `last` is one with the greatest generated
position, and when the flag says "sorted" the array is in generated order. -/
structure MappingList.Inv (l : MappingList) : Prop where
  valid : ∀ m ∈ l.array, m.Valid
  sorted : l.sorted = true → l.array.Pairwise posLE
  lastNone : l.last = none → l.array = []
  lastSome : ∀ x, l.last = some x → x ∈ l.array ∧ ∀ m ∈ l.array, posLE m x

theorem MappingList.inv_new : MappingList.new.Inv :=
  ⟨by simp [MappingList.new], by simp [MappingList.new], by simp [MappingList.new], by simp [MappingList.new]⟩

theorem after_eq (cfg : Cfg) {l : MappingList} (h : l.Inv) {m : Mapping} (hm : m.Valid) :
    generatedPositionAfter cfg (l.last.getD MappingList.beforeAll) m
      = .ok (decide (posLE (l.last.getD MappingList.beforeAll) m)) := by
  unfold generatedPositionAfter
  by_cases hp : posLE (l.last.getD MappingList.beforeAll) m
  · have hp' := hp
    unfold posLE at hp'
    rw [if_pos (by omega)]; simp [hp]
  · have hp' := hp
    unfold posLE at hp'
    rw [if_neg (by omega)]
    cases hl : l.last with
    | none =>
      simp only [hl, Option.getD_none, MappingList.beforeAll] at hp'
      have := hm.gl
      omega
    | some x =>
      rw [hl] at hp
      simp only [Option.getD_some] at hp ⊢
      have hx := h.valid x (h.lastSome x hl).1
      rw [compare_eq_cmpVal cfg hx hm]
      simp only [Res.ok_bind, Res.pure_eq, Except.ok.injEq]
      have hneg : ¬ cmpVal x m ≤ 0 := fun hc => hp (posLE_of_cmpVal hc)
      simp [hp, hneg]

theorem add_valid (cfg : Cfg) {l : MappingList} (h : l.Inv) {m : Mapping} (hm : m.Valid) :
    ∃ l', l.add cfg m = .ok l' ∧ l'.Inv ∧ l'.array = l.array ++ [m] := by
  unfold MappingList.add
  rw [after_eq cfg h hm]
  simp only [Res.ok_bind, decide_eq_true_eq, Res.pure_eq]
  have hval : ∀ x ∈ l.array ++ [m], x.Valid := by
    intro x hx
    rcases List.mem_append.1 hx with hx | hx
    · exact h.valid x hx
    · simp only [List.mem_singleton] at hx; subst hx; exact hm
  split
  · rename_i hp
    have hle : ∀ x ∈ l.array, posLE x m := by
      intro x hx
      cases hl : l.last with
      | none => rw [h.lastNone hl] at hx; cases hx
      | some y =>
        rw [hl] at hp
        exact posLE_trans ((h.lastSome y hl).2 x hx) hp
    refine ⟨_, rfl, ⟨hval, ?_, by simp, ?_⟩, rfl⟩
    · intro hs
      rw [List.pairwise_append]
      refine ⟨h.sorted hs, by simp, ?_⟩
      intro a ha b hb
      simp only [List.mem_singleton] at hb
      subst hb; exact hle a ha
    · intro x hx
      simp only [Option.some.injEq] at hx
      subst hx
      refine ⟨by simp, ?_⟩
      intro a ha
      rcases List.mem_append.1 ha with ha | ha
      · exact hle a ha
      · simp only [List.mem_singleton] at ha; subst ha; unfold posLE; omega
  · rename_i hp
    refine ⟨_, rfl, ⟨hval, by simp, ?_, ?_⟩, rfl⟩
    · intro hl
      simp only at hl
      rw [hl] at hp
      exfalso; apply hp
      have := hm.gl
      unfold posLE; simp only [Option.getD_none, MappingList.beforeAll]; omega
    · intro x hx
      simp only at hx
      have hx' := h.lastSome x hx
      refine ⟨by simp [hx'.1], ?_⟩
      intro a ha
      rcases List.mem_append.1 ha with ha | ha
      · exact hx'.2 a ha
      · simp only [List.mem_singleton] at ha; subst ha
        rw [hx] at hp
        rcases posLE_total a x with h1 | h1
        · exact h1
        · exact absurd h1 hp

theorem toArray_valid (cfg : Cfg) {l : MappingList} (h : l.Inv) :
    ∃ out l', l.toArray cfg = .ok (out, l') ∧ l'.Inv ∧ l'.array = out ∧ out.Perm l.array ∧
      out.Pairwise posLE ∧ l'.sorted = true ∧ (l.sorted = false → out = l.array.mergeSort cmpLE) ∧
      (l.sorted = true → out = l.array) := by
  unfold MappingList.toArray
  cases hs : l.sorted with
  | true => exact ⟨_, _, rfl, h, rfl, List.Perm.refl _, h.sorted hs, hs, by simp, by simp⟩
  | false =>
    rw [sortBy_valid cfg h.valid]
    simp only [Bool.not_false, if_true, Res.ok_bind, Res.pure_eq]
    have hsorted : (l.array.mergeSort cmpLE).Pairwise posLE := by
      refine List.Pairwise.imp ?_ (List.pairwise_mergeSort cmpLE_trans cmpLE_total l.array)
      intro a b hab
      exact posLE_of_cmpVal (by simpa [cmpLE] using hab)
    refine ⟨_, _, rfl, ⟨?_, fun _ => hsorted, ?_, ?_⟩, rfl, List.mergeSort_perm _ _, hsorted, rfl,
      fun _ => rfl, by simp⟩
    · intro m hm; exact h.valid m (List.mem_mergeSort.1 hm)
    · intro hl
      have := h.lastNone hl
      simp [this]
    · intro x hx
      have := h.lastSome x hx
      exact ⟨List.mem_mergeSort.2 this.1, fun m hm => this.2 m (List.mem_mergeSort.1 hm)⟩

theorem step_valid (cfg : Cfg) {l : MappingList} (h : l.Inv) (op : MLOp)
    (hv : ∀ m, op = .add m → m.Valid) : ∃ l', l.step cfg op = .ok l' ∧ l'.Inv := by
  cases op with
  | add m =>
    obtain ⟨l', h1, h2, _⟩ := add_valid cfg h (hv m rfl)
    exact ⟨l', h1, h2⟩
  | toArray =>
    obtain ⟨out, l', h1, h2, _⟩ := toArray_valid cfg h
    exact ⟨l', by simp [MappingList.step, h1], h2⟩

theorem run_valid (cfg : Cfg) : ∀ (ops : List MLOp) (l : MappingList), l.Inv →
    (∀ m ∈ added ops, m.Valid) → ∃ l', l.run cfg ops = .ok l' ∧ l'.Inv := by
  intro ops
  induction ops with
  | nil => intro l h _; exact ⟨l, rfl, h⟩
  | cons op ops ih =>
    intro l h hv
    have hv1 : ∀ m, op = .add m → m.Valid := by
      rintro m rfl; exact hv m (by simp [added])
    have hv2 : ∀ m ∈ added ops, m.Valid := by
      intro m hm
      cases op with
      | add m' => exact hv m (by simp [added, hm])
      | toArray => exact hv m (by simpa [added] using hm)
    obtain ⟨l1, h1, h2⟩ := step_valid cfg h op hv1
    obtain ⟨l', h3, h4⟩ := ih l1 h2 hv2
    exact ⟨l', by simp [MappingList.run, h1, h3], h4⟩

end RSM
