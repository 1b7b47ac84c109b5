import Verif.Props.Unvalidated
import Verif.Props.ListOrder
/-! # C84, exactly: the list after every history of mappings that were not validated -/

namespace RSM
open Spec

/-- The mapping goes behind everything in the list, and is not before column -1 of line -1. Only mappings that were not
validated can be. -/
def Behind (l : List Mapping) (m : Mapping) : Prop :=
  (-1 < m.generated.line ∨ m.generated.line = -1 ∧ -1 ≤ m.generated.column) ∧ ∀ x ∈ l, posLE x m

/-- The list after a history, and whether it is taken to be in order. -/
inductive LooseHolds : List MLOp → Prop → List Mapping → Prop where
  | new : LooseHolds [] True []
  | add {ops s l} (m : Mapping) : LooseHolds ops s l → LooseHolds (ops ++ [.add m]) (s ∧ Behind l m) (l ++ [m])
  | kept {ops s l} : LooseHolds ops s l → s → LooseHolds (ops ++ [.toArray]) True l
  | sorted {ops s l l'} : LooseHolds ops s l → ¬ s → l'.Perm l → l'.Pairwise (fun a b => FieldsLT a b ∨ SameKey a b) →
      (∀ k, l'.filter (fun m => decide (SameKey k m)) = l.filter (fun m => decide (SameKey k m))) →
      LooseHolds (ops ++ [.toArray]) True l'

theorem fieldsLE_loose {a b : Mapping}
    (hu : a.generated = b.generated → a.source = b.source → a.original.isSome = b.original.isSome) :
    (FieldsLT a b ∨ SameKey a b) ↔ cmpVal a b ≤ 0 := by
  rw [← cmpVal_neg_iff hu, ← cmpVal_eq_zero]
  omega

theorem behind_iff {lo : Int} {l : MappingList} (h : l.InvR lo)
    (hb : ∀ x, l.last = some x → posLE MappingList.beforeAll x) (m : Mapping) :
    posLE (l.last.getD MappingList.beforeAll) m ↔ Behind l.array m := by
  have hba : posLE MappingList.beforeAll m ↔
      (-1 < m.generated.line ∨ m.generated.line = -1 ∧ -1 ≤ m.generated.column) := by
    unfold posLE; simp only [MappingList.beforeAll]; omega
  unfold Behind
  rw [← hba]
  cases hl : l.last with
  | none =>
    simp only [Option.getD_none]
    exact ⟨fun hp => ⟨hp, fun x hx => posLE_trans (h.lastNone hl x hx) hp⟩, fun hp => hp.1⟩
  | some y =>
    simp only [Option.getD_some]
    exact ⟨fun hp => ⟨posLE_trans (hb y hl) hp, fun x hx => posLE_trans ((h.lastSome y hl).2 x hx) hp⟩,
      fun hp => hp.2 y (h.lastSome y hl).1⟩

theorem add_loose (cfg : Cfg) {lo : Int} (hlo : WindowStart lo) {l : MappingList} (h : l.InvR lo)
    (hb : ∀ x, l.last = some x → posLE MappingList.beforeAll x) {m : Mapping} (hm : m.Within lo) :
    ∃ l', l.add cfg m = .ok l' ∧ l'.InvR lo ∧ l'.array = l.array ++ [m] ∧
      (∀ x, l'.last = some x → posLE MappingList.beforeAll x) ∧
      (l'.sorted = true ↔ l.sorted = true ∧ Behind l.array m) := by
  obtain ⟨l', h1, h2, h3⟩ := add_ranged cfg hlo h hm
  refine ⟨l', h1, h2, h3, ?_⟩
  have hf := behind_iff h hb m
  unfold MappingList.add at h1
  rw [after_ranged cfg hlo h hm] at h1
  simp only [Res.ok_bind, decide_eq_true_eq, Res.pure_eq] at h1
  split at h1 <;> rename_i hp <;> cases h1
  · refine ⟨?_, by simp [hf.1 hp]⟩
    intro x hx
    cases hx
    have := (hf.1 hp).1
    unfold posLE; simp only [MappingList.beforeAll]; omega
  · exact ⟨hb, by simp only [Bool.false_eq_true, false_iff, not_and]; exact fun _ k => hp (hf.2 k)⟩

theorem toArray_loose (cfg : Cfg) {lo : Int} {l : MappingList} (h : l.InvR lo) (hu : Uniform l.array) {ops : List MLOp}
    (hb : ∀ x, l.last = some x → posLE MappingList.beforeAll x) {s : Prop} (hs : l.sorted = true ↔ s)
    (hh : LooseHolds ops s l.array) :
    ∃ out l', l.toArray cfg = .ok (out, l') ∧ l'.InvR lo ∧ l'.array = out ∧
      (∀ x, l'.last = some x → posLE MappingList.beforeAll x) ∧ l'.sorted = true ∧
      LooseHolds (ops ++ [.toArray]) True out := by
  obtain ⟨out, l', h1, h2, h3, h4, _⟩ := toArray_ranged cfg h hu
  refine ⟨out, l', h1, h2, h3, ?_⟩
  unfold MappingList.toArray at h1
  cases hso : l.sorted with
  | true =>
    simp only [hso, Bool.not_true, Bool.false_eq_true, if_false, Res.pure_eq, Except.ok.injEq, Prod.mk.injEq] at h1
    obtain ⟨rfl, rfl⟩ := h1
    exact ⟨hb, hso, hh.kept (hs.1 hso)⟩
  | false =>
    rw [sortBy_ranged cfg h.ranged hu] at h1
    simp only [hso, Bool.not_false, if_true, Res.ok_bind, Res.pure_eq, Except.ok.injEq, Prod.mk.injEq] at h1
    obtain ⟨rfl, rfl⟩ := h1
    refine ⟨hb, rfl, hh.sorted (fun k => by rw [hs.2 k] at hso; cases hso) h4 ?_ (sort_keeps_class l.array)⟩
    have := List.pairwise_mergeSort cmpLE_trans cmpLE_total l.array
    rw [List.pairwise_iff_forall_sublist] at this ⊢
    intro a b hab
    have ha := h4.mem_iff.1 (hab.subset (show a ∈ [a, b] by simp))
    have hb := h4.mem_iff.1 (hab.subset (show b ∈ [a, b] by simp))
    exact (fieldsLE_loose (hu a ha b hb)).2 (by simpa [cmpLE] using this hab)

theorem run_loose (cfg : Cfg) {lo : Int} (hlo : WindowStart lo) : ∀ (ops pre : List MLOp) (l : MappingList) (s : Prop),
    l.InvR lo → (∀ x, l.last = some x → posLE MappingList.beforeAll x) → (l.sorted = true ↔ s) →
    LooseHolds pre s l.array → (∀ m ∈ added ops, m.Within lo) → Uniform (l.array ++ added ops) →
    ∃ l' s', l.run cfg ops = .ok l' ∧ l'.InvR lo ∧ (∀ x, l'.last = some x → posLE MappingList.beforeAll x) ∧
      (l'.sorted = true ↔ s') ∧ LooseHolds (pre ++ ops) s' l'.array := by
  intro ops
  induction ops with
  | nil => intro pre l s h hb hs hh _ _; exact ⟨l, s, rfl, h, hb, hs, by simpa using hh⟩
  | cons op ops ih =>
    intro pre l s h hb hs hh hv hu
    have hpre : pre ++ op :: ops = (pre ++ [op]) ++ ops := by simp
    rw [hpre]
    cases op with
    | add m =>
      obtain ⟨l1, h1, h2, h3, h4, h5⟩ := add_loose cfg hlo h hb (hv m (by simp [added]))
      obtain ⟨l', s', k⟩ := ih (pre ++ [.add m]) l1 (s ∧ Behind l.array m) h2 h4 (by rw [h5, hs])
        (by rw [h3]; exact hh.add m) (fun x hx => hv x (by simp [added, hx])) (by rw [h3]; simpa [added] using hu)
      exact ⟨l', s', by simpa [MappingList.run, MappingList.step, h1] using k.1, k.2⟩
    | toArray =>
      have hul : Uniform l.array := fun a ha b hb => hu a (by simp [ha]) b (by simp [hb])
      obtain ⟨out, l1, h1, h2, h3, h4, h5, h6⟩ := toArray_loose cfg h hul hb hs hh
      have hp := (toArray_perm cfg h1).1
      obtain ⟨l', s', k⟩ := ih (pre ++ [.toArray]) l1 True h2 h4 (by simp [h5]) (by rw [h3]; exact h6)
        (by simpa [added] using hv) (by
          rw [h3]
          intro a ha b hb
          have hm : ∀ x, x ∈ out ++ added ops → x ∈ l.array ++ added (.toArray :: ops) := by
            intro x hx
            simp only [added, List.mem_append] at hx ⊢
            exact hx.imp hp.mem_iff.1 id
          exact hu a (hm a ha) b (hm b hb))
      exact ⟨l', s', by simpa [MappingList.run, MappingList.step, h1] using k.1, k.2⟩

/-- C84 (what is true), exactly. Under the conditions of `C84_mappings_ordered_partial` the list is the one the history says:
it is sorted by all fields, stably, by the first `to_array` after a mapping that does not go behind the others or is before
column -1 of line -1, and otherwise keeps the order of addition. Missing: as there. -/
theorem C84_exact_partial (cfg : Cfg) (lo : Int) (hlo : WindowStart lo) (ops : List MLOp)
    (hr : ∀ m ∈ added ops, m.Within lo) (hu : Uniform (added ops)) :
    ∃ l out l' s, MappingList.new.run cfg ops = .ok l ∧ l.toArray cfg = .ok (out, l') ∧
      LooseHolds ops s (l.unsortedForEach.map Prod.fst) ∧ LooseHolds (ops ++ [.toArray]) True out := by
  obtain ⟨l, s, h1, h2, h3, h4, h5⟩ := run_loose cfg hlo ops [] MappingList.new True
    ⟨by simp [MappingList.new], by simp [MappingList.new], by simp [MappingList.new], by simp [MappingList.new]⟩
    (by simp [MappingList.new]) (by simp [MappingList.new]) .new hr (by simpa [MappingList.new] using hu)
  have hp := run_perm cfg ops MappingList.new l h1
  simp only [MappingList.new, List.nil_append] at hp
  obtain ⟨out, l', k1, _, _, _, _, k6⟩ := toArray_loose cfg h2
    (fun a ha b hb => hu a (hp.mem_iff.1 ha) b (hp.mem_iff.1 hb)) h3 h4 h5
  have e : l.unsortedForEach.map Prod.fst = l.array := by simp [MappingList.unsortedForEach]
  exact ⟨l, out, l', s, h1, k1, e ▸ h5, k6⟩

theorem stable_unique {a b : List Mapping} (hu : Uniform a) (h3 : a.Pairwise (fun a b => FieldsLT a b ∨ SameKey a b))
    (k3 : b.Pairwise (fun a b => FieldsLT a b ∨ SameKey a b))
    (hk : ∀ k, a.filter (fun m => decide (SameKey k m)) = b.filter (fun m => decide (SameKey k m)))
    (hp : a.Perm b) : a = b := by
  induction a generalizing b with
  | nil => simpa using hp.symm
  | cons x a ih =>
    cases b with
    | nil => simp at hp
    | cons y b =>
      have hy' : y ∈ x :: a := hp.mem_iff.2 (by simp)
      have hxy : SameKey x y := by
        rw [List.pairwise_cons] at h3 k3
        have hx : x ∈ y :: b := hp.mem_iff.1 (by simp)
        have hy := hy'
        rcases List.mem_cons.1 hx with rfl | hx
        · exact ⟨rfl, rfl, rfl, rfl⟩
        · rcases List.mem_cons.1 hy with rfl | hy
          · exact ⟨rfl, rfl, rfl, rfl⟩
          · have c1 := (fieldsLE_loose (hu x (by simp) y hy')).1 (h3.1 y hy)
            have c2 := (fieldsLE_loose (hu y hy' x (by simp))).1 (k3.1 x hx)
            have c3 := lawful_cmpVal.anti x y
            rw [← cmpVal_eq_zero]
            omega
      have hx := hk x
      have e1 : SameKey x x := ⟨rfl, rfl, rfl, rfl⟩
      rw [List.filter_cons_of_pos (by simpa using e1), List.filter_cons_of_pos (by simpa using hxy)] at hx
      obtain ⟨rfl, _⟩ := List.cons.inj hx
      congr 1
      refine ih (fun p hp q hq => hu p (by simp [hp]) q (by simp [hq])) (List.pairwise_cons.1 h3).2
        (List.pairwise_cons.1 k3).2 (fun k => ?_) (List.Perm.cons_inv hp)
      have := hk k
      simp only [List.filter_cons] at this
      split at this
      · exact (List.cons.inj this).2
      · exact this

theorem LooseHolds.inv {o : List MLOp} {s : Prop} {l : List Mapping} (h : LooseHolds o s l) : ∀ ops op, o = ops ++ [op] →
    ∃ s₀ l₀, LooseHolds ops s₀ l₀ ∧ match op with
      | .add m => l = l₀ ++ [m] ∧ s = (s₀ ∧ Behind l₀ m)
      | .toArray => s = True ∧ ((s₀ ∧ l = l₀) ∨ (¬ s₀ ∧ l.Perm l₀ ∧ l.Pairwise (fun a b => FieldsLT a b ∨ SameKey a b) ∧
          ∀ k, l.filter (fun m => decide (SameKey k m)) = l₀.filter (fun m => decide (SameKey k m)))) := by
  cases h with
  | new => intro ops op e; simp at e
  | add m h =>
    intro ops op e
    obtain ⟨rfl, e2⟩ := List.append_inj' e rfl
    cases e2
    exact ⟨_, _, h, rfl, rfl⟩
  | kept h hs =>
    intro ops op e
    obtain ⟨rfl, e2⟩ := List.append_inj' e rfl
    cases e2
    exact ⟨_, _, h, rfl, .inl ⟨hs, rfl⟩⟩
  | sorted h hs h1 h2 h3 =>
    intro ops op e
    obtain ⟨rfl, e2⟩ := List.append_inj' e rfl
    cases e2
    exact ⟨_, _, h, rfl, .inr ⟨hs, h1, h2, h3⟩⟩

theorem LooseHolds.perm {ops : List MLOp} {s : Prop} {l : List Mapping} (h : LooseHolds ops s l) :
    l.Perm (added ops) := by
  induction h with
  | new => exact List.Perm.refl _
  | add m h ih => rw [added_append]; exact ih.append_right _
  | kept h _ ih =>
    rw [added_append]
    simpa [added] using ih
  | sorted h _ h1 _ _ ih =>
    rw [added_append]
    simpa [added] using h1.trans ih

/-- C84. The history says which list it is. -/
theorem C84_history_determines {ops : List MLOp} (hu : Uniform (added ops)) {s t : Prop} {a b : List Mapping}
    (ha : LooseHolds ops s a) (hb : LooseHolds ops t b) : a = b ∧ (s ↔ t) := by
  induction ha generalizing b t with
  | new =>
    have hp := hb.perm
    refine ⟨by simpa [added] using hp.symm, ?_⟩
    have : ∀ o, LooseHolds o t b → o = [] → t := by
      intro o h
      cases h <;> simp
    simpa using this _ hb rfl
  | @add ops s l m h ih =>
    obtain ⟨s₀, l₀, h1, h2, h3⟩ := hb.inv _ _ rfl
    obtain ⟨e1, e2⟩ := ih (fun x hx y hy => hu x (by rw [added_append]; simp [hx]) y (by rw [added_append]; simp [hy])) h1
    subst e1
    exact ⟨h2.symm, by rw [h3, e2]⟩
  | @kept ops s l h hs ih =>
    obtain ⟨s₀, l₀, h1, h2, h3⟩ := hb.inv _ _ rfl
    obtain ⟨e1, e2⟩ := ih (fun x hx y hy => hu x (by rw [added_append]; simp [hx]) y (by rw [added_append]; simp [hy])) h1
    rcases h3 with ⟨_, h3⟩ | ⟨h3, _⟩
    · exact ⟨e1.trans h3.symm, by rw [h2]⟩
    · exact absurd (e2.1 hs) h3
  | @sorted ops s l l' h hs p1 p2 p3 ih =>
    obtain ⟨s₀, l₀, h1, h2, h3⟩ := hb.inv _ _ rfl
    have hu' : Uniform (added ops) :=
      fun x hx y hy => hu x (by rw [added_append]; simp [hx]) y (by rw [added_append]; simp [hy])
    obtain ⟨e1, e2⟩ := ih hu' h1
    subst e1
    rcases h3 with ⟨h3, _⟩ | ⟨_, q1, q2, q3⟩
    · exact absurd (e2.2 h3) hs
    · have hm : ∀ x, x ∈ l' → x ∈ added ops := fun x hx => h.perm.mem_iff.1 (p1.mem_iff.1 hx)
      exact ⟨stable_unique (fun x hx y hy => hu' x (hm x hx) y (hm y hy)) p2 q2 (fun k => (p3 k).trans (q3 k).symm)
        (p1.trans q1.symm), by rw [h2]⟩

/-- Two mappings on line -5 that differ in their names, in order of generated position either way: they are sorted by
name nevertheless. The same two on line 5 are not. -/
def negZ : Mapping := { generated := ⟨-5, 0⟩, name := some "z" }
def negA : Mapping := { generated := ⟨-5, 0⟩, name := some "a" }

example : LooseHolds ([.add negZ, .add negA] ++ [.toArray]) True [negA, negZ] := by
  refine LooseHolds.sorted (l := [negZ, negA])
    (LooseHolds.add (ops := [.add negZ]) negA (LooseHolds.add (ops := []) negZ .new)) ?_ (List.Perm.swap _ _ _) ?_ ?_
  · intro h
    exact absurd h.2.1 (by decide)
  · simp only [List.pairwise_cons, List.mem_singleton, forall_eq, List.not_mem_nil, false_implies, implies_true,
      List.Pairwise.nil, and_true]
    exact .inl (.name rfl rfl rfl rfl rfl (by decide))
  · intro k
    have h : ¬ (SameKey k negA ∧ SameKey k negZ) := by
      rintro ⟨⟨_, _, _, h1⟩, _, _, _, h2⟩
      rw [h1] at h2
      exact absurd h2 (by decide)
    by_cases h1 : SameKey k negA <;> by_cases h2 : SameKey k negZ <;> simp_all

example (cfg : Cfg) : ∃ l l', MappingList.new.run cfg [.add { negZ with generated := ⟨5, 0⟩ },
      .add { negA with generated := ⟨5, 0⟩ }] = .ok l ∧
    l.toArray cfg = .ok ([{ negZ with generated := ⟨5, 0⟩ }, { negA with generated := ⟨5, 0⟩ }], l') := ⟨_, _, rfl, rfl⟩

end RSM
