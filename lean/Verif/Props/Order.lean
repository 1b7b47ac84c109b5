import Mathlib.Data.List.Destutter
import Mathlib.Data.List.Forall2
import Verif.Props.MappingList
import Verif.Props.Generator
/-! # C73 and C74: the exact order of the mappings -/

namespace RSM
open Spec

/-! ## C73 -/

/-- A mapping is added that is generated before one added earlier: `before` are the mappings already there, `ms` those
added now. -/
def OutOfOrder (before ms : List Mapping) : Prop :=
  ∃ xs b ys, ms = xs ++ b :: ys ∧ ∃ a ∈ before ++ xs, ¬ posLE a b

theorem outOfOrder_cons {before ms : List Mapping} {m : Mapping} :
    OutOfOrder before (m :: ms) ↔ (∃ a ∈ before, ¬ posLE a m) ∨ OutOfOrder (before ++ [m]) ms := by
  constructor
  · rintro ⟨xs, b, ys, h, a, ha, hab⟩
    cases xs with
    | nil =>
      simp only [List.nil_append, List.cons.injEq] at h
      obtain ⟨rfl, rfl⟩ := h
      exact .inl ⟨a, by simpa using ha, hab⟩
    | cons x xs =>
      simp only [List.cons_append, List.cons.injEq] at h
      obtain ⟨rfl, rfl⟩ := h
      exact .inr ⟨xs, b, ys, rfl, a, by simpa using ha, hab⟩
  · rintro (⟨a, ha, hab⟩ | ⟨xs, b, ys, rfl, a, ha, hab⟩)
    · exact ⟨[], m, ms, rfl, a, by simpa using ha, hab⟩
    · exact ⟨m :: xs, b, ys, rfl, a, by simpa using ha, hab⟩

theorem not_outOfOrder_nil {before : List Mapping} : ¬ OutOfOrder before [] := by
  rintro ⟨xs, b, ys, h, _⟩
  simp at h

theorem outOfOrder_congr {before before' ms : List Mapping} (h : ∀ a, a ∈ before ↔ a ∈ before') :
    OutOfOrder before ms ↔ OutOfOrder before' ms := by
  simp only [OutOfOrder, List.mem_append, h]

/-- One addition: what happens to the flag. -/
theorem add_flag (cfg : Cfg) {l : MappingList} (h : l.Inv) {m : Mapping} (hm : m.Valid) :
    ∃ l', l.add cfg m = .ok l' ∧ l'.Inv ∧ l'.array = l.array ++ [m] ∧
      (l'.sorted = true ↔ l.sorted = true ∧ ∀ a ∈ l.array, posLE a m) := by
  obtain ⟨l', h1, h2, h3⟩ := add_valid cfg h hm
  refine ⟨l', h1, h2, h3, ?_⟩
  have hlast : (∀ a ∈ l.array, posLE a m) ↔ posLE (l.last.getD MappingList.beforeAll) m := by
    cases hl : l.last with
    | none =>
      have := hm.gl
      simp only [h.lastNone hl, List.not_mem_nil, false_implies, implies_true, true_iff, Option.getD_none,
        MappingList.beforeAll, posLE]
      omega
    | some x =>
      obtain ⟨hx1, hx2⟩ := h.lastSome x hl
      exact ⟨fun hh => hh x hx1, fun hh a ha => posLE_trans (hx2 a ha) hh⟩
  unfold MappingList.add at h1
  rw [after_eq cfg h hm] at h1
  simp only [Res.ok_bind, decide_eq_true_eq, Res.pure_eq] at h1
  rw [hlast]
  split at h1 <;> cases h1 <;> simp_all

theorem run_flag_order (cfg : Cfg) : ∀ (ops : List MLOp) (l : MappingList), l.Inv → (∀ m ∈ added ops, m.Valid) →
    ¬ OutOfOrder l.array (added ops) → l.sorted = true →
    ∃ l', l.run cfg ops = .ok l' ∧ l'.Inv ∧ l'.array = l.array ++ added ops ∧ l'.sorted = true := by
  intro ops
  induction ops with
  | nil => intro l h _ _ hs; exact ⟨l, rfl, h, by simp [added], hs⟩
  | cons op ops ih =>
    intro l h hv ho hs
    cases op with
    | add m =>
      simp only [added] at hv ho
      rw [outOfOrder_cons] at ho
      push Not at ho
      obtain ⟨l1, h1, h2, h3, h4⟩ := add_flag cfg h (hv m (by simp))
      obtain ⟨l', h5, h6, h7, h8⟩ := ih l1 h2 (fun m hm => hv m (by simp [hm])) (by rw [h3]; exact ho.2)
        (h4.2 ⟨hs, fun a ha => ho.1 a ha⟩)
      exact ⟨l', by simp [MappingList.run, MappingList.step, h1, h5], h6, by simp [h7, h3, added], h8⟩
    | toArray =>
      obtain ⟨l', h5, h6, h7, h8⟩ := ih l h (by simpa [added] using hv) (by simpa [added] using ho) hs
      refine ⟨l', ?_, h6, by simpa [added] using h7, h8⟩
      simp [MappingList.run, MappingList.step, MappingList.toArray, hs, h5]

theorem run_flag_disorder (cfg : Cfg) : ∀ (ops : List MLOp) (l : MappingList), l.Inv → (∀ m ∈ added ops, m.Valid) →
    .toArray ∉ ops → l.sorted = false ∨ OutOfOrder l.array (added ops) →
    ∃ l', l.run cfg ops = .ok l' ∧ l'.Inv ∧ l'.array = l.array ++ added ops ∧ l'.sorted = false := by
  intro ops
  induction ops with
  | nil =>
    intro l h _ _ ho
    refine ⟨l, rfl, h, by simp [added], ?_⟩
    rcases ho with ho | ho
    · exact ho
    · exact absurd ho not_outOfOrder_nil
  | cons op ops ih =>
    intro l h hv hn ho
    cases op with
    | add m =>
      simp only [added] at hv ho
      obtain ⟨l1, h1, h2, h3, h4⟩ := add_flag cfg h (hv m (by simp))
      obtain ⟨l', h5, h6, h7, h8⟩ := ih l1 h2 (fun m hm => hv m (by simp [hm])) (by simp at hn; exact hn) (by
        by_cases hl1 : l1.sorted = true
        · right
          obtain ⟨h9, h10⟩ := h4.1 hl1
          rcases ho with ho | ho
          · rw [h9] at ho; cases ho
          · rw [outOfOrder_cons] at ho
            rcases ho with ⟨a, ha, hab⟩ | ho
            · exact absurd (h10 a ha) hab
            · rw [h3]; exact ho
        · left; simpa using hl1)
      exact ⟨l', by simp [MappingList.run, MappingList.step, h1, h5], h6, by simp [h7, h3, added], h8⟩
    | toArray => simp at hn

theorem run_append (cfg : Cfg) : ∀ (xs ys : List MLOp) (l : MappingList), l.run cfg (xs ++ ys) =
    (l.run cfg xs >>= fun l' => l'.run cfg ys) := by
  intro xs
  induction xs with
  | nil => intro ys l; rfl
  | cons x xs ih =>
    intro ys l
    simp only [List.cons_append, MappingList.run]
    cases l.step cfg x with
    | error e => rfl
    | ok l1 => exact ih ys l1

/-- C73, no disorder: after `to_array` returned `before`, additions each at or after all earlier mappings make
`to_array` return `before` followed by them in the order of insertion. With nothing before: mappings inserted in
generated order are returned as inserted, wherever else `to_array` is called. -/
theorem C73_in_order (cfg : Cfg) (pre post : List MLOp) (l l' : MappingList) (before : List Mapping)
    (hv : ∀ m ∈ added (pre ++ post), m.Valid) (hpre : MappingList.new.run cfg pre = .ok l)
    (harr : l.toArray cfg = .ok (before, l')) (hord : ¬ OutOfOrder (added pre) (added post)) :
    ∃ l₁ l₂, MappingList.new.run cfg (pre ++ .toArray :: post) = .ok l₁ ∧
      l₁.toArray cfg = .ok (before ++ added post, l₂) := by
  have hadd : ∀ xs ys : List MLOp, added (xs ++ ys) = added xs ++ added ys := by
    intro xs ys
    induction xs with
    | nil => rfl
    | cons x xs ih => cases x <;> simp [added, ih]
  rw [hadd] at hv
  obtain ⟨l1, r1, r2⟩ := run_valid cfg pre MappingList.new MappingList.inv_new (fun m hm => hv m (by simp [hm]))
  rw [hpre] at r1
  cases r1
  obtain ⟨out, l2, r3, r4, r5, r6, r7, r8, _⟩ := toArray_valid cfg r2
  rw [harr] at r3
  cases r3
  have hperm := run_perm cfg _ _ _ hpre
  simp only [MappingList.new, List.nil_append] at hperm
  obtain ⟨l₁, h1, h2, h3, h4⟩ := run_flag_order cfg post l' r4 (fun m hm => hv m (by simp [hm])) (by
    rw [outOfOrder_congr (before' := added pre)]
    · exact hord
    · intro a
      rw [r5]
      exact (r6.trans hperm).mem_iff) r8
  refine ⟨l₁, l₁, ?_, ?_⟩
  · rw [run_append, hpre]
    simp only [Res.ok_bind, MappingList.run, MappingList.step, harr, Res.pure_eq, h1]
  · simp only [MappingList.toArray, h4, h3, r5]
    rfl

theorem cmpLE_fieldsLT {a b : Mapping} (ha : a.Valid) (hb : b.Valid) (h : cmpLE a b = true) : ¬ FieldsLT b a := by
  intro hlt
  obtain ⟨c, h1, h2⟩ := (C09_compare_is_lexicographic ⟨true, true⟩ b a hb ha).2 hlt
  rw [compare_eq_cmpVal _ hb ha] at h1
  cases h1
  simp only [cmpLE, decide_eq_true_eq] at h
  have := (lawful_cmpVal.anti b a).1 h2
  omega

/-- C73, disorder: if since the last call of `to_array` (or ever) some mapping was inserted that is generated before
an earlier one, `to_array` returns the mappings ordered by all the compared fields; mappings equal in all of them stay
in the order in which they were. -/
theorem C73_out_of_order (cfg : Cfg) (pre post : List MLOp) (l : MappingList)
    (hv : ∀ m ∈ added (pre ++ post), m.Valid) (hpre : MappingList.new.run cfg pre = .ok l)
    (hnone : .toArray ∉ post) (hdis : OutOfOrder (added pre) (added post)) :
    ∃ l₁ out l₂, MappingList.new.run cfg (pre ++ post) = .ok l₁ ∧ l₁.toArray cfg = .ok (out, l₂) ∧
      out.Perm (added (pre ++ post)) ∧ out.Pairwise (fun a b => ¬ FieldsLT b a) ∧
      ∀ a b, SameKey a b → [a, b].Sublist (l.array ++ added post) → [a, b].Sublist out := by
  have hadd : ∀ xs ys : List MLOp, added (xs ++ ys) = added xs ++ added ys := by
    intro xs ys
    induction xs with
    | nil => rfl
    | cons x xs ih => cases x <;> simp [added, ih]
  rw [hadd] at hv ⊢
  obtain ⟨l1, r1, r2⟩ := run_valid cfg pre MappingList.new MappingList.inv_new (fun m hm => hv m (by simp [hm]))
  rw [hpre] at r1
  cases r1
  have hperm := run_perm cfg _ _ _ hpre
  simp only [MappingList.new, List.nil_append] at hperm
  obtain ⟨l₁, h1, h2, h3, h4⟩ := run_flag_disorder cfg post l r2 (fun m hm => hv m (by simp [hm])) hnone (by
    right
    rw [outOfOrder_congr (before' := added pre)]
    · exact hdis
    · intro a; exact hperm.mem_iff)
  obtain ⟨out, l₂, h5, h6, h7, h8, h9, h10, h11, _⟩ := toArray_valid cfg h2
  have hout := h11 h4
  have hval : ∀ m ∈ out, m.Valid := fun m hm => h2.valid m (h8.mem_iff.1 hm)
  refine ⟨l₁, out, l₂, by rw [run_append, hpre]; exact h1, h5, ?_, ?_, ?_⟩
  · refine h8.trans ?_
    rw [h3]
    exact hperm.append_right _
  · rw [hout] at hval ⊢
    refine List.Pairwise.imp_of_mem ?_ (List.pairwise_mergeSort cmpLE_trans cmpLE_total l₁.array)
    intro a b ha hb hab
    exact cmpLE_fieldsLT (hval a ha) (hval b hb) hab
  · intro a b hab hsub
    rw [hout]
    refine List.pair_sublist_mergeSort cmpLE_trans cmpLE_total ?_ (by rw [h3]; exact hsub)
    have := (cmpVal_eq_zero a b).2 hab
    simp [cmpLE, this]


theorem fieldsLT_trichotomy {a b : Mapping} (ha : a.Valid) (hb : b.Valid) (h1 : ¬ FieldsLT a b) (h2 : ¬ FieldsLT b a) :
    SameKey a b := by
  have key : ∀ {x y : Mapping}, x.Valid → y.Valid → ¬ FieldsLT x y → 0 ≤ cmpVal x y := by
    intro x y hx hy h
    by_contra hc
    exact h ((C09_compare_is_lexicographic ⟨true, true⟩ x y hx hy).1 ⟨_, compare_eq_cmpVal _ hx hy, by omega⟩)
  have h3 := key ha hb h1
  have h4 := key hb ha h2
  have h5 := lawful_cmpVal.anti b a
  have h6 := lawful_cmpVal.anti a b
  exact (cmpVal_eq_zero a b).1 (by omega)

theorem sorted_unique {xs ys : List Mapping} (hp : xs.Perm ys) (hv : ∀ m ∈ xs, m.Valid)
    (hx : xs.Pairwise fun a b => ¬ FieldsLT b a) (hy : ys.Pairwise fun a b => ¬ FieldsLT b a)
    (hk : ∀ a ∈ xs, ∀ b ∈ xs, SameKey a b → a = b) : xs = ys := by
  refine List.Perm.eq_of_pairwise ?_ hx hy hp
  intro a b ha hb h1 h2
  have hb' := hp.mem_iff.2 hb
  exact hk a ha b hb' (fieldsLT_trichotomy (hv a ha) (hv b hb') h2 h1)

/-- A mapping with the field that is not compared left out. -/
def compared (m : Mapping) : Mapping := { m with lastGeneratedColumn := none }

theorem compared_eq {a b : Mapping} : compared a = compared b ↔ SameKey a b := by
  cases a
  cases b
  simp only [compared, SameKey, Mapping.mk.injEq]
  tauto

theorem fieldsLT_compared {a b : Mapping} (h : FieldsLT (compared a) (compared b)) : FieldsLT a b := by
  have key : ∀ {x y : Mapping}, FieldsLT x y → x = compared a → y = compared b → FieldsLT a b := by
    intro x y h hx hy
    induction h with
    | line h1 => subst hx hy; exact .line h1
    | column h1 h2 => subst hx hy; exact .column h1 h2
    | source h1 h2 h3 h4 => subst hx hy; exact .source h1 h2 h3 h4
    | sourceAbsent h1 h2 h3 => subst hx hy; exact .sourceAbsent h1 h2 h3
    | origLine h1 h2 h3 h4 h5 => subst hx hy; exact .origLine h1 h2 h3 h4 h5
    | origColumn h1 h2 h3 h4 h5 h6 => subst hx hy; exact .origColumn h1 h2 h3 h4 h5 h6
    | name h1 h2 h3 h4 h5 h6 => subst hx hy; exact .name h1 h2 h3 h4 h5 h6
    | nameAbsent h1 h2 h3 h4 h5 => subst hx hy; exact .nameAbsent h1 h2 h3 h4 h5
  exact key h rfl rfl

theorem sorted_sameKey {xs ys : List Mapping} (hp : xs.Perm ys) (hv : ∀ m ∈ xs, m.Valid)
    (hx : xs.Pairwise fun a b => ¬ FieldsLT b a) (hy : ys.Pairwise fun a b => ¬ FieldsLT b a) :
    xs.map compared = ys.map compared := by
  refine sorted_unique (hp.map _) ?_ (by rw [List.pairwise_map]; exact hx.imp fun h c => h (fieldsLT_compared c))
    (by rw [List.pairwise_map]; exact hy.imp fun h c => h (fieldsLT_compared c)) ?_
  · intro m hm
    obtain ⟨a, ha, rfl⟩ := List.mem_map.1 hm
    exact ⟨(hv a ha).gl, (hv a ha).gc, (hv a ha).orig, (hv a ha).range⟩
  · intro a ha b hb h
    obtain ⟨x, -, rfl⟩ := List.mem_map.1 ha
    obtain ⟨y, -, rfl⟩ := List.mem_map.1 hb
    exact compared_eq.2 h

theorem forall₂_sameKey : ∀ {xs ys : List Mapping}, xs.map compared = ys.map compared → List.Forall₂ SameKey xs ys
  | [], [], _ => .nil
  | x :: xs, y :: ys, h => by
    simp only [List.map_cons, List.cons.injEq, compared_eq] at h
    exact .cons h.1 (forall₂_sameKey h.2)

/-- C73: so after disorder the result depends only on which mappings were inserted: two histories inserting the same
mappings, in whatever order and with whatever calls of `to_array`, give lists that agree place by place in all compared
fields; so the same list, if mappings equal in all of these are equal. -/
theorem C73_canonical (cfg : Cfg) (pre₁ post₁ pre₂ post₂ : List MLOp)
    (hv : ∀ m ∈ added (pre₁ ++ post₁), m.Valid) (hp : (added (pre₁ ++ post₁)).Perm (added (pre₂ ++ post₂)))
    (hn₁ : .toArray ∉ post₁) (hn₂ : .toArray ∉ post₂)
    (hd₁ : OutOfOrder (added pre₁) (added post₁)) (hd₂ : OutOfOrder (added pre₂) (added post₂)) :
    ∃ l₁ l₂ out₁ out₂ l₁' l₂', MappingList.new.run cfg (pre₁ ++ post₁) = .ok l₁ ∧
      MappingList.new.run cfg (pre₂ ++ post₂) = .ok l₂ ∧
      l₁.toArray cfg = .ok (out₁, l₁') ∧ l₂.toArray cfg = .ok (out₂, l₂') ∧ List.Forall₂ SameKey out₁ out₂ ∧
      ((∀ a ∈ added (pre₁ ++ post₁), ∀ b ∈ added (pre₁ ++ post₁), SameKey a b → a = b) → out₁ = out₂) := by
  have hv₂ : ∀ m ∈ added (pre₂ ++ post₂), m.Valid := fun m hm => hv m (hp.mem_iff.2 hm)
  have hpre : ∀ pre post : List MLOp, (∀ m ∈ added (pre ++ post), m.Valid) →
      ∃ l, MappingList.new.run cfg pre = .ok l := by
    intro pre post hv
    obtain ⟨l, h, _⟩ := run_valid cfg pre MappingList.new MappingList.inv_new (fun m hm => hv m (by
      have : ∀ xs ys : List MLOp, added (xs ++ ys) = added xs ++ added ys := by
        intro xs ys
        induction xs with
        | nil => rfl
        | cons x xs ih => cases x <;> simp [added, ih]
      rw [this]; simp [hm]))
    exact ⟨l, h⟩
  obtain ⟨a₁, ha₁⟩ := hpre pre₁ post₁ hv
  obtain ⟨a₂, ha₂⟩ := hpre pre₂ post₂ hv₂
  obtain ⟨l₁, o₁, l₁', r1, r2, r3, r4, _⟩ := C73_out_of_order cfg pre₁ post₁ a₁ hv ha₁ hn₁ hd₁
  obtain ⟨l₂, o₂, l₂', s1, s2, s3, s4, _⟩ := C73_out_of_order cfg pre₂ post₂ a₂ hv₂ ha₂ hn₂ hd₂
  have hq := r3.trans (hp.trans s3.symm)
  refine ⟨l₁, l₂, o₁, o₂, l₁', l₂', r1, s1, r2, s2,
    forall₂_sameKey (sorted_sameKey hq (fun m hm => hv m (r3.mem_iff.1 hm)) r4 s4), fun hk => ?_⟩
  exact sorted_unique hq (fun m hm => hv m (r3.mem_iff.1 hm)) r4 s4
    (fun a ha b hb => hk a (r3.mem_iff.1 ha) b (r3.mem_iff.1 hb))

/-- `exZ`, at column 7, then `exA` and `exB`, at column 0: out of order; `exB` then `exA` then `exZ`: in order, so the
two at column 0 stay as inserted. -/
example : OutOfOrder [] (added [.add exZ, .add exB, .add exA]) ∧ ¬ OutOfOrder [] (added [.add exB, .add exA, .add exZ]) := by
  refine ⟨⟨[exZ], exB, [exA], rfl, exZ, by simp, by decide⟩, ?_⟩
  simp only [added, outOfOrder_cons, not_or]
  refine ⟨by simp, by decide, by decide, not_outOfOrder_nil⟩

/-! ## C74 -/

theorem not_outOfOrder_iff {ms : List Mapping} : ∀ {before : List Mapping}, ¬ OutOfOrder before ms ↔
    ms.Pairwise posLE ∧ ∀ a ∈ before, ∀ b ∈ ms, posLE a b := by
  induction ms with
  | nil => intro before; simp [not_outOfOrder_nil]
  | cons m ms ih =>
    intro before
    rw [outOfOrder_cons, not_or, ih]
    simp only [List.pairwise_cons, List.mem_append, List.mem_cons, List.not_mem_nil, or_false]
    constructor
    · rintro ⟨h1, h2, h3⟩
      push Not at h1
      exact ⟨⟨fun a ha => h3 m (.inr rfl) a ha, h2⟩, fun a ha b hb => hb.elim (fun e => e ▸ h1 a ha) (h3 a (.inl ha) b)⟩
    · rintro ⟨⟨h1, h2⟩, h3⟩
      refine ⟨?_, h2, ?_⟩
      · push Not
        exact fun a ha => h3 a ha m (.inl rfl)
      · rintro a (ha | rfl) b hb
        · exact h3 a ha b (.inr hb)
        · exact h1 b hb

/-- Dropping mappings equal to their predecessor. -/
def withoutRepeats (ms : List Mapping) : List Mapping := ms.destutter fun a b => ¬ SameKey a b

theorem dropRepeats_eq (ms : List Mapping) : dropRepeats none ms = withoutRepeats ms := by
  unfold withoutRepeats
  cases ms with
  | nil => rfl
  | cons m ms =>
    simp only [dropRepeats, List.destutter_cons']
    have : ∀ (ms : List Mapping) (p a : Mapping), SameKey p a →
        a :: dropRepeats (some p) ms = ms.destutter' (fun a b => ¬ SameKey a b) a := by
      intro ms
      induction ms with
      | nil => intro p a _; rfl
      | cons x xs ih =>
        intro p a h
        by_cases hx : SameKey x p
        · rw [List.destutter'_cons_neg _ (by simpa using (hx.trans h).symm)]
          simp only [dropRepeats, hx, if_true]
          exact ih x a (hx.trans h)
        · rw [List.destutter'_cons_pos _ (fun hc => hx (hc.symm.trans h.symm))]
          simp only [dropRepeats, hx, if_false]
          rw [ih x x ⟨rfl, rfl, rfl, rfl⟩]
    exact this ms m m ⟨rfl, rfl, rfl, rfl⟩

theorem forall₂_toRaw {S N : ArraySet} {ms : List Mapping} (h : ∀ m ∈ ms, Denotes S.array N.array (toRaw S.array N.array m) m) :
    List.Forall₂ (Denotes S.array N.array) (ms.map (toRaw S.array N.array)) ms := by
  induction ms with
  | nil => exact .nil
  | cons m ms ih => exact .cons (h m (by simp)) (ih fun m hm => h m (by simp [hm]))

section
variable (U : UrlLib) (cfg : Cfg) (file root : Option String) (skip : Bool)

/-- C74, in order: if the mappings are added in generated order, the emitted segments denote, one by one, the added
mappings in the order of addition, those equal in all compared fields to their predecessor left out. -/
theorem C74_in_order (ops : List GOp) (g g' : Generator) (j : SourceMapJson)
    (henc : ∀ m ∈ gAdded ops, m.Encodable cfg)
    (hS : (firstOccurrences ((gAdded ops).filterMap Mapping.source)).length < cfg.vlqLimit)
    (hN : (firstOccurrences ((gAdded ops).filterMap Mapping.name)).length < cfg.vlqLimit)
    (h : (Generator.new file root skip).run U cfg ops = .ok g) (hj : g.asJson U cfg = .ok (j, g'))
    (hord : (gAdded ops).Pairwise posLE) :
    ∃ S N text raws, j.sources = some S ∧ j.names = some N ∧ j.mappings = some text ∧
      decodeMappings text.toList = some raws ∧
      List.Forall₂ (Denotes S N) raws (withoutRepeats (gAdded ops)) := by
  obtain ⟨S, N, out, t, l, harr, _, _, j1, j2, j3, hk, hp, hs, hd, _⟩ := output_array henc hS hN h hj
  obtain ⟨_, _, h3, _⟩ := gRun_new h
  obtain ⟨l₁, k1, _, k3, k4⟩ := run_flag_order cfg (mlOps ops) MappingList.new MappingList.inv_new
    (by rw [added_mlOps]; exact fun m hm => (henc m hm).valid)
    (by rw [added_mlOps, not_outOfOrder_iff]; exact ⟨hord, by simp [MappingList.new]⟩) rfl
  rw [h3] at k1
  cases k1
  rw [added_mlOps] at k3
  have hout : out = gAdded ops := by
    simp only [MappingList.toArray, k4, k3] at harr
    cases harr
    rfl
  subst hout
  rw [dropRepeats_eq] at hd
  refine ⟨S.array, N.array, String.ofList t, _, j1, j2, j3, by simpa using hd, forall₂_toRaw ?_⟩
  intro m hm
  have hm' : m ∈ gAdded ops := (List.destutter_sublist _ _).subset hm
  exact denotes_toRaw (henc m hm') (hk m hm')

theorem mlOps_append (xs ys : List GOp) : mlOps (xs ++ ys) = mlOps xs ++ mlOps ys := by
  induction xs with
  | nil => rfl
  | cons x xs ih => cases x <;> simp [mlOps, ih]

theorem mlOps_toArray {ops : List GOp} (h : .asJson ∉ ops) : .toArray ∉ mlOps ops := by
  induction ops with
  | nil => simp [mlOps]
  | cons x xs ih =>
    simp only [List.mem_cons, not_or] at h
    cases x <;> simp_all [mlOps]

theorem disorder_array {pre post : List GOp} {g : Generator} (hv : ∀ m ∈ gAdded (pre ++ post), m.Valid)
    (h : (Generator.new file root skip).run U cfg (pre ++ post) = .ok g) (hnone : .asJson ∉ post)
    (hdis : OutOfOrder (gAdded pre) (gAdded post)) {out : List Mapping} {l : MappingList}
    (harr : g.mappings.toArray cfg = .ok (out, l)) : out.Pairwise fun a b => ¬ FieldsLT b a := by
  obtain ⟨_, _, h3, _⟩ := gRun_new h
  rw [mlOps_append] at h3
  have hv' : ∀ m ∈ added (mlOps pre ++ mlOps post), m.Valid := by rw [← mlOps_append, added_mlOps]; exact hv
  obtain ⟨l₀, r0⟩ : ∃ l₀, MappingList.new.run cfg (mlOps pre) = .ok l₀ := by
    rw [run_append, Res.bind_eq_ok] at h3
    obtain ⟨l₀, h4, _⟩ := h3
    exact ⟨l₀, h4⟩
  obtain ⟨l₁, out', l₂, k1, k2, k3, k4, _⟩ := C73_out_of_order cfg (mlOps pre) (mlOps post) l₀ hv' r0
    (mlOps_toArray hnone) (by rw [added_mlOps, added_mlOps]; exact hdis)
  rw [h3] at k1
  cases k1
  rw [harr] at k2
  cases k2
  exact k4

/-- C74, out of order: if since the last serialisation (or ever) some mapping was added that is generated before an
earlier one, the emitted segments denote, one by one, the added mappings ordered by all compared fields, those equal
in all of them to their predecessor left out. -/
theorem C74_out_of_order (pre post : List GOp) (g g' : Generator) (j : SourceMapJson)
    (henc : ∀ m ∈ gAdded (pre ++ post), m.Encodable cfg)
    (hS : (firstOccurrences ((gAdded (pre ++ post)).filterMap Mapping.source)).length < cfg.vlqLimit)
    (hN : (firstOccurrences ((gAdded (pre ++ post)).filterMap Mapping.name)).length < cfg.vlqLimit)
    (h : (Generator.new file root skip).run U cfg (pre ++ post) = .ok g) (hj : g.asJson U cfg = .ok (j, g'))
    (hnone : .asJson ∉ post) (hdis : OutOfOrder (gAdded pre) (gAdded post)) :
    ∃ S N text raws out, j.sources = some S ∧ j.names = some N ∧ j.mappings = some text ∧
      decodeMappings text.toList = some raws ∧
      out.Perm (gAdded (pre ++ post)) ∧ out.Pairwise (fun a b => ¬ FieldsLT b a) ∧
      List.Forall₂ (Denotes S N) raws (withoutRepeats out) := by
  obtain ⟨S, N, out, t, l, harr, _, _, j1, j2, j3, hk, hp, hs, hd, _⟩ := output_array henc hS hN h hj
  rw [dropRepeats_eq] at hd
  refine ⟨S.array, N.array, String.ofList t, _, out, j1, j2, j3, by simpa using hd, hp,
    disorder_array U cfg file root skip (fun m hm => (henc m hm).valid) h hnone hdis harr, forall₂_toRaw ?_⟩
  intro m hm
  have hm' : m ∈ out := (List.destutter_sublist _ _).subset hm
  exact denotes_toRaw (henc m (hp.mem_iff.1 hm')) (hk m hm')

/-- C74, in order after a serialisation: if since a serialisation every mapping was added at or after all earlier ones, the
segments emitted then stay, in their order, and segments for the added mappings in the order of addition follow, those
equal in all compared fields to their predecessor left out. -/
theorem C74_appended (pre post : List GOp) (g₀ g₀' g g' : Generator) (j₀ j : SourceMapJson)
    (henc : ∀ m ∈ gAdded (pre ++ post), m.Encodable cfg)
    (hS : (firstOccurrences ((gAdded (pre ++ post)).filterMap Mapping.source)).length < cfg.vlqLimit)
    (hN : (firstOccurrences ((gAdded (pre ++ post)).filterMap Mapping.name)).length < cfg.vlqLimit)
    (h₀ : (Generator.new file root skip).run U cfg pre = .ok g₀) (hj₀ : g₀.asJson U cfg = .ok (j₀, g₀'))
    (h : (Generator.new file root skip).run U cfg (pre ++ .asJson :: post) = .ok g) (hj : g.asJson U cfg = .ok (j, g'))
    (hord : ¬ OutOfOrder (gAdded pre) (gAdded post)) :
    ∃ S₀ N₀ text₀ raws₀ S N text raws before, j₀.sources = some S₀ ∧ j₀.names = some N₀ ∧ j₀.mappings = some text₀ ∧
      decodeMappings text₀.toList = some raws₀ ∧ List.Forall₂ (Denotes S₀ N₀) raws₀ (withoutRepeats before) ∧
      before.Perm (gAdded pre) ∧
      j.sources = some S ∧ j.names = some N ∧ j.mappings = some text ∧ decodeMappings text.toList = some raws ∧
      List.Forall₂ (Denotes S N) raws (withoutRepeats (before ++ gAdded post)) := by
  have hg : gAdded (pre ++ .asJson :: post) = gAdded (pre ++ post) := by simp [gAdded_append, gAdded]
  have henc₀ : ∀ m ∈ gAdded pre, m.Encodable cfg := fun m hm => henc m (by rw [gAdded_append]; simp [hm])
  have hS₀ : (firstOccurrences ((gAdded pre).filterMap Mapping.source)).length < cfg.vlqLimit := by
    rw [gAdded_append, List.filterMap_append] at hS
    exact Nat.lt_of_le_of_lt (firstOccurrences_mono _ _) hS
  have hN₀ : (firstOccurrences ((gAdded pre).filterMap Mapping.name)).length < cfg.vlqLimit := by
    rw [gAdded_append, List.filterMap_append] at hN
    exact Nat.lt_of_le_of_lt (firstOccurrences_mono _ _) hN
  obtain ⟨S₀, N₀, out₀, t₀, l₀, harr₀, _, _, i1, i2, i3, ik, ip, _, id, _⟩ := output_array henc₀ hS₀ hN₀ h₀ hj₀
  obtain ⟨S, N, out, t, l, harr, _, _, j1, j2, j3, hk, hp, hs, hd, _⟩ :=
    output_array (by rw [hg]; exact henc) (by rw [hg]; exact hS) (by rw [hg]; exact hN) h hj
  obtain ⟨_, _, a3, _⟩ := gRun_new h₀
  obtain ⟨_, _, b3, _⟩ := gRun_new h
  rw [mlOps_append] at b3
  obtain ⟨l₁, l₂, k1, k2⟩ := C73_in_order cfg (mlOps pre) (mlOps post) g₀.mappings l₀ out₀
    (by rw [← mlOps_append, added_mlOps]; exact fun m hm => (henc m hm).valid) a3 harr₀
    (by rw [added_mlOps, added_mlOps]; exact hord)
  have b3' : MappingList.new.run cfg (mlOps pre ++ .toArray :: mlOps post) = .ok g.mappings := b3
  rw [b3'] at k1
  cases k1
  rw [harr, added_mlOps] at k2
  cases k2
  rw [dropRepeats_eq] at id hd
  refine ⟨S₀.array, N₀.array, String.ofList t₀, _, S.array, N.array, String.ofList t, _, out₀, i1, i2, i3, by simpa using id,
    forall₂_toRaw ?_, ip, j1, j2, j3, by simpa using hd, forall₂_toRaw ?_⟩
  · intro m hm
    have hm' : m ∈ out₀ := (List.destutter_sublist _ _).subset hm
    exact denotes_toRaw (henc₀ m (ip.mem_iff.1 hm')) (ik m hm')
  · intro m hm
    have hm' : m ∈ out₀ ++ gAdded post := (List.destutter_sublist _ _).subset hm
    exact denotes_toRaw (henc m (by rw [← hg]; exact hp.mem_iff.1 hm')) (hk m hm')

/-- What is emitted does not depend on the field that is not compared. -/
theorem serializeLoop_compared {cfg : Cfg} {S N : ArraySet} : ∀ (ms : List Mapping) (st : SerState) (prev : Option Mapping),
    serializeLoop cfg S N st prev ms = serializeLoop cfg S N st (prev.map compared) (ms.map compared) := by
  intro ms
  induction ms with
  | nil => intro st prev; rfl
  | cons m ms ih =>
    intro st prev
    have hstep : serializeStep cfg S N st prev m = serializeStep cfg S N st (prev.map compared) (compared m) := by
      cases prev <;> rfl
    simp only [serializeLoop, List.map_cons, hstep]
    congr 1
    funext x
    rw [ih x.2 (some m)]
    rfl

/-- C20: two histories that differ only in where they serialise, but do not after their last addition out of order,
end in the same map. -/
theorem C20_after_disorder (pre₁ post₁ pre₂ post₂ : List GOp)
    (hops : withoutJson (pre₁ ++ post₁) = withoutJson (pre₂ ++ post₂))
    (hv : ∀ m ∈ gAdded (pre₁ ++ post₁), m.Valid)
    (hn₁ : .asJson ∉ post₁) (hn₂ : .asJson ∉ post₂)
    (hd₁ : OutOfOrder (gAdded pre₁) (gAdded post₁)) (hd₂ : OutOfOrder (gAdded pre₂) (gAdded post₂))
    (g₁ g₂ g₁' g₂' : Generator) (j₁ j₂ : SourceMapJson)
    (h₁ : (Generator.new file root skip).run U cfg (pre₁ ++ post₁) = .ok g₁) (hj₁ : g₁.asJson U cfg = .ok (j₁, g₁'))
    (h₂ : (Generator.new file root skip).run U cfg (pre₂ ++ post₂) = .ok g₂) (hj₂ : g₂.asJson U cfg = .ok (j₂, g₂')) :
    j₁ = j₂ := by
  have hadd : gAdded (pre₁ ++ post₁) = gAdded (pre₂ ++ post₂) := by
    rw [← gAdded_withoutJson (pre₁ ++ post₁), hops, gAdded_withoutJson]
  obtain ⟨hrest, hperm, -⟩ := C20_serialize_observes_partial U cfg file root skip _ _ hops g₁ g₂ g₁' g₂' j₁ j₂ h₁ hj₁ h₂ hj₂
  obtain ⟨_, _, a3, a4, a5, _⟩ := gRun_new h₁
  obtain ⟨_, _, b3, b4, b5, _⟩ := gRun_new h₂
  obtain ⟨sc₁, out₁, l₁, t₁, c1, c2, c3, rfl, rfl⟩ := asJson_ok hj₁
  obtain ⟨sc₂, out₂, l₂, t₂, d1, d2, d3, rfl, rfl⟩ := asJson_ok hj₂
  have es : g₁.sources = g₂.sources := by rw [a4, b4, hadd]
  have en : g₁.names = g₂.names := by rw [a5, b5, hadd]
  simp only at hperm
  rw [(toArray_perm cfg c2).2, (toArray_perm cfg d2).2] at hperm
  have hmem : ∀ m ∈ out₁, m ∈ gAdded (pre₁ ++ post₁) := by
    intro m hm
    have := run_perm cfg _ _ _ a3
    rw [added_mlOps] at this
    exact (((toArray_perm cfg c2).1.trans (by simpa [MappingList.new] using this)).mem_iff).1 hm
  have eout : out₁.map compared = out₂.map compared := sorted_sameKey hperm (fun m hm => hv m (hmem m hm))
    (disorder_array U cfg file root skip hv h₁ hn₁ hd₁ c2)
    (disorder_array U cfg file root skip (hadd ▸ hv) h₂ hn₂ hd₂ d2)
  have et : t₁ = t₂ := by
    rw [serializeLoop_compared] at c3 d3
    rw [es, en, eout] at c3
    simp only [Option.map_none] at c3 d3
    rw [d3] at c3
    simpa using c3.symm
  simp only [SourceMapJson.mk.injEq] at hrest ⊢
  simp only [hrest, et, and_self]

end

/-- Both kinds of histories, each with its segments: in order with a repeat, and out of order. -/
example (U : UrlLib) (cfg : Cfg) : ∃ g j g' S N text raws,
    (Generator.new none none false).run U cfg [.add gxB, .asJson, .add gxB, .add gxA] = .ok g ∧
    g.asJson U cfg = .ok (j, g') ∧ j.sources = some S ∧ j.names = some N ∧ j.mappings = some text ∧
    decodeMappings text.toList = some raws ∧ List.Forall₂ (Denotes S N) raws [gxB, gxA] := by
  have henc : ∀ m ∈ gAdded [.add gxB, .asJson, .add gxB, .add gxA], m.Encodable cfg := by
    intro m hm
    simp only [gAdded, List.mem_cons, List.not_mem_nil, or_false] at hm
    rcases hm with rfl | rfl | rfl
    · exact gxB_enc
    · exact gxB_enc
    · exact gxA_enc
  obtain ⟨hS, hN⟩ := tables_small (ops := [.add gxB, .asJson, .add gxB, .add gxA]) (by decide)
  obtain ⟨g, j, g', h1, h2⟩ := serialize_encodable U cfg none false _ henc hS hN
  obtain ⟨S, N, text, raws, h3⟩ := C74_in_order U cfg none none false _ g g' j henc hS hN h1 h2 (by decide)
  exact ⟨g, j, g', S, N, text, raws, h1, h2, h3⟩

example (U : UrlLib) (cfg : Cfg) : ∃ g j g' S N text raws,
    (Generator.new none none false).run U cfg [.add gxB, .add gxQ, .add gxA] = .ok g ∧
    g.asJson U cfg = .ok (j, g') ∧ j.sources = some S ∧ j.names = some N ∧ j.mappings = some text ∧
    decodeMappings text.toList = some raws ∧ List.Forall₂ (Denotes S N) raws [gxQ, gxA, gxB] := by
  have henc : ∀ m ∈ gAdded [.add gxB, .add gxQ, .add gxA], m.Encodable cfg := by
    intro m hm
    simp only [gAdded, List.mem_cons, List.not_mem_nil, or_false] at hm
    rcases hm with rfl | rfl | rfl
    · exact gxB_enc
    · exact gxQ_enc
    · exact gxA_enc
  obtain ⟨hS, hN⟩ := tables_small (ops := [.add gxB, .add gxQ, .add gxA]) (by decide)
  obtain ⟨g, j, g', h1, h2⟩ := serialize_encodable U cfg none false _ henc hS hN
  obtain ⟨S, N, text, raws, out, h3, h4, h5, h6, h7, h8, h9⟩ := C74_out_of_order U cfg none none false []
    [.add gxB, .add gxQ, .add gxA] g g' j henc hS hN h1 h2 (by simp)
    ⟨[gxB], gxQ, [gxA], rfl, gxB, by simp, by decide⟩
  have hne : ∀ m ∈ [gxB, gxQ, gxA], m.Valid := fun m hm => (henc m hm).valid
  have hsub : ∀ m ∈ [gxQ, gxA, gxB], m ∈ [gxB, gxQ, gxA] := by decide
  have hkey : ∀ a ∈ [gxB, gxQ, gxA], ∀ b ∈ [gxB, gxQ, gxA], SameKey a b → a = b := by decide
  obtain rfl : out = [gxQ, gxA, gxB] := by
    refine sorted_unique (h7.trans (by decide)) (fun m hm => hne m (h7.mem_iff.1 hm)) h8 ?_ ?_
    · refine List.Pairwise.imp_of_mem (R := fun a b => cmpLE a b = true) ?_ (by decide)
      intro a b ha hb hab
      exact cmpLE_fieldsLT (hne a (hsub a ha)) (hne b (hsub b hb)) hab
    · exact fun a ha b hb => hkey a (h7.mem_iff.1 ha) b (h7.mem_iff.1 hb)
  exact ⟨g, j, g', S, N, text, raws, h1, h2, h3, h4, h5, h6, h9⟩

end RSM
