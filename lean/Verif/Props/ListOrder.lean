import Verif.Props.Order
/-! # C73, C74 and C20, exactly: the list and the emitted segments after every history -/

namespace RSM
open Spec

instance (a b : Mapping) : Decidable (SameKey a b) := by unfold SameKey; infer_instance

/-- What `to_array` makes of the list it is called on: a list in order of generated position stays as it is, whatever the
order among mappings of one position; any other list is sorted by all fields, and mappings that agree in all of them stay
in their order. -/
def Tidied (l l' : List Mapping) : Prop :=
  (l.Pairwise posLE ∧ l' = l) ∨
  (¬ l.Pairwise posLE ∧ l'.Perm l ∧ l'.Pairwise (fun a b => FieldsLT a b ∨ SameKey a b) ∧
    ∀ k, l'.filter (fun m => decide (SameKey k m)) = l.filter (fun m => decide (SameKey k m)))

/-- The list after a history. -/
inductive ListHolds : List MLOp → List Mapping → Prop where
  | new : ListHolds [] []
  | add {ops l} (m : Mapping) : ListHolds ops l → ListHolds (ops ++ [.add m]) (l ++ [m])
  | toArray {ops l l'} : ListHolds ops l → Tidied l l' → ListHolds (ops ++ [.toArray]) l'

theorem fieldsLE_iff {a b : Mapping} (ha : a.Valid) (hb : b.Valid) :
    (FieldsLT a b ∨ SameKey a b) ↔ cmpVal a b ≤ 0 := by
  have h1 := C09_compare_is_lexicographic ⟨true, true⟩ a b ha hb
  rw [compare_eq_cmpVal _ ha hb] at h1
  simp only [Except.ok.injEq, exists_eq_left'] at h1
  rw [← h1, ← cmpVal_eq_zero]
  omega

theorem sort_keeps_class (l : List Mapping) (k : Mapping) :
    (l.mergeSort cmpLE).filter (fun m => decide (SameKey k m)) = l.filter (fun m => decide (SameKey k m)) := by
  have hp : (l.filter (fun m => decide (SameKey k m))).Pairwise (fun a b => cmpLE a b = true) := by
    rw [List.pairwise_iff_forall_sublist]
    intro a b hab
    have ha := hab.subset (show a ∈ [a, b] by simp)
    have hb := hab.subset (show b ∈ [a, b] by simp)
    simp only [List.mem_filter, decide_eq_true_eq] at ha hb
    have : SameKey a b := by
      obtain ⟨_, h1, h2, h3, h4⟩ := ha
      obtain ⟨_, k1, k2, k3, k4⟩ := hb
      exact ⟨h1.symm.trans k1, h2.symm.trans k2, h3.symm.trans k3, h4.symm.trans k4⟩
    simp [cmpLE, (cmpVal_eq_zero a b).2 this]
  have hs := (List.sublist_mergeSort cmpLE_trans cmpLE_total hp List.filter_sublist).filter
    (fun m => decide (SameKey k m))
  rw [List.filter_filter] at hs
  simp only [Bool.and_self] at hs
  exact (hs.eq_of_length (((List.mergeSort_perm l cmpLE).filter _).length_eq).symm).symm

/-- C73: `Tidied` says which list it is. -/
theorem C73_order_determined {l a b : List Mapping} (hv : ∀ m ∈ l, m.Valid) (ha : Tidied l a) (hb : Tidied l b) :
    a = b := by
  rcases ha with ⟨h1, rfl⟩ | ⟨h1, h2, h3, h4⟩ <;> rcases hb with ⟨k1, rfl⟩ | ⟨k1, k2, k3, k4⟩
  · rfl
  · exact absurd h1 k1
  · exact absurd k1 h1
  · have hva : ∀ m ∈ a, m.Valid := fun m hm => hv m (h2.mem_iff.1 hm)
    have hk : ∀ k, a.filter (fun m => decide (SameKey k m)) = b.filter (fun m => decide (SameKey k m)) :=
      fun k => (h4 k).trans (k4 k).symm
    have hp := h2.trans k2.symm
    clear h1 k1 h2 k2 h4 k4 hv l
    induction a generalizing b with
    | nil => simpa using hp.symm
    | cons x a ih =>
      cases b with
      | nil => simp at hp
      | cons y b =>
        have hvb : ∀ m ∈ y :: b, m.Valid := fun m hm => hva m (hp.mem_iff.2 hm)
        have hxy : SameKey x y := by
          rw [List.pairwise_cons] at h3 k3
          have hx : x ∈ y :: b := hp.mem_iff.1 (by simp)
          have hy : y ∈ x :: a := hp.mem_iff.2 (by simp)
          rcases List.mem_cons.1 hx with rfl | hx
          · exact ⟨rfl, rfl, rfl, rfl⟩
          · rcases List.mem_cons.1 hy with rfl | hy
            · exact ⟨rfl, rfl, rfl, rfl⟩
            · have c1 := (fieldsLE_iff (hva x (by simp)) (hvb y (by simp))).1 (h3.1 y hy)
              have c2 := (fieldsLE_iff (hvb y (by simp)) (hva x (by simp))).1 (k3.1 x hx)
              have c3 := lawful_cmpVal.anti x y
              rw [← cmpVal_eq_zero]
              omega
        have hx := hk x
        have e1 : SameKey x x := ⟨rfl, rfl, rfl, rfl⟩
        rw [List.filter_cons_of_pos (by simpa using e1), List.filter_cons_of_pos (by simpa using hxy)] at hx
        obtain ⟨rfl, _⟩ := List.cons.inj hx
        congr 1
        refine ih (List.pairwise_cons.1 h3).2 (List.pairwise_cons.1 k3).2 (fun m hm => hva m (by simp [hm])) (fun k => ?_)
          (List.Perm.cons_inv hp)
        have := hk k
        simp only [List.filter_cons] at this
        split at this
        · exact (List.cons.inj this).2
        · exact this

theorem ListHolds.inv {o : List MLOp} {l : List Mapping} (h : ListHolds o l) : ∀ ops op, o = ops ++ [op] →
    ∃ l₀, ListHolds ops l₀ ∧ match op with
      | .add m => l = l₀ ++ [m]
      | .toArray => Tidied l₀ l := by
  cases h with
  | new => intro ops op e; simp at e
  | add m h =>
    intro ops op e
    obtain ⟨rfl, e2⟩ := List.append_inj' e rfl
    cases e2
    exact ⟨_, h, rfl⟩
  | toArray h t =>
    intro ops op e
    obtain ⟨rfl, e2⟩ := List.append_inj' e rfl
    cases e2
    exact ⟨_, h, t⟩

theorem added_append (a b : List MLOp) : added (a ++ b) = added a ++ added b := by
  induction a with
  | nil => rfl
  | cons op a ih => cases op <;> simp [added, ih]

theorem Tidied.perm {l l' : List Mapping} (h : Tidied l l') : l'.Perm l := by
  rcases h with ⟨_, rfl⟩ | ⟨_, h, _⟩
  · exact List.Perm.refl _
  · exact h

theorem ListHolds.perm {ops : List MLOp} {l : List Mapping} (h : ListHolds ops l) : l.Perm (added ops) := by
  induction h with
  | new => exact List.Perm.refl _
  | add m h ih => rw [added_append]; exact ih.append_right _
  | toArray h t ih =>
    rw [added_append]
    simpa [added] using t.perm.trans ih

/-- C73: the history says which list it is. -/
theorem C73_history_determines {ops : List MLOp} (hv : ∀ m ∈ added ops, m.Valid) {a b : List Mapping} (ha : ListHolds ops a)
    (hb : ListHolds ops b) : a = b := by
  induction ha generalizing b with
  | new =>
    have := hb.perm
    simpa [added] using this.symm
  | add m h ih =>
    obtain ⟨l₀, h1, h2⟩ := hb.inv _ _ rfl
    simp only at h2
    rw [h2, ih (fun m hm => hv m (by rw [added_append]; simp [hm])) h1]
  | @toArray ops l l' h t ih =>
    obtain ⟨l₀, h1, h2⟩ := hb.inv _ _ rfl
    simp only at h2
    have hv' : ∀ m ∈ added ops, m.Valid := fun m hm => hv m (by rw [added_append]; simp [hm])
    have := ih hv' h1
    subst this
    exact C73_order_determined (fun m hm => hv' m (h.perm.mem_iff.1 hm)) t h2

/-- The flag of a list that is in order is set. -/
def FlagExact (l : MappingList) : Prop := l.sorted = false → ¬ l.array.Pairwise posLE

theorem add_exact (cfg : Cfg) {l l' : MappingList} (h : l.Inv) (hf : FlagExact l) {m : Mapping} (hm : m.Valid)
    (e : l.add cfg m = .ok l') : FlagExact l' := by
  unfold MappingList.add at e
  rw [after_eq cfg h hm] at e
  simp only [Res.ok_bind, decide_eq_true_eq, Res.pure_eq] at e
  split at e <;> cases e
  · intro hs hp
    exact hf hs (List.pairwise_append.1 hp).1
  · rename_i hn
    intro _ hp
    cases hl : l.last with
    | none =>
      rw [hl] at hn
      apply hn
      have := hm.gl
      unfold posLE; simp only [Option.getD_none, MappingList.beforeAll]; omega
    | some x =>
      rw [hl] at hn
      exact hn ((List.pairwise_append.1 hp).2.2 x (h.lastSome x hl).1 m (by simp))

theorem toArray_tidied (cfg : Cfg) {l : MappingList} (h : l.Inv) (hf : FlagExact l) :
    ∃ out l', l.toArray cfg = .ok (out, l') ∧ l'.Inv ∧ FlagExact l' ∧ l'.array = out ∧ Tidied l.array out := by
  obtain ⟨out, l', h1, h2, h3, h4, h5, h6, h7, h8⟩ := toArray_valid cfg h
  refine ⟨out, l', h1, h2, (fun hs => by rw [h6] at hs; cases hs), h3, ?_⟩
  cases hs : l.sorted with
  | true => exact .inl ⟨h.sorted hs, h8 hs⟩
  | false =>
    have e := h7 hs
    subst e
    refine .inr ⟨hf hs, h4, ?_, sort_keeps_class l.array⟩
    have := List.pairwise_mergeSort cmpLE_trans cmpLE_total l.array
    rw [List.pairwise_iff_forall_sublist] at this ⊢
    intro a b hab
    have ha := h.valid a (h4.mem_iff.1 (hab.subset (by simp)))
    have hb := h.valid b (h4.mem_iff.1 (hab.subset (by simp)))
    exact (fieldsLE_iff ha hb).2 (by simpa [cmpLE] using this hab)

theorem run_holds (cfg : Cfg) : ∀ (ops pre : List MLOp) (l : MappingList), l.Inv → FlagExact l → ListHolds pre l.array →
    (∀ m ∈ added ops, m.Valid) →
    ∃ l', l.run cfg ops = .ok l' ∧ l'.Inv ∧ FlagExact l' ∧ ListHolds (pre ++ ops) l'.array := by
  intro ops
  induction ops with
  | nil => intro pre l h hf hh _; exact ⟨l, rfl, h, hf, by simpa using hh⟩
  | cons op ops ih =>
    intro pre l h hf hh hv
    have hpre : pre ++ op :: ops = (pre ++ [op]) ++ ops := by simp
    rw [hpre]
    cases op with
    | add m =>
      have hm : m.Valid := hv m (by simp [added])
      obtain ⟨l1, h1, h2, h3⟩ := add_valid cfg h hm
      obtain ⟨l', k⟩ := ih (pre ++ [.add m]) l1 h2 (add_exact cfg h hf hm h1) (by rw [h3]; exact hh.add m)
        (fun m hm => hv m (by simp [added, hm]))
      exact ⟨l', by simpa [MappingList.run, MappingList.step, h1] using k.1, k.2⟩
    | toArray =>
      obtain ⟨out, l1, h1, h2, h3, h4, h5⟩ := toArray_tidied cfg h hf
      obtain ⟨l', k⟩ := ih (pre ++ [.toArray]) l1 h2 h3 (by rw [h4]; exact hh.toArray h5)
        (fun m hm => hv m (by simpa [added] using hm))
      exact ⟨l', by simpa [MappingList.run, MappingList.step, h1] using k.1, k.2⟩

/-- C73, for every history of valid mappings at once: what `unsorted_for_each` visits and what `to_array` returns. -/
theorem C73_exact (cfg : Cfg) (ops : List MLOp) (hv : ∀ m ∈ added ops, m.Valid) :
    ∃ l out l', MappingList.new.run cfg ops = .ok l ∧ l.toArray cfg = .ok (out, l') ∧
      ListHolds ops (l.unsortedForEach.map Prod.fst) ∧ ListHolds (ops ++ [.toArray]) out := by
  obtain ⟨l, h1, h2, h3, h4⟩ := run_holds cfg ops [] MappingList.new MappingList.inv_new
    (fun h => by cases h) .new hv
  obtain ⟨out, l', k1, _, _, _, k2⟩ := toArray_tidied cfg h2 h3
  have e : l.unsortedForEach.map Prod.fst = l.array := by simp [MappingList.unsortedForEach]
  simp only [List.nil_append] at h4
  exact ⟨l, out, l', h1, k1, e ▸ h4, h4.toArray k2⟩

/-- A list that is in order stays as it is, although `exA` is before `exB` by its source; one that is not is sorted by
all fields. -/
example (cfg : Cfg) :
    (∃ l l', MappingList.new.run cfg [.add exB, .add exA, .toArray, .add exZ] = .ok l ∧
      l.toArray cfg = .ok ([exB, exA, exZ], l')) ∧
    ∃ l l', MappingList.new.run cfg [.add exB, .add exA, .toArray, .add exZ, .add exB] = .ok l ∧
      l.toArray cfg = .ok ([exA, exB, exB, exZ], l') := by
  refine ⟨⟨_, _, rfl, rfl⟩, ⟨[exB, exA, exZ, exB], false, some exZ⟩,
    ⟨[exA, exB, exB, exZ], true, some exZ⟩, rfl, ?_⟩
  have h : ∀ m ∈ [exB, exA, exZ, exB], m.Valid := by
    intro m hm
    simp only [List.mem_cons, List.not_mem_nil, or_false] at hm
    rcases hm with rfl | rfl | rfl | rfl
    · exact exB_valid
    · exact exA_valid
    · exact exZ_valid
    · exact exB_valid
  have hs : [exB, exA, exZ, exB].mergeSort cmpLE = [exA, exB, exB, exZ] :=
    mergeSort_eq (by decide) (by decide) (by decide)
  simp only [MappingList.toArray, sortBy_valid cfg h, hs]
  rfl

example : ∀ m ∈ added [.add exB, .add exA, .toArray, .add exZ, .add exB], m.Valid := by
  intro m hm
  simp only [added, List.mem_cons, List.not_mem_nil, or_false] at hm
  rcases hm with rfl | rfl | rfl | rfl
  · exact exB_valid
  · exact exA_valid
  · exact exZ_valid
  · exact exB_valid

theorem run_holds_gen {ops : List GOp} {U : UrlLib} {cfg : Cfg} {file root : Option String} {skip : Bool} {g : Generator}
    (hv : ∀ m ∈ gAdded ops, m.Valid) (h : (Generator.new file root skip).run U cfg ops = .ok g) :
    ∃ out l, g.mappings.toArray cfg = .ok (out, l) ∧ ListHolds (mlOps ops ++ [.toArray]) out := by
  obtain ⟨_, _, h3, _⟩ := gRun_new h
  obtain ⟨l, out, l', k1, k2, _, k4⟩ := C73_exact cfg (mlOps ops) (by rw [added_mlOps]; exact hv)
  rw [h3] at k1
  cases k1
  exact ⟨out, l', k2, k4⟩

/-- C74, for every history at once: the emitted segments denote, one by one, the mappings of the list that the history
leaves, those equal in all compared fields to their predecessor left out. -/
theorem C74_exact (U : UrlLib) (cfg : Cfg) (file root : Option String) (skip : Bool) (ops : List GOp) (g g' : Generator)
    (j : SourceMapJson) (henc : ∀ m ∈ gAdded ops, m.Encodable cfg)
    (hS : (firstOccurrences ((gAdded ops).filterMap Mapping.source)).length < cfg.vlqLimit)
    (hN : (firstOccurrences ((gAdded ops).filterMap Mapping.name)).length < cfg.vlqLimit)
    (h : (Generator.new file root skip).run U cfg ops = .ok g) (hj : g.asJson U cfg = .ok (j, g')) :
    ∃ S N text raws out, j.sources = some S ∧ j.names = some N ∧ j.mappings = some text ∧
      decodeMappings text.toList = some raws ∧ ListHolds (mlOps ops ++ [.toArray]) out ∧
      List.Forall₂ (Denotes S N) raws (withoutRepeats out) := by
  obtain ⟨S, N, out, t, l, harr, _, _, j1, j2, j3, hk, hp, hs, hd, _⟩ := output_array henc hS hN h hj
  obtain ⟨out', l', k1, k2⟩ := run_holds_gen (fun m hm => (henc m hm).valid) h
  rw [harr] at k1
  cases k1
  rw [dropRepeats_eq] at hd
  refine ⟨S.array, N.array, String.ofList t, _, out, j1, j2, j3, by simpa using hd, k2, forall₂_toRaw ?_⟩
  intro m hm
  have hm' : m ∈ out := (List.destutter_sublist _ _).subset hm
  exact denotes_toRaw (henc m (hp.mem_iff.1 hm')) (hk m hm')

/-- C20, exactly: two histories that differ only in where they serialise emit maps of the same segments exactly if the
lists they leave agree in all compared fields, but for repetitions. What is missing: that they always do, which is false
of the code. -/
theorem C20_exact_partial (U : UrlLib) (cfg : Cfg) (file root : Option String) (skip : Bool) (ops₁ ops₂ : List GOp)
    (hops : withoutJson ops₁ = withoutJson ops₂) (henc : ∀ m ∈ gAdded ops₁, m.Encodable cfg)
    (hS : (firstOccurrences ((gAdded ops₁).filterMap Mapping.source)).length < cfg.vlqLimit)
    (hN : (firstOccurrences ((gAdded ops₁).filterMap Mapping.name)).length < cfg.vlqLimit)
    (g₁ g₂ g₁' g₂' : Generator) (j₁ j₂ : SourceMapJson)
    (h₁ : (Generator.new file root skip).run U cfg ops₁ = .ok g₁) (hj₁ : g₁.asJson U cfg = .ok (j₁, g₁'))
    (h₂ : (Generator.new file root skip).run U cfg ops₂ = .ok g₂) (hj₂ : g₂.asJson U cfg = .ok (j₂, g₂')) :
    ∃ text₁ text₂ raws₁ raws₂ out₁ out₂, j₁.mappings = some text₁ ∧ j₂.mappings = some text₂ ∧
      decodeMappings text₁.toList = some raws₁ ∧ decodeMappings text₂.toList = some raws₂ ∧
      ListHolds (mlOps ops₁ ++ [.toArray]) out₁ ∧ ListHolds (mlOps ops₂ ++ [.toArray]) out₂ ∧
      (raws₁ = raws₂ ↔ List.Forall₂ SameKey (withoutRepeats out₁) (withoutRepeats out₂)) := by
  have hadd : gAdded ops₂ = gAdded ops₁ := by rw [← gAdded_withoutJson ops₁, hops, gAdded_withoutJson]
  have henc₂ : ∀ m ∈ gAdded ops₂, m.Encodable cfg := by rw [hadd]; exact henc
  obtain ⟨S₁, N₁, out₁, t₁, l₁, a1, _, _, a4, a5, a6, a7, a8, _, a9, _⟩ := output_array henc hS hN h₁ hj₁
  obtain ⟨S₂, N₂, out₂, t₂, l₂, b1, _, _, b4, b5, b6, b7, b8, _, b9, _⟩ :=
    output_array henc₂ (by rw [hadd]; exact hS) (by rw [hadd]; exact hN) h₂ hj₂
  obtain ⟨o₁, _, c1, c2⟩ := run_holds_gen (fun m hm => (henc m hm).valid) h₁
  obtain ⟨o₂, _, d1, d2⟩ := run_holds_gen (fun m hm => (henc₂ m hm).valid) h₂
  rw [a1] at c1
  cases c1
  rw [b1] at d1
  cases d1
  have hs : S₁.array = S₂.array := by
    have e1 := (C16_generator_tables U cfg file root skip ops₁ g₁ g₁' j₁ h₁ hj₁).1
    have e2 := (C16_generator_tables U cfg file root skip ops₂ g₂ g₂' j₂ h₂ hj₂).1
    rw [a4] at e1
    rw [b4, hadd] at e2
    simpa using e1.trans e2.symm
  have hn : N₁.array = N₂.array := by
    have e1 := (C16_generator_tables U cfg file root skip ops₁ g₁ g₁' j₁ h₁ hj₁).2
    have e2 := (C16_generator_tables U cfg file root skip ops₂ g₂ g₂' j₂ h₂ hj₂).2
    rw [a5] at e1
    rw [b5, hadd] at e2
    simpa using e1.trans e2.symm
  rw [dropRepeats_eq] at a9 b9
  refine ⟨String.ofList t₁, String.ofList t₂, _, _, out₁, out₂, a6, b6, by simpa using a9, by simpa using b9, c2, d2, ?_⟩
  have den₁ : ∀ m ∈ withoutRepeats out₁, Denotes S₁.array N₁.array (toRaw S₁.array N₁.array m) m := by
    intro m hm
    have hm' : m ∈ out₁ := (List.destutter_sublist _ _).subset hm
    exact denotes_toRaw (henc m (a8.mem_iff.1 hm')) (a7 m hm')
  have den₂ : ∀ m ∈ withoutRepeats out₂, Denotes S₂.array N₂.array (toRaw S₂.array N₂.array m) m := by
    intro m hm
    have hm' : m ∈ out₂ := (List.destutter_sublist _ _).subset hm
    exact denotes_toRaw (henc₂ m (b8.mem_iff.1 hm')) (b7 m hm')
  rw [← hs, ← hn] at den₂ ⊢
  generalize withoutRepeats out₁ = x at den₁ ⊢
  generalize withoutRepeats out₂ = y at den₂ ⊢
  clear * - den₁ den₂
  constructor
  · intro h
    induction x generalizing y with
    | nil =>
      cases y with
      | nil => exact .nil
      | cons b y => simp at h
    | cons a x ih =>
      cases y with
      | nil => simp at h
      | cons b y =>
        simp only [List.map_cons, List.cons.injEq] at h
        refine .cons (denotes_sameKey (den₁ a (by simp)) (h.1 ▸ den₂ b (by simp))) ?_
        exact ih (fun m hm => den₁ m (by simp [hm])) y (fun m hm => den₂ m (by simp [hm])) h.2
  · intro h
    clear den₁ den₂
    induction h with
    | nil => rfl
    | cons hab _ ih =>
      obtain ⟨e1, e2, e3, e4⟩ := hab
      simp only [List.map_cons, ih, toRaw, e1, e2, e3, e4]

/-- The histories of the refutation of C20 leave lists that differ. -/
example : mlOps [.add gxB, .add gxQ, .asJson, .add gxA] = [.add gxB, .add gxQ, .toArray, .add gxA] ∧
    withoutJson [.add gxB, .add gxQ, .asJson, .add gxA] = withoutJson [.add gxB, .add gxQ, .add gxA] ∧
    ListHolds [.add gxB, .add gxQ, .add gxA] [gxB, gxQ, gxA] ∧ ¬ SameKey gxA gxB :=
  ⟨rfl, rfl, (((ListHolds.new.add gxB).add gxQ).add gxA), by decide⟩

end RSM
