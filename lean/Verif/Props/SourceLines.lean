import Verif.Props.Sums
import Verif.Props.ConsumerEdit
/-! # Property C140: lines inserted into a source or taken out of it -/

namespace RSM
open Spec BasicConsumer

variable {E : Env}

/-- The third number of segment `k` increased by `l`. -/
def addLines (k : Nat) (l : Int) (ps : List (Text × List Int)) : List (Text × List Int) :=
  ps.modify k fun p => (p.1, p.2.modify 2 (· + l))

/-- All of a segment but the third number. -/
def segShape (p : Text × List Int) : Text × Nat × Int × Int × Int × Int :=
  (p.1, p.2.length, p.2.getD 0 0, p.2.getD 1 0, p.2.getD 3 0, p.2.getD 4 0)

theorem segShape_modify (p : Text × List Int) (l : Int) : segShape (p.1, p.2.modify 2 (· + l)) = segShape p := by
  simp [segShape, List.getD_eq_getElem?_getD]

theorem shape_addLines (l : Int) : ∀ (k : Nat) (ps : List (Text × List Int)),
    (addLines k l ps).map segShape = ps.map segShape
  | _, [] => by simp [addLines]
  | 0, p :: ps => by
    unfold addLines
    rw [List.modify_zero_cons, List.map_cons, List.map_cons, segShape_modify]
  | k + 1, p :: ps => by
    have := shape_addLines l k ps
    unfold addLines at this ⊢
    rw [List.modify_succ_cons, List.map_cons, List.map_cons, this]

section
variable {ps ps' : List (Text × List Int)}

theorem shape_sum {j : Nat} (hj : j = 0 ∨ j = 1 ∨ j = 3 ∨ j = 4) (h : ps'.map segShape = ps.map segShape) :
    sumOf j ps' = sumOf j ps := by
  have key : ∀ f : Text × Nat × Int × Int × Int × Int → Int, (ps'.map (f ∘ segShape)).sum = (ps.map (f ∘ segShape)).sum := by
    intro f
    rw [← List.map_map, ← List.map_map, h]
  rcases hj with rfl | rfl | rfl | rfl
  · exact key (·.2.2.1)
  · exact key (·.2.2.2.1)
  · exact key (·.2.2.2.2.1)
  · exact key (·.2.2.2.2.2)

theorem shape_semicolons (h : ps'.map segShape = ps.map segShape) : semicolons ps' = semicolons ps := by
  have : (ps'.map ((fun x : Text × Nat × Int × Int × Int × Int => x.1.count ';') ∘ segShape)).sum =
      (ps.map ((fun x : Text × Nat × Int × Int × Int × Int => x.1.count ';') ∘ segShape)).sum := by
    rw [← List.map_map, ← List.map_map, h]
  exact this

end

theorem shape_lastLine : ∀ {ps ps' : List (Text × List Int)}, ps'.map segShape = ps.map segShape →
    (lastLine ps').map segShape = (lastLine ps).map segShape
  | [], [], _ => rfl
  | [], _ :: _, h => by simp at h
  | _ :: _, [], h => by simp at h
  | p :: ps, p' :: ps', h => by
    have h0 := h
    rw [List.map_cons, List.map_cons, List.cons.injEq] at h
    have ih := shape_lastLine h.2
    have hs := shape_semicolons h.2
    unfold lastLine
    rw [hs]
    split
    · exact h0
    · exact ih

theorem sum_addLines (l : Int) : ∀ {k i : Nat} {ps : List (Text × List Int)} {p : Text × List Int}, k ≤ i →
    ps[k]? = some p → 2 < p.2.length → sumOf 2 ((addLines k l ps).take (i + 1)) = sumOf 2 (ps.take (i + 1)) + l
  | _, _, [], _, _, h, _ => by simp at h
  | 0, i, (sep, ns) :: ps, p, _, h, hp => by
    simp only [List.getElem?_cons_zero, Option.some.injEq] at h
    subst h
    unfold addLines
    rw [List.modify_zero_cons, List.take_succ_cons, List.take_succ_cons, sumOf_cons, sumOf_cons]
    simp only at hp ⊢
    simp [List.getD_eq_getElem?_getD, List.getElem?_eq_getElem hp]
    omega
  | k + 1, 0, _ :: _, _, hk, _, _ => by omega
  | k + 1, i + 1, (sep, ns) :: ps, p, hk, h, hp => by
    rw [List.getElem?_cons_succ] at h
    have := sum_addLines l (i := i) (by omega) h hp
    unfold addLines at this ⊢
    rw [List.modify_succ_cons, List.take_succ_cons, List.take_succ_cons, sumOf_cons, sumOf_cons, this]
    omega

theorem sum_addLines_before (l : Int) {k i : Nat} {ps : List (Text × List Int)} (h : i < k) :
    (addLines k l ps).take (i + 1) = ps.take (i + 1) := by
  refine List.ext_getElem? fun j => ?_
  simp only [List.getElem?_take, addLines, List.getElem?_modify]
  split
  · have hne : k ≠ j := by omega
    cases ps[j]? with
    | none => rfl
    | some p => exact congrArg some (if_neg hne)
  · rfl

/-- The original line moved. -/
def Spec.RawMapping.lower (l : Int) (r : RawMapping) : RawMapping :=
  { r with original := r.original.map fun o => { o with line := (o.line + l).toNat } }

theorem says_lower {q q' : List (Text × List Int)} {n : Nat} {r r' : RawMapping} {l : Int} (hs : q'.map segShape = q.map segShape)
    (hsum : sumOf 2 q' = sumOf 2 q + l) (h : Says q n r) (h' : Says q' n r') :
    r' = r.lower l ∧ ∀ o, r.original = some o → 0 ≤ o.line + l := by
  obtain ⟨a1, a2, a3, a4, a5, a6, a7, a8⟩ := h
  obtain ⟨b1, b2, b3, b4, b5, b6, b7, b8⟩ := h'
  have e1 : r'.line = r.line := by rw [a1, b1, shape_semicolons hs]
  have e2 : r'.column = r.column := by
    have := shape_sum (j := 0) (by omega) (shape_lastLine hs)
    rw [← a2, ← b2] at this
    exact_mod_cast this
  obtain ⟨x, y, o⟩ := r
  obtain ⟨x', y', o'⟩ := r'
  simp only at e1 e2 a3 a4 a5 a6 a7 a8 b3 b4 b5 b6 b7 b8
  subst e1
  subst e2
  unfold RawMapping.lower
  simp only [RawMapping.mk.injEq, true_and]
  cases o with
  | none => exact ⟨by rw [b3.2 (a3.1 rfl)]; rfl, by simp⟩
  | some o =>
    cases o' with
    | none => exact absurd (a3.2 (b3.1 rfl)) (by simp)
    | some o' =>
      specialize a4 _ rfl
      specialize a5 _ rfl
      specialize a6 _ rfl
      specialize a7 _ rfl
      specialize a8 _ rfl
      specialize b4 _ rfl
      specialize b5 _ rfl
      specialize b6 _ rfl
      specialize b7 _ rfl
      specialize b8 _ rfl
      rw [shape_sum (by omega) hs] at b4 b6
      rw [hsum] at b5
      obtain ⟨s, m, c, nm⟩ := o
      obtain ⟨s', m', c', nm'⟩ := o'
      simp only at a4 a5 a6 a7 a8 b4 b5 b6 b7 b8
      simp only [Option.map_some, Option.some.injEq, RawOriginal.mk.injEq]
      refine ⟨⟨by omega, by omega, by omega, ?_⟩, by rintro _ rfl; simp only; omega⟩
      cases nm with
      | none => exact b7.2 (a7.1 rfl)
      | some i =>
        cases nm' with
        | none => exact absurd (a7.2 (b7.1 rfl)) (by simp)
        | some i' =>
          have e := a8 i rfl
          have e' := b8 i' rfl
          rw [shape_sum (by omega) hs] at e'
          rw [Option.some.injEq]
          omega

/-- The third number of segment `k₁` increased and that of segment `k₂`, if there is one, decreased as much: that is what
happens to the original lines from the one to the other. -/
theorem C140_segments {m m' : SourceMapJson} {ps : List (Text × List Int)} {k₁ k₂ : Nat} {l : Int} (hw : Written m ps)
    (hw' : Written m' (addLines k₂ (-l) (addLines k₁ l ps))) (hk : k₁ < k₂)
    (h₁ : ∀ p, ps[k₁]? = some p → p.2.length ≠ 1) (h₂ : ∀ p, ps[k₂]? = some p → p.2.length ≠ 1)
    {raws raws' : List RawMapping} (hseg : m.Segments raws) (hseg' : m'.Segments raws') :
    raws' = (raws.mapIdx fun i r => if k₁ ≤ i ∧ i < k₂ then r.lower l else r) ∧
      ∀ (i : Nat) (r : RawMapping) (o : RawOriginal), k₁ ≤ i ∧ i < k₂ → raws[i]? = some r → r.original = some o →
        0 ≤ o.line + l := by
  obtain ⟨n1, n2⟩ := hw.says hseg
  obtain ⟨n1', n2'⟩ := hw'.says hseg'
  have hsh : (addLines k₂ (-l) (addLines k₁ l ps)).map segShape = ps.map segShape := by
    rw [shape_addLines, shape_addLines]
  have hlen : (addLines k₂ (-l) (addLines k₁ l ps)).length = ps.length := by simp [addLines]
  have hnum := hw.1.numbers
  have low0 : ∀ r : RawMapping, r.lower 0 = r := fun r => by
    obtain ⟨_, _, o⟩ := r
    cases o <;> simp [RawMapping.lower]
  have key : ∀ (i : Nat) (r r' : RawMapping), raws[i]? = some r → raws'[i]? = some r' →
      r' = r.lower (if k₁ ≤ i ∧ i < k₂ then l else 0) ∧
        ∀ o, r.original = some o → 0 ≤ o.line + (if k₁ ≤ i ∧ i < k₂ then l else 0) := by
    intro i r r' hr hr'
    have hi : i < ps.length := by
      obtain ⟨h, -⟩ := List.getElem?_eq_some_iff.1 hr
      omega
    have hp := List.getElem?_eq_getElem hi
    have hp' := List.getElem?_eq_getElem (l := addLines k₂ (-l) (addLines k₁ l ps)) (i := i) (by omega)
    have s := n2 i _ _ hr hp
    have s' := n2' i _ _ hr' hp'
    have hpl : ((addLines k₂ (-l) (addLines k₁ l ps))[i]'(by omega)).2.length = ps[i].2.length := by
      have := congrArg (fun x => x[i]?.map (·.2.1)) hsh
      simpa [hp, hp', segShape] using this
    rw [hpl] at s'
    have ht : ((addLines k₂ (-l) (addLines k₁ l ps)).take (i + 1)).map segShape = (ps.take (i + 1)).map segShape := by
      rw [List.map_take, List.map_take, hsh]
    have big : ∀ {k : Nat}, (∀ p, ps[k]? = some p → p.2.length ≠ 1) → k ≤ i → ∃ p, ps[k]? = some p ∧ 2 < p.2.length := by
      intro k h hki
      have e := List.getElem?_eq_getElem (l := ps) (i := k) (by omega)
      have := h _ e
      have := hnum _ (List.mem_of_getElem? e)
      exact ⟨_, e, by omega⟩
    refine says_lower ht ?_ s s'
    by_cases c1 : k₁ ≤ i
    · obtain ⟨p1, e1, g1⟩ := big h₁ c1
      by_cases c2 : i < k₂
      · rw [if_pos ⟨c1, c2⟩, sum_addLines_before _ c2, sum_addLines l c1 e1 g1]
      · rw [if_neg (by omega)]
        obtain ⟨p2, e2, g2⟩ := big h₂ (by omega)
        have e2' : (addLines k₁ l ps)[k₂]? = some p2 := by
          simp only [addLines, List.getElem?_modify, e2, if_neg (show k₁ ≠ k₂ by omega)]
          rfl
        rw [sum_addLines (-l) (by omega) e2' g2, sum_addLines l c1 e1 g1]
        omega
    · rw [if_neg (by omega), sum_addLines_before _ (by omega), sum_addLines_before _ (by omega), Int.add_zero]
  constructor
  · refine List.ext_getElem? fun i => ?_
    rw [List.getElem?_mapIdx]
    by_cases hi : i < ps.length
    · have hr := List.getElem?_eq_getElem (l := raws) (i := i) (by omega)
      have hr' := List.getElem?_eq_getElem (l := raws') (i := i) (by omega)
      obtain ⟨k, -⟩ := key i _ _ hr hr'
      rw [hr', hr, Option.map_some, Option.some.injEq, k]
      split
      · rfl
      · exact low0 _
    · rw [List.getElem?_eq_none (by omega), List.getElem?_eq_none (by omega)]
      rfl
  · intro i r o hi hr ho
    obtain ⟨hlt, -⟩ := List.getElem?_eq_some_iff.1 hr
    obtain ⟨-, k⟩ := key i _ _ hr (List.getElem?_eq_getElem (l := raws') (i := i) (by omega))
    simpa [hi] using k o ho

/-- From where one segment is to where another is, or to the end. -/
def Position.within (r₁ : RawMapping) (r₂ : Option RawMapping) (p : Position) : Bool :=
  decide (r₁.line + 1 < p.line ∨ r₁.line + 1 = p.line ∧ r₁.column ≤ p.column) &&
    r₂.all fun r => decide (p.line < r.line + 1 ∨ p.line = r.line + 1 ∧ p.column < r.column)

/-- Within these the original line is moved. -/
def Mapping.lowered (r₁ : RawMapping) (r₂ : Option RawMapping) (l : Int) (x : Mapping) : Mapping :=
  if x.generated.within r₁ r₂ then { x with original := x.original.map fun o => ⟨o.line + l, o.column⟩ } else x

theorem InOrder.lt {raws : List RawMapping} (h : InOrder raws) {i j : Nat} {r s : RawMapping} (hr : raws[i]? = some r)
    (hs : raws[j]? = some s) (hij : i < j) : r.line < s.line ∨ r.line = s.line ∧ r.column < s.column := by
  obtain ⟨hi, rfl⟩ := List.getElem?_eq_some_iff.1 hr
  obtain ⟨hj, rfl⟩ := List.getElem?_eq_some_iff.1 hs
  exact List.pairwise_iff_getElem.1 h i j hi hj hij

theorem within_iff {raws : List RawMapping} (h : InOrder raws) {k₁ k₂ i : Nat} {r₁ r : RawMapping} (h₁ : raws[k₁]? = some r₁)
    (hr : raws[i]? = some r) : Position.within r₁ raws[k₂]? ⟨r.line + 1, r.column⟩ = true ↔ k₁ ≤ i ∧ i < k₂ := by
  unfold Position.within
  rw [Bool.and_eq_true, decide_eq_true_eq]
  refine and_congr ?_ ?_
  · rcases Nat.lt_trichotomy k₁ i with hlt | rfl | hlt
    · have := h.lt h₁ hr hlt
      simp only
      omega
    · rw [h₁] at hr
      cases hr
      exact ⟨fun _ => Nat.le_refl _, fun _ => .inr ⟨rfl, Int.le_refl _⟩⟩
    · have := h.lt hr h₁ hlt
      simp only
      omega
  · cases h₂ : raws[k₂]? with
    | none =>
      obtain ⟨hi, -⟩ := List.getElem?_eq_some_iff.1 hr
      have := List.getElem?_eq_none_iff.1 h₂
      simp only [Option.all_none, true_iff]
      omega
    | some r₂ =>
      rw [Option.all_some, decide_eq_true_eq]
      rcases Nat.lt_trichotomy k₂ i with hlt | rfl | hlt
      · have := h.lt h₂ hr hlt
        simp only
        omega
      · rw [h₂] at hr
        cases hr
        simp only
        omega
      · have := h.lt hr h₂ hlt
        simp only
        omega

theorem lowered_named {m m' : SourceMapJson} {ps : List (Text × List Int)} {k₁ k₂ : Nat} {l : Int} (hw : Written m ps)
    (hw' : Written m' (addLines k₂ (-l) (addLines k₁ l ps))) (hk : k₁ < k₂)
    (h₁ : ∀ p, ps[k₁]? = some p → p.2.length ≠ 1) (h₂ : ∀ p, ps[k₂]? = some p → p.2.length ≠ 1)
    {raws raws' : List RawMapping} (hseg : m.Segments raws) (hseg' : m'.Segments raws') (hord : InOrder raws) {r₁ : RawMapping}
    (hr₁ : raws[k₁]? = some r₁) (S N : List String) :
    raws'.map (named S N) = (raws.map (named S N)).map (Mapping.lowered r₁ raws[k₂]? l) := by
  obtain ⟨e1, e2⟩ := C140_segments hw hw' hk h₁ h₂ hseg hseg'
  rw [e1]
  refine List.ext_getElem? fun i => ?_
  rw [List.getElem?_map, List.getElem?_mapIdx, List.getElem?_map, List.getElem?_map]
  cases hr : raws[i]? with
  | none => rfl
  | some r =>
    simp only [Option.map_some, Option.some.injEq]
    have hwi : (named S N r).generated.within r₁ raws[k₂]? = true ↔ k₁ ≤ i ∧ i < k₂ := within_iff hord hr₁ hr
    unfold Mapping.lowered
    by_cases hi : k₁ ≤ i ∧ i < k₂
    · rw [if_pos hi, if_pos (hwi.2 hi)]
      have := e2 i r
      obtain ⟨x, y, o⟩ := r
      cases o with
      | none => rfl
      | some o =>
        have := this o hi hr rfl
        simp only [named, RawMapping.lower, Option.map_some, Option.bind_some, Mapping.mk.injEq, Option.some.injEq,
          Position.mk.injEq, and_true, true_and]
        omega
    · rw [if_neg hi, if_neg (fun h => hi (hwi.1 h))]

/-- What is visited in generated order is what was, the original lines from the one segment to the other moved. -/
theorem C140_visits (hL : E.maps.Laws) {m m' : SourceMapJson} {ps : List (Text × List Int)} {k₁ k₂ : Nat} {l : Int}
    (hw : Written m ps) (hw' : Written m' (addLines k₂ (-l) (addLines k₁ l ps))) (hk : k₁ < k₂)
    (h₁ : ∀ p, ps[k₁]? = some p → p.2.length ≠ 1) (h₂ : ∀ p, ps[k₂]? = some p → p.2.length ≠ 1)
    {raws raws' : List RawMapping} (hseg : m.Segments raws) (hseg' : m'.Segments raws') (hord : InOrder raws)
    {u u' : Option String} {c₀ c c' d₀ d d' : BasicConsumer E} (h : Built m u c₀) (hd : Built m' u' d₀)
    {ops ops' : List Op} (hrun : c₀.run ops = .ok c) (hrun' : d₀.run ops' = .ok d) {v v' : List LibMapping}
    (hv : c.eachMapping .generated = .ok (v, c')) (hv' : d.eachMapping .generated = .ok (v', d')) :
    v'.map LibMapping.raw =
      (v.map LibMapping.raw).mapIdx fun i r => if k₁ ≤ i ∧ i < k₂ then r.lower l else r := by
  have e := (C140_segments hw hw' hk h₁ h₂ hseg hseg').1
  have hord' : InOrder raws' := by
    rw [e]
    refine List.pairwise_iff_getElem.2 fun i j hi hj hij => ?_
    simp only [List.length_mapIdx] at hi hj
    have := List.pairwise_iff_getElem.1 hord i j hi hj hij
    have gen : ∀ (b : Prop) [Decidable b] (r : RawMapping), (if b then r.lower l else r).line = r.line ∧
        (if b then r.lower l else r).column = r.column := by
      intro b _ r
      split <;> exact ⟨rfl, rfl⟩
    simp only [List.getElem_mapIdx, gen]
    exact this
  rw [visits_in_order hL hseg h hrun hord hv, visits_in_order hL hseg' hd hrun' hord' hv']
  exact e

/-- The changed map answers as the other, except that original lines are moved if the mapping found is in the range. -/
theorem C140_original (hL : E.maps.Laws) (hT : E.maps.Total) {m m' : SourceMapJson} {ps : List (Text × List Int)}
    {k₁ k₂ : Nat} {l : Int}
    (hw : Written m ps) (hw' : Written m' (addLines k₂ (-l) (addLines k₁ l ps))) (hk : k₁ < k₂)
    (h₁ : ∀ p, ps[k₁]? = some p → p.2.length ≠ 1) (h₂ : ∀ p, ps[k₂]? = some p → p.2.length ≠ 1)
    {raws raws' : List RawMapping} (hseg : m.Segments raws) (hseg' : m'.Segments raws') (hord : InOrder raws) {r₁ : RawMapping}
    (hr₁ : raws[k₁]? = some r₁)
    {u u' : Option String} {c₀ c d₀ d : BasicConsumer E} (h : Built m u c₀) (hd : Built m' u' d₀)
    {N : List String} (hN : m.names = some N) (hN' : m'.names = some N)
    {ops ops' : List Op} (hrun : c₀.run ops = .ok c) (hrun' : d₀.run ops' = .ok d)
    (hsources : d.getSources = c.getSources) (hlen : c.getSources.length < 2147483648)
    (hfit : ∀ x ∈ raws, Fits c.getSources N 2147483648 x) (hfit' : ∀ x ∈ raws', Fits c.getSources N 2147483648 x)
    {p : Position} {b : Option Bias} (hp : 1 ≤ p.line ∧ 0 ≤ p.column)
    (hi : p.line ≤ 2147483647 ∧ p.column ≤ 2147483647) :
    (d.originalPositionFor p b).map (fun r => r.1.map stripMapping) =
      (c.originalPositionFor p b).map (fun r => r.1.map fun x => (stripMapping x).lowered r₁ raws[k₂]? l) := by
  refine moved_original (g := Mapping.lowered r₁ raws[k₂]? l) (φ := id) (k := 0) ?_ hL hT h hd hseg hseg' hN hN'
    (h.rel.run hL hrun) (hd.rel.run hL hrun') hlen (by rw [hsources]; exact hlen) hfit (by rw [hsources]; exact hfit')
    hord.once ⟨fun _ _ => Iff.rfl, fun _ => (Int.add_zero _).symm, fun _ hv => hv⟩ ?_ hp hi hi
  · intro x
    unfold Mapping.lowered
    split
    · exact ⟨rfl, by simp⟩
    · exact ⟨rfl, rfl⟩
  · rw [hsources, lowered_named hw hw' hk h₁ h₂ hseg hseg' hord hr₁]
    intro y hy _
    constructor
    · exact fun hm => ⟨y, hm, hy, rfl⟩
    · rintro ⟨x, hx, -, rfl⟩
      exact hx

/-- Reverse lookups in a source none of whose mappings is in the range find what they found. -/
theorem C140_other_sources (hL : E.maps.Laws) {m m' : SourceMapJson} {ps : List (Text × List Int)}
    {k₁ k₂ : Nat} {l : Int}
    (hw : Written m ps) (hw' : Written m' (addLines k₂ (-l) (addLines k₁ l ps))) (hk : k₁ < k₂)
    (h₁ : ∀ p, ps[k₁]? = some p → p.2.length ≠ 1) (h₂ : ∀ p, ps[k₂]? = some p → p.2.length ≠ 1)
    {raws raws' : List RawMapping} (hseg : m.Segments raws) (hseg' : m'.Segments raws') (hord : InOrder raws) {r₁ : RawMapping}
    (hr₁ : raws[k₁]? = some r₁)
    {u u' : Option String} {c₀ c d₀ d : BasicConsumer E} (h : Built m u c₀) (hd : Built m' u' d₀)
    {N : List String} {ops ops' : List Op} (hrun : c₀.run ops = .ok c) (hrun' : d₀.run ops' = .ok d)
    (hsources : d.getSources = c.getSources) (hlen : c.getSources.length < 2147483648)
    (hfit : ∀ x ∈ raws, Fits c.getSources N 2147483648 x) (hfit' : ∀ x ∈ raws', Fits c.getSources N 2147483648 x)
    (honce : OrigOnce (raws.map (named c.getSources N))) (hnd : c.getSources.Nodup)
    {s : String} {i i' : Nat} {src : String} (hs : c.Knows s i) (hs' : d.Knows s i') (hsrc : c.getSources[i]? = some src)
    (hsrc' : c.getSources[i']? = some src)
    (hother : ∀ (j : Nat) (r : RawMapping) (o : RawOriginal), k₁ ≤ j ∧ j < k₂ → raws[j]? = some r → r.original = some o →
      c.getSources[o.source]? ≠ some src)
    {ln col : Int} {b : Option Bias} (hp : IsI32 ln ∧ IsI32 col) {q q' : Option Mapping} {c' d' : BasicConsumer E}
    (hq : c.generatedPositionFor s ln col b = .ok (q, c')) (hq' : d.generatedPositionFor s ln col b = .ok (q', d')) :
    q'.map Mapping.unnamed = q.map Mapping.unnamed := by
  refine moved_generated (φ := id) hL h hd hseg hseg' hrun hrun' hlen (by rw [hsources]; exact hlen) hfit
    (by rw [hsources]; exact hfit') honce hnd (by rw [hsources]; exact hnd) hs hs' hsrc (by rw [hsources]; exact hsrc') ?_ hp
    hq hq'
  intro y hy
  rw [hsources, lowered_named hw hw' hk h₁ h₂ hseg hseg' hord hr₁]
  have same : ∀ r ∈ raws, (named c.getSources N r).source = some src →
      (named c.getSources N r).lowered r₁ raws[k₂]? l = named c.getSources N r := by
    intro r hr hsr
    obtain ⟨j, hj⟩ := List.mem_iff_getElem?.1 hr
    unfold Mapping.lowered
    refine if_neg fun hin => ?_
    have hjk := (within_iff hord hr₁ hj).1 hin
    obtain ⟨o, ho, hso⟩ := Option.bind_eq_some_iff.1 hsr
    exact hother j r o hjk hj ho hso
  have keep : ∀ x : Mapping, (x.lowered r₁ raws[k₂]? l).source = x.source := by
    intro x
    unfold Mapping.lowered
    split <;> rfl
  constructor
  · intro hm
    obtain ⟨x, hx, rfl⟩ := List.mem_map.1 hm
    obtain ⟨r, hr, rfl⟩ := List.mem_map.1 hx
    rw [keep] at hy
    exact ⟨_, hx, same r hr hy⟩
  · rintro ⟨x, hx, rfl⟩
    obtain ⟨r, hr, rfl⟩ := List.mem_map.1 hx
    exact List.mem_map.2 ⟨_, hx, same r hr hy⟩

/-- Source number `n` with `k` lines put before its line `from'`, lines counted from zero. -/
def linesInto (n from' k : Nat) (i : Nat) (p : Nat × Nat) : Nat × Nat :=
  if i = n ∧ from' ≤ p.1 then (p.1 + k, p.2) else p

theorem linesInto_order (n from' k i : Nat) : KeepsOrder (linesInto n from' k i) := by
  intro x y h
  unfold linesInto PLt at *
  split <;> split <;> (try simp only) <;> omega

/-- If the segments from the one to the other are just those in a source from some line on, this is the source with lines put
before that line, as in C111. -/
theorem C140_edit {m m' : SourceMapJson} {ps : List (Text × List Int)} {k₁ k₂ k : Nat} (hw : Written m ps)
    (hw' : Written m' (addLines k₂ (-k) (addLines k₁ k ps))) (hk : k₁ < k₂)
    (h₁ : ∀ p, ps[k₁]? = some p → p.2.length ≠ 1) (h₂ : ∀ p, ps[k₂]? = some p → p.2.length ≠ 1)
    {raws raws' : List RawMapping} (hseg : m.Segments raws) (hseg' : m'.Segments raws')
    (hsources : m'.sources = m.sources) (hnames : m'.names = m.names) (hroot : m'.sourceRoot = m.sourceRoot)
    {n from' : Nat} (hjust : ∀ (i : Nat) (r : RawMapping) (o : RawOriginal), raws[i]? = some r → r.original = some o →
      (k₁ ≤ i ∧ i < k₂ ↔ o.source = n ∧ from' ≤ o.line))
    (hroom : ∀ r ∈ raws, ∀ o, r.original = some o → o.line + k + 1 < 2147483648 ∧ o.column < 2147483648) :
    EditOf (linesInto n from' k) m m' raws := by
  refine ⟨hsources, hnames, hroot, hseg, ?_, fun r hr o ho => ?_⟩
  · have e := (C140_segments hw hw' hk h₁ h₂ hseg hseg').1
    have : raws' = raws.map (RawMapping.edit (linesInto n from' k)) := by
      rw [e]
      refine List.ext_getElem? fun i => ?_
      rw [List.getElem?_mapIdx, List.getElem?_map]
      cases hr : raws[i]? with
      | none => rfl
      | some r =>
        simp only [Option.map_some, Option.some.injEq]
        have hj := hjust i r
        obtain ⟨x, y, o⟩ := r
        cases o with
        | none => split <;> rfl
        | some o =>
          have hj := hj o hr rfl
          by_cases hi : k₁ ≤ i ∧ i < k₂
          · rw [if_pos hi]
            simp only [RawMapping.lower, RawMapping.edit, Option.map_some, linesInto, if_pos (hj.1 hi), RawMapping.mk.injEq,
              Option.some.injEq, RawOriginal.mk.injEq, and_true, true_and]
            omega
          · rw [if_neg hi]
            simp only [RawMapping.edit, Option.map_some, linesInto, if_neg (fun h => hi (hj.2 h))]
    rw [← this]
    exact hseg'
  · obtain ⟨a, b⟩ := hroom r hr o ho
    refine ⟨by omega, b, ?_⟩
    unfold linesInto
    split
    · exact ⟨a, b⟩
    · exact ⟨show o.line + 1 < 2147483648 by omega, b⟩

/-- So reverse lookups find what they found, asked where the text now is. -/
theorem C140_generated (hL : E.maps.Laws) (hT : E.maps.Total) {m m' : SourceMapJson} {ps : List (Text × List Int)}
    {k₁ k₂ k : Nat} (hw : Written m ps) (hw' : Written m' (addLines k₂ (-k) (addLines k₁ k ps))) (hk : k₁ < k₂)
    (h₁ : ∀ p, ps[k₁]? = some p → p.2.length ≠ 1) (h₂ : ∀ p, ps[k₂]? = some p → p.2.length ≠ 1)
    {raws raws' : List RawMapping} (hseg : m.Segments raws) (hseg' : m'.Segments raws')
    (hsources : m'.sources = m.sources) (hnames : m'.names = m.names) (hroot : m'.sourceRoot = m.sourceRoot)
    {n from' : Nat} (hjust : ∀ (i : Nat) (r : RawMapping) (o : RawOriginal), raws[i]? = some r → r.original = some o →
      (k₁ ≤ i ∧ i < k₂ ↔ o.source = n ∧ from' ≤ o.line))
    (hroom : ∀ r ∈ raws, ∀ o, r.original = some o → o.line + k + 1 < 2147483648 ∧ o.column < 2147483648)
    {u : Option String} {c₀ c d₀ d : BasicConsumer E} (h : Built m u c₀) (hd : Built m' u d₀) {ops ops' : List Op}
    (hrun : c₀.run ops = .ok c) (hrun' : d₀.run ops' = .ok d) (hdist : OrigDistinct raws)
    (hlen : c.getSources.length < 2147483648) {s : String} (hs : c.Knows s n) (hs' : d.Knows s n)
    {l col : Nat} (hp : 1 ≤ l ∧ l + k < 2147483648 ∧ col < 2147483648) {b : Option Bias} :
    (d.generatedPositionFor s (if from' < l then l + k else l : Nat) col b).map (fun r => r.1.map stripMapping) =
      (c.generatedPositionFor s l col b).map
        (fun r => r.1.map fun x => (stripMapping x).editFrom 0 fun _ => linesInto n from' k n) := by
  have hsp := C140_edit hw hw' hk h₁ h₂ hseg hseg' hsources hnames hroot hjust hroom
  have e : linesInto n from' k n (((l : Int) - 1).toNat, (col : Int).toNat) =
      ((if from' < l then l + k else l) - 1, col) := by
    unfold linesInto
    simp only [true_and]
    by_cases hf : from' < l
    · rw [if_pos (by omega), if_pos hf, Prod.mk.injEq]
      omega
    · rw [if_neg (by omega), if_neg hf, Prod.mk.injEq]
      omega
  have hlt : (if from' < l then l + k else l) < 2147483648 ∧ 1 ≤ (if from' < l then l + k else l) := by split <;> omega
  have key := C111_generated hL hT (linesInto_order n from' k) hsp h hd hrun hrun' hdist hlen hs hs'
    (l := l) (col := col) (by unfold IsI32; omega) (by omega) (by rw [e]; simp only; omega) (b := b)
  rw [e] at key
  simp only at key
  rw [Nat.sub_add_cancel hlt.2] at key
  exact key

/-- The demo map after three lines were put at the top of its second source: the third number of the eighth segment is 2
instead of -1. -/
def demoLowered : SourceMapJson :=
  { demoMap with
    mappings := some "CAAC,IAAI,IAAM,SAAUA,GAClB,OAAOC,IAAID;CCEb,IAAI,IAAM,SAAUE,GAClB,OAAOA" }

def demoLoweredRaws : List RawMapping := demoRaws.mapIdx fun i r => if 7 ≤ i ∧ i < 13 then r.lower 3 else r

/-- The demo map after two lines were put before the second of its first source: the third number of the fifth segment is 3
instead of 1, that of the eighth -3 instead of -1. -/
def demoPadded : SourceMapJson :=
  { demoMap with
    mappings := some "CAAC,IAAI,IAAM,SAAUA,GAGlB,OAAOC,IAAID;CCHb,IAAI,IAAM,SAAUE,GAClB,OAAOA" }

def demoPaddedRaws : List RawMapping := demoRaws.mapIdx fun i r => if 4 ≤ i ∧ i < 7 then r.lower 2 else r

/-- The hypotheses hold of them. -/
theorem lowered_fits : Written demoMap demoSegs ∧ Written demoLowered (addLines 13 (-3) (addLines 7 3 demoSegs)) ∧
    Written demoPadded (addLines 7 (-2) (addLines 4 2 demoSegs)) ∧ (∀ p ∈ demoSegs, p.2.length ≠ 1) ∧
    demoMap.Segments demoRaws ∧ demoLowered.Segments demoLoweredRaws ∧ demoPadded.Segments demoPaddedRaws ∧
    InOrder demoRaws ∧ demoRaws[7]? = some ⟨1, 1, some ⟨1, 0, 1, none⟩⟩ ∧ demoRaws[13]? = none ∧
    ∃ c d e : BasicConsumer demoEnv,
    Built demoMap none c ∧ Built demoLowered none d ∧ Built demoPadded none e ∧ d.getSources = c.getSources ∧
    e.getSources = c.getSources ∧ c.getSources = ["one.js", "two.js"] ∧
    (∀ x ∈ demoRaws, Fits c.getSources ["bar", "baz", "n"] 2147483648 x) ∧
    (∀ x ∈ demoLoweredRaws, Fits c.getSources ["bar", "baz", "n"] 2147483648 x) ∧
    (∀ x ∈ demoPaddedRaws, Fits c.getSources ["bar", "baz", "n"] 2147483648 x) ∧
    OrigOnce (demoRaws.map (named c.getSources ["bar", "baz", "n"])) := by
  obtain ⟨c, hc, h⟩ := Res.of_test (r := demoConsumer demoMap)
    (fun c => decide (c.getSources = ["one.js", "two.js"])) (by decide +kernel)
  obtain ⟨d, hd, h'⟩ := Res.of_test (r := demoConsumer demoLowered)
    (fun c => decide (c.getSources = ["one.js", "two.js"])) (by decide +kernel)
  obtain ⟨e, he, h''⟩ := Res.of_test (r := demoConsumer demoPadded)
    (fun c => decide (c.getSources = ["one.js", "two.js"])) (by decide +kernel)
  simp only [decide_eq_true_eq] at h h' h''
  refine ⟨C139_case.1, ⟨⟨by decide, by decide, by decide⟩, _, 0, rfl, by decide +kernel⟩,
    ⟨⟨by decide, by decide, by decide⟩, _, 0, rfl, by decide +kernel⟩, by decide, C139_case.2.1,
    ⟨_, rfl, by decide +kernel, by simp [demoLoweredRaws, demoRaws, RawMapping.U32, RawMapping.lower]⟩,
    ⟨_, rfl, by decide +kernel, by simp [demoPaddedRaws, demoRaws, RawMapping.U32, RawMapping.lower]⟩,
    by unfold InOrder; decide +kernel, rfl, rfl, c, d, e, .inr hc, .inr hd, .inr he, by rw [h, h'], by rw [h, h''], h,
    ?_, ?_, ?_, ?_⟩
  · rw [h]; simp [demoRaws, Fits]
  · rw [h]; simp [demoLoweredRaws, demoRaws, Fits, RawMapping.lower]
  · rw [h]; simp [demoPaddedRaws, demoRaws, Fits, RawMapping.lower]
  · rw [h]; unfold OrigOnce; decide +kernel

/-- What was found on line 1 of the second source is found on line 4, and in the other source nothing changes. With lines put
into the middle of the first source the lookups in the second are what they were. -/
theorem C140_case : demoAsk demoMap (fun c => c.originalPositionFor ⟨1, 33⟩ (some .lub)) =
      .ok (some ⟨⟨2, 1⟩, some ⟨1, 1⟩, some "two.js", none, none⟩) ∧
    demoAsk demoLowered (fun c => c.originalPositionFor ⟨1, 33⟩ (some .lub)) =
      .ok (some ⟨⟨2, 1⟩, some ⟨4, 1⟩, some "two.js", none, none⟩) ∧
    demoAsk demoPadded (fun c => c.originalPositionFor ⟨1, 33⟩ (some .lub)) =
      .ok (some ⟨⟨2, 1⟩, some ⟨1, 1⟩, some "two.js", none, none⟩) ∧
    Mapping.lowered ⟨1, 1, none⟩ none 3 ⟨⟨2, 1⟩, some ⟨1, 1⟩, some "two.js", none, none⟩ =
      ⟨⟨2, 1⟩, some ⟨4, 1⟩, some "two.js", none, none⟩ ∧
    demoAsk demoMap (fun c => c.generatedPositionFor "one.js" 2 3 (some .lub)) =
      .ok (some ⟨⟨1, 21⟩, some ⟨1, 3⟩, some "one.js", some "bar", none⟩) ∧
    demoAsk demoLowered (fun c => c.generatedPositionFor "one.js" 2 3 (some .lub)) =
      .ok (some ⟨⟨1, 21⟩, some ⟨1, 3⟩, some "one.js", some "bar", none⟩) ∧
    demoPaddedRaws[3]? = some ⟨0, 18, some ⟨0, 0, 21, some 0⟩⟩ ∧ demoPaddedRaws[4]? = some ⟨0, 21, some ⟨0, 3, 3, none⟩⟩ ∧
    demoPaddedRaws[7]? = some ⟨1, 1, some ⟨1, 0, 1, none⟩⟩ := by
  refine ⟨?_, ?_, ?_, ?_, ?_, ?_, ?_, ?_, ?_⟩ <;> decide +kernel

/-- The segments from the fifth to before the eighth are just those from line 1 on in source 0, and those from the eighth on
are just those in source 1: what `C140_edit` and `C140_generated` ask for. What was on line 2 is found on line 4, and what was
on line 1 on line 1. -/
theorem edit_fits : (∀ (i : Nat) (r : RawMapping) (o : RawOriginal), demoRaws[i]? = some r → r.original = some o →
      (4 ≤ i ∧ i < 7 ↔ o.source = 0 ∧ 1 ≤ o.line)) ∧
    (∀ (i : Nat) (r : RawMapping) (o : RawOriginal), demoRaws[i]? = some r → r.original = some o →
      (7 ≤ i ∧ i < 13 ↔ o.source = 1 ∧ 0 ≤ o.line)) ∧
    (∀ r ∈ demoRaws, ∀ o, r.original = some o → o.line + 3 + 1 < 2147483648 ∧ o.column < 2147483648) ∧
    OrigDistinct demoRaws ∧
    demoAsk demoMap (fun c => c.generatedPositionFor "one.js" 2 3 (some .lub)) =
      .ok (some ⟨⟨1, 21⟩, some ⟨1, 3⟩, some "one.js", some "bar", none⟩) ∧
    demoAsk demoPadded (fun c => c.generatedPositionFor "one.js" 4 3 (some .lub)) =
      .ok (some ⟨⟨1, 21⟩, some ⟨3, 3⟩, some "one.js", some "bar", none⟩) ∧
    demoAsk demoPadded (fun c => c.generatedPositionFor "one.js" 1 5 (some .lub)) =
      demoAsk demoMap (fun c => c.generatedPositionFor "one.js" 1 5 (some .lub)) := by
  have all : ∀ P : Nat → RawMapping → Prop, (∀ i r, demoRaws[i]? = some r → P i r) ↔
      ∀ x ∈ demoRaws.mapIdx Prod.mk, P x.1 x.2 := by
    intro P
    constructor
    · intro h x hx
      obtain ⟨i, hi⟩ := List.mem_iff_getElem?.1 hx
      rw [List.getElem?_mapIdx, Option.map_eq_some_iff] at hi
      obtain ⟨r, hr, rfl⟩ := hi
      exact h i r hr
    · intro h i r hr
      exact h (i, r) (List.mem_iff_getElem?.2 ⟨i, by rw [List.getElem?_mapIdx, hr]; rfl⟩)
  refine ⟨fun i r o hr ho => (all fun i r => ∀ o ∈ r.original, (4 ≤ i ∧ i < 7 ↔ o.source = 0 ∧ 1 ≤ o.line)).2 ?_ i r hr o ho,
    fun i r o hr ho => (all fun i r => ∀ o ∈ r.original, (7 ≤ i ∧ i < 13 ↔ o.source = 1 ∧ 0 ≤ o.line)).2 ?_ i r hr o ho,
    by simp [demoRaws], by unfold OrigDistinct; simp [demoRaws, RawMapping.fromSource, RawMapping.origPos],
    by decide +kernel, by decide +kernel, by decide +kernel⟩
  · simp [demoRaws]
  · simp [demoRaws]

end RSM
