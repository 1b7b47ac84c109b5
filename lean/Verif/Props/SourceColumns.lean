import Verif.Props.SourceLines
/-! # Property C142: text inserted into a line of a source or taken out of it -/

namespace RSM
open Spec BasicConsumer

variable {E : Env}

/-- The fourth number of segment `k` increased by `l`. -/
def addColumns (k : Nat) (l : Int) (ps : List (Text × List Int)) : List (Text × List Int) :=
  ps.modify k fun p => (p.1, p.2.modify 3 (· + l))

/-- All of a segment but the fourth number. -/
def lineShape (p : Text × List Int) : Text × Nat × Int × Int × Int × Int :=
  (p.1, p.2.length, p.2.getD 0 0, p.2.getD 1 0, p.2.getD 2 0, p.2.getD 4 0)

theorem lineShape_modify (p : Text × List Int) (l : Int) : lineShape (p.1, p.2.modify 3 (· + l)) = lineShape p := by
  simp [lineShape, List.getD_eq_getElem?_getD]

theorem lineShape_addColumns (l : Int) : ∀ (k : Nat) (ps : List (Text × List Int)),
    (addColumns k l ps).map lineShape = ps.map lineShape
  | _, [] => by simp [addColumns]
  | 0, p :: ps => by
    unfold addColumns
    rw [List.modify_zero_cons, List.map_cons, List.map_cons, lineShape_modify]
  | k + 1, p :: ps => by
    have := lineShape_addColumns l k ps
    unfold addColumns at this ⊢
    rw [List.modify_succ_cons, List.map_cons, List.map_cons, this]

section
variable {ps ps' : List (Text × List Int)}

theorem lineShape_sum {j : Nat} (hj : j = 0 ∨ j = 1 ∨ j = 2 ∨ j = 4) (h : ps'.map lineShape = ps.map lineShape) :
    sumOf j ps' = sumOf j ps := by
  have key : ∀ f : Text × Nat × Int × Int × Int × Int → Int, (ps'.map (f ∘ lineShape)).sum = (ps.map (f ∘ lineShape)).sum := by
    intro f
    rw [← List.map_map, ← List.map_map, h]
  rcases hj with rfl | rfl | rfl | rfl
  · exact key (·.2.2.1)
  · exact key (·.2.2.2.1)
  · exact key (·.2.2.2.2.1)
  · exact key (·.2.2.2.2.2)

theorem lineShape_semicolons (h : ps'.map lineShape = ps.map lineShape) : semicolons ps' = semicolons ps := by
  have : (ps'.map ((fun x : Text × Nat × Int × Int × Int × Int => x.1.count ';') ∘ lineShape)).sum =
      (ps.map ((fun x : Text × Nat × Int × Int × Int × Int => x.1.count ';') ∘ lineShape)).sum := by
    rw [← List.map_map, ← List.map_map, h]
  exact this

end

theorem lineShape_lastLine : ∀ {ps ps' : List (Text × List Int)}, ps'.map lineShape = ps.map lineShape →
    (lastLine ps').map lineShape = (lastLine ps).map lineShape
  | [], [], _ => rfl
  | [], _ :: _, h => by simp at h
  | _ :: _, [], h => by simp at h
  | p :: ps, p' :: ps', h => by
    have h0 := h
    rw [List.map_cons, List.map_cons, List.cons.injEq] at h
    have ih := lineShape_lastLine h.2
    have hs := lineShape_semicolons h.2
    unfold lastLine
    rw [hs]
    split
    · exact h0
    · exact ih

theorem sum_addColumns (l : Int) : ∀ {k i : Nat} {ps : List (Text × List Int)} {p : Text × List Int}, k ≤ i →
    ps[k]? = some p → 3 < p.2.length → sumOf 3 ((addColumns k l ps).take (i + 1)) = sumOf 3 (ps.take (i + 1)) + l
  | _, _, [], _, _, h, _ => by simp at h
  | 0, i, (sep, ns) :: ps, p, _, h, hp => by
    simp only [List.getElem?_cons_zero, Option.some.injEq] at h
    subst h
    unfold addColumns
    rw [List.modify_zero_cons, List.take_succ_cons, List.take_succ_cons, sumOf_cons, sumOf_cons]
    simp only at hp ⊢
    simp [List.getD_eq_getElem?_getD, List.getElem?_eq_getElem hp]
    omega
  | k + 1, 0, _ :: _, _, hk, _, _ => by omega
  | k + 1, i + 1, (sep, ns) :: ps, p, hk, h, hp => by
    rw [List.getElem?_cons_succ] at h
    have := sum_addColumns l (i := i) (by omega) h hp
    unfold addColumns at this ⊢
    rw [List.modify_succ_cons, List.take_succ_cons, List.take_succ_cons, sumOf_cons, sumOf_cons, this]
    omega

theorem sum_addColumns_before (l : Int) {k i : Nat} {ps : List (Text × List Int)} (h : i < k) :
    (addColumns k l ps).take (i + 1) = ps.take (i + 1) := by
  refine List.ext_getElem? fun j => ?_
  simp only [List.getElem?_take, addColumns, List.getElem?_modify]
  split
  · have hne : k ≠ j := by omega
    cases ps[j]? with
    | none => rfl
    | some p => exact congrArg some (if_neg hne)
  · rfl

/-- The original column moved. -/
def Spec.RawMapping.along (l : Int) (r : RawMapping) : RawMapping :=
  { r with original := r.original.map fun o => { o with column := (o.column + l).toNat } }

theorem says_right {q q' : List (Text × List Int)} {n : Nat} {r r' : RawMapping} {l : Int} (hs : q'.map lineShape = q.map lineShape)
    (hsum : sumOf 3 q' = sumOf 3 q + l) (h : Says q n r) (h' : Says q' n r') :
    r' = r.along l ∧ ∀ o, r.original = some o → 0 ≤ o.column + l := by
  obtain ⟨a1, a2, a3, a4, a5, a6, a7, a8⟩ := h
  obtain ⟨b1, b2, b3, b4, b5, b6, b7, b8⟩ := h'
  have e1 : r'.line = r.line := by rw [a1, b1, lineShape_semicolons hs]
  have e2 : r'.column = r.column := by
    have := lineShape_sum (j := 0) (by omega) (lineShape_lastLine hs)
    rw [← a2, ← b2] at this
    exact_mod_cast this
  obtain ⟨x, y, o⟩ := r
  obtain ⟨x', y', o'⟩ := r'
  simp only at e1 e2 a3 a4 a5 a6 a7 a8 b3 b4 b5 b6 b7 b8
  subst e1
  subst e2
  unfold RawMapping.along
  simp only [RawMapping.mk.injEq, true_and]
  cases o with
  | none => exact ⟨by rw [b3.2 (a3.1 rfl)]; rfl, by simp⟩
  | some o =>
    cases o' with
    | none => exact absurd (a3.2 (b3.1 rfl)) (by simp)
    | some o' =>
      specialize a4 _ rfl
      specialize a5 _ rfl
      specialize a6 _ rfl
      specialize a7 _ rfl
      specialize a8 _ rfl
      specialize b4 _ rfl
      specialize b5 _ rfl
      specialize b6 _ rfl
      specialize b7 _ rfl
      specialize b8 _ rfl
      rw [lineShape_sum (by omega) hs] at b4 b5
      rw [hsum] at b6
      obtain ⟨s, m, c, nm⟩ := o
      obtain ⟨s', m', c', nm'⟩ := o'
      simp only at a4 a5 a6 a7 a8 b4 b5 b6 b7 b8
      simp only [Option.map_some, Option.some.injEq, RawOriginal.mk.injEq]
      refine ⟨⟨by omega, by omega, by omega, ?_⟩, by rintro _ rfl; simp only; omega⟩
      cases nm with
      | none => exact b7.2 (a7.1 rfl)
      | some i =>
        cases nm' with
        | none => exact absurd (a7.2 (b7.1 rfl)) (by simp)
        | some i' =>
          have e := a8 i rfl
          have e' := b8 i' rfl
          rw [lineShape_sum (by omega) hs] at e'
          rw [Option.some.injEq]
          omega

/-- The fourth number of segment `k₁` increased and that of segment `k₂`, if there is one, decreased as much: that is what
happens to the original columns from the one to the other. -/
theorem C142_segments {m m' : SourceMapJson} {ps : List (Text × List Int)} {k₁ k₂ : Nat} {l : Int} (hw : Written m ps)
    (hw' : Written m' (addColumns k₂ (-l) (addColumns k₁ l ps))) (hk : k₁ < k₂)
    (h₁ : ∀ p, ps[k₁]? = some p → p.2.length ≠ 1) (h₂ : ∀ p, ps[k₂]? = some p → p.2.length ≠ 1)
    {raws raws' : List RawMapping} (hseg : m.Segments raws) (hseg' : m'.Segments raws') :
    raws' = (raws.mapIdx fun i r => if k₁ ≤ i ∧ i < k₂ then r.along l else r) ∧
      ∀ (i : Nat) (r : RawMapping) (o : RawOriginal), k₁ ≤ i ∧ i < k₂ → raws[i]? = some r → r.original = some o →
        0 ≤ o.column + l := by
  obtain ⟨n1, n2⟩ := hw.says hseg
  obtain ⟨n1', n2'⟩ := hw'.says hseg'
  have hsh : (addColumns k₂ (-l) (addColumns k₁ l ps)).map lineShape = ps.map lineShape := by
    rw [lineShape_addColumns, lineShape_addColumns]
  have hlen : (addColumns k₂ (-l) (addColumns k₁ l ps)).length = ps.length := by simp [addColumns]
  have hnum := hw.1.numbers
  have low0 : ∀ r : RawMapping, r.along 0 = r := fun r => by
    obtain ⟨_, _, o⟩ := r
    cases o <;> simp [RawMapping.along]
  have key : ∀ (i : Nat) (r r' : RawMapping), raws[i]? = some r → raws'[i]? = some r' →
      r' = r.along (if k₁ ≤ i ∧ i < k₂ then l else 0) ∧
        ∀ o, r.original = some o → 0 ≤ o.column + (if k₁ ≤ i ∧ i < k₂ then l else 0) := by
    intro i r r' hr hr'
    have hi : i < ps.length := by
      obtain ⟨h, -⟩ := List.getElem?_eq_some_iff.1 hr
      omega
    have hp := List.getElem?_eq_getElem hi
    have hp' := List.getElem?_eq_getElem (l := addColumns k₂ (-l) (addColumns k₁ l ps)) (i := i) (by omega)
    have s := n2 i _ _ hr hp
    have s' := n2' i _ _ hr' hp'
    have hpl : ((addColumns k₂ (-l) (addColumns k₁ l ps))[i]'(by omega)).2.length = ps[i].2.length := by
      have := congrArg (fun x => x[i]?.map (·.2.1)) hsh
      simpa [hp, hp', lineShape] using this
    rw [hpl] at s'
    have ht : ((addColumns k₂ (-l) (addColumns k₁ l ps)).take (i + 1)).map lineShape = (ps.take (i + 1)).map lineShape := by
      rw [List.map_take, List.map_take, hsh]
    have big : ∀ {k : Nat}, (∀ p, ps[k]? = some p → p.2.length ≠ 1) → k ≤ i → ∃ p, ps[k]? = some p ∧ 3 < p.2.length := by
      intro k h hki
      have e := List.getElem?_eq_getElem (l := ps) (i := k) (by omega)
      have := h _ e
      have := hnum _ (List.mem_of_getElem? e)
      exact ⟨_, e, by omega⟩
    refine says_right ht ?_ s s'
    by_cases c1 : k₁ ≤ i
    · obtain ⟨p1, e1, g1⟩ := big h₁ c1
      by_cases c2 : i < k₂
      · rw [if_pos ⟨c1, c2⟩, sum_addColumns_before _ c2, sum_addColumns l c1 e1 g1]
      · rw [if_neg (by omega)]
        obtain ⟨p2, e2, g2⟩ := big h₂ (by omega)
        have e2' : (addColumns k₁ l ps)[k₂]? = some p2 := by
          simp only [addColumns, List.getElem?_modify, e2, if_neg (show k₁ ≠ k₂ by omega)]
          rfl
        rw [sum_addColumns (-l) (by omega) e2' g2, sum_addColumns l c1 e1 g1]
        omega
    · rw [if_neg (by omega), sum_addColumns_before _ (by omega), sum_addColumns_before _ (by omega), Int.add_zero]
  constructor
  · refine List.ext_getElem? fun i => ?_
    rw [List.getElem?_mapIdx]
    by_cases hi : i < ps.length
    · have hr := List.getElem?_eq_getElem (l := raws) (i := i) (by omega)
      have hr' := List.getElem?_eq_getElem (l := raws') (i := i) (by omega)
      obtain ⟨k, -⟩ := key i _ _ hr hr'
      rw [hr', hr, Option.map_some, Option.some.injEq, k]
      split
      · rfl
      · exact low0 _
    · rw [List.getElem?_eq_none (by omega), List.getElem?_eq_none (by omega)]
      rfl
  · intro i r o hi hr ho
    obtain ⟨hlt, -⟩ := List.getElem?_eq_some_iff.1 hr
    obtain ⟨-, k⟩ := key i _ _ hr (List.getElem?_eq_getElem (l := raws') (i := i) (by omega))
    simpa [hi] using k o ho

/-- Within these the original column is moved. -/
def Mapping.rightward (r₁ : RawMapping) (r₂ : Option RawMapping) (l : Int) (x : Mapping) : Mapping :=
  if x.generated.within r₁ r₂ then { x with original := x.original.map fun o => ⟨o.line, o.column + l⟩ } else x

theorem rightward_named {m m' : SourceMapJson} {ps : List (Text × List Int)} {k₁ k₂ : Nat} {l : Int} (hw : Written m ps)
    (hw' : Written m' (addColumns k₂ (-l) (addColumns k₁ l ps))) (hk : k₁ < k₂)
    (h₁ : ∀ p, ps[k₁]? = some p → p.2.length ≠ 1) (h₂ : ∀ p, ps[k₂]? = some p → p.2.length ≠ 1)
    {raws raws' : List RawMapping} (hseg : m.Segments raws) (hseg' : m'.Segments raws') (hord : InOrder raws) {r₁ : RawMapping}
    (hr₁ : raws[k₁]? = some r₁) (S N : List String) :
    raws'.map (named S N) = (raws.map (named S N)).map (Mapping.rightward r₁ raws[k₂]? l) := by
  obtain ⟨e1, e2⟩ := C142_segments hw hw' hk h₁ h₂ hseg hseg'
  rw [e1]
  refine List.ext_getElem? fun i => ?_
  rw [List.getElem?_map, List.getElem?_mapIdx, List.getElem?_map, List.getElem?_map]
  cases hr : raws[i]? with
  | none => rfl
  | some r =>
    simp only [Option.map_some, Option.some.injEq]
    have hwi : (named S N r).generated.within r₁ raws[k₂]? = true ↔ k₁ ≤ i ∧ i < k₂ := within_iff hord hr₁ hr
    unfold Mapping.rightward
    by_cases hi : k₁ ≤ i ∧ i < k₂
    · rw [if_pos hi, if_pos (hwi.2 hi)]
      have := e2 i r
      obtain ⟨x, y, o⟩ := r
      cases o with
      | none => rfl
      | some o =>
        have := this o hi hr rfl
        simp only [named, RawMapping.along, Option.map_some, Option.bind_some, Mapping.mk.injEq, Option.some.injEq,
          Position.mk.injEq, and_true, true_and]
        omega
    · rw [if_neg hi, if_neg (fun h => hi (hwi.1 h))]

/-- What is visited in generated order is what was, the original columns from the one segment to the other moved. -/
theorem C142_visits (hL : E.maps.Laws) {m m' : SourceMapJson} {ps : List (Text × List Int)} {k₁ k₂ : Nat} {l : Int}
    (hw : Written m ps) (hw' : Written m' (addColumns k₂ (-l) (addColumns k₁ l ps))) (hk : k₁ < k₂)
    (h₁ : ∀ p, ps[k₁]? = some p → p.2.length ≠ 1) (h₂ : ∀ p, ps[k₂]? = some p → p.2.length ≠ 1)
    {raws raws' : List RawMapping} (hseg : m.Segments raws) (hseg' : m'.Segments raws') (hord : InOrder raws)
    {u u' : Option String} {c₀ c c' d₀ d d' : BasicConsumer E} (h : Built m u c₀) (hd : Built m' u' d₀)
    {ops ops' : List Op} (hrun : c₀.run ops = .ok c) (hrun' : d₀.run ops' = .ok d) {v v' : List LibMapping}
    (hv : c.eachMapping .generated = .ok (v, c')) (hv' : d.eachMapping .generated = .ok (v', d')) :
    v'.map LibMapping.raw =
      (v.map LibMapping.raw).mapIdx fun i r => if k₁ ≤ i ∧ i < k₂ then r.along l else r := by
  have e := (C142_segments hw hw' hk h₁ h₂ hseg hseg').1
  have hord' : InOrder raws' := by
    rw [e]
    refine List.pairwise_iff_getElem.2 fun i j hi hj hij => ?_
    simp only [List.length_mapIdx] at hi hj
    have := List.pairwise_iff_getElem.1 hord i j hi hj hij
    have gen : ∀ (b : Prop) [Decidable b] (r : RawMapping), (if b then r.along l else r).line = r.line ∧
        (if b then r.along l else r).column = r.column := by
      intro b _ r
      split <;> exact ⟨rfl, rfl⟩
    simp only [List.getElem_mapIdx, gen]
    exact this
  rw [visits_in_order hL hseg h hrun hord hv, visits_in_order hL hseg' hd hrun' hord' hv']
  exact e

/-- The changed map answers as the other, except that original columns are moved if the mapping found is in the range. -/
theorem C142_original (hL : E.maps.Laws) (hT : E.maps.Total) {m m' : SourceMapJson} {ps : List (Text × List Int)}
    {k₁ k₂ : Nat} {l : Int}
    (hw : Written m ps) (hw' : Written m' (addColumns k₂ (-l) (addColumns k₁ l ps))) (hk : k₁ < k₂)
    (h₁ : ∀ p, ps[k₁]? = some p → p.2.length ≠ 1) (h₂ : ∀ p, ps[k₂]? = some p → p.2.length ≠ 1)
    {raws raws' : List RawMapping} (hseg : m.Segments raws) (hseg' : m'.Segments raws') (hord : InOrder raws) {r₁ : RawMapping}
    (hr₁ : raws[k₁]? = some r₁)
    {u u' : Option String} {c₀ c d₀ d : BasicConsumer E} (h : Built m u c₀) (hd : Built m' u' d₀)
    {N : List String} (hN : m.names = some N) (hN' : m'.names = some N)
    {ops ops' : List Op} (hrun : c₀.run ops = .ok c) (hrun' : d₀.run ops' = .ok d)
    (hsources : d.getSources = c.getSources) (hlen : c.getSources.length < 2147483648)
    (hfit : ∀ x ∈ raws, Fits c.getSources N 2147483648 x) (hfit' : ∀ x ∈ raws', Fits c.getSources N 2147483648 x)
    {p : Position} {b : Option Bias} (hp : 1 ≤ p.line ∧ 0 ≤ p.column)
    (hi : p.line ≤ 2147483647 ∧ p.column ≤ 2147483647) :
    (d.originalPositionFor p b).map (fun r => r.1.map stripMapping) =
      (c.originalPositionFor p b).map (fun r => r.1.map fun x => (stripMapping x).rightward r₁ raws[k₂]? l) := by
  refine moved_original (g := Mapping.rightward r₁ raws[k₂]? l) (φ := id) (k := 0) ?_ hL hT h hd hseg hseg' hN hN'
    (h.rel.run hL hrun) (hd.rel.run hL hrun') hlen (by rw [hsources]; exact hlen) hfit (by rw [hsources]; exact hfit')
    hord.once ⟨fun _ _ => Iff.rfl, fun _ => (Int.add_zero _).symm, fun _ hv => hv⟩ ?_ hp hi hi
  · intro x
    unfold Mapping.rightward
    split
    · exact ⟨rfl, by simp⟩
    · exact ⟨rfl, rfl⟩
  · rw [hsources, rightward_named hw hw' hk h₁ h₂ hseg hseg' hord hr₁]
    intro y hy _
    constructor
    · exact fun hm => ⟨y, hm, hy, rfl⟩
    · rintro ⟨x, hx, -, rfl⟩
      exact hx

/-- Reverse lookups in a source none of whose mappings is in the range find what they found. -/
theorem C142_other_sources (hL : E.maps.Laws) {m m' : SourceMapJson} {ps : List (Text × List Int)}
    {k₁ k₂ : Nat} {l : Int}
    (hw : Written m ps) (hw' : Written m' (addColumns k₂ (-l) (addColumns k₁ l ps))) (hk : k₁ < k₂)
    (h₁ : ∀ p, ps[k₁]? = some p → p.2.length ≠ 1) (h₂ : ∀ p, ps[k₂]? = some p → p.2.length ≠ 1)
    {raws raws' : List RawMapping} (hseg : m.Segments raws) (hseg' : m'.Segments raws') (hord : InOrder raws) {r₁ : RawMapping}
    (hr₁ : raws[k₁]? = some r₁)
    {u u' : Option String} {c₀ c d₀ d : BasicConsumer E} (h : Built m u c₀) (hd : Built m' u' d₀)
    {N : List String} {ops ops' : List Op} (hrun : c₀.run ops = .ok c) (hrun' : d₀.run ops' = .ok d)
    (hsources : d.getSources = c.getSources) (hlen : c.getSources.length < 2147483648)
    (hfit : ∀ x ∈ raws, Fits c.getSources N 2147483648 x) (hfit' : ∀ x ∈ raws', Fits c.getSources N 2147483648 x)
    (honce : OrigOnce (raws.map (named c.getSources N))) (hnd : c.getSources.Nodup)
    {s : String} {i i' : Nat} {src : String} (hs : c.Knows s i) (hs' : d.Knows s i') (hsrc : c.getSources[i]? = some src)
    (hsrc' : c.getSources[i']? = some src)
    (hother : ∀ (j : Nat) (r : RawMapping) (o : RawOriginal), k₁ ≤ j ∧ j < k₂ → raws[j]? = some r → r.original = some o →
      c.getSources[o.source]? ≠ some src)
    {ln col : Int} {b : Option Bias} (hp : IsI32 ln ∧ IsI32 col) {q q' : Option Mapping} {c' d' : BasicConsumer E}
    (hq : c.generatedPositionFor s ln col b = .ok (q, c')) (hq' : d.generatedPositionFor s ln col b = .ok (q', d')) :
    q'.map Mapping.unnamed = q.map Mapping.unnamed := by
  refine moved_generated (φ := id) hL h hd hseg hseg' hrun hrun' hlen (by rw [hsources]; exact hlen) hfit
    (by rw [hsources]; exact hfit') honce hnd (by rw [hsources]; exact hnd) hs hs' hsrc (by rw [hsources]; exact hsrc') ?_ hp
    hq hq'
  intro y hy
  rw [hsources, rightward_named hw hw' hk h₁ h₂ hseg hseg' hord hr₁]
  have same : ∀ r ∈ raws, (named c.getSources N r).source = some src →
      (named c.getSources N r).rightward r₁ raws[k₂]? l = named c.getSources N r := by
    intro r hr hsr
    obtain ⟨j, hj⟩ := List.mem_iff_getElem?.1 hr
    unfold Mapping.rightward
    refine if_neg fun hin => ?_
    have hjk := (within_iff hord hr₁ hj).1 hin
    obtain ⟨o, ho, hso⟩ := Option.bind_eq_some_iff.1 hsr
    exact hother j r o hjk hj ho hso
  have keep : ∀ x : Mapping, (x.rightward r₁ raws[k₂]? l).source = x.source := by
    intro x
    unfold Mapping.rightward
    split <;> rfl
  constructor
  · intro hm
    obtain ⟨x, hx, rfl⟩ := List.mem_map.1 hm
    obtain ⟨r, hr, rfl⟩ := List.mem_map.1 hx
    rw [keep] at hy
    exact ⟨_, hx, same r hr hy⟩
  · rintro ⟨x, hx, rfl⟩
    obtain ⟨r, hr, rfl⟩ := List.mem_map.1 hx
    exact List.mem_map.2 ⟨_, hx, same r hr hy⟩

/-- Source number `n` with `k` columns put before column `from'` of its line `ln`, both counted from zero. -/
def columnsInto (n ln from' k : Nat) (i : Nat) (p : Nat × Nat) : Nat × Nat :=
  if i = n ∧ p.1 = ln ∧ from' ≤ p.2 then (p.1, p.2 + k) else p

theorem columnsInto_order (n ln from' k i : Nat) : KeepsOrder (columnsInto n ln from' k i) := by
  intro x y h
  unfold columnsInto PLt at *
  split <;> split <;> (try simp only) <;> omega

/-- If the segments from the one to the other are just those on a line of a source from some column on, this is the
source with text put before that column, as in C111. -/
theorem C142_edit {m m' : SourceMapJson} {ps : List (Text × List Int)} {k₁ k₂ k : Nat} (hw : Written m ps)
    (hw' : Written m' (addColumns k₂ (-k) (addColumns k₁ k ps))) (hk : k₁ < k₂)
    (h₁ : ∀ p, ps[k₁]? = some p → p.2.length ≠ 1) (h₂ : ∀ p, ps[k₂]? = some p → p.2.length ≠ 1)
    {raws raws' : List RawMapping} (hseg : m.Segments raws) (hseg' : m'.Segments raws')
    (hsources : m'.sources = m.sources) (hnames : m'.names = m.names) (hroot : m'.sourceRoot = m.sourceRoot)
    {n ln from' : Nat} (hjust : ∀ (i : Nat) (r : RawMapping) (o : RawOriginal), raws[i]? = some r → r.original = some o →
      (k₁ ≤ i ∧ i < k₂ ↔ o.source = n ∧ o.line = ln ∧ from' ≤ o.column))
    (hroom : ∀ r ∈ raws, ∀ o, r.original = some o → o.line + 1 < 2147483648 ∧ o.column + k < 2147483648) :
    EditOf (columnsInto n ln from' k) m m' raws := by
  refine ⟨hsources, hnames, hroot, hseg, ?_, fun r hr o ho => ?_⟩
  · have e := (C142_segments hw hw' hk h₁ h₂ hseg hseg').1
    have : raws' = raws.map (RawMapping.edit (columnsInto n ln from' k)) := by
      rw [e]
      refine List.ext_getElem? fun i => ?_
      rw [List.getElem?_mapIdx, List.getElem?_map]
      cases hr : raws[i]? with
      | none => rfl
      | some r =>
        simp only [Option.map_some, Option.some.injEq]
        have hj := hjust i r
        obtain ⟨x, y, o⟩ := r
        cases o with
        | none => split <;> rfl
        | some o =>
          have hj := hj o hr rfl
          by_cases hi : k₁ ≤ i ∧ i < k₂
          · rw [if_pos hi]
            simp only [RawMapping.along, RawMapping.edit, Option.map_some, columnsInto, if_pos (hj.1 hi), RawMapping.mk.injEq,
              Option.some.injEq, RawOriginal.mk.injEq, and_true, true_and]
            omega
          · rw [if_neg hi]
            simp only [RawMapping.edit, Option.map_some, columnsInto, if_neg (fun h => hi (hj.2 h))]
    rw [← this]
    exact hseg'
  · obtain ⟨a, b⟩ := hroom r hr o ho
    refine ⟨a, by omega, ?_⟩
    unfold columnsInto
    split
    · exact ⟨a, b⟩
    · exact ⟨a, show o.column < 2147483648 by omega⟩

/-- So reverse lookups find what they found, asked where the text now is. -/
theorem C142_generated (hL : E.maps.Laws) (hT : E.maps.Total) {m m' : SourceMapJson} {ps : List (Text × List Int)}
    {k₁ k₂ k : Nat} (hw : Written m ps) (hw' : Written m' (addColumns k₂ (-k) (addColumns k₁ k ps))) (hk : k₁ < k₂)
    (h₁ : ∀ p, ps[k₁]? = some p → p.2.length ≠ 1) (h₂ : ∀ p, ps[k₂]? = some p → p.2.length ≠ 1)
    {raws raws' : List RawMapping} (hseg : m.Segments raws) (hseg' : m'.Segments raws')
    (hsources : m'.sources = m.sources) (hnames : m'.names = m.names) (hroot : m'.sourceRoot = m.sourceRoot)
    {n ln from' : Nat} (hjust : ∀ (i : Nat) (r : RawMapping) (o : RawOriginal), raws[i]? = some r → r.original = some o →
      (k₁ ≤ i ∧ i < k₂ ↔ o.source = n ∧ o.line = ln ∧ from' ≤ o.column))
    (hroom : ∀ r ∈ raws, ∀ o, r.original = some o → o.line + 1 < 2147483648 ∧ o.column + k < 2147483648)
    {u : Option String} {c₀ c d₀ d : BasicConsumer E} (h : Built m u c₀) (hd : Built m' u d₀) {ops ops' : List Op}
    (hrun : c₀.run ops = .ok c) (hrun' : d₀.run ops' = .ok d) (hdist : OrigDistinct raws)
    (hlen : c.getSources.length < 2147483648) {s : String} (hs : c.Knows s n) (hs' : d.Knows s n)
    {l col : Nat} (hp : 1 ≤ l ∧ l < 2147483648 ∧ col + k < 2147483648) {b : Option Bias} :
    (d.generatedPositionFor s l (if l = ln + 1 ∧ from' ≤ col then col + k else col : Nat) b).map
        (fun r => r.1.map stripMapping) =
      (c.generatedPositionFor s l col b).map
        (fun r => r.1.map fun x => (stripMapping x).editFrom 0 fun _ => columnsInto n ln from' k n) := by
  have hsp := C142_edit hw hw' hk h₁ h₂ hseg hseg' hsources hnames hroot hjust hroom
  have e : columnsInto n ln from' k n (((l : Int) - 1).toNat, (col : Int).toNat) =
      (l - 1, if l = ln + 1 ∧ from' ≤ col then col + k else col) := by
    unfold columnsInto
    simp only [true_and]
    by_cases hf : l = ln + 1 ∧ from' ≤ col
    · rw [if_pos (by omega), if_pos hf, Prod.mk.injEq]
      omega
    · rw [if_neg (by omega), if_neg hf, Prod.mk.injEq]
      omega
  have hlt : (if l = ln + 1 ∧ from' ≤ col then col + k else col) < 2147483648 := by split <;> omega
  have key := C111_generated hL hT (columnsInto_order n ln from' k) hsp h hd hrun hrun' hdist hlen hs hs'
    (l := l) (col := col) (by unfold IsI32; omega) (by omega) (by rw [e]; simp only; omega) (b := b)
  rw [e] at key
  simp only at key
  rw [Nat.sub_add_cancel hp.1] at key
  exact key

/-- The demo map after four columns were put before the first line of its second source: the fourth number of the eighth
segment is -9 instead of -13, that of the twelfth -22 instead of -18. -/
def demoIndented : SourceMapJson :=
  { demoMap with
    mappings := some "CAAC,IAAI,IAAM,SAAUA,GAClB,OAAOC,IAAID;CCDT,IAAI,IAAM,SAAUE,GACtB,OAAOA" }

def demoIndentedRaws : List RawMapping := demoRaws.mapIdx fun i r => if 7 ≤ i ∧ i < 11 then r.along 4 else r

/-- The demo map after two columns were put before column 10 of the second line of its first source: the fourth number of
the sixth segment is 9 instead of 7, that of the eighth -15 instead of -13. -/
def demoWidened : SourceMapJson :=
  { demoMap with
    mappings := some "CAAC,IAAI,IAAM,SAAUA,GAClB,OAASC,IAAID;CCDf,IAAI,IAAM,SAAUE,GAClB,OAAOA" }

def demoWidenedRaws : List RawMapping := demoRaws.mapIdx fun i r => if 5 ≤ i ∧ i < 7 then r.along 2 else r

/-- The hypotheses hold of them. -/
theorem rightward_fits : Written demoMap demoSegs ∧ Written demoIndented (addColumns 11 (-4) (addColumns 7 4 demoSegs)) ∧
    Written demoWidened (addColumns 7 (-2) (addColumns 5 2 demoSegs)) ∧ (∀ p ∈ demoSegs, p.2.length ≠ 1) ∧
    demoMap.Segments demoRaws ∧ demoIndented.Segments demoIndentedRaws ∧ demoWidened.Segments demoWidenedRaws ∧
    InOrder demoRaws ∧ demoRaws[7]? = some ⟨1, 1, some ⟨1, 0, 1, none⟩⟩ ∧
    ∃ c d e : BasicConsumer demoEnv,
    Built demoMap none c ∧ Built demoIndented none d ∧ Built demoWidened none e ∧ d.getSources = c.getSources ∧
    e.getSources = c.getSources ∧ c.getSources = ["one.js", "two.js"] ∧
    (∀ x ∈ demoRaws, Fits c.getSources ["bar", "baz", "n"] 2147483648 x) ∧
    (∀ x ∈ demoIndentedRaws, Fits c.getSources ["bar", "baz", "n"] 2147483648 x) ∧
    (∀ x ∈ demoWidenedRaws, Fits c.getSources ["bar", "baz", "n"] 2147483648 x) ∧
    OrigOnce (demoRaws.map (named c.getSources ["bar", "baz", "n"])) := by
  obtain ⟨c, hc, h⟩ := Res.of_test (r := demoConsumer demoMap)
    (fun c => decide (c.getSources = ["one.js", "two.js"])) (by decide +kernel)
  obtain ⟨d, hd, h'⟩ := Res.of_test (r := demoConsumer demoIndented)
    (fun c => decide (c.getSources = ["one.js", "two.js"])) (by decide +kernel)
  obtain ⟨e, he, h''⟩ := Res.of_test (r := demoConsumer demoWidened)
    (fun c => decide (c.getSources = ["one.js", "two.js"])) (by decide +kernel)
  simp only [decide_eq_true_eq] at h h' h''
  refine ⟨C139_case.1, ⟨⟨by decide, by decide, by decide⟩, _, 0, rfl, by decide +kernel⟩,
    ⟨⟨by decide, by decide, by decide⟩, _, 0, rfl, by decide +kernel⟩, by decide, C139_case.2.1,
    ⟨_, rfl, by decide +kernel, by simp [demoIndentedRaws, demoRaws, RawMapping.U32, RawMapping.along]⟩,
    ⟨_, rfl, by decide +kernel, by simp [demoWidenedRaws, demoRaws, RawMapping.U32, RawMapping.along]⟩,
    by unfold InOrder; decide +kernel, rfl, c, d, e, .inr hc, .inr hd, .inr he, by rw [h, h'], by rw [h, h''], h,
    ?_, ?_, ?_, ?_⟩
  · rw [h]; simp [demoRaws, Fits]
  · rw [h]; simp [demoIndentedRaws, demoRaws, Fits, RawMapping.along]
  · rw [h]; simp [demoWidenedRaws, demoRaws, Fits, RawMapping.along]
  · rw [h]; unfold OrigOnce; decide +kernel

/-- What was found at column 1 of the second source is found at column 5, and in the other source nothing changes. In the
first source what was at column 10 of line 2 is found at column 12, and what was at column 3 at column 3; the segments are just
those that `C142_edit` and `C142_generated` ask for. -/
theorem C142_case : demoAsk demoMap (fun c => c.originalPositionFor ⟨1, 33⟩ (some .lub)) =
      .ok (some ⟨⟨2, 1⟩, some ⟨1, 1⟩, some "two.js", none, none⟩) ∧
    demoAsk demoIndented (fun c => c.originalPositionFor ⟨1, 33⟩ (some .lub)) =
      .ok (some ⟨⟨2, 1⟩, some ⟨1, 5⟩, some "two.js", none, none⟩) ∧
    demoAsk demoWidened (fun c => c.originalPositionFor ⟨1, 33⟩ (some .lub)) =
      .ok (some ⟨⟨2, 1⟩, some ⟨1, 1⟩, some "two.js", none, none⟩) ∧
    Mapping.rightward ⟨1, 1, none⟩ demoRaws[11]? 4 ⟨⟨2, 1⟩, some ⟨1, 1⟩, some "two.js", none, none⟩ =
      ⟨⟨2, 1⟩, some ⟨1, 5⟩, some "two.js", none, none⟩ ∧
    demoAsk demoIndented (fun c => c.generatedPositionFor "one.js" 2 3 (some .lub)) =
      demoAsk demoMap (fun c => c.generatedPositionFor "one.js" 2 3 (some .lub)) ∧
    demoAsk demoMap (fun c => c.generatedPositionFor "one.js" 2 10 (some .lub)) =
      .ok (some ⟨⟨1, 28⟩, some ⟨1, 10⟩, some "one.js", some "bar", none⟩) ∧
    demoAsk demoWidened (fun c => c.generatedPositionFor "one.js" 2 12 (some .lub)) =
      .ok (some ⟨⟨1, 28⟩, some ⟨1, 12⟩, some "one.js", some "bar", none⟩) ∧
    demoAsk demoWidened (fun c => c.generatedPositionFor "one.js" 2 3 (some .lub)) =
      demoAsk demoMap (fun c => c.generatedPositionFor "one.js" 2 3 (some .lub)) ∧
    (∀ r ∈ demoRaws, ∀ o, r.original = some o → o.line + 1 < 2147483648 ∧ o.column + 4 < 2147483648) ∧
    (∀ (i : Nat) (r : RawMapping) (o : RawOriginal), demoRaws[i]? = some r → r.original = some o →
      (5 ≤ i ∧ i < 7 ↔ o.source = 0 ∧ o.line = 1 ∧ 10 ≤ o.column)) ∧
    ∀ (i : Nat) (r : RawMapping) (o : RawOriginal), demoRaws[i]? = some r → r.original = some o →
      (7 ≤ i ∧ i < 11 ↔ o.source = 1 ∧ o.line = 0 ∧ 0 ≤ o.column) := by
  have all : ∀ P : Nat → RawMapping → Prop, (∀ i r, demoRaws[i]? = some r → P i r) ↔
      ∀ x ∈ demoRaws.mapIdx Prod.mk, P x.1 x.2 := by
    intro P
    constructor
    · intro h x hx
      obtain ⟨i, hi⟩ := List.mem_iff_getElem?.1 hx
      rw [List.getElem?_mapIdx, Option.map_eq_some_iff] at hi
      obtain ⟨r, hr, rfl⟩ := hi
      exact h i r hr
    · intro h i r hr
      exact h (i, r) (List.mem_iff_getElem?.2 ⟨i, by rw [List.getElem?_mapIdx, hr]; rfl⟩)
  refine ⟨by decide +kernel, by decide +kernel, by decide +kernel, by decide +kernel, by decide +kernel, by decide +kernel,
    by decide +kernel, by decide +kernel, by simp [demoRaws],
    fun i r o hr ho => (all fun i r => ∀ o ∈ r.original, (5 ≤ i ∧ i < 7 ↔ o.source = 0 ∧ o.line = 1 ∧ 10 ≤ o.column)).2
      ?_ i r hr o ho,
    fun i r o hr ho => (all fun i r => ∀ o ∈ r.original, (7 ≤ i ∧ i < 11 ↔ o.source = 1 ∧ o.line = 0 ∧ 0 ≤ o.column)).2
      ?_ i r hr o ho⟩
  · simp [demoRaws]
  · simp [demoRaws]

end RSM
