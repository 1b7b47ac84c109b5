import Verif.Props.SourceLines
/-! # Property C143: sources and names put in front of those of a map -/

namespace RSM
open Spec BasicConsumer

variable {E : Env}

/-- Number `j` of segment `k` increased by `l`. -/
def addAt (j k : Nat) (l : Int) (ps : List (Text × List Int)) : List (Text × List Int) :=
  ps.modify k fun p => (p.1, p.2.modify j (· + l))

theorem addAt_map {α : Type} {j : Nat} {l : Int} {f : Text × List Int → α} (hf : ∀ p, f (p.1, p.2.modify j (· + l)) = f p) :
    ∀ (k : Nat) (ps : List (Text × List Int)), (addAt j k l ps).map f = ps.map f
  | _, [] => by simp [addAt]
  | 0, p :: ps => by
    unfold addAt
    rw [List.modify_zero_cons, List.map_cons, List.map_cons, hf]
  | k + 1, p :: ps => by
    have := addAt_map hf k ps
    unfold addAt at this ⊢
    rw [List.modify_succ_cons, List.map_cons, List.map_cons, this]

/-- All of a segment but the second and fifth numbers. -/
def tablesShape (p : Text × List Int) : Text × Nat × Int × Int × Int :=
  (p.1, p.2.length, p.2.getD 0 0, p.2.getD 2 0, p.2.getD 3 0)

section
variable {ps ps' : List (Text × List Int)}

theorem tablesShape_sum {j : Nat} (hj : j = 0 ∨ j = 2 ∨ j = 3) (h : ps'.map tablesShape = ps.map tablesShape) :
    sumOf j ps' = sumOf j ps := by
  have key : ∀ f : Text × Nat × Int × Int × Int → Int, (ps'.map (f ∘ tablesShape)).sum = (ps.map (f ∘ tablesShape)).sum := by
    intro f
    rw [← List.map_map, ← List.map_map, h]
  rcases hj with rfl | rfl | rfl
  · exact key (·.2.2.1)
  · exact key (·.2.2.2.1)
  · exact key (·.2.2.2.2)

theorem tablesShape_semicolons (h : ps'.map tablesShape = ps.map tablesShape) : semicolons ps' = semicolons ps := by
  have : (ps'.map ((fun x : Text × Nat × Int × Int × Int => x.1.count ';') ∘ tablesShape)).sum =
      (ps.map ((fun x : Text × Nat × Int × Int × Int => x.1.count ';') ∘ tablesShape)).sum := by
    rw [← List.map_map, ← List.map_map, h]
  exact this

end

theorem tablesShape_lastLine : ∀ {ps ps' : List (Text × List Int)}, ps'.map tablesShape = ps.map tablesShape →
    (lastLine ps').map tablesShape = (lastLine ps).map tablesShape
  | [], [], _ => rfl
  | [], _ :: _, h => by simp at h
  | _ :: _, [], h => by simp at h
  | p :: ps, p' :: ps', h => by
    have h0 := h
    rw [List.map_cons, List.map_cons, List.cons.injEq] at h
    have ih := tablesShape_lastLine h.2
    have hs := tablesShape_semicolons h.2
    unfold lastLine
    rw [hs]
    split
    · exact h0
    · exact ih

theorem sum_addAt {j : Nat} (l : Int) : ∀ {k i : Nat} {ps : List (Text × List Int)} {p : Text × List Int}, k ≤ i →
    ps[k]? = some p → j < p.2.length → sumOf j ((addAt j k l ps).take (i + 1)) = sumOf j (ps.take (i + 1)) + l
  | _, _, [], _, _, h, _ => by simp at h
  | 0, i, (sep, ns) :: ps, p, _, h, hp => by
    simp only [List.getElem?_cons_zero, Option.some.injEq] at h
    subst h
    unfold addAt
    rw [List.modify_zero_cons, List.take_succ_cons, List.take_succ_cons, sumOf_cons, sumOf_cons]
    simp only at hp ⊢
    simp [List.getD_eq_getElem?_getD, List.getElem?_eq_getElem hp]
    omega
  | k + 1, 0, _ :: _, _, hk, _, _ => by omega
  | k + 1, i + 1, (sep, ns) :: ps, p, hk, h, hp => by
    rw [List.getElem?_cons_succ] at h
    have := sum_addAt l (i := i) (by omega) h hp
    unfold addAt at this ⊢
    rw [List.modify_succ_cons, List.take_succ_cons, List.take_succ_cons, sumOf_cons, sumOf_cons, this]
    omega

theorem sum_addAt_ne {j j' : Nat} (hne : j ≠ j') (l : Int) (k i : Nat) (ps : List (Text × List Int)) :
    sumOf j' ((addAt j k l ps).take i) = sumOf j' (ps.take i) := by
  unfold sumOf
  rw [List.map_take, List.map_take, addAt_map]
  intro p
  simp only [List.getD_eq_getElem?_getD, List.getElem?_modify]
  cases p.2[j']? <;> simp [hne]

/-- The segment with its source `a` and its name `b` further back. -/
def Spec.RawMapping.behind (a b : Nat) (r : RawMapping) : RawMapping :=
  { r with original := r.original.map fun o => { o with source := o.source + a, name := o.name.map (· + b) } }

theorem says_behind {q q' : List (Text × List Int)} {n : Nat} {r r' : RawMapping} {a b : Nat}
    (hs : q'.map tablesShape = q.map tablesShape) (h1 : n ≠ 1 → sumOf 1 q' = sumOf 1 q + a)
    (h4 : n ≠ 1 → n ≠ 4 → sumOf 4 q' = sumOf 4 q + b) (h : Says q n r) (h' : Says q' n r') : r' = r.behind a b := by
  obtain ⟨a1, a2, a3, a4, a5, a6, a7, a8⟩ := h
  obtain ⟨b1, b2, b3, b4, b5, b6, b7, b8⟩ := h'
  have e1 : r'.line = r.line := by rw [a1, b1, tablesShape_semicolons hs]
  have e2 : r'.column = r.column := by
    have := tablesShape_sum (j := 0) (by omega) (tablesShape_lastLine hs)
    rw [← a2, ← b2] at this
    exact_mod_cast this
  obtain ⟨x, y, o⟩ := r
  obtain ⟨x', y', o'⟩ := r'
  simp only at e1 e2 a3 a4 a5 a6 a7 a8 b3 b4 b5 b6 b7 b8
  subst e1
  subst e2
  unfold RawMapping.behind
  simp only [RawMapping.mk.injEq, true_and]
  cases o with
  | none => rw [b3.2 (a3.1 rfl)]; rfl
  | some o =>
    have hn1 : n ≠ 1 := fun e => absurd (a3.2 e) (by simp)
    cases o' with
    | none => exact absurd (b3.1 rfl) hn1
    | some o' =>
      specialize a4 _ rfl
      specialize a5 _ rfl
      specialize a6 _ rfl
      specialize a7 _ rfl
      specialize a8 _ rfl
      specialize b4 _ rfl
      specialize b5 _ rfl
      specialize b6 _ rfl
      specialize b7 _ rfl
      specialize b8 _ rfl
      rw [tablesShape_sum (by omega) hs] at b5 b6
      rw [h1 hn1] at b4
      obtain ⟨s, m, c, nm⟩ := o
      obtain ⟨s', m', c', nm'⟩ := o'
      simp only at a4 a5 a6 a7 a8 b4 b5 b6 b7 b8
      simp only [Option.map_some, Option.some.injEq, RawOriginal.mk.injEq]
      refine ⟨by omega, by omega, by omega, ?_⟩
      cases nm with
      | none => exact b7.2 (a7.1 rfl)
      | some i =>
        have hn4 : n ≠ 4 := fun e => by simpa using a7.2 e
        cases nm' with
        | none => exact absurd (b7.1 rfl) hn4
        | some i' =>
          have e := a8 i rfl
          have e' := b8 i' rfl
          rw [h4 hn1 hn4] at e'
          rw [Option.map_some, Option.some.injEq]
          omega

/-- `k` is the first segment with a source, `k'` the first with a name. -/
structure FirstUses (ps : List (Text × List Int)) (k k' : Nat) : Prop where
  noSource : ∀ i p, i < k → ps[i]? = some p → p.2.length = 1
  source : ∀ p, ps[k]? = some p → p.2.length ≠ 1
  noName : ∀ i p, i < k' → ps[i]? = some p → p.2.length ≠ 5
  name : ∀ p, ps[k']? = some p → p.2.length = 5

/-- The second number of the first segment with a source increased by `a` and the fifth of the first with a name by `b`: all
sources are `a` and all names `b` further back. -/
theorem C143_segments {m m' : SourceMapJson} {ps : List (Text × List Int)} {k k' a b : Nat} (hw : Written m ps)
    (hw' : Written m' (addAt 4 k' b (addAt 1 k a ps))) (hk : FirstUses ps k k')
    {raws raws' : List RawMapping} (hseg : m.Segments raws) (hseg' : m'.Segments raws') :
    raws' = raws.map (RawMapping.behind a b) := by
  obtain ⟨n1, n2⟩ := hw.says hseg
  obtain ⟨n1', n2'⟩ := hw'.says hseg'
  have inv : ∀ {j : Nat}, j = 1 ∨ j = 4 → ∀ (l : Int) (p : Text × List Int),
      tablesShape (p.1, p.2.modify j (· + l)) = tablesShape p := by
    intro j hj l p
    rcases hj with rfl | rfl <;> simp [tablesShape, List.getD_eq_getElem?_getD]
  have hsh : (addAt 4 k' b (addAt 1 k a ps)).map tablesShape = ps.map tablesShape := by
    rw [addAt_map (inv (.inr rfl) _), addAt_map (inv (.inl rfl) _)]
  have hlen : (addAt 4 k' b (addAt 1 k a ps)).length = ps.length := by simp [addAt]
  have hnum := hw.1.numbers
  refine List.ext_getElem? fun i => ?_
  rw [List.getElem?_map]
  by_cases hi : i < ps.length
  · have hr := List.getElem?_eq_getElem (l := raws) (i := i) (by omega)
    have hr' := List.getElem?_eq_getElem (l := raws') (i := i) (by omega)
    have hp := List.getElem?_eq_getElem hi
    have hp' := List.getElem?_eq_getElem (l := addAt 4 k' b (addAt 1 k a ps)) (i := i) (by omega)
    have s := n2 i _ _ hr hp
    have s' := n2' i _ _ hr' hp'
    have hpl : ((addAt 4 k' b (addAt 1 k a ps))[i]'(by omega)).2.length = ps[i].2.length := by
      have := congrArg (fun x => x[i]?.map (·.2.1)) hsh
      simpa [hp, hp', tablesShape] using this
    rw [hpl] at s'
    have hni := hnum _ (List.mem_of_getElem? hp)
    rw [hr, hr', Option.map_some, Option.some.injEq]
    refine says_behind (by rw [List.map_take, List.map_take, hsh]) (fun h => ?_) (fun h h' => ?_) s s'
    · have hki : k ≤ i := by
        by_contra hlt
        exact h (hk.noSource i _ (by omega) hp)
      have e := List.getElem?_eq_getElem (l := ps) (i := k) (by omega)
      have g1 := hk.source _ e
      have g2 := hnum _ (List.mem_of_getElem? e)
      rw [sum_addAt_ne (by decide), sum_addAt a hki e (by omega)]
    · have hki : k' ≤ i := by
        by_contra hlt
        have := hk.noName i _ (by omega) hp
        omega
      have e := List.getElem?_eq_getElem (l := ps) (i := k') (by omega)
      have g1 := hk.name _ e
      have e' := List.getElem?_eq_getElem (l := addAt 1 k a ps) (i := k') (by simp [addAt]; omega)
      have g2 : ((addAt 1 k a ps)[k']'(by simp [addAt]; omega)).2.length = ps[k'].2.length := by
        have := congrArg (fun x => x[k']?.map (·.2.1)) (addAt_map (inv (.inl rfl) (a : Int)) k ps)
        simpa [e, e', tablesShape] using this
      rw [sum_addAt b hki e' (by omega), sum_addAt_ne (by decide)]
  · rw [List.getElem?_eq_none (by omega), List.getElem?_eq_none (by omega)]
    rfl

theorem named_behind (A S B N : List String) (r : RawMapping) :
    named (A ++ S) (B ++ N) (r.behind A.length B.length) = named S N r := by
  have e : ∀ (X Y : List String) (i : Nat), (X ++ Y)[i + X.length]? = Y[i]? := fun X Y i => by
    rw [List.getElem?_append_right (by omega), Nat.add_sub_cancel]
  obtain ⟨x, y, o⟩ := r
  cases o with
  | none => rfl
  | some o =>
    obtain ⟨s, l, c, n⟩ := o
    cases n <;> simp [named, RawMapping.behind, e]

theorem fits_behind {A S B N : List String} {limit : Nat} {r : RawMapping} (h : Fits S N limit r) :
    Fits (A ++ S) (B ++ N) limit (r.behind A.length B.length) := by
  obtain ⟨x, y, o⟩ := r
  cases o with
  | none => simpa [Fits, RawMapping.behind] using h
  | some o =>
    obtain ⟨s, l, c, n⟩ := o
    cases n <;> simp [Fits, RawMapping.behind] at h ⊢ <;> omega

/-- What is visited in generated order is what was, so renumbered. -/
theorem C143_visits (hL : E.maps.Laws) {m m' : SourceMapJson} {ps : List (Text × List Int)} {k k' a b : Nat}
    (hw : Written m ps) (hw' : Written m' (addAt 4 k' b (addAt 1 k a ps))) (hk : FirstUses ps k k')
    {raws raws' : List RawMapping} (hseg : m.Segments raws) (hseg' : m'.Segments raws') (hord : InOrder raws)
    {u u' : Option String} {c₀ c c' d₀ d d' : BasicConsumer E} (h : Built m u c₀) (hd : Built m' u' d₀)
    {ops ops' : List Op} (hrun : c₀.run ops = .ok c) (hrun' : d₀.run ops' = .ok d) {v v' : List LibMapping}
    (hv : c.eachMapping .generated = .ok (v, c')) (hv' : d.eachMapping .generated = .ok (v', d')) :
    v'.map LibMapping.raw = (v.map LibMapping.raw).map (RawMapping.behind a b) := by
  have e := C143_segments hw hw' hk hseg hseg'
  have hord' : InOrder raws' := by
    rw [e]
    exact List.pairwise_map.2 hord
  rw [visits_in_order hL hseg h hrun hord hv, visits_in_order hL hseg' hd hrun' hord' hv']
  exact e

section
variable {m m' : SourceMapJson} {ps : List (Text × List Int)} {k k' : Nat} {A B N : List String} {raws raws' : List RawMapping}
  {u u' : Option String} {c₀ c d₀ d : BasicConsumer E} {ops ops' : List Op}

/-- Positions are answered with the same mappings, sources and names included. -/
theorem C143_original (hL : E.maps.Laws) (hT : E.maps.Total)
    (hw : Written m ps) (hw' : Written m' (addAt 4 k' B.length (addAt 1 k A.length ps))) (hk : FirstUses ps k k')
    (hseg : m.Segments raws) (hseg' : m'.Segments raws') (hord : InOrder raws)
    (h : Built m u c₀) (hd : Built m' u' d₀) (hN : m.names = some N) (hN' : m'.names = some (B ++ N))
    (hrun : c₀.run ops = .ok c) (hrun' : d₀.run ops' = .ok d)
    (hsources : d.getSources = A ++ c.getSources) (hlen : d.getSources.length < 2147483648)
    (hfit : ∀ x ∈ raws, Fits c.getSources N 2147483648 x)
    {p : Position} {b : Option Bias} (hp : 1 ≤ p.line ∧ 0 ≤ p.column)
    (hi : p.line ≤ 2147483647 ∧ p.column ≤ 2147483647) :
    (d.originalPositionFor p b).map (fun r => r.1.map stripMapping) =
      (c.originalPositionFor p b).map (fun r => r.1.map stripMapping) := by
  have e := C143_segments hw hw' hk hseg hseg'
  have hle : c.getSources.length ≤ d.getSources.length := by rw [hsources, List.length_append]; omega
  have hnamed : raws'.map (named d.getSources (B ++ N)) = raws.map (named c.getSources N) := by
    rw [e, hsources, List.map_map]
    exact List.map_congr_left fun r _ => named_behind _ _ _ _ r
  refine moved_original (g := id) (φ := id) (k := 0) ?_ hL hT h hd hseg hseg' hN hN'
    (h.rel.run hL hrun) (hd.rel.run hL hrun') (by omega) hlen hfit ?_
    hord.once ⟨fun _ _ => Iff.rfl, fun _ => (Int.add_zero _).symm, fun _ hv => hv⟩ ?_ hp hi hi
  · exact fun x => ⟨rfl, rfl⟩
  · rw [e, hsources]
    intro x hx
    obtain ⟨r, hr, rfl⟩ := List.mem_map.1 hx
    exact fits_behind (hfit r hr)
  · rw [hnamed, List.map_id]
    intro y hy _
    constructor
    · exact fun hm => ⟨y, hm, hy, rfl⟩
    · rintro ⟨x, hx, -, rfl⟩
      exact hx

/-- Reverse lookups find what they found, names aside. -/
theorem C143_generated (hL : E.maps.Laws)
    (hw : Written m ps) (hw' : Written m' (addAt 4 k' B.length (addAt 1 k A.length ps))) (hk : FirstUses ps k k')
    (hseg : m.Segments raws) (hseg' : m'.Segments raws')
    (h : Built m u c₀) (hd : Built m' u' d₀) (hrun : c₀.run ops = .ok c) (hrun' : d₀.run ops' = .ok d)
    (hsources : d.getSources = A ++ c.getSources) (hlen : d.getSources.length < 2147483648)
    (hfit : ∀ x ∈ raws, Fits c.getSources N 2147483648 x)
    (honce : OrigOnce (raws.map (named c.getSources N))) (hnd : d.getSources.Nodup)
    {s : String} {i : Nat} {src : String} (hs : c.Knows s i) (hs' : d.Knows s (i + A.length))
    (hsrc : c.getSources[i]? = some src)
    {ln col : Int} {b : Option Bias} (hp : IsI32 ln ∧ IsI32 col) {q q' : Option Mapping} {c' d' : BasicConsumer E}
    (hq : c.generatedPositionFor s ln col b = .ok (q, c')) (hq' : d.generatedPositionFor s ln col b = .ok (q', d')) :
    q'.map Mapping.unnamed = q.map Mapping.unnamed := by
  have e := C143_segments hw hw' hk hseg hseg'
  have hle : c.getSources.length ≤ d.getSources.length := by rw [hsources, List.length_append]; omega
  have hnamed : raws'.map (named d.getSources (B ++ N)) = raws.map (named c.getSources N) := by
    rw [e, hsources, List.map_map]
    exact List.map_congr_left fun r _ => named_behind _ _ _ _ r
  have hfit' : ∀ x ∈ raws', Fits d.getSources (B ++ N) 2147483648 x := by
    rw [e, hsources]
    intro x hx
    obtain ⟨r, hr, rfl⟩ := List.mem_map.1 hx
    exact fits_behind (hfit r hr)
  refine moved_generated (φ := id) hL h hd hseg hseg' hrun hrun' (by omega) hlen hfit hfit' honce
    (by rw [hsources] at hnd; exact (List.nodup_append.1 hnd).2.1) hnd hs hs' hsrc
    (by rw [hsources, List.getElem?_append_right (by omega)]; simpa using hsrc) ?_ hp hq hq'
  intro y _
  rw [hnamed]
  constructor
  · exact fun hm => ⟨y, hm, rfl⟩
  · rintro ⟨x, hx, rfl⟩
    exact hx

end

/-- The demo map with a source and two names put in front: the second number of the first segment is 1 instead of 0, and the
fifth of the fourth is 2 instead of 0. -/
def demoFronted : SourceMapJson :=
  { demoMap with
    sources := some ["zero.js", "one.js", "two.js"]
    names := some ["x", "y", "bar", "baz", "n"]
    mappings := some "CCAC,IAAI,IAAM,SAAUE,GAClB,OAAOC,IAAID;CCDb,IAAI,IAAM,SAAUE,GAClB,OAAOA" }

/-- The hypotheses hold of it. -/
theorem fronted_fits : Written demoMap demoSegs ∧
    Written demoFronted (addAt 4 3 (["x", "y"] : List String).length (addAt 1 0 (["zero.js"] : List String).length demoSegs)) ∧
    FirstUses demoSegs 0 3 ∧ demoMap.Segments demoRaws ∧ demoFronted.Segments (demoRaws.map (RawMapping.behind 1 2)) ∧
    InOrder demoRaws ∧ demoFronted.names = some (["x", "y"] ++ ["bar", "baz", "n"]) ∧
    ∃ c d : BasicConsumer demoEnv, Built demoMap none c ∧ Built demoFronted none d ∧ c.getSources = ["one.js", "two.js"] ∧
    d.getSources = ["zero.js"] ++ c.getSources ∧ d.getSources.Nodup ∧
    (∀ x ∈ demoRaws, Fits c.getSources ["bar", "baz", "n"] 2147483648 x) ∧
    OrigOnce (demoRaws.map (named c.getSources ["bar", "baz", "n"])) := by
  obtain ⟨c, hc, h⟩ := Res.of_test (r := demoConsumer demoMap)
    (fun c => decide (c.getSources = ["one.js", "two.js"])) (by decide +kernel)
  obtain ⟨d, hd, h'⟩ := Res.of_test (r := demoConsumer demoFronted)
    (fun c => decide (c.getSources = ["zero.js", "one.js", "two.js"])) (by decide +kernel)
  simp only [decide_eq_true_eq] at h h'
  refine ⟨C139_case.1, ⟨⟨by decide, by decide, by decide⟩, _, 0, rfl, by decide +kernel⟩,
    ⟨fun i p hi => by omega, by decide, ?_, by decide⟩, C139_case.2.1,
    ⟨_, rfl, by decide +kernel, by simp [demoRaws, RawMapping.U32, RawMapping.behind]⟩,
    by unfold InOrder; decide +kernel, rfl, c, d, .inr hc, .inr hd, h, by rw [h, h']; rfl, by rw [h']; decide, ?_, ?_⟩
  · intro i p hi hp
    have : i = 0 ∨ i = 1 ∨ i = 2 := by omega
    rcases this with rfl | rfl | rfl <;> (cases hp; decide)
  · rw [h]; simp [demoRaws, Fits]
  · rw [h]; unfold OrigOnce; decide +kernel

/-- The lookups find the same; only the name of a reverse lookup, which is looked up under the number of the source (C34), is
another. -/
theorem C143_case : demoAsk demoMap (fun c => c.originalPositionFor ⟨1, 33⟩ (some .lub)) =
      .ok (some ⟨⟨2, 1⟩, some ⟨1, 1⟩, some "two.js", none, none⟩) ∧
    demoAsk demoFronted (fun c => c.originalPositionFor ⟨1, 33⟩ (some .lub)) =
      .ok (some ⟨⟨2, 1⟩, some ⟨1, 1⟩, some "two.js", none, none⟩) ∧
    demoAsk demoMap (fun c => c.generatedPositionFor "one.js" 2 10 (some .lub)) =
      .ok (some ⟨⟨1, 28⟩, some ⟨1, 10⟩, some "one.js", some "bar", none⟩) ∧
    demoAsk demoFronted (fun c => c.generatedPositionFor "one.js" 2 10 (some .lub)) =
      .ok (some ⟨⟨1, 28⟩, some ⟨1, 10⟩, some "one.js", some "y", none⟩) := by
  refine ⟨?_, ?_, ?_, ?_⟩ <;> decide +kernel

end RSM
