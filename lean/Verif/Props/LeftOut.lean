import Verif.Props.SourceLines
import Verif.Props.ConsumerLocal
/-! # Property C141: mappings left out -/

namespace RSM
open Spec BasicConsumer

variable {E : Env}

/-- What is nearest is so among fewer, if it is among them. -/
theorem Nearest.fewer {α : Type} {pos : α → Nat × Nat} {l l' : List α} {q : Nat × Nat} {b : Bias} {a : α} {s : Option α}
    (hinj : ∀ x ∈ l, ∀ y ∈ l, pos x = pos y → x = y) (hsub : ∀ x ∈ l', x ∈ l) (ha : a ∈ l')
    (hr : Nearest pos l q b (some a)) (hs : Nearest pos l' q b s) : s = some a := by
  have h1 := hr.side
  have h2 := hs.side
  cases s with
  | none => exact absurd h1.2.1 (h2 a ha)
  | some y =>
    have y1 := hsub y h2.1
    rw [hinj y y1 a h1.1 ((h1.2.2 y y1 h2.2.1).antisymm (h2.2.2 a ha h1.2.1))]

theorem Nearest.fewer_none {α : Type} {pos : α → Nat × Nat} {l l' : List α} {q : Nat × Nat} {b : Bias} {s : Option α}
    (hsub : ∀ x ∈ l', x ∈ l) (hr : Nearest pos l q b none) (hs : Nearest pos l' q b s) : s = none := by
  have h1 := hr.side
  have h2 := hs.side
  cases s with
  | none => rfl
  | some y => exact absurd h2.2.1 (h1 y (hsub y h2.1))

theorem reportOriginal_where {c : BasicConsumer E} {line : Int} {a : LibMapping} {r : Mapping}
    (hu : a.raw.line + 1 < 2147483648 ∧ a.raw.column < 2147483648)
    (h : c.reportOriginal line (some a) = .ok (some r)) : r.generated = ⟨a.raw.line + 1, a.raw.column⟩ := by
  obtain ⟨a1, a2, a3, a4⟩ := a
  simp only [LibMapping.raw] at hu
  simp only [reportOriginal] at h
  split at h
  · cases a4 with
    | none => cases h
    | some o =>
      simp only at h
      rw [Res.bind_eq_ok] at h
      obtain ⟨nm, _, h⟩ := h
      rw [Res.bind_eq_ok] at h
      obtain ⟨ol, _, h⟩ := h
      rw [Res.bind_eq_ok] at h
      obtain ⟨gl, hg, h⟩ := h
      rw [succU32_lt E.cfg (by omega)] at hg
      cases hg
      simp only [Res.pure_eq, Except.ok.injEq, Option.some.injEq] at h
      rw [← h]
      have w1 : wrap32 ((a1 + 1 : Nat) : Int) = (a1 + 1 : Nat) := wrap32_of_isI32 (by unfold IsI32; omega)
      have w2 : wrap32 (a2 : Int) = a2 := wrap32_of_isI32 (by unfold IsI32; omega)
      simp only [w1, w2, LibMapping.raw]
      rfl
  · cases h

/-- A mapping that was found is found if others are left out. -/
theorem C141_original (hL : E.maps.Laws) (hT : E.maps.Total) {m m' : SourceMapJson} (ht : SameTables m m')
    {u : Option String} {c₀ c d₀ d : BasicConsumer E} (h : Built m u c₀) (hd : Built m' u d₀) {ops ops' : List Op}
    (hrun : c₀.run ops = .ok c) (hrun' : d₀.run ops' = .ok d) {raws raws' : List RawMapping} (hseg : m.Segments raws)
    (hseg' : m'.Segments raws') (hdist : GenDistinct raws) (hsub : ∀ x ∈ raws', x ∈ raws)
    (hsmall : ∀ x ∈ raws, x.line + 1 < 2147483648 ∧ x.column < 2147483648)
    {p : Position} (hp : 1 ≤ p.line ∧ p.line ≤ 2147483647) (hk : 0 ≤ p.column ∧ p.column ≤ 2147483647) {b : Option Bias}
    {r : Mapping} (hr : (c.originalPositionFor p b).map Prod.fst = .ok (some r))
    (hkept : ∃ x ∈ raws', r.generated = ⟨x.line + 1, x.column⟩) :
    (d.originalPositionFor p b).map (fun x => x.1.map stripMapping) = .ok (some (stripMapping r)) := by
  obtain ⟨hn, ha⟩ := ht.after hL h hd hrun hrun'
  obtain ⟨x, nx, ex⟩ := original_answer hL hT h hrun hseg hp hk b
  obtain ⟨y, ny, ey⟩ := original_answer hL hT hd hrun' hseg' hp hk b
  have hu : ∀ r ∈ raws, r.U32 := by obtain ⟨_, _, _, hu⟩ := hseg; exact hu
  rw [hr] at ex
  obtain ⟨a, rfl, -⟩ := reportOriginal_some hp.1 (fun a ha => by subst ha; exact hu _ nx.side.1) ex.symm
  have ham : a.raw ∈ raws := nx.side.1
  obtain ⟨z, hz, hzr⟩ := hkept
  rw [reportOriginal_where (hsmall _ ham) ex.symm] at hzr
  have haz : a.raw = z := by
    refine injOn_of_pairwise hdist _ ham _ (hsub z hz) ?_
    simp only [Position.mk.injEq] at hzr
    simp only [RawMapping.genPos, Prod.mk.injEq]
    omega
  have hya := Nearest.fewer (injOn_of_pairwise hdist) hsub (by rw [haz]; exact hz) nx ny
  rw [map_strip_of ey, reportOriginal_congr hn ha (x := some a) hya, ← ex]
  rfl

/-- The same of reverse lookups; and where nothing was found, nothing is found. -/
theorem C141_generated (hL : E.maps.Laws) (hT : E.maps.Total) {m m' : SourceMapJson} (ht : SameTables m m')
    {u : Option String} {c₀ c d₀ d : BasicConsumer E} (h : Built m u c₀) (hd : Built m' u d₀) {ops ops' : List Op}
    (hrun : c₀.run ops = .ok c) (hrun' : d₀.run ops' = .ok d) {raws raws' : List RawMapping} (hseg : m.Segments raws)
    (hseg' : m'.Segments raws') (hdist : OrigDistinct raws) (hsub : ∀ x ∈ raws', x ∈ raws)
    (hsmall : ∀ x ∈ raws, ∀ o, x.original = some o → o.line < 2147483648 ∧ o.column < 2147483648)
    (hlen : c.getSources.length < 2147483648)
    {s : String} {n : Nat} (hs : c.Knows s n) (hs' : d.Knows s n) {l k : Int} (hl : 1 ≤ l ∧ l ≤ 2147483647)
    (hk : 0 ≤ k ∧ k ≤ 2147483647) {b : Option Bias} :
    (∀ r, (c.generatedPositionFor s l k b).map Prod.fst = .ok (some r) →
      (∃ x ∈ raws', ∃ o, x.original = some o ∧ o.source = n ∧ r.original = some ⟨o.line, o.column⟩) →
      (d.generatedPositionFor s l k b).map (fun x => x.1.map stripMapping) = .ok (some (stripMapping r))) ∧
    ((c.generatedPositionFor s l k b).map Prod.fst = .ok none →
      (d.generatedPositionFor s l k b).map Prod.fst = .ok none) := by
  obtain ⟨hn, ha⟩ := ht.after hL h hd hrun hrun'
  have hlen' : d.getSources.length < 2147483648 := by
    simp only [BasicConsumer.getSources] at hlen ⊢; rw [ha]; exact hlen
  obtain ⟨x, nx, ex⟩ := generated_answer hL hT h hrun hseg hlen hs hl hk b
  obtain ⟨y, ny, ey⟩ := generated_answer hL hT hd hrun' hseg' hlen' hs' hl hk b
  have hsub' : ∀ z ∈ raws'.filter (·.fromSource n), z ∈ raws.filter (·.fromSource n) := by
    intro z hz
    obtain ⟨z1, z2⟩ := List.mem_filter.1 hz
    exact List.mem_filter.2 ⟨hsub z z1, z2⟩
  constructor
  · intro r hr hkept
    rw [hr] at ex
    obtain ⟨a, o, rfl, hao, hro⟩ := reportGenerated_some ex.symm
    have ham := nx.side.1
    obtain ⟨am, af⟩ := List.mem_filter.1 ham
    obtain ⟨z, hz, o', hzo, hzn, hzr⟩ := hkept
    have zf : z.fromSource n = true := by simp [RawMapping.fromSource, hzo, hzn]
    have hzm : z ∈ raws'.filter (·.fromSource n) := List.mem_filter.2 ⟨hz, zf⟩
    have hao' : a.raw.original = some o := hao
    obtain ⟨b1, b2⟩ := hsmall _ am o hao'
    have w1 : wrap32 (o.line : Int) = o.line := wrap32_of_isI32 (by unfold IsI32; omega)
    have w2 : wrap32 (o.column : Int) = o.column := wrap32_of_isI32 (by unfold IsI32; omega)
    rw [hro, w1, w2, Option.some.injEq, Position.mk.injEq] at hzr
    have haz : a.raw = z := by
      refine hdist.inj n _ ham _ (hsub' z hzm) ?_
      simp only [RawMapping.origPos, hao', hzo, Prod.mk.injEq]
      omega
    have hya := Nearest.fewer (hdist.inj n) hsub' (by rw [haz]; exact hzm) nx ny
    rw [map_strip_of ey, reportGenerated_congr hn ha (x := some a) hya, ← ex]
    rfl
  · intro hr
    rw [hr] at ex
    have hx : x = none := by
      cases x with
      | none => rfl
      | some a =>
        exfalso
        obtain ⟨-, af⟩ := List.mem_filter.1 nx.side.1
        have hnlt : n < c.getSources.length := by
          rcases hs with ⟨_, _, hf⟩ | ⟨_, _, _, _, _, hf⟩ <;> exact (List.getElem?_eq_some_iff.1 hf.1).1
        have w : wrap32 (n : Int) = n := wrap32_of_isI32 (by unfold IsI32; omega)
        obtain ⟨a1, a2, a3, a4⟩ := a
        simp only [LibMapping.raw, RawMapping.fromSource] at af
        cases a4 with
        | none => cases af
        | some o =>
          simp only [beq_iff_eq] at af
          simp only [reportGenerated, unwrap, Res.ok_bind] at ex
          rw [if_pos (by rw [af, w])] at ex
          have ex := ex.symm
          rw [Res.bind_eq_ok] at ex
          obtain ⟨_, _, ex⟩ := ex
          rw [Res.bind_eq_ok] at ex
          obtain ⟨_, _, ex⟩ := ex
          cases ex
    subst hx
    have hy := Nearest.fewer_none hsub' nx ny
    cases y with
    | none => rw [ey]; rfl
    | some y => cases hy

/-! ## In the mappings string -/

/-- A segment `s` in place of two, `p` and `q`: the numbers of `q`, with those of `p` added, the first one only if it is on the
same line. -/
structure TakenOut (p q s : Text × List Int) : Prop where
  length : s.2.length = q.2.length
  lines : s.1.count ';' = p.1.count ';' + q.1.count ';'
  first : s.2.getD 0 0 = if q.1.count ';' = 0 then p.2.getD 0 0 + q.2.getD 0 0 else q.2.getD 0 0
  others : ∀ j, 1 ≤ j → s.2.getD j 0 = p.2.getD j 0 + q.2.getD j 0

theorem says_same {q q' : List (Text × List Int)} {n : Nat} {r r' : RawMapping} (h : Says q n r) (h' : Says q' n r')
    (hs : semicolons q' = semicolons q) (hc : sumOf 0 (lastLine q') = sumOf 0 (lastLine q))
    (hj : ∀ j, 1 ≤ j → sumOf j q' = sumOf j q) : r' = r := by
  obtain ⟨a1, a2, a3, a4, a5, a6, a7, a8⟩ := h
  obtain ⟨b1, b2, b3, b4, b5, b6, b7, b8⟩ := h'
  have e1 : r'.line = r.line := by rw [a1, b1, hs]
  have e2 : r'.column = r.column := by omega
  obtain ⟨x, y, o⟩ := r
  obtain ⟨x', y', o'⟩ := r'
  simp only at e1 e2 a3 a4 a5 a6 a7 a8 b3 b4 b5 b6 b7 b8
  subst e1
  subst e2
  simp only [RawMapping.mk.injEq, true_and]
  cases o with
  | none => exact b3.2 (a3.1 rfl)
  | some o =>
    cases o' with
    | none => exact absurd (a3.2 (b3.1 rfl)) (by simp)
    | some o' =>
      specialize a4 _ rfl
      specialize a5 _ rfl
      specialize a6 _ rfl
      specialize a7 _ rfl
      specialize a8 _ rfl
      specialize b4 _ rfl
      specialize b5 _ rfl
      specialize b6 _ rfl
      specialize b7 _ rfl
      specialize b8 _ rfl
      rw [hj _ (by omega)] at b4 b5 b6
      obtain ⟨s, m, c, nm⟩ := o
      obtain ⟨s', m', c', nm'⟩ := o'
      simp only at a4 a5 a6 a7 a8 b4 b5 b6 b7 b8
      simp only [Option.some.injEq, RawOriginal.mk.injEq]
      refine ⟨by omega, by omega, by omega, ?_⟩
      cases nm with
      | none => exact b7.2 (a7.1 rfl)
      | some i =>
        cases nm' with
        | none => exact absurd (a7.2 (b7.1 rfl)) (by simp)
        | some i' =>
          have e := a8 i rfl
          have e' := b8 i' rfl
          rw [hj _ (by omega)] at e'
          rw [Option.some.injEq]
          omega

section
variable {p q s : Text × List Int} (ht : TakenOut p q s) (A B : List (Text × List Int))
include ht

theorem TakenOut.semicolons : semicolons (A ++ s :: B) = semicolons (A ++ p :: q :: B) := by
  have := ht.lines
  simp only [RSM.semicolons, List.map_append, List.map_cons, List.sum_append, List.sum_cons]
  omega

theorem TakenOut.sums {j : Nat} (hj : 1 ≤ j) : sumOf j (A ++ s :: B) = sumOf j (A ++ p :: q :: B) := by
  have := ht.others j hj
  simp only [sumOf, List.map_append, List.map_cons, List.sum_append, List.sum_cons]
  omega

theorem TakenOut.firsts (h : q.1.count ';' = 0) : sumOf 0 (A ++ s :: B) = sumOf 0 (A ++ p :: q :: B) := by
  have := ht.first
  rw [if_pos h] at this
  simp only [sumOf, List.map_append, List.map_cons, List.sum_append, List.sum_cons]
  omega

theorem TakenOut.columns : sumOf 0 (lastLine (A ++ s :: B)) = sumOf 0 (lastLine (A ++ p :: q :: B)) := by
  induction A with
  | nil =>
    simp only [List.nil_append, lastLine]
    obtain ⟨qs, qn⟩ := q
    obtain ⟨pn, pm⟩ := p
    obtain ⟨sn, sm⟩ := s
    rw [semicolons_cons]
    have hf := ht.first
    simp only at hf
    by_cases hB : RSM.semicolons B = 0
    · rw [if_pos hB, if_pos hB]
      by_cases hq : qs.count ';' = 0
      · rw [if_pos (by omega), sumOf_cons, sumOf_cons, sumOf_cons, hf, if_pos hq]
        omega
      · rw [if_neg (by omega), sumOf_cons, sumOf_cons, hf, if_neg hq]
    · rw [if_neg hB, if_neg (by omega), if_neg hB]
  | cons x A ih =>
    simp only [List.cons_append, lastLine]
    rw [ht.semicolons A B]
    split
    · rename_i h0
      obtain ⟨xs, xn⟩ := x
      rw [sumOf_cons, sumOf_cons, ht.firsts A B]
      simp only [RSM.semicolons, List.map_append, List.map_cons, List.sum_append, List.sum_cons] at h0
      omega
    · exact ih

end

/-- A segment taken out of the string, its numbers added to those of the next: if it decodes, to the others. -/
theorem C141_segments {m m' : SourceMapJson} {A B : List (Text × List Int)} {p q s : Text × List Int} (ht : TakenOut p q s)
    (hw : Written m (A ++ p :: q :: B)) (hw' : Written m' (A ++ s :: B)) {raws raws' : List RawMapping}
    (hseg : m.Segments raws) (hseg' : m'.Segments raws') : raws' = raws.eraseIdx A.length := by
  obtain ⟨n1, n2⟩ := hw.says hseg
  obtain ⟨n1', n2'⟩ := hw'.says hseg'
  simp only [List.length_append, List.length_cons] at n1 n1'
  refine List.ext_getElem? fun i => ?_
  rw [List.getElem?_eraseIdx]
  by_cases hi : i < raws'.length
  · have hr' := List.getElem?_eq_getElem hi
    by_cases hiA : i < A.length
    · rw [if_pos hiA]
      have hr := List.getElem?_eq_getElem (l := raws) (i := i) (by omega)
      have hx := List.getElem?_eq_getElem hiA
      have e1 : (A ++ p :: q :: B)[i]? = some A[i] := by rw [List.getElem?_append_left hiA, hx]
      have e2 : (A ++ s :: B)[i]? = some A[i] := by rw [List.getElem?_append_left hiA, hx]
      have s1 := n2 i _ _ hr e1
      have s2 := n2' i _ _ hr' e2
      rw [List.take_append_of_le_length (by omega)] at s1 s2
      rw [hr, hr', says_same s1 s2 rfl rfl fun _ _ => rfl]
    · rw [if_neg hiA]
      obtain ⟨k, rfl⟩ : ∃ k, i = A.length + k := ⟨i - A.length, by omega⟩
      have hr := List.getElem?_eq_getElem (l := raws) (i := A.length + k + 1) (by omega)
      have e1 : (A ++ p :: q :: B)[A.length + k + 1]? = (q :: B)[k]? := by
        rw [List.getElem?_append_right (by omega), show A.length + k + 1 - A.length = k + 1 by omega, List.getElem?_cons_succ]
      have e2 : (A ++ s :: B)[A.length + k]? = (s :: B)[k]? := by
        rw [List.getElem?_append_right (by omega), show A.length + k - A.length = k by omega]
      have t1 : (A ++ p :: q :: B).take (A.length + k + 1 + 1) = A ++ p :: q :: B.take k := by
        rw [List.take_append, List.take_of_length_le (by omega), show A.length + k + 1 + 1 - A.length = k + 1 + 1 by omega,
          List.take_succ_cons, List.take_succ_cons]
      have t2 : (A ++ s :: B).take (A.length + k + 1) = A ++ s :: B.take k := by
        rw [List.take_append, List.take_of_length_le (by omega), show A.length + k + 1 - A.length = k + 1 by omega,
          List.take_succ_cons]
      have main : ∀ {x y : Text × List Int}, (q :: B)[k]? = some x → (s :: B)[k]? = some y → y.2.length = x.2.length →
          raws'[A.length + k]'hi = raws[A.length + k + 1]'(by omega) := by
        intro x y hx hy hxy
        have s1 := n2 _ _ _ hr (e1.trans hx)
        have s2 := n2' _ _ _ hr' (e2.trans hy)
        rw [hxy] at s2
        rw [t1] at s1
        rw [t2] at s2
        exact says_same s1 s2 (ht.semicolons _ _) (ht.columns _ _) fun j hj => ht.sums _ _ hj
      rw [hr, hr', Option.some.injEq]
      cases k with
      | zero => exact main rfl rfl ht.length
      | succ k =>
        have hB := List.getElem?_eq_getElem (l := B) (i := k) (by omega)
        exact main (by rw [List.getElem?_cons_succ]; exact hB) (by rw [List.getElem?_cons_succ]; exact hB) rfl
  · rw [List.getElem?_eq_none (by omega)]
    split
    · rw [List.getElem?_eq_none (by omega)]
    · rw [List.getElem?_eq_none (by omega)]

/-- The last segment taken out. -/
theorem C141_last {m m' : SourceMapJson} {A : List (Text × List Int)} {p : Text × List Int} (hw : Written m (A ++ [p]))
    (hw' : Written m' A) {raws raws' : List RawMapping} (hseg : m.Segments raws) (hseg' : m'.Segments raws') :
    raws' = raws.eraseIdx A.length := by
  obtain ⟨n1, n2⟩ := hw.says hseg
  obtain ⟨n1', n2'⟩ := hw'.says hseg'
  simp only [List.length_append, List.length_cons, List.length_nil] at n1
  refine List.ext_getElem? fun i => ?_
  rw [List.getElem?_eraseIdx]
  by_cases hi : i < A.length
  · rw [if_pos hi]
    have hr := List.getElem?_eq_getElem (l := raws) (i := i) (by omega)
    have hr' := List.getElem?_eq_getElem (l := raws') (i := i) (by omega)
    have hx := List.getElem?_eq_getElem hi
    have s1 := n2 i _ _ hr (by rw [List.getElem?_append_left hi, hx])
    have s2 := n2' i _ _ hr' hx
    rw [List.take_append_of_le_length (by omega)] at s1
    rw [hr, hr', says_same s1 s2 rfl rfl fun _ _ => rfl]
  · rw [if_neg hi, List.getElem?_eq_none (by omega), List.getElem?_eq_none (by omega)]

/-- The visited mappings are the others too. -/
theorem C141_visits (hL : E.maps.Laws) {m m' : SourceMapJson} {raws raws' : List RawMapping} (hseg : m.Segments raws)
    (hseg' : m'.Segments raws') (hord : InOrder raws) (hsub : raws'.Sublist raws)
    {u u' : Option String} {c₀ c c' d₀ d d' : BasicConsumer E} (h : Built m u c₀) (hd : Built m' u' d₀)
    {ops ops' : List Op} (hrun : c₀.run ops = .ok c) (hrun' : d₀.run ops' = .ok d) {v v' : List LibMapping}
    (hv : c.eachMapping .generated = .ok (v, c')) (hv' : d.eachMapping .generated = .ok (v', d')) :
    (v'.map LibMapping.raw).Sublist (v.map LibMapping.raw) ∧
      ∀ r, r ∈ v'.map LibMapping.raw ↔ r ∈ raws' := by
  rw [visits_in_order hL hseg h hrun hord hv, visits_in_order hL hseg' hd hrun' (List.Pairwise.sublist hsub hord) hv']
  exact ⟨hsub, fun _ => Iff.rfl⟩

/-- The demo map without its fifth segment. -/
def demoThin : SourceMapJson :=
  { demoMap with mappings := some "CAAC,IAAI,IAAM,SAAUA,UACXC,IAAID;CCDb,IAAI,IAAM,SAAUE,GAClB,OAAOA" }

/-- The demo map without its seventh segment, the last on its line. -/
def demoShort : SourceMapJson :=
  { demoMap with mappings := some "CAAC,IAAI,IAAM,SAAUA,GAClB,OAAOC;CCDT,IAAI,IAAM,SAAUC,GAClB,OAAOA" }

/-- The hypotheses hold of them. -/
theorem thin_fits : TakenOut ([','], [3, 0, 1, -18]) ([','], [7, 0, 0, 7, 1]) ([','], [10, 0, 1, -11, 1]) ∧
    Written demoMap (demoFirstFour ++ ([','], [3, 0, 1, -18]) :: ([','], [7, 0, 0, 7, 1]) :: demoLastEight.tail) ∧
    Written demoThin (demoFirstFour ++ ([','], [10, 0, 1, -11, 1]) :: demoLastEight.tail) ∧
    demoMap.Segments demoRaws ∧ demoThin.Segments (demoRaws.eraseIdx 4) ∧ demoShort.Segments (demoRaws.eraseIdx 6) ∧
    SameTables demoMap demoThin ∧ SameTables demoMap demoShort ∧ GenDistinct demoRaws ∧ OrigDistinct demoRaws ∧
    InOrder demoRaws ∧ (∀ x ∈ demoRaws, x.line + 1 < 2147483648 ∧ x.column < 2147483648) := by
  refine ⟨⟨rfl, by decide, by decide, fun j hj => ?_⟩, ⟨⟨by decide, by decide, by decide⟩, _, 0, rfl, by decide +kernel⟩,
    ⟨⟨by decide, by decide, by decide⟩, _, 0, rfl, by decide +kernel⟩, C139_case.2.1,
    ⟨_, rfl, by decide +kernel, by simp [demoRaws, RawMapping.U32]⟩,
    ⟨_, rfl, by decide +kernel, by simp [demoRaws, RawMapping.U32]⟩, ⟨rfl, rfl, rfl⟩, ⟨rfl, rfl, rfl⟩,
    by unfold GenDistinct; decide +kernel, edit_fits.2.2.2.1, by unfold InOrder; decide +kernel, by simp [demoRaws]⟩
  match j, hj with
  | 1, _ => rfl
  | 2, _ => rfl
  | 3, _ => rfl
  | 4, _ => rfl
  | j + 5, _ => rfl

/-- An answer whose mapping is kept is the same; where a mapping was left out the next one is found. With the last mapping of a
line left out `original_position_for` answers where it did not. -/
theorem C141_case : demoAsk demoMap (fun c => c.originalPositionFor ⟨1, 33⟩ (some .lub)) =
      .ok (some ⟨⟨2, 1⟩, some ⟨1, 1⟩, some "two.js", none, none⟩) ∧
    demoAsk demoThin (fun c => c.originalPositionFor ⟨1, 33⟩ (some .lub)) =
      .ok (some ⟨⟨2, 1⟩, some ⟨1, 1⟩, some "two.js", none, none⟩) ∧
    demoAsk demoMap (fun c => c.generatedPositionFor "one.js" 2 3 (some .lub)) =
      .ok (some ⟨⟨1, 21⟩, some ⟨1, 3⟩, some "one.js", some "bar", none⟩) ∧
    demoAsk demoThin (fun c => c.generatedPositionFor "one.js" 2 3 (some .lub)) =
      .ok (some ⟨⟨1, 28⟩, some ⟨1, 10⟩, some "one.js", some "bar", none⟩) ∧
    demoAsk demoMap (fun c => c.generatedPositionFor "one.js" 2 10 (some .lub)) =
      demoAsk demoThin (fun c => c.generatedPositionFor "one.js" 2 10 (some .lub)) ∧
    demoAsk demoMap (fun c => c.generatedPositionFor "one.js" 2 15 (some .lub)) = .ok none ∧
    demoAsk demoThin (fun c => c.generatedPositionFor "one.js" 2 15 (some .lub)) = .ok none ∧
    demoAsk demoMap (fun c => c.originalPositionFor ⟨1, 29⟩ (some .lub)) = .ok none ∧
    demoAsk demoShort (fun c => c.originalPositionFor ⟨1, 29⟩ (some .lub)) =
      .ok (some ⟨⟨2, 1⟩, some ⟨1, 1⟩, some "two.js", none, none⟩) := by
  refine ⟨?_, ?_, ?_, ?_, ?_, ?_, ?_, ?_, ?_⟩ <;> decide +kernel

end RSM
