import Verif.Props.OneSegment
/-! # Property C134: what changing one mapping changes in the emitted mappings -/

namespace RSM
open Spec

theorem next_congr {S N S' N' : String → Int} {st : SerState} {m : Mapping} (hS : ∀ s, m.source = some s → S' s = S s)
    (hN : ∀ s, m.name = some s → N' s = N s) : st.next S' N' m = st.next S N m := by
  unfold SerState.next carry
  cases hs : m.source with
  | none => rfl
  | some s =>
    cases m.original with
    | none => rfl
    | some o =>
      cases hn : m.name with
      | none => simp only [hS s hs]
      | some n => simp only [hS s hs, hN n hn]

theorem fold_congr {S N S' N' : String → Int} : ∀ {ms : List Mapping} {st : SerState},
    (∀ m ∈ ms, ∀ s, m.source = some s → S' s = S s) → (∀ m ∈ ms, ∀ s, m.name = some s → N' s = N s) →
    ms.foldl (SerState.next S' N') st = ms.foldl (SerState.next S N) st := by
  intro ms
  induction ms with
  | nil => intro st _ _; rfl
  | cons m ms ih =>
    intro st hS hN
    rw [List.foldl_cons, List.foldl_cons, next_congr (hS m (by simp)) (hN m (by simp)),
      ih (fun x hx => hS x (by simp [hx])) (fun x hx => hN x (by simp [hx]))]

theorem segNumbers_enter {S N : String → Int} {st : SerState} {m : Mapping} :
    segNumbers S N (st.enter m.generated.line) m = segNumbers S N st m := by
  unfold SerState.enter
  split
  · rfl
  · rename_i h
    have h' : ¬ m.generated.line = st.generatedLine := fun e => h e.symm
    simp only [segNumbers, lineStart, if_true, h', if_false]

theorem next_enter {S N : String → Int} {st : SerState} {m : Mapping} :
    (st.enter m.generated.line).next S N m = st.next S N m := by
  unfold SerState.enter
  split
  · rfl
  · unfold SerState.next lineStart
    rw [carry_place]

/-- The segments of mappings of which one is singled out. -/
theorem segList_around {S N : String → Int} {X Y : List Mapping} {m : Mapping} (h : (X ++ m :: Y).Pairwise posLT)
    (h1 : 1 ≤ m.generated.line) {st : SerState} (hst : st = X.foldl (SerState.next S N) SerState.init) :
    segList S N SerState.init false (X ++ m :: Y) =
      segList S N SerState.init false X ++ (segBefore st (!X.isEmpty) m, segNumbers S N st m) ::
        change (takeBack (segNumbers S N st m)) (segList S N (st.enter m.generated.line) true Y) := by
  obtain ⟨hX, hmY, hXmY⟩ := List.pairwise_append.1 h
  obtain ⟨hmy, hY⟩ := List.pairwise_cons.1 hmY
  have hYl : ∀ y ∈ Y, m.generated.line ≤ y.generated.line := by
    intro y hy
    have := (hmy y hy).1
    unfold posLE at this
    omega
  rw [segList_append, ← hst]
  congr 1
  simp only [segList, Bool.false_or]
  congr 1
  have hafter := segList_after (e := (0, 0)) (kS := 0) (kN := 0) (S := S) (N := N) (S' := S) (N' := N)
    (st := st.enter m.generated.line) (st' := (st.enter m.generated.line).next S N m) (b := true) hY
    (fun _ _ _ _ => by simp) (fun _ _ _ _ => by simp) (by rw [enter_line]; exact h1)
    (fun y hy => by rw [enter_line]; exact hYl y hy) (by
      rw [enter_line]
      simp [SerState.next])
  have e : Y.map (Mapping.after (0, 0)) = Y := by
    rw [List.map_congr_left (g := id) fun m _ => Mapping.after_zero m, List.map_id]
  rw [e, changeOf_next (enter_line m.generated.line st).symm, segNumbers_enter, next_enter] at hafter
  exact hafter

/-- C134: let two generators be given the same mappings, in any order and as often as one likes, with other calls between,
except that one mapping is another in the first than in the second, at the same generated position, and let the sources and
names of the others have the same numbers in both. Then the mappings emitted by the two have the same segments with the same
commas and semicolons: `qs` before that of this mapping, and `ps`, with the numbers of this mapping taken back in the next
number of each kind, after it. They differ in the numbers of the segment of this mapping apart from the column, and in at
most four numbers after it, none a column. If the two mappings have the same source, with the same number, and the same
original position, only the number of the name and the next number of a name can differ. -/
theorem C134_one_changed (U U' : UrlLib) (cfg : Cfg) {file root file' root' : Option String} {skip skip' : Bool}
    {w w' : List GOp} {g g' g₁ g₁' : Generator} {j j' : SourceMapJson} {m m' : Mapping} {rest : List Mapping}
    (hf : Fine cfg (gAdded w)) (hf' : Fine cfg (gAdded w'))
    (hw : ∀ x, x ∈ (gAdded w).map Mapping.bare ↔ x ∈ rest.map Mapping.bare ∨ x = m.bare)
    (hw' : ∀ x, x ∈ (gAdded w').map Mapping.bare ↔ x ∈ rest.map Mapping.bare ∨ x = m'.bare)
    (hpos : m.generated = m'.generated) (hnew : ∀ x ∈ rest, x.generated ≠ m.generated)
    (hS : ∀ s ∈ rest.filterMap Mapping.source, (firstOccurrences ((gAdded w').filterMap Mapping.source)).idxOf s =
      (firstOccurrences ((gAdded w).filterMap Mapping.source)).idxOf s)
    (hN : ∀ s ∈ rest.filterMap Mapping.name, (firstOccurrences ((gAdded w').filterMap Mapping.name)).idxOf s =
      (firstOccurrences ((gAdded w).filterMap Mapping.name)).idxOf s)
    {before after : List Position} (hb : before.Nodup) (ha : after.Nodup)
    (hbefore : ∀ p, p ∈ before ↔ ∃ x ∈ rest, posLE x m ∧ x.generated = p)
    (hafter : ∀ p, p ∈ after ↔ ∃ x ∈ rest, posLE m x ∧ x.generated = p)
    (hg : (Generator.new file root skip).run U cfg w = .ok g) (hj : g.asJson U cfg = .ok (j, g₁))
    (hg' : (Generator.new file' root' skip').run U' cfg w' = .ok g') (hj' : g'.asJson U' cfg = .ok (j', g₁')) :
    ∃ (qs ps : List (Text × List Int)) (sep : Text) (ns ns' : List Int),
      Segments (qs ++ (sep, ns) :: ps) ∧ Segments (qs ++ (sep, ns') :: ps) ∧
      qs.length = before.length ∧ ps.length = after.length ∧ ns.head? = ns'.head? ∧
      (m.source = m'.source → m.original = m'.original →
        (∀ s, m.source = some s → (firstOccurrences ((gAdded w').filterMap Mapping.source)).idxOf s =
          (firstOccurrences ((gAdded w).filterMap Mapping.source)).idxOf s) → ns.take 4 = ns'.take 4) ∧
      j.mappings = some (String.ofList (segText (qs ++ (sep, ns) :: change (takeBack ns) ps))) ∧
      j'.mappings = some (String.ofList (segText (qs ++ (sep, ns') :: change (takeBack ns') ps))) := by
  obtain ⟨L, t, et, sl, ml, ll⟩ := written_list hf.onePer hg hj
  obtain ⟨L', t', et', sl', ml', ll'⟩ := written_list hf'.onePer hg' hj'
  have hT := written_segments hf sl ml ll
  have hT' := written_segments hf' sl' ml' ll'
  have key : ∀ x, x ∈ L ↔ (∃ y ∈ rest, y.bare = x) ∨ x = m.bare := by
    intro x
    have := hw x
    simp only [List.mem_map] at this
    rw [ml, this]
  have key' : ∀ x, x ∈ L' ↔ (∃ y ∈ rest, y.bare = x) ∨ x = m'.bare := by
    intro x
    have := hw' x
    simp only [List.mem_map] at this
    rw [ml', this]
  obtain ⟨X, Y, rfl⟩ := List.append_of_mem ((key m.bare).2 (.inr rfl))
  obtain ⟨hX, hmY, hXmY⟩ := List.pairwise_append.1 sl
  obtain ⟨hmy, hY⟩ := List.pairwise_cons.1 hmY
  have hxm : ∀ x ∈ X, posLT x m.bare := fun x hx => hXmY x hx m.bare (by simp)
  have memXY : ∀ x, x ∈ X ∨ x ∈ Y ↔ ∃ y ∈ rest, y.bare = x := by
    intro x
    have hk := key x
    rw [List.mem_append, List.mem_cons] at hk
    constructor
    · rintro (h | h)
      · rcases hk.1 (.inl h) with h1 | rfl
        · exact h1
        · exact absurd rfl (hxm _ h).2
      · rcases hk.1 (.inr (.inr h)) with h1 | rfl
        · exact h1
        · exact absurd rfl (hmy _ h).2
    · intro h
      rcases hk.2 (.inl h) with h1 | rfl | h1
      · exact .inl h1
      · obtain ⟨y, hy, hym⟩ := h
        exact absurd (congrArg Mapping.generated hym) (hnew y hy)
      · exact .inr h1
  have hmm : m.bare.generated = m'.bare.generated := hpos
  have hL' : L' = X ++ m'.bare :: Y := by
    have tr : ∀ x, posLT x m.bare ↔ posLT x m'.bare := by
      intro x
      unfold posLT posLE
      rw [hmm]
    have tr' : ∀ x, posLT m.bare x ↔ posLT m'.bare x := by
      intro x
      unfold posLT posLE
      rw [hmm]
    refine sorted_ext sl' (List.pairwise_append.2 ⟨hX, List.pairwise_cons.2 ⟨fun y hy => (tr' y).1 (hmy y hy), hY⟩, ?_⟩) fun x => ?_
    · intro x hx y hy
      rcases List.mem_cons.1 hy with rfl | hy
      · exact (tr x).1 (hxm x hx)
      · exact hXmY x hx y (by simp [hy])
    · rw [key', ← memXY, List.mem_append, List.mem_cons]
      tauto
  subst hL'
  have line1 : 1 ≤ m.bare.generated.line := by
    obtain ⟨z, hz, e⟩ := (ml m.bare).1 (by simp)
    rw [← e]
    exact (hf.enc z hz).line.1
  have lineX : ∀ x ∈ X ++ m.bare :: Y, SerState.init.generatedLine ≤ x.generated.line := by
    intro x hx
    obtain ⟨z, hz, rfl⟩ := (ml x).1 hx
    exact (hf.enc z hz).line.1
  have lineX' : ∀ x ∈ X ++ m'.bare :: Y, SerState.init.generatedLine ≤ x.generated.line := by
    intro x hx
    obtain ⟨z, hz, rfl⟩ := (ml' x).1 hx
    exact (hf'.enc z hz).line.1
  have srcR : ∀ x, x ∈ X ∨ x ∈ Y → ∀ s, x.source = some s → s ∈ rest.filterMap Mapping.source := by
    intro x hx s hs
    obtain ⟨y, hy, rfl⟩ := (memXY x).1 hx
    exact List.mem_filterMap.2 ⟨y, hy, hs⟩
  have namR : ∀ x, x ∈ X ∨ x ∈ Y → ∀ s, x.name = some s → s ∈ rest.filterMap Mapping.name := by
    intro x hx s hs
    obtain ⟨y, hy, rfl⟩ := (memXY x).1 hx
    exact List.mem_filterMap.2 ⟨y, hy, hs⟩
  generalize eS : (fun s => ((firstOccurrences ((gAdded w).filterMap Mapping.source)).idxOf s : Int)) = S at hT
  generalize eN : (fun s => ((firstOccurrences ((gAdded w).filterMap Mapping.name)).idxOf s : Int)) = N at hT
  generalize eS' : (fun s => ((firstOccurrences ((gAdded w').filterMap Mapping.source)).idxOf s : Int)) = S' at hT'
  generalize eN' : (fun s => ((firstOccurrences ((gAdded w').filterMap Mapping.name)).idxOf s : Int)) = N' at hT'
  have cS : ∀ x, x ∈ X ∨ x ∈ Y → ∀ s, x.source = some s → S' s = S s := by
    intro x hx s hs
    rw [← eS, ← eS']
    simp only [hS s (srcR x hx s hs)]
  have cN : ∀ x, x ∈ X ∨ x ∈ Y → ∀ s, x.name = some s → N' s = N s := by
    intro x hx s hs
    rw [← eN, ← eN']
    simp only [hN s (namR x hx s hs)]
  obtain ⟨st, hst⟩ : ∃ st, st = X.foldl (SerState.next S N) SerState.init := ⟨_, rfl⟩
  have hst' : st = X.foldl (SerState.next S' N') SerState.init := by
    rw [hst]
    exact (fold_congr (fun x hx => cS x (.inl hx)) (fun x hx => cN x (.inl hx))).symm
  have a1 := segList_around sl line1 hst
  have a2 := segList_around sl' (by rw [← hmm]; exact line1) hst'
  have hYl : ∀ y ∈ Y, m.bare.generated.line ≤ y.generated.line := by
    intro y hy
    have := (hmy y hy).1
    unfold posLE at this
    omega
  have c1 : segList S' N' SerState.init false X = segList S N SerState.init false X :=
    segList_congr hX (fun x hx => cS x (.inl hx)) (fun x hx => cN x (.inl hx)) (by decide) (fun x hx => lineX x (by simp [hx]))
  have c2 : segList S' N' (st.enter m'.bare.generated.line) true Y = segList S N (st.enter m.bare.generated.line) true Y := by
    rw [← hmm]
    exact segList_congr hY (fun x hx => cS x (.inr hx)) (fun x hx => cN x (.inr hx)) (by rw [enter_line]; exact line1)
      (fun y hy => by rw [enter_line]; exact hYl y hy)
  have c3 : segBefore st (!X.isEmpty) m'.bare = segBefore st (!X.isEmpty) m.bare := by
    unfold segBefore
    rw [hmm]
  rw [c1, c2, c3] at a2
  have hps := (segList_segments (S := S) (N := N) (b := true) (st := st.enter m.bare.generated.line) hY (fun y hy => by rw [enter_line]; exact hYl y hy))
  have hall := (segList_segments (S := S) (N := N) (b := false) (st := SerState.init) sl lineX).1
  rw [a1] at hall
  have hsegs : ∀ ns : List Int, (ns.length = 1 ∨ ns.length = 4 ∨ ns.length = 5) →
      Segments (segList S N SerState.init false X ++ (segBefore st (!X.isEmpty) m.bare, ns) ::
        segList S N (st.enter m.bare.generated.line) true Y) := by
    intro ns hns
    have hq := (segList_segments (S := S) (N := N) (b := false) (st := SerState.init) hX (fun x hx => lineX x (by simp [hx]))).1
    refine ⟨?_, ?_, ?_⟩
    · intro p hp
      rcases List.mem_append.1 hp with hp | hp
      · exact hq.before p hp
      · rcases List.mem_cons.1 hp with rfl | hp
        · exact hall.before (segBefore st (!X.isEmpty) m.bare, segNumbers S N st m.bare) (by simp)
        · exact hps.1.before p hp
    · intro p hp
      cases hs : segList S N SerState.init false X with
      | nil =>
        rw [hs] at hp
        exact hps.2 rfl p hp
      | cons q qs =>
        rw [hs] at hp hall hq
        rcases List.mem_append.1 hp with hp | hp
        · exact hq.apart p hp
        · rcases List.mem_cons.1 hp with rfl | hp
          · exact hall.apart (segBefore st (!X.isEmpty) m.bare, segNumbers S N st m.bare) (by simp)
          · exact hps.2 rfl p hp
    · intro p hp
      rcases List.mem_append.1 hp with hp | hp
      · exact hq.numbers p hp
      · rcases List.mem_cons.1 hp with rfl | hp
        · exact hns
        · exact hps.1.numbers p hp
  have notle : ∀ {x y : Mapping}, posLT x y → ¬ posLE y x := by
    intro x y h h'
    exact h.2 (posLE.antisymm h.1 h')
  refine ⟨segList S N SerState.init false X, segList S N (st.enter m.bare.generated.line) true Y, segBefore st (!X.isEmpty) m.bare,
    segNumbers S N st m.bare, segNumbers S' N' st m'.bare, hsegs _ (segNumbers_length ..), hsegs _ (segNumbers_length ..),
    ?_, ?_, ?_, ?_, ?_, ?_⟩
  · rw [segList_length]
    refine length_of_same hX hb fun p => ?_
    rw [hbefore]
    constructor
    · rintro ⟨x, hx, hle, rfl⟩
      rcases (memXY x.bare).2 ⟨x, hx, rfl⟩ with h | h
      · exact ⟨x.bare, h, rfl⟩
      · have hle' : posLE x.bare m.bare := hle
        exact absurd hle' (notle (hmy x.bare h))
    · rintro ⟨y, hy, rfl⟩
      obtain ⟨x, hx, rfl⟩ := (memXY y).1 (.inl hy)
      exact ⟨x, hx, (hxm _ hy).1, rfl⟩
  · rw [segList_length]
    refine length_of_same hY ha fun p => ?_
    rw [hafter]
    constructor
    · rintro ⟨x, hx, hle, rfl⟩
      rcases (memXY x.bare).2 ⟨x, hx, rfl⟩ with h | h
      · have hle' : posLE m.bare x.bare := hle
        exact absurd hle' (notle (hxm x.bare h))
      · exact ⟨x.bare, h, rfl⟩
    · rintro ⟨y, hy, rfl⟩
      obtain ⟨x, hx, rfl⟩ := (memXY y).1 (.inr hy)
      exact ⟨x, hx, (hmy _ hy).1, rfl⟩
  · unfold segNumbers
    rw [hmm]
    rfl
  · intro es eo en
    have es' : m'.bare.source = m.bare.source := es.symm
    have eo' : m'.bare.original = m.bare.original := eo.symm
    have en' : ∀ s, m.bare.source = some s → S' s = S s := by
      intro s hs
      rw [← eS, ← eS']
      simp only [en s hs]
    unfold segNumbers
    rw [← hmm, es', eo']
    cases hs : m.bare.source with
    | none => rfl
    | some s =>
      cases m.bare.original with
      | none => rfl
      | some o =>
        simp only [en' s hs]
        cases m.bare.name <;> cases m'.bare.name <;> rfl
  · rw [et, hT, a1]
  · rw [et', hT', a2]

/-! ## A case: the mapping on the second line of C118 comes from elsewhere, or is given a name -/

/-- It comes from line 2, column 0, of the other source. -/
def lineB' : Mapping := { generated := ⟨2, 4⟩, original := some ⟨2, 0⟩, source := some "a.js" }

/-- It has a name. -/
def lineBN : Mapping := { lineB with name := some "new" }

/-- The segments after it, with nothing taken back. -/
def segsLater : List (Text × List Int) := [([';'], [1, 0, 3, 2]), ([';'], [2, 1, 1, -2, 0])]

/-- Three numbers of its segment and three of the next one differ; with a name, one of its segment and one of a later one. -/
theorem C134_case : joinedWritten [lineA, lineB, lineC, lineD] = some ("AAAAA" ++ ";" ++ "ICEE" ++ ";CDCA;ECCFA").toList ∧
    joinedWritten [lineA, lineB', lineC, lineD] = some ("AAAAA" ++ ";" ++ "IACA" ++ ";CAEE;ECCFA").toList ∧
    joinedWritten [lineA, lineBN, lineC, lineD] = some ("AAAAA" ++ ";" ++ "ICEEC" ++ ";CDCA;ECCFD").toList ∧
    segText [([], [4, 1, 2, 2])] = "ICEE".toList ∧ segText [([], [4, 0, 1, 0])] = "IACA".toList ∧
    segText [([], [4, 1, 2, 2, 1])] = "ICEEC".toList ∧
    segText (change (takeBack [4, 1, 2, 2]) segsLater) = ";CDCA;ECCFA".toList ∧
    segText (change (takeBack [4, 0, 1, 0]) segsLater) = ";CAEE;ECCFA".toList ∧
    segText (change (takeBack [4, 1, 2, 2, 1]) segsLater) = ";CDCA;ECCFD".toList := by
  refine ⟨?_, ?_, ?_, ?_, ?_, ?_, ?_, ?_, ?_⟩ <;> decide +kernel

/-- The hypotheses hold of it. -/
theorem one_changed_fits : Fine ⟨true, true⟩ [lineA, lineB, lineC, lineD] ∧ Fine ⟨true, true⟩ [lineA, lineB', lineC, lineD] ∧
    Fine ⟨true, true⟩ [lineA, lineBN, lineC, lineD] ∧
    lineB.generated = lineB'.generated ∧ lineB.generated = lineBN.generated ∧
    (∀ x ∈ [lineA, lineC, lineD], x.generated ≠ lineB.generated) ∧
    (∀ s ∈ [lineA, lineC, lineD].filterMap Mapping.source,
      (firstOccurrences ([lineA, lineB', lineC, lineD].filterMap Mapping.source)).idxOf s =
        (firstOccurrences ([lineA, lineB, lineC, lineD].filterMap Mapping.source)).idxOf s) ∧
    (∀ s ∈ [lineA, lineC, lineD].filterMap Mapping.name,
      (firstOccurrences ([lineA, lineBN, lineC, lineD].filterMap Mapping.name)).idxOf s =
        (firstOccurrences ([lineA, lineB, lineC, lineD].filterMap Mapping.name)).idxOf s) ∧
    lineB.source = lineBN.source ∧ lineB.original = lineBN.original := by
  have henc : ∀ m ∈ [lineA, lineB, lineB', lineBN, lineC, lineD], m.Encodable ⟨true, true⟩ := by
    intro m hm
    simp only [List.mem_cons, List.not_mem_nil, or_false] at hm
    rcases hm with rfl | rfl | rfl | rfl | rfl | rfl <;>
      exact ⟨by decide, by decide, rfl, by simp [Cfg.vlqLimit, lineA, lineB, lineB', lineBN, lineC, lineD],
        by simp [lineA, lineB, lineB', lineBN, lineC, lineD]⟩
  have fine : ∀ x ∈ [lineB, lineB', lineBN], ∀ m ∈ [lineA, x, lineC, lineD], m.Encodable ⟨true, true⟩ := by
    intro x hx m hm
    apply henc
    simp only [List.mem_cons, List.not_mem_nil, or_false] at hx hm ⊢
    rcases hm with rfl | rfl | rfl | rfl <;> tauto
  refine ⟨⟨fine _ (by simp), by decide, by decide, by decide⟩, ⟨fine _ (by simp), by decide, by decide, by decide⟩,
    ⟨fine _ (by simp), by decide, by decide, by decide⟩, ?_, ?_, ?_, ?_, ?_, ?_, ?_⟩ <;> decide

end RSM
