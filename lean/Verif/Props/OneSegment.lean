import Verif.Props.JoinedText
/-! # Property C133: what one more mapping changes in the emitted mappings -/

namespace RSM
open Spec

/-- What takes back the numbers of a segment. -/
def takeBack : List Int → Change
  | [a, s, l, c, n] => ⟨-a, -s, -l, -c, -n⟩
  | [a, s, l, c] => ⟨-a, -s, -l, -c, 0⟩
  | [a] => ⟨-a, 0, 0, 0, 0⟩
  | _ => ⟨0, 0, 0, 0, 0⟩

theorem changeOf_next {S N : String → Int} {st : SerState} {m : Mapping} (h : m.generated.line = st.generatedLine) :
    changeOf (0, 0) 0 0 st (st.next S N m) = takeBack (segNumbers S N st m) := by
  unfold segNumbers
  rw [if_pos h]
  simp only [changeOf, SerState.next, carry]
  cases m.source with
  | none => (simp [takeBack]; omega)
  | some s =>
    cases m.original with
    | none => (simp [takeBack]; omega)
    | some o =>
      cases m.name with
      | none => (simp [takeBack]; omega)
      | some n => (simp [takeBack]; omega)

theorem segNumbers_length (S N : String → Int) (st : SerState) (m : Mapping) :
    (segNumbers S N st m).length = 1 ∨ (segNumbers S N st m).length = 4 ∨ (segNumbers S N st m).length = 5 := by
  simp only [segNumbers]
  cases m.source <;> cases m.original <;> cases m.name <;> simp

theorem segList_length (S N : String → Int) : ∀ (ms : List Mapping) (st : SerState) (b : Bool),
    (segList S N st b ms).length = ms.length := by
  intro ms
  induction ms with
  | nil => intro st b; rfl
  | cons m ms ih => intro st b; simp only [segList, List.length_cons, ih]

theorem enter_line (l : Int) (st : SerState) : (st.enter l).generatedLine = l := by
  unfold SerState.enter
  split
  · assumption
  · rfl

/-- One segment among others. -/
theorem segList_one_more {S N : String → Int} {X Y : List Mapping} {m : Mapping} (h : (X ++ m :: Y).Pairwise posLT)
    (h1 : ∀ x ∈ X ++ m :: Y, 1 ≤ x.generated.line) {last : Option Position} (hlast : X.getLast?.map Mapping.generated = last)
    {next : Bool} (hnext : next = true ↔ ∃ y ∈ Y, y.generated.line = m.generated.line) :
    ∃ (qs ps : List (Text × List Int)) (ns : List Int), Segments qs ∧ Segments ps ∧ qs.length = X.length ∧ ps.length = Y.length ∧
      (ns.length = 1 ∨ ns.length = 4 ∨ ns.length = 5) ∧
      segText (segList S N SerState.init false (X ++ Y)) =
        segText qs ++ (if ps = [] then [] else joinText ((m.generated.line - 1).toNat, 0) last next) ++ segText ps ∧
      segText (segList S N SerState.init false (X ++ m :: Y)) =
        segText qs ++ joinText ((m.generated.line - 1).toNat, 0) last true ++ segText [([], ns)] ++
          (if next then [','] else []) ++ segText (change (takeBack ns) ps) := by
  obtain ⟨hX, hmY, hXmY⟩ := List.pairwise_append.1 h
  obtain ⟨hmy, hY⟩ := List.pairwise_cons.1 hmY
  have hXl : ∀ x ∈ X, x.generated.line ≤ m.generated.line := by
    intro x hx
    have := (hXmY x hx m (by simp)).1
    unfold posLE at this
    omega
  have hYl : ∀ y ∈ Y, m.generated.line ≤ y.generated.line := by
    intro y hy
    have := (hmy y hy).1
    unfold posLE at this
    omega
  have hm1 := h1 m (by simp)
  have h1X : ∀ x ∈ X, SerState.init.generatedLine ≤ x.generated.line := fun x hx => h1 x (by simp [hx])
  obtain ⟨st, hst⟩ : ∃ st, st = X.foldl (SerState.next S N) SerState.init := ⟨_, rfl⟩
  have hlin : st.generatedLine = (last.getD ⟨1, 0⟩).line := by
    rw [hst, next_fold, ← hlast]
    cases X.getLast? <;> rfl
  have hle : st.generatedLine ≤ m.generated.line := by
    rw [hlin, ← hlast]
    cases hq : X.getLast? with
    | none => exact hm1
    | some x => exact hXl x (List.mem_of_getLast? hq)
  have hsome : (false || !X.isEmpty) = last.isSome := by
    rw [← hlast]
    cases X with
    | nil => rfl
    | cons x xs => simp
  have he : (((m.generated.line - 1).toNat : Nat) : Int) + 1 = m.generated.line := by omega
  have hbnd : ∀ y ∈ Y, (st.enter m.generated.line).generatedLine ≤ y.generated.line := fun y hy => by
    rw [enter_line]; exact hYl y hy
  refine ⟨segList S N SerState.init false X, segList S N (st.enter m.generated.line) false Y,
    segNumbers S N (st.enter m.generated.line) m, (segList_segments hX h1X).1,
    (segList_segments hY hbnd).1, segList_length .., segList_length .., segNumbers_length .., ?_, ?_⟩
  · rw [segList_append, segText_append, ← hst, hsome, List.append_assoc]
    congr 1
    cases Y with
    | nil => rfl
    | cons y Y =>
      rw [if_neg (by simp [segList]), segList_enter hle (hYl y (by simp))]
      congr 1
      unfold joinText
      rw [he, ← hlin]
      have hn : next = true ↔ y.generated.line = m.generated.line := by
        rw [hnext]
        constructor
        · rintro ⟨z, hz, hzl⟩
          rcases List.mem_cons.1 hz with rfl | hz
          · exact hzl
          · have := ((List.pairwise_cons.1 hY).1 z hz).1
            have := hYl y (by simp)
            unfold posLE at *
            omega
        · intro h
          exact ⟨y, by simp, h⟩
      by_cases hs : st.generatedLine = m.generated.line
      · rw [if_pos hs, if_pos hs]
        cases last.isSome <;> cases hx : next <;> simp [← hn, hx]
      · rw [if_neg hs, if_neg hs]
  · rw [segList_append, segText_append, ← hst, hsome, segList_enter hle (Int.le_refl _)]
    simp only [List.append_assoc]
    congr 1
    congr 1
    · unfold joinText
      rw [he, ← hlin]
      cases last.isSome <;> simp
    · have hb : segBefore (st.enter m.generated.line) false m = [] := by
        simp [segBefore, enter_line]
      simp only [segList, hb]
      rw [segText, List.flatMap_cons, ← segText]
      have hsing : ∀ p : Text × List Int, segText [p] = p.1 ++ p.2.flatMap vlqText := by
        intro p
        simp [segText]
      rw [hsing]
      congr 1
      have hch := changeOf_next (S := S) (N := N) (m := m) (enter_line m.generated.line st).symm
      rw [← hch]
      have hafter := segList_after (e := (0, 0)) (kS := 0) (kN := 0) (S := S) (N := N) (S' := S) (N' := N)
        (st := st.enter m.generated.line) (st' := (st.enter m.generated.line).next S N m) (b := false) hY
        (fun _ _ _ _ => by simp) (fun _ _ _ _ => by simp) (by rw [enter_line]; exact hm1) hbnd (by
          rw [enter_line]
          simp [SerState.next])
      have e : Y.map (Mapping.after (0, 0)) = Y := by
        rw [List.map_congr_left (g := id) fun m _ => Mapping.after_zero m, List.map_id]
      rw [e] at hafter
      rw [← hafter]
      cases Y with
      | nil =>
        have : next = false := by
          cases next with
          | false => rfl
          | true => obtain ⟨y, hy, _⟩ := hnext.1 rfl; cases hy
        rw [this]
        rfl
      | cons y Y =>
        have hy := hYl y (by simp)
        have hen : ((st.enter m.generated.line).next S N m).enter m.generated.line = (st.enter m.generated.line).next S N m := by
          generalize hq : (st.enter m.generated.line).next S N m = st'
          have : st'.generatedLine = m.generated.line := by rw [← hq]; rfl
          unfold SerState.enter
          rw [if_pos this]
        rw [segList_enter (l := m.generated.line) (Int.le_refl _) hy, hen]
        congr 1
        rw [if_pos (show ((st.enter m.generated.line).next S N m).generatedLine = m.generated.line from rfl)]
        have hn : next = true ↔ y.generated.line = m.generated.line := by
          rw [hnext]
          constructor
          · rintro ⟨z, hz, hzl⟩
            rcases List.mem_cons.1 hz with rfl | hz
            · exact hzl
            · have := ((List.pairwise_cons.1 hY).1 z hz).1
              unfold posLE at *
              omega
          · intro h
            exact ⟨y, by simp, h⟩
        cases hx : next <;> simp [← hn, hx]

theorem length_of_same {L : List Mapping} (h : L.Pairwise posLT) {P : List Position} (hP : P.Nodup)
    (hm : ∀ p, p ∈ P ↔ ∃ x ∈ L, x.generated = p) : L.length = P.length := by
  have hn : (L.map Mapping.generated).Nodup := List.pairwise_map.2 (h.imp fun hlt => hlt.2)
  rw [← List.length_map (f := Mapping.generated)]
  refine ((List.perm_ext_iff_of_nodup hn hP).2 fun p => ?_).length_eq
  rw [hm, List.mem_map]

/-- C133: let two generators be given the same mappings, in any order and as often as one likes, with other calls between, except
that the first is given one more, at a position where there is none yet, and let the sources and names of the others have the
same numbers in both. Then the mappings emitted by the first are those emitted by the second with one more segment, after as
many segments as there are mappings before it, and with at most five numbers of the following segments changed: each number of
the new segment is taken off the next number of its kind (the column only on the same line). -/
theorem C133_one_segment (U U' : UrlLib) (cfg : Cfg) {file root file' root' : Option String} {skip skip' : Bool}
    {w w' : List GOp} {g g' g₁ g₁' : Generator} {j j' : SourceMapJson} {m : Mapping}
    (hf : Fine cfg (gAdded w)) (hf' : Fine cfg (gAdded w'))
    (hsame : ∀ x, x ∈ (gAdded w).map Mapping.bare ↔ x ∈ (gAdded w').map Mapping.bare ∨ x = m.bare)
    (hnew : ∀ x ∈ gAdded w', x.generated ≠ m.generated)
    (hS : ∀ s ∈ (gAdded w').filterMap Mapping.source, (firstOccurrences ((gAdded w).filterMap Mapping.source)).idxOf s =
      (firstOccurrences ((gAdded w').filterMap Mapping.source)).idxOf s)
    (hN : ∀ s ∈ (gAdded w').filterMap Mapping.name, (firstOccurrences ((gAdded w).filterMap Mapping.name)).idxOf s =
      (firstOccurrences ((gAdded w').filterMap Mapping.name)).idxOf s)
    {last : Option Position} (hlast : LastOf (gAdded w') (fun x => if posLE x m then some x.generated else none) last)
    {next : Bool} (hnext : next = true ↔ ∃ x ∈ gAdded w', posLE m x ∧ x.generated.line = m.generated.line)
    {before after : List Position} (hb : before.Nodup) (ha : after.Nodup)
    (hbefore : ∀ p, p ∈ before ↔ ∃ x ∈ gAdded w', posLE x m ∧ x.generated = p)
    (hafter : ∀ p, p ∈ after ↔ ∃ x ∈ gAdded w', posLE m x ∧ x.generated = p)
    (hg : (Generator.new file root skip).run U cfg w = .ok g) (hj : g.asJson U cfg = .ok (j, g₁))
    (hg' : (Generator.new file' root' skip').run U' cfg w' = .ok g') (hj' : g'.asJson U' cfg = .ok (j', g₁')) :
    ∃ (qs ps : List (Text × List Int)) (ns : List Int), Segments qs ∧ Segments ps ∧ qs.length = before.length ∧
      ps.length = after.length ∧ (ns.length = 1 ∨ ns.length = 4 ∨ ns.length = 5) ∧
      j'.mappings = some (String.ofList (segText qs ++
        (if ps = [] then [] else joinText ((m.generated.line - 1).toNat, 0) last next) ++ segText ps)) ∧
      j.mappings = some (String.ofList (segText qs ++ joinText ((m.generated.line - 1).toNat, 0) last true ++
        segText [([], ns)] ++ (if next then [','] else []) ++ segText (change (takeBack ns) ps))) := by
  obtain ⟨L, t, et, sl, ml, ll⟩ := written_list hf.onePer hg hj
  obtain ⟨L', t', et', sl', ml', ll'⟩ := written_list hf'.onePer hg' hj'
  have hT := written_segments hf sl ml ll
  have hT' := written_segments hf' sl' ml' ll'
  have key : ∀ x, x ∈ L ↔ x ∈ L' ∨ x = m.bare := by
    intro x
    have := hsame x
    simp only [List.mem_map] at this
    rw [ml, ml', this]
  obtain ⟨X, Y, rfl⟩ := List.append_of_mem ((key m.bare).2 (.inr rfl))
  obtain ⟨hX, hmY, hXmY⟩ := List.pairwise_append.1 sl
  obtain ⟨hmy, hY⟩ := List.pairwise_cons.1 hmY
  have hxm : ∀ x ∈ X, posLT x m.bare := fun x hx => hXmY x hx m.bare (by simp)
  have hL' : L' = X ++ Y := by
    refine sorted_ext sl' (List.pairwise_append.2 ⟨hX, hY, fun x hx y hy => hXmY x hx y (by simp [hy])⟩) fun x => ?_
    have hk := key x
    rw [List.mem_append, List.mem_cons] at hk
    rw [List.mem_append]
    constructor
    · intro h
      rcases hk.2 (.inl h) with h1 | rfl | h1
      · exact .inl h1
      · obtain ⟨y, hy, hym⟩ := (ml' _).1 h
        exact absurd (congrArg Mapping.generated hym) (hnew y hy)
      · exact .inr h1
    · rintro (h | h)
      · rcases hk.1 (.inl h) with h1 | rfl
        · exact h1
        · exact absurd rfl (hxm _ h).2
      · rcases hk.1 (.inr (.inr h)) with h1 | rfl
        · exact h1
        · exact absurd rfl (hmy _ h).2
  subst hL'
  have line1 : ∀ x ∈ X ++ m.bare :: Y, 1 ≤ x.generated.line := by
    intro x hx
    obtain ⟨z, hz, rfl⟩ := (ml x).1 hx
    exact (hf.enc z hz).line.1
  have notle : ∀ {x y : Mapping}, posLT x y → ¬ posLE y x := by
    intro x y h h'
    exact h.2 (posLE.antisymm h.1 h')
  have memX : ∀ x, x ∈ X ↔ x ∈ X ++ Y ∧ posLE x m := by
    intro x
    constructor
    · intro h
      exact ⟨by simp [h], (hxm x h).1⟩
    · rintro ⟨h, hle⟩
      rcases List.mem_append.1 h with h | h
      · exact h
      · exact absurd hle (notle (hmy x h))
  have memY : ∀ x, x ∈ Y ↔ x ∈ X ++ Y ∧ posLE m x := by
    intro x
    constructor
    · intro h
      exact ⟨by simp [h], (hmy x h).1⟩
    · rintro ⟨h, hle⟩
      rcases List.mem_append.1 h with h | h
      · exact absurd hle (notle (hxm x h))
      · exact h
  have hl : X.getLast?.map Mapping.generated = last := by
    have hq := hlast.list (fun _ => rfl) ml' sl'
    rw [List.reverse_append, List.findSome?_append] at hq
    have h0 : Y.reverse.findSome? (fun x => if posLE x m then some x.generated else none) = none := by
      rw [List.findSome?_eq_none_iff]
      intro x hx
      have : ¬ posLE x m := notle (hmy x (List.mem_reverse.1 hx))
      rw [if_neg this]
    rw [h0, Option.none_or] at hq
    rw [← hq, List.getLast?_eq_head?_reverse]
    cases hr : X.reverse with
    | nil => rfl
    | cons x xs =>
      have hx : x ∈ X := by
        rw [← List.mem_reverse, hr]
        simp
      have hxle : posLE x m := (hxm x hx).1
      rw [List.findSome?_cons, if_pos hxle]
      rfl
  have hn : next = true ↔ ∃ y ∈ Y, y.generated.line = m.bare.generated.line := by
    rw [hnext]
    constructor
    · rintro ⟨x, hx, h1, h2⟩
      exact ⟨x.bare, (memY _).2 ⟨(ml' _).2 ⟨x, hx, rfl⟩, h1⟩, h2⟩
    · rintro ⟨y, hy, h2⟩
      obtain ⟨h3, h4⟩ := (memY y).1 hy
      obtain ⟨x, hx, rfl⟩ := (ml' y).1 h3
      exact ⟨x, hx, h4, h2⟩
  obtain ⟨qs, ps, ns, h1, h2, h3, h4, h5, h6, h7⟩ := segList_one_more
    (S := fun s => ((firstOccurrences ((gAdded w).filterMap Mapping.source)).idxOf s : Int))
    (N := fun s => ((firstOccurrences ((gAdded w).filterMap Mapping.name)).idxOf s : Int)) sl line1 hl hn
  refine ⟨qs, ps, ns, h1, h2, ?_, ?_, h5, ?_, ?_⟩
  · rw [h3]
    refine length_of_same hX hb fun p => ?_
    rw [hbefore]
    constructor
    · rintro ⟨x, hx, hle, rfl⟩
      exact ⟨x.bare, (memX _).2 ⟨(ml' _).2 ⟨x, hx, rfl⟩, hle⟩, rfl⟩
    · rintro ⟨y, hy, rfl⟩
      obtain ⟨h8, h9⟩ := (memX y).1 hy
      obtain ⟨x, hx, rfl⟩ := (ml' y).1 h8
      exact ⟨x, hx, h9, rfl⟩
  · rw [h4]
    refine length_of_same hY ha fun p => ?_
    rw [hafter]
    constructor
    · rintro ⟨x, hx, hle, rfl⟩
      exact ⟨x.bare, (memY _).2 ⟨(ml' _).2 ⟨x, hx, rfl⟩, hle⟩, rfl⟩
    · rintro ⟨y, hy, rfl⟩
      obtain ⟨h8, h9⟩ := (memY y).1 hy
      obtain ⟨x, hx, rfl⟩ := (ml' y).1 h8
      exact ⟨x, hx, h9, rfl⟩
  · have hsrc : ∀ x ∈ X ++ Y, ∀ s, x.source = some s → s ∈ (gAdded w').filterMap Mapping.source := by
      intro x hx s hs
      obtain ⟨z, hz, rfl⟩ := (ml' x).1 hx
      exact List.mem_filterMap.2 ⟨z, hz, hs⟩
    have hnam : ∀ x ∈ X ++ Y, ∀ s, x.name = some s → s ∈ (gAdded w').filterMap Mapping.name := by
      intro x hx s hs
      obtain ⟨z, hz, rfl⟩ := (ml' x).1 hx
      exact List.mem_filterMap.2 ⟨z, hz, hs⟩
    rw [et', hT', ← segList_congr (S' := fun s => ((firstOccurrences ((gAdded w).filterMap Mapping.source)).idxOf s : Int))
      (N' := fun s => ((firstOccurrences ((gAdded w).filterMap Mapping.name)).idxOf s : Int)) sl'
      (fun x hx s hs => by rw [hS s (hsrc x hx s hs)]) (fun x hx s hs => by rw [hN s (hnam x hx s hs)])
      (by decide) (fun x hx => line1 x (by
        rcases List.mem_append.1 hx with h | h <;> simp [h])), h6]
    rfl
  · rw [et, hT, h7]
    rfl

theorem idxOf_front {l l' : List String} {s : String} (h : s ∈ l) :
    (firstOccurrences (l ++ l')).idxOf s = (firstOccurrences l).idxOf s := by
  obtain ⟨r, hr⟩ := tableOf_prefix l l'
  rw [tableOf_array, tableOf_array] at hr
  rw [← hr, List.idxOf_append, if_pos ((mem_firstOccurrences l s).2 h)]

theorem Fine.front {cfg : Cfg} {a b : List Mapping} (h : Fine cfg (a ++ b)) : Fine cfg a := by
  have len : ∀ l l' : List String, (firstOccurrences l).length ≤ (firstOccurrences (l ++ l')).length := by
    intro l l'
    have := (tableOf_prefix l l').length_le
    rwa [tableOf_array, tableOf_array] at this
  have h1 := h.sources
  have h2 := h.names
  rw [List.filterMap_append] at h1 h2
  exact ⟨fun m hm => h.enc m (by simp [hm]), fun x hx y hy => h.one x (by simp [hx]) y (by simp [hy]),
    Nat.lt_of_le_of_lt (len _ _) h1, Nat.lt_of_le_of_lt (len _ _) h2⟩

/-- C133, of a mapping added after all the others: nothing need be asked of the numbers of sources and names. -/
theorem C133_added (U : UrlLib) (cfg : Cfg) {file root : Option String} {skip : Bool}
    {w : List GOp} {g g' g₁ g₁' : Generator} {j j' : SourceMapJson} {m : Mapping}
    (hf : Fine cfg (gAdded (w ++ [.add m]))) (hnew : ∀ x ∈ gAdded w, x.generated ≠ m.generated)
    {last : Option Position} (hlast : LastOf (gAdded w) (fun x => if posLE x m then some x.generated else none) last)
    {next : Bool} (hnext : next = true ↔ ∃ x ∈ gAdded w, posLE m x ∧ x.generated.line = m.generated.line)
    {before after : List Position} (hb : before.Nodup) (ha : after.Nodup)
    (hbefore : ∀ p, p ∈ before ↔ ∃ x ∈ gAdded w, posLE x m ∧ x.generated = p)
    (hafter : ∀ p, p ∈ after ↔ ∃ x ∈ gAdded w, posLE m x ∧ x.generated = p)
    (hg' : (Generator.new file root skip).run U cfg w = .ok g') (hj' : g'.asJson U cfg = .ok (j', g₁'))
    (hg : (Generator.new file root skip).run U cfg (w ++ [.add m]) = .ok g) (hj : g.asJson U cfg = .ok (j, g₁)) :
    ∃ (qs ps : List (Text × List Int)) (ns : List Int), Segments qs ∧ Segments ps ∧ qs.length = before.length ∧
      ps.length = after.length ∧ (ns.length = 1 ∨ ns.length = 4 ∨ ns.length = 5) ∧
      j'.mappings = some (String.ofList (segText qs ++
        (if ps = [] then [] else joinText ((m.generated.line - 1).toNat, 0) last next) ++ segText ps)) ∧
      j.mappings = some (String.ofList (segText qs ++ joinText ((m.generated.line - 1).toNat, 0) last true ++
        segText [([], ns)] ++ (if next then [','] else []) ++ segText (change (takeBack ns) ps))) := by
  have e : gAdded (w ++ [.add m]) = gAdded w ++ [m] := by rw [gAdded_append]; rfl
  have hf' : Fine cfg (gAdded w) := by
    rw [e] at hf
    exact hf.front
  refine C133_one_segment U U cfg hf hf' (fun x => by rw [e]; simp) hnew (fun s hs => ?_) (fun s hs => ?_) hlast hnext hb ha hbefore
    hafter hg hj hg' hj'
  · rw [e, List.filterMap_append]
    exact idxOf_front hs
  · rw [e, List.filterMap_append]
    exact idxOf_front hs

/-! ## A case: the mappings of C118, and one more on the second line -/

/-- The segments before the new one and those after it. -/
def segsBefore : List (Text × List Int) := [([], [0, 0, 0, 0, 0]), ([';'], [4, 1, 2, 2])]
def segsAfter : List (Text × List Int) := [([';'], [1, -1, 1, 0]), ([';'], [2, 1, 1, -2, 0])]

/-- One more segment, and of the segment after it three numbers change (not the column, which is on another line). -/
theorem C133_case : joinedWritten [lineA, lineB, lineC, lineD] = some ("AAAAA;ICEE" ++ ";CDCA;ECCFA").toList ∧
    joinedWritten [lineA, lineB, lineX, lineC, lineD] = some ("AAAAA;ICEE" ++ "," ++ "KDKD" ++ ";CAJC;ECCFA").toList ∧
    segText segsBefore = "AAAAA;ICEE".toList ∧ segText segsAfter = ";CDCA;ECCFA".toList ∧
    segText [([], [5, -1, 5, -1])] = "KDKD".toList ∧ takeBack [5, -1, 5, -1] = ⟨-5, 1, -5, 1, 0⟩ ∧
    segText (change ⟨-5, 1, -5, 1, 0⟩ segsAfter) = ";CAJC;ECCFA".toList ∧
    joinText (1, 0) (some ⟨2, 4⟩) false = [] ∧ joinText (1, 0) (some ⟨2, 4⟩) true = [','] := by
  refine ⟨?_, ?_, ?_, ?_, ?_, ?_, ?_, ?_, ?_⟩ <;> decide +kernel

/-- The hypotheses hold of it. -/
theorem one_more_fits : Fine ⟨true, true⟩ ([lineA, lineB, lineC, lineD] ++ [lineX]) ∧
    Fine ⟨true, true⟩ [lineA, lineB, lineC, lineD] ∧
    Fine ⟨true, true⟩ [lineA, lineB, lineX, lineC, lineD] ∧ (∀ x ∈ [lineA, lineB, lineC, lineD], x.generated ≠ lineX.generated) ∧
    LastOf [lineA, lineB, lineC, lineD] (fun x => if posLE x lineX then some x.generated else none) (some ⟨2, 4⟩) ∧
    (¬ ∃ x ∈ [lineA, lineB, lineC, lineD], posLE lineX x ∧ x.generated.line = lineX.generated.line) := by
  have henc : ∀ m ∈ [lineA, lineB, lineC, lineD, lineX], m.Encodable ⟨true, true⟩ := by
    intro m hm
    simp only [List.mem_cons, List.not_mem_nil, or_false] at hm
    rcases hm with rfl | rfl | rfl | rfl | rfl <;>
      exact ⟨by decide, by decide, rfl, by simp [Cfg.vlqLimit, lineA, lineB, lineC, lineD, lineX],
        by simp [lineA, lineB, lineC, lineD, lineX]⟩
  have hf : Fine ⟨true, true⟩ ([lineA, lineB, lineC, lineD] ++ [lineX]) := ⟨henc, by decide, by decide, by decide⟩
  refine ⟨hf, hf.front, ⟨fun m hm => henc m (by
      simp only [List.mem_cons, List.not_mem_nil, or_false] at hm ⊢
      tauto), by decide, by decide, by decide⟩, by decide, ?_, by decide⟩
  unfold LastOf
  decide

end RSM
