import Verif.Props.Canonical
import Verif.Props.Extend
import Verif.Props.Output
import Verif.Lemmas.LargeShape
/-! # Property C118: what a line of the emitted mappings depends on -/

namespace RSM
open Spec

/-- Line number `n`, counted from 0, of a text of mappings: what stands between the semicolons. -/
def mapLine : Nat → Text → Text
  | _, [] => []
  | 0, c :: t => if c = ';' then [] else c :: mapLine 0 t
  | n + 1, c :: t => if c = ';' then mapLine n t else mapLine (n + 1) t

theorem mapLine_nil (n : Nat) : mapLine n [] = [] := by cases n <;> rfl

theorem mapLine_digits {r : Text} : ∀ {t : Text}, ';' ∉ t → mapLine 0 (t ++ r) = t ++ mapLine 0 r ∧
    ∀ n, mapLine (n + 1) (t ++ r) = mapLine (n + 1) r := by
  intro t
  induction t with
  | nil => intro _; exact ⟨rfl, fun _ => rfl⟩
  | cons c t ih =>
    intro h
    have hc : c ≠ ';' := fun e => h (by simp [e])
    obtain ⟨h1, h2⟩ := ih fun hm => h (by simp [hm])
    refine ⟨?_, fun n => ?_⟩
    · rw [List.cons_append, mapLine, if_neg hc, h1]; rfl
    · rw [List.cons_append, mapLine, if_neg hc, h2]

theorem mapLine_semis (r : Text) : ∀ (k n : Nat), mapLine n (List.replicate k ';' ++ r) = if n < k then [] else mapLine (n - k) r := by
  intro k
  induction k with
  | zero => intro n; simp
  | succ k ih =>
    intro n
    rw [List.replicate_succ, List.cons_append]
    cases n with
    | zero => simp [mapLine]
    | succ n =>
      rw [mapLine, if_pos rfl, ih]
      by_cases h : n < k
      · rw [if_pos h, if_pos (by omega)]
      · rw [if_neg h, if_neg (by omega)]; congr 1; omega

/-- The number under which a string is known to the serialisation. -/
def numberIn (S : ArraySet) (s : String) : Int := wrap32 ((S.indexOf s).getD 0)

theorem numberIn_some {S : ArraySet} {s : String} {i : Nat} (h : S.indexOf s = some i) : numberIn S s = wrap32 i := by
  rw [numberIn, h, Option.getD_some]

/-- The running values that outlive a line, after a mapping. -/
def carry (S N : String → Int) (st : SerState) (m : Mapping) : SerState :=
  match m.source, m.original with
  | some s, some o =>
    { st with
      source := S s, originalLine := o.line - 1, originalColumn := o.column
      name := match m.name with | some n => N n | none => st.name }
  | _, _ => st

def lineStart (l : Int) (st : SerState) : SerState := { st with generatedColumn := 0, generatedLine := l }

theorem segmentText_carry {cfg : Cfg} {S N : ArraySet} {st st' : SerState} {m : Mapping} {t : Text} (hv : m.Valid)
    (h : segmentText cfg S N st m = .ok (t, st')) :
    st' = { carry (numberIn S) (numberIn N) st m with generatedColumn := m.generated.column } := by
  simp only [segmentText, Res.bind_eq_ok, Res.pure_eq, Except.ok.injEq, Prod.mk.injEq] at h
  obtain ⟨_, _, _, _, ⟨x, st1⟩, h2, _, rfl⟩ := h
  have hor := hv.orig
  unfold originalFields at h2
  unfold carry
  cases hs : m.source with
  | none =>
    rw [hs] at h2
    cases h2
    rfl
  | some s =>
    rw [hs] at h2 hor
    obtain ⟨o, ho⟩ := Option.isSome_iff_exists.1 hor
    have hr := hv.range o ho
    have ha : cfg.arith (o.line - 1) = .ok (o.line - 1) := cfg.arith_ok (by unfold IsI32; omega)
    simp only [ho, unwrap, Res.ok_bind, ha] at h2
    cases hi : S.indexOf s with
    | none => rw [hi] at h2; simp at h2
    | some i =>
      simp only [hi, Res.ok_bind, Res.bind_eq_ok, Res.pure_eq, Except.ok.injEq, Prod.mk.injEq] at h2
      obtain ⟨_, _, _, _, _, _, _, _, _, _, _, _, ⟨y, st2⟩, h3, _, rfl⟩ := h2
      unfold nameField at h3
      have ei := numberIn_some hi
      cases hn : m.name with
      | none =>
        rw [hn] at h3
        cases h3
        simp only [ho, ei]
      | some n =>
        rw [hn] at h3
        cases hk : N.indexOf n with
        | none => simp [hk, unwrap] at h3
        | some k =>
          simp only [hk, unwrap, Res.ok_bind, Res.bind_eq_ok, Res.pure_eq, Except.ok.injEq, Prod.mk.injEq] at h3
          obtain ⟨_, _, _, _, _, rfl⟩ := h3
          simp only [ho, ei, numberIn_some hk]

theorem carry_place (S N : String → Int) (st : SerState) (c l : Int) (m : Mapping) :
    carry S N { st with generatedColumn := c, generatedLine := l } m =
      { carry S N st m with generatedColumn := c, generatedLine := l } := by
  unfold carry; split <;> rfl

theorem carry_kept (S N : String → Int) (st : SerState) (m : Mapping) :
    (carry S N st m).generatedLine = st.generatedLine ∧ (carry S N st m).generatedColumn = st.generatedColumn := by
  unfold carry; split <;> exact ⟨rfl, rfl⟩

theorem lineStart_fold (S N : String → Int) (l : Int) : ∀ (ms : List Mapping) (st : SerState) (c l' : Int),
    lineStart l (ms.foldl (carry S N) { st with generatedColumn := c, generatedLine := l' }) =
      lineStart l (ms.foldl (carry S N) st) := by
  intro ms
  induction ms with
  | nil => intros; rfl
  | cons m ms ih => intro st c l'; rw [List.foldl_cons, carry_place, ih, List.foldl_cons]

/-- `a` is generated before `b`. -/
def posLT (a b : Mapping) : Prop := posLE a b ∧ a.generated ≠ b.generated

/-- The lines of the text that the loop writes, one by one. -/
theorem loop_lines (cfg : Cfg) (S N : ArraySet) : ∀ (ms : List Mapping) (st : SerState) (p : Option Mapping) (t : Text),
    ms.Pairwise posLT → (∀ m ∈ ms, m.Valid) → 1 ≤ st.generatedLine → (∀ m ∈ ms, st.generatedLine ≤ m.generated.line) →
    (∀ q, p = some q → q.Valid ∧ ∀ m ∈ ms, posLT q m) → serializeLoop cfg S N st p ms = .ok t →
    serializeLoop cfg S N st p (ms.filter fun m => m.generated.line = st.generatedLine) = .ok (mapLine 0 t) ∧
    ∀ n : Nat, serializeLoop cfg S N (lineStart (st.generatedLine + n + 1)
        ((ms.filter fun m => m.generated.line < st.generatedLine + n + 1).foldl (carry (numberIn S) (numberIn N)) st)) none
      (ms.filter fun m => m.generated.line = st.generatedLine + n + 1) = .ok (mapLine (n + 1) t) := by
  intro ms
  induction ms with
  | nil =>
    intro st p t _ _ _ _ _ h
    cases h
    exact ⟨rfl, fun n => rfl⟩
  | cons m ms ih =>
    intro st p t hpw hv h1 hge hp h
    have hpw' := List.pairwise_cons.1 hpw
    have hvm := hv m (by simp)
    have hgm := hge m (by simp)
    have hgl := hvm.gl
    simp only [serializeLoop, Res.bind_eq_ok, Res.pure_eq, Except.ok.injEq] at h
    obtain ⟨⟨a, st1⟩, hs, rest, hr, rfl⟩ := h
    dsimp only at hr
    have hline := serializeStep_line hs
    dsimp only at hline
    have hms : ∀ x ∈ ms, m.generated.line ≤ x.generated.line := by
      intro x hx
      have := (hpw'.1 x hx).1
      unfold posLE at this
      omega
    obtain ⟨ih0, ihn⟩ := ih st1 (some m) rest hpw'.2 (fun x hx => hv x (by simp [hx])) (by omega)
      (fun x hx => by rw [hline]; exact hms x hx) (fun q hq => by cases hq; exact ⟨hvm, hpw'.1⟩) hr
    by_cases hl : m.generated.line = st.generatedLine
    · have hs' := hs
      have hstep : ';' ∉ a ∧ st1 = { carry (numberIn S) (numberIn N) st m with generatedColumn := m.generated.column } := by
        unfold serializeStep at hs
        rw [if_neg (by omega)] at hs
        cases p with
        | none => exact ⟨Digits.semi (segmentText_digits hs).1, segmentText_carry hvm hs⟩
        | some q =>
          obtain ⟨hq, hqm⟩ := hp q rfl
          have hne := (hqm m (by simp)).2
          have hc : cmpVal m q ≠ 0 := by
            intro e
            exact hne ((cmpVal_eq_zero m q).1 e).1.symm
          simp only [compare_eq_cmpVal cfg hvm hq, Res.ok_bind, if_neg hc, Res.bind_eq_ok, Res.pure_eq, Except.ok.injEq,
            Prod.mk.injEq] at hs
          obtain ⟨⟨u, st2⟩, h2, rfl, rfl⟩ := hs
          refine ⟨?_, segmentText_carry hvm h2⟩
          have := Digits.semi (segmentText_digits h2).1
          simpa using this
      obtain ⟨hsemi, hst1⟩ := hstep
      have hl1 : st1.generatedLine = st.generatedLine := by rw [hline, hl]
      obtain ⟨d1, d2⟩ := mapLine_digits (r := rest) hsemi
      rw [hl1] at ih0 ihn
      constructor
      · rw [List.filter_cons_of_pos (by simpa using hl), d1]
        simp only [serializeLoop, hs', Res.ok_bind, ih0, Res.pure_eq]
      · intro n
        rw [List.filter_cons_of_pos (by simp; omega), List.filter_cons_of_neg (by simp; omega), d2, List.foldl_cons, ← ihn n, hst1]
        have hk := carry_kept (numberIn S) (numberIn N) st m
        have := lineStart_fold (numberIn S) (numberIn N) (st.generatedLine + n + 1) (ms.filter fun m => m.generated.line < st.generatedLine + n + 1)
          (carry (numberIn S) (numberIn N) st m) m.generated.column (carry (numberIn S) (numberIn N) st m).generatedLine
        rw [← this]
    · have hlt : st.generatedLine < m.generated.line := by omega
      unfold serializeStep at hs
      rw [if_pos hl, advanceLine_up cfg _ _ (by unfold IsI32; omega) (by unfold IsI32; omega) hgm] at hs
      simp only [Res.ok_bind, Res.bind_eq_ok, Res.pure_eq, Except.ok.injEq, Prod.mk.injEq] at hs
      obtain ⟨⟨u, st2⟩, h2, rfl, rfl⟩ := hs
      have hsemi := Digits.semi (segmentText_digits h2).1
      have hst1 := segmentText_carry hvm h2
      dsimp only at hsemi hst1 hline ih0 ihn
      obtain ⟨d1, d2⟩ := mapLine_digits (r := rest) hsemi
      have hall : ∀ x ∈ m :: ms, m.generated.line ≤ x.generated.line := by
        intro x hx
        rcases List.mem_cons.1 hx with rfl | hx
        · omega
        · exact hms x hx
      have hnone : ∀ l : Int, l < m.generated.line → (m :: ms).filter (fun x => x.generated.line = l) = [] := by
        intro l hl'
        refine List.filter_eq_nil_iff.2 fun x hx => ?_
        have := hall x hx
        simp only [decide_eq_true_eq]
        omega
      have hnone' : ∀ l : Int, l ≤ m.generated.line → (m :: ms).filter (fun x => x.generated.line < l) = [] := by
        intro l hl'
        refine List.filter_eq_nil_iff.2 fun x hx => ?_
        have := hall x hx
        simp only [decide_eq_true_eq]
        omega
      constructor
      · rw [hnone _ hlt, List.append_assoc, mapLine_semis, if_pos (by omega)]
        rfl
      · intro n
        rw [List.append_assoc, mapLine_semis]
        by_cases c1 : n + 1 < (m.generated.line - st.generatedLine).toNat
        · rw [if_pos c1, hnone _ (by omega)]
          rfl
        · rw [if_neg c1]
          by_cases c2 : n + 1 = (m.generated.line - st.generatedLine).toNat
          · have e : st.generatedLine + n + 1 = m.generated.line := by omega
            rw [e, hnone' _ (by omega), List.filter_cons_of_pos (by simp), ← c2, Nat.sub_self, d1]
            rw [hline] at ih0
            simp only [List.foldl_nil, serializeLoop, serializeStep, lineStart, ne_eq, not_true_eq_false, if_false, h2,
              Res.ok_bind, ih0, Res.pure_eq]
          · obtain ⟨k, hk⟩ : ∃ k, n + 1 - (m.generated.line - st.generatedLine).toNat = k + 1 :=
              ⟨n - (m.generated.line - st.generatedLine).toNat, by omega⟩
            rw [hk, d2]
            have e : st2.generatedLine + k + 1 = st.generatedLine + n + 1 := by rw [hline]; omega
            have hih := ihn k
            rw [e] at hih
            rw [List.filter_cons_of_pos (by simp; omega), List.filter_cons_of_neg (by simp; omega), List.foldl_cons, ← hih, hst1]
            have h3 := lineStart_fold (numberIn S) (numberIn N) (st.generatedLine + n + 1) (ms.filter fun m => m.generated.line < st.generatedLine + n + 1)
              (carry (numberIn S) (numberIn N) st m) m.generated.column m.generated.line
            have h4 := carry_place (numberIn S) (numberIn N) st 0 m.generated.line m
            rw [← h3]
            simp only at h4 ⊢
            rw [h4]

/-! ## What goes from a line to the next -/

/-- The source and the original position of a mapping that has both. -/
def Mapping.origin (m : Mapping) : Option (String × Position) :=
  match m.source, m.original with
  | some s, some o => some (s, o)
  | _, _ => none

/-- The name of a mapping with a source: without one the name is not written. -/
def Mapping.nameWritten (m : Mapping) : Option String := m.origin.bind fun _ => m.name

/-- `b` is what `f` tells of the last mapping before line `l` of which it tells something. -/
def LastTold {α : Type} (ms : List Mapping) (l : Int) (f : Mapping → Option α) (b : α) : Prop :=
  ∃ x ∈ ms, x.generated.line < l ∧ f x = some b ∧
    ∀ y ∈ ms, y.generated.line < l → (f y).isSome = true → posLE y x

theorem fold_carry (S N : String → Int) (st : SerState) (ms : List Mapping) :
    ms.foldl (carry S N) st =
      { st with
        source := ((ms.reverse.findSome? Mapping.origin).map fun p => S p.1).getD st.source
        originalLine := ((ms.reverse.findSome? Mapping.origin).map fun p => p.2.line - 1).getD st.originalLine
        originalColumn := ((ms.reverse.findSome? Mapping.origin).map fun p => p.2.column).getD st.originalColumn
        name := ((ms.reverse.findSome? Mapping.nameWritten).map fun n => N n).getD st.name } := by
  have key : ∀ r : List Mapping, r.reverse.foldl (carry S N) st =
      { st with
        source := ((r.findSome? Mapping.origin).map fun p => S p.1).getD st.source
        originalLine := ((r.findSome? Mapping.origin).map fun p => p.2.line - 1).getD st.originalLine
        originalColumn := ((r.findSome? Mapping.origin).map fun p => p.2.column).getD st.originalColumn
        name := ((r.findSome? Mapping.nameWritten).map fun n => N n).getD st.name } := by
    intro r
    induction r with
    | nil => rfl
    | cons m r ih =>
      rw [List.reverse_cons, List.foldl_append, ih, List.foldl_cons, List.foldl_nil]
      unfold carry
      simp only [List.findSome?_cons, Mapping.nameWritten, Mapping.origin]
      cases m.source with
      | none => simp
      | some s =>
        cases m.original with
        | none => simp
        | some o => cases m.name <;> simp
  simpa using key ms.reverse

theorem unique_position : ∀ {F : List Mapping}, F.Pairwise posLT → ∀ {x z : Mapping}, x ∈ F → z ∈ F →
    x.generated = z.generated → x = z := by
  intro F
  induction F with
  | nil => intro _ x z hx; cases hx
  | cons m F ih =>
    intro h x z hx hz e
    rw [List.pairwise_cons] at h
    rcases List.mem_cons.1 hx with rfl | hx'
    · rcases List.mem_cons.1 hz with rfl | hz'
      · rfl
      · exact absurd e (h.1 z hz').2
    · rcases List.mem_cons.1 hz with rfl | hz'
      · exact absurd e.symm (h.1 x hx').2
      · exact ih h.2 hx' hz' e

theorem findSome_last {α : Type} {f : Mapping → Option α} {F : List Mapping} (h : F.Pairwise posLT) (b : α) :
    F.reverse.findSome? f = some b ↔ ∃ x ∈ F, f x = some b ∧ ∀ y ∈ F, (f y).isSome = true → posLE y x := by
  have hmax : ∀ c, F.reverse.findSome? f = some c → ∃ x ∈ F, f x = some c ∧ ∀ y ∈ F, (f y).isSome = true → posLE y x := by
    intro c hc
    obtain ⟨l1, a, l2, e, ha, hn⟩ := List.findSome?_eq_some_iff.1 hc
    have e' : F = l2.reverse ++ a :: l1.reverse := by
      have := congrArg List.reverse e
      simpa using this
    refine ⟨a, by rw [e']; simp, ha, fun y hy hs => ?_⟩
    rw [e'] at hy h
    rcases List.mem_append.1 hy with hy | hy
    · exact ((List.pairwise_append.1 h).2.2 y hy a (by simp)).1
    · rcases List.mem_cons.1 hy with rfl | hy
      · exact .inr ⟨rfl, Int.le_refl _⟩
      · rw [hn y (List.mem_reverse.1 hy)] at hs
        cases hs
  refine ⟨hmax b, ?_⟩
  rintro ⟨x, hx, hf, hall⟩
  have hs : (F.reverse.findSome? f).isSome = true := by
    rw [List.findSome?_isSome_iff]
    exact ⟨x, by simpa using hx, by simp [hf]⟩
  obtain ⟨c, hc⟩ := Option.isSome_iff_exists.1 hs
  obtain ⟨z, hz, hfz, hallz⟩ := hmax c hc
  have e : x.generated = z.generated := posLE.antisymm (hallz x hx (by simp [hf])) (hall z hz (by simp [hfz]))
  have := unique_position h hx hz e
  subst this
  rw [hc, ← hfz, hf]

/-! ## The property -/

/-- Line number `n`, counted from 0, of the mappings of a map. -/
def SourceMapJson.mapLine (j : SourceMapJson) (n : Nat) : Option Text := j.mappings.map fun t => RSM.mapLine n t.toList

/-- The mappings added are valid, on lines, which count from one, and of one kind at one generated position. -/
structure OnePerPosition (ms : List Mapping) : Prop where
  valid : ∀ m ∈ ms, m.Valid
  line : ∀ m ∈ ms, 1 ≤ m.generated.line
  one : ∀ a ∈ ms, ∀ b ∈ ms, a.generated = b.generated → SameKey a b

/-- The list the text is made from: each mapping added, once, in the order of the positions. -/
theorem written_list {U : UrlLib} {cfg : Cfg} {file root : Option String} {skip : Bool} {ops : List GOp} {g g1 : Generator}
    {j : SourceMapJson} (ho : OnePerPosition (gAdded ops)) (hr : (Generator.new file root skip).run U cfg ops = .ok g)
    (hj : g.asJson U cfg = .ok (j, g1)) :
    ∃ L t, j.mappings = some (String.ofList t) ∧ L.Pairwise posLT ∧ (∀ x, x ∈ L ↔ ∃ m ∈ gAdded ops, m.bare = x) ∧
      serializeLoop cfg (tableOf ((gAdded ops).filterMap Mapping.source)) (tableOf ((gAdded ops).filterMap Mapping.name))
        SerState.init none L = .ok t := by
  obtain ⟨hi, hp⟩ := run_inv hr ho.valid
  obtain ⟨_, _, _, f4, f5, _⟩ := gRun_new hr
  obtain ⟨_, out, l, t, _, ht, hloop, _, rfl⟩ := asJson_ok hj
  obtain ⟨out', l', ht', _, _, hperm, hpw, _⟩ := toArray_valid cfg hi
  rw [ht'] at ht
  cases ht
  have q1 := hperm.trans hp
  have hb : ∀ m ∈ out.map Mapping.bare, m.bare = m := by
    intro m hm
    obtain ⟨x, _, rfl⟩ := List.mem_map.1 hm
    rfl
  have hinj : ∀ a ∈ out.map Mapping.bare, ∀ b ∈ out.map Mapping.bare, a.generated = b.generated → a = b := by
    intro a ha b hb' e
    obtain ⟨x, hx, rfl⟩ := List.mem_map.1 ha
    obtain ⟨y, hy, rfl⟩ := List.mem_map.1 hb'
    exact (ho.one x (q1.mem_iff.1 hx) y (q1.mem_iff.1 hy) e).bare_eq
  have hsort : (out.map Mapping.bare).Pairwise posLE := List.pairwise_map.2 hpw
  have hnd := (dropRepeats_nodup (out.map Mapping.bare) none hb (by simp) hsort hinj).1
  refine ⟨dropRepeats none (out.map Mapping.bare), t, rfl, ?_, ?_, ?_⟩
  · refine ((hsort.sublist (dropRepeats_sublist _ _)).and hnd).imp_of_mem ?_
    intro a b ha hb' h
    refine ⟨h.1, fun e => h.2 ?_⟩
    exact hinj a ((dropRepeats_sublist _ _).subset ha) b ((dropRepeats_sublist _ _).subset hb') e
  · intro x
    rw [mem_dropRepeats hb, List.mem_map]
    exact ⟨fun ⟨a, h1, h2⟩ => ⟨a, q1.mem_iff.1 h1, h2⟩, fun ⟨a, h1, h2⟩ => ⟨a, q1.mem_iff.2 h1, h2⟩⟩
  · have b1 := serializeLoop_bare cfg g.sources g.names out SerState.init none
    rw [Option.map_none] at b1
    rw [← f4, ← f5, ← hloop, ← b1]
    rw [serializeLoop_dropRepeats cfg _ _ (out.map Mapping.bare) _ none (fun m hm => ⟨?_, hb m hm⟩) (by simp)]
    obtain ⟨x, hx, rfl⟩ := List.mem_map.1 hm
    exact bare_valid (ho.valid x (q1.mem_iff.1 hx))

theorem sorted_ext {F F' : List Mapping} (h : F.Pairwise posLT) (h' : F'.Pairwise posLT) (hm : ∀ x, x ∈ F ↔ x ∈ F') :
    F = F' := by
  have hn : ∀ {G : List Mapping}, G.Pairwise posLT → G.Nodup := fun hg => hg.imp fun hlt e => hlt.2 (by rw [e])
  have hperm : F.Perm F' := (List.perm_ext_iff_of_nodup (hn h) (hn h')).2 hm
  refine hperm.eq_of_pairwise (le := posLE) ?_ (h.imp And.left) (h'.imp And.left)
  intro a b ha hb h1 h2
  exact unique_position h ha ((hm b).2 hb) (posLE.antisymm h1 h2)

/-- One line of the text, from the list the text is made from. -/
theorem line_written {cfg : Cfg} {S N : ArraySet} {L : List Mapping} {t : Text} (hs : L.Pairwise posLT) (hv : ∀ m ∈ L, m.Valid)
    (hl : ∀ m ∈ L, 1 ≤ m.generated.line) (h : serializeLoop cfg S N SerState.init none L = .ok t) (n : Nat) :
    serializeLoop cfg S N (lineStart (n + 1)
        ((L.filter fun m => m.generated.line < ((n : Int) + 1)).foldl (carry (numberIn S) (numberIn N)) SerState.init)) none
      (L.filter fun m => m.generated.line = ((n : Int) + 1)) = .ok (mapLine n t) := by
  obtain ⟨h0, hn⟩ := loop_lines cfg S N L SerState.init none t hs hv (by decide) hl (by simp) h
  cases n with
  | zero =>
    have e : L.filter (fun m => m.generated.line < (((0 : Nat) : Int) + 1)) = [] := by
      refine List.filter_eq_nil_iff.2 fun x hx => ?_
      have := hl x hx
      simp only [decide_eq_true_eq]
      omega
    rw [e]
    exact h0
  | succ n =>
    have e : SerState.init.generatedLine + n + 1 = ((n + 1 : Nat) : Int) + 1 := by
      show (1 : Int) + n + 1 = _
      omega
    have := hn n
    rw [e] at this
    exact this

theorem lastTold_list {α : Type} {f : Mapping → Option α} (hf : ∀ m, f m.bare = f m) {ms L : List Mapping}
    (hL : ∀ x, x ∈ L ↔ ∃ m ∈ ms, m.bare = x) (hs : L.Pairwise posLT) (l : Int) (b : α) :
    (L.filter fun m => m.generated.line < l).reverse.findSome? f = some b ↔ LastTold ms l f b := by
  rw [findSome_last (hs.sublist List.filter_sublist)]
  unfold LastTold
  simp only [List.mem_filter, decide_eq_true_eq]
  constructor
  · rintro ⟨x, ⟨hx, hxl⟩, hfx, hall⟩
    obtain ⟨m, hm, rfl⟩ := (hL x).1 hx
    refine ⟨m, hm, hxl, by rw [← hf, hfx], fun y hy hyl hyf => ?_⟩
    exact hall y.bare ⟨(hL _).2 ⟨y, hy, rfl⟩, hyl⟩ (by rw [hf]; exact hyf)
  · rintro ⟨m, hm, hml, hfm, hall⟩
    refine ⟨m.bare, ⟨(hL _).2 ⟨m, hm, rfl⟩, hml⟩, by rw [hf, hfm], ?_⟩
    rintro y ⟨hy, hyl⟩ hyf
    obtain ⟨z, hz, rfl⟩ := (hL y).1 hy
    exact hall z hz hyl (by rw [← hf]; exact hyf)

/-- Of line `l`, as far as its text goes, the same is known in two histories: the mappings on it, where the last mapping
with a source before it comes from, the last name before it, and the numbers of the sources and names in these. -/
structure SameForLine (l : Int) (ms ms' : List Mapping) : Prop where
  sub : ∀ m ∈ ms, m.generated.line = l → ∃ m' ∈ ms', SameKey m m'
  sup : ∀ m ∈ ms', m.generated.line = l → ∃ m' ∈ ms, SameKey m m'
  origin : ∀ p, LastTold ms l Mapping.origin p ↔ LastTold ms' l Mapping.origin p
  name : ∀ s, LastTold ms l Mapping.nameWritten s ↔ LastTold ms' l Mapping.nameWritten s
  sources : ∀ s, (∃ m ∈ ms, m.generated.line = l ∧ m.source = some s) ∨ (∃ o, LastTold ms l Mapping.origin (s, o)) →
    (firstOccurrences (ms.filterMap Mapping.source)).idxOf? s = (firstOccurrences (ms'.filterMap Mapping.source)).idxOf? s
  names : ∀ s, (∃ m ∈ ms, m.generated.line = l ∧ m.name = some s) ∨ LastTold ms l Mapping.nameWritten s →
    (firstOccurrences (ms.filterMap Mapping.name)).idxOf? s = (firstOccurrences (ms'.filterMap Mapping.name)).idxOf? s

theorem tableOf_number {l l' : List String} {s : String} (h : (firstOccurrences l).idxOf? s = (firstOccurrences l').idxOf? s) :
    (tableOf l).indexOf s = (tableOf l').indexOf s := by
  have e : ∀ r : List String, (tableOf r).indexOf s = (firstOccurrences r).idxOf? s := by
    intro r
    rw [← tableOf_array]
    exact (tableOf_inv r).get s
  rw [e, e, h]

theorem option_ext_iff {α : Type} {a b : Option α} (h : ∀ x, a = some x ↔ b = some x) : a = b := by
  cases a with
  | none =>
    cases b with
    | none => rfl
    | some y => exact absurd ((h y).2 rfl) (by simp)
  | some x => exact ((h x).1 rfl).symm

/-- C118: the text of a line of the mappings depends only on the mappings generated on that line, on the source position
of the last mapping with a source before the line and on the last name written before it. In two histories of calls in
which these are the same, and have the same numbers, the line is the same, whatever else was added, in whatever order. -/
theorem C118_line_local (U U' : UrlLib) (cfg : Cfg) {file root file' root' : Option String} {skip skip' : Bool}
    {ops ops' : List GOp} {g g' g1 g1' : Generator} {j j' : SourceMapJson} {n : Nat}
    (ho : OnePerPosition (gAdded ops)) (ho' : OnePerPosition (gAdded ops'))
    (hsame : SameForLine (n + 1) (gAdded ops) (gAdded ops'))
    (hr : (Generator.new file root skip).run U cfg ops = .ok g) (hj : g.asJson U cfg = .ok (j, g1))
    (hr' : (Generator.new file' root' skip').run U' cfg ops' = .ok g') (hj' : g'.asJson U' cfg = .ok (j', g1')) :
    j.mapLine n = j'.mapLine n := by
  obtain ⟨L, t, ht, hs, hL, h⟩ := written_list ho hr hj
  obtain ⟨L', t', ht', hs', hL', h'⟩ := written_list ho' hr' hj'
  have hv : ∀ m ∈ L, m.Valid := fun x hx => by
    obtain ⟨m, hm, rfl⟩ := (hL x).1 hx
    exact bare_valid (ho.valid m hm)
  have hv' : ∀ m ∈ L', m.Valid := fun x hx => by
    obtain ⟨m, hm, rfl⟩ := (hL' x).1 hx
    exact bare_valid (ho'.valid m hm)
  have hl : ∀ m ∈ L, 1 ≤ m.generated.line := fun x hx => by
    obtain ⟨m, hm, rfl⟩ := (hL x).1 hx
    exact ho.line m hm
  have hl' : ∀ m ∈ L', 1 ≤ m.generated.line := fun x hx => by
    obtain ⟨m, hm, rfl⟩ := (hL' x).1 hx
    exact ho'.line m hm
  have w := line_written hs hv hl h n
  have w' := line_written hs' hv' hl' h' n
  have eF : (L.filter fun m => m.generated.line = ((n : Int) + 1)) = L'.filter fun m => m.generated.line = ((n : Int) + 1) := by
    refine sorted_ext (hs.sublist List.filter_sublist) (hs'.sublist List.filter_sublist) fun x => ?_
    simp only [List.mem_filter, decide_eq_true_eq, hL, hL']
    constructor
    · rintro ⟨⟨m, hm, rfl⟩, e⟩
      obtain ⟨m', h1, h2⟩ := hsame.sub m hm e
      exact ⟨⟨m', h1, h2.bare_eq.symm⟩, e⟩
    · rintro ⟨⟨m, hm, rfl⟩, e⟩
      obtain ⟨m', h1, h2⟩ := hsame.sup m hm e
      exact ⟨⟨m', h1, h2.bare_eq.symm⟩, e⟩
  have k1 := lastTold_list (f := Mapping.origin) (fun _ => rfl) hL hs (n + 1)
  have k1' := lastTold_list (f := Mapping.origin) (fun _ => rfl) hL' hs' (n + 1)
  have k2 := lastTold_list (f := Mapping.nameWritten) (fun _ => rfl) hL hs (n + 1)
  have k2' := lastTold_list (f := Mapping.nameWritten) (fun _ => rfl) hL' hs' (n + 1)
  have e1 := option_ext_iff fun p => (k1 p).trans ((hsame.origin p).trans (k1' p).symm)
  have e2 := option_ext_iff fun p => (k2 p).trans ((hsame.name p).trans (k2' p).symm)
  rw [← eF, fold_carry, ← e1, ← e2] at w'
  rw [fold_carry] at w
  have c1 : ∀ p, (L.filter fun m => m.generated.line < ((n : Int) + 1)).reverse.findSome? Mapping.origin = some p →
      numberIn (tableOf ((gAdded ops).filterMap Mapping.source)) p.1 =
        numberIn (tableOf ((gAdded ops').filterMap Mapping.source)) p.1 := by
    rintro ⟨s, o⟩ hp
    rw [numberIn, numberIn, tableOf_number (hsame.sources s (.inr ⟨o, (k1 _).1 hp⟩))]
  have c2 : ∀ p, (L.filter fun m => m.generated.line < ((n : Int) + 1)).reverse.findSome? Mapping.nameWritten = some p →
      numberIn (tableOf ((gAdded ops).filterMap Mapping.name)) p =
        numberIn (tableOf ((gAdded ops').filterMap Mapping.name)) p := by
    intro s hp
    rw [numberIn, numberIn, tableOf_number (hsame.names s (.inr ((k2 _).1 hp)))]
  have m1 : ((L.filter fun m => m.generated.line < ((n : Int) + 1)).reverse.findSome? Mapping.origin).map
        (fun p => numberIn (tableOf ((gAdded ops').filterMap Mapping.source)) p.1) =
      ((L.filter fun m => m.generated.line < ((n : Int) + 1)).reverse.findSome? Mapping.origin).map
        (fun p => numberIn (tableOf ((gAdded ops).filterMap Mapping.source)) p.1) :=
    Option.map_congr fun p hp => (c1 p hp).symm
  have m2 : ((L.filter fun m => m.generated.line < ((n : Int) + 1)).reverse.findSome? Mapping.nameWritten).map
        (fun p => numberIn (tableOf ((gAdded ops').filterMap Mapping.name)) p) =
      ((L.filter fun m => m.generated.line < ((n : Int) + 1)).reverse.findSome? Mapping.nameWritten).map
        (fun p => numberIn (tableOf ((gAdded ops).filterMap Mapping.name)) p) :=
    Option.map_congr fun p hp => (c2 p hp).symm
  rw [m1, m2, ← serializeLoop_tables (S := tableOf ((gAdded ops).filterMap Mapping.source))
    (N := tableOf ((gAdded ops).filterMap Mapping.name)), w] at w'
  · have e := Except.ok.inj w'
    simp only [SourceMapJson.mapLine, ht, ht', Option.map_some, String.toList_ofList, e]
  · intro m hm s hms
    obtain ⟨hm, hml⟩ := List.mem_filter.1 hm
    obtain ⟨x, hx, rfl⟩ := (hL m).1 hm
    exact tableOf_number (hsame.sources s (.inl ⟨x, hx, of_decide_eq_true hml, hms⟩))
  · intro m hm s hms
    obtain ⟨hm, hml⟩ := List.mem_filter.1 hm
    obtain ⟨x, hx, rfl⟩ := (hL m).1 hm
    exact tableOf_number (hsame.names s (.inl ⟨x, hx, of_decide_eq_true hml, hms⟩))

theorem lastTold_added {α : Type} {f : Mapping → Option α} (hf : ∀ m, f m.bare = f m) {ms : List Mapping} {m : Mapping} {l : Int}
    (hone : ∀ a ∈ ms, a.generated = m.generated → SameKey a m)
    (h : m.generated.line < l → (f m).isSome = true → ∃ y ∈ ms, (f y).isSome = true ∧ posLE m y ∧ y.generated.line < l) (b : α) :
    LastTold ms l f b ↔ LastTold (ms ++ [m]) l f b := by
  constructor
  · rintro ⟨x, hx, hxl, hfx, hall⟩
    refine ⟨x, by simp [hx], hxl, hfx, fun y hy hyl hyf => ?_⟩
    rcases List.mem_append.1 hy with hy | hy
    · exact hall y hy hyl hyf
    · obtain rfl := List.mem_singleton.1 hy
      obtain ⟨z, hz, hzf, hyz, hzl⟩ := h hyl hyf
      exact posLE_trans hyz (hall z hz hzl hzf)
  · rintro ⟨x, hx, hxl, hfx, hall⟩
    rcases List.mem_append.1 hx with hx | hx
    · exact ⟨x, hx, hxl, hfx, fun y hy => hall y (by simp [hy])⟩
    · obtain rfl := List.mem_singleton.1 hx
      obtain ⟨z, hz, hzf, hxz, hzl⟩ := h hxl (by simp [hfx])
      have hzx := hall z (by simp [hz]) hzl hzf
      have e := (hone z hz (posLE.antisymm hzx hxz)).bare_eq
      refine ⟨z, hz, hzl, by rw [← hf, e, hf, hfx], fun y hy hyl hyf => posLE_trans (hall y (by simp [hy]) hyl hyf) hxz⟩

/-- C118, one more mapping: adding a mapping to a generator changes, of the emitted mappings, no line before its own; and no
line after it from the point where another mapping with a source has come (if it has one), and another with a name (if it
has one). -/
theorem C118_one_more (U : UrlLib) (cfg : Cfg) {file root : Option String} {skip : Bool} {ops : List GOp} {m : Mapping}
    {g g' g1 g1' : Generator} {j j' : SourceMapJson} {n : Nat} (ho : OnePerPosition (gAdded (ops ++ [.add m])))
    (hm : m.generated.line ≠ n + 1)
    (horigin : m.generated.line < n + 1 → m.origin.isSome = true →
      ∃ y ∈ gAdded ops, y.origin.isSome = true ∧ posLE m y ∧ y.generated.line < n + 1)
    (hname : m.generated.line < n + 1 → m.nameWritten.isSome = true →
      ∃ y ∈ gAdded ops, y.nameWritten.isSome = true ∧ posLE m y ∧ y.generated.line < n + 1)
    (hr : (Generator.new file root skip).run U cfg ops = .ok g) (hj : g.asJson U cfg = .ok (j, g1))
    (hr' : (Generator.new file root skip).run U cfg (ops ++ [.add m]) = .ok g') (hj' : g'.asJson U cfg = .ok (j', g1')) :
    j.mapLine n = j'.mapLine n := by
  have e : gAdded (ops ++ [.add m]) = gAdded ops ++ [m] := by rw [gAdded_append]; rfl
  have hone : ∀ a ∈ gAdded ops, a.generated = m.generated → SameKey a m := fun a ha h =>
    ho.one a (by rw [e]; simp [ha]) m (by rw [e]; simp) h
  have hsub : ∀ a ∈ gAdded ops, a ∈ gAdded (ops ++ [.add m]) := fun a ha => by rw [e]; simp [ha]
  have ho1 : OnePerPosition (gAdded ops) :=
    ⟨fun a ha => ho.valid a (hsub a ha), fun a ha => ho.line a (hsub a ha), fun a ha b hb => ho.one a (hsub a ha) b (hsub b hb)⟩
  have hidx : ∀ (f : Mapping → Option String) (s : String), (∃ a ∈ gAdded ops, f a = some s) →
      (firstOccurrences ((gAdded ops).filterMap f)).idxOf? s =
        (firstOccurrences ((gAdded (ops ++ [.add m])).filterMap f)).idxOf? s := by
    rintro f s ⟨a, ha, hfa⟩
    have := tableOf_indexOf (l := (gAdded ops).filterMap f) (l' := [m].filterMap f) (List.mem_filterMap.2 ⟨a, ha, hfa⟩)
    rw [← List.filterMap_append, ← e] at this
    rw [← tableOf_array, ← tableOf_array]
    exact ((tableOf_inv _).get s).symm.trans (this.trans ((tableOf_inv _).get s))
  refine C118_line_local U U cfg ho1 ho ⟨?_, ?_, ?_, ?_, ?_, ?_⟩ hr hj hr' hj'
  · exact fun a ha _ => ⟨a, hsub a ha, rfl, rfl, rfl, rfl⟩
  · intro a ha hl
    rw [e] at ha
    rcases List.mem_append.1 ha with ha | ha
    · exact ⟨a, ha, rfl, rfl, rfl, rfl⟩
    · obtain rfl := List.mem_singleton.1 ha
      exact absurd hl hm
  · intro p
    rw [e]
    exact lastTold_added (fun _ => rfl) hone horigin p
  · intro s
    rw [e]
    exact lastTold_added (fun _ => rfl) hone hname s
  · rintro s (⟨a, ha, _, hs⟩ | ⟨o, a, ha, _, hs, _⟩)
    · exact hidx _ s ⟨a, ha, hs⟩
    · refine hidx _ s ⟨a, ha, ?_⟩
      unfold Mapping.origin at hs
      cases h1 : a.source with
      | none => simp [h1] at hs
      | some x =>
        cases h2 : a.original with
        | none => simp [h1, h2] at hs
        | some y =>
          simp only [h1, h2, Option.some.injEq, Prod.mk.injEq] at hs
          rw [hs.1]
  · rintro s (⟨a, ha, _, hs⟩ | ⟨a, ha, _, hs, _⟩)
    · exact hidx _ s ⟨a, ha, hs⟩
    · refine hidx _ s ⟨a, ha, ?_⟩
      unfold Mapping.nameWritten at hs
      obtain ⟨_, _, h⟩ := Option.bind_eq_some_iff.1 hs
      exact h

/-! ## Cases -/

/-- The lines of the mappings written for additions. -/
def linesWritten (ms : List Mapping) : Option (List (Option Text)) :=
  match (Generator.new none none false).run MiniUrl.lib ⟨true, true⟩ (ms.map .add) >>= fun g =>
      g.asJson MiniUrl.lib ⟨true, true⟩ with
  | .ok r => some ((List.range 4).map fun n => (r.1.mapLine n).map fun t => t)
  | .error _ => none

/-- Four lines. -/
def lineA : Mapping := { generated := ⟨1, 0⟩, original := some ⟨1, 0⟩, source := some "a.js", name := some "f" }
def lineB : Mapping := { generated := ⟨2, 4⟩, original := some ⟨3, 2⟩, source := some "b.js" }
def lineC : Mapping := { generated := ⟨3, 1⟩, original := some ⟨4, 2⟩, source := some "a.js" }
def lineD : Mapping := { generated := ⟨4, 2⟩, original := some ⟨5, 0⟩, source := some "b.js", name := some "f" }

/-- A fifth, without a name, on line 2. -/
def lineX : Mapping := { generated := ⟨2, 9⟩, original := some ⟨8, 1⟩, source := some "a.js" }

/-- With the fifth mapping lines 2 and 3 are other ones, lines 1 and 4 the same. -/
theorem C118_lines : [[lineA, lineB, lineC, lineD], [lineA, lineB, lineX, lineC, lineD]].map linesWritten =
    [some [some "AAAAA".toList, some "ICEE".toList, some "CDCA".toList, some "ECCFA".toList],
     some [some "AAAAA".toList, some "ICEE,KDKD".toList, some "CAJC".toList, some "ECCFA".toList]] := by decide +kernel

/-- The same, by the property, for the fifth mapping added last, and out of order: line 4, as line 3 has a source. -/
example (U : UrlLib) (cfg : Cfg) {g g' g1 g1' : Generator} {j j' : SourceMapJson}
    (hr : (Generator.new none none false).run U cfg [.add lineA, .add lineB, .asJson, .add lineC, .add lineD] = .ok g)
    (hj : g.asJson U cfg = .ok (j, g1))
    (hr' : (Generator.new none none false).run U cfg
      ([.add lineA, .add lineB, .asJson, .add lineC, .add lineD] ++ [.add lineX]) = .ok g')
    (hj' : g'.asJson U cfg = .ok (j', g1')) : j.mapLine 3 = j'.mapLine 3 := by
  refine C118_one_more U cfg ⟨?_, by decide, by decide⟩ (by decide) ?_ ?_ hr hj hr' hj'
  · intro m hm
    simp only [gAdded, List.cons_append, List.nil_append, List.mem_cons, List.not_mem_nil, or_false] at hm
    rcases hm with rfl | rfl | rfl | rfl | rfl <;>
      exact ⟨by decide, by decide, rfl, by intro o ho; cases ho; decide⟩
  · intro _ _
    exact ⟨lineC, by simp [gAdded], by decide, by decide, by decide⟩
  · intro _ h
    exact absurd h (by decide)

/-- The line depends on more if two mappings are at one generated position: which was added first. -/
theorem C118_positions_needed :
    [[lineB, { lineB with original := some ⟨1, 5⟩ }], [{ lineB with original := some ⟨1, 5⟩ }, lineB]].map linesWritten =
    [some [some [], some "IAEE,AAFG".toList, some [], some []], some [some [], some "IAAK,AAEH".toList, some [], some []]] := by
  decide +kernel

end RSM
