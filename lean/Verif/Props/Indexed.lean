import Verif.Lemmas.Indexed
import Verif.Props.BinarySearch
import Verif.Dep.Demo
/-! # Properties C27 and C40-C47: `create_consumer` and `IndexedConsumer` -/

namespace RSM

variable {E : Env}

open IndexedConsumer

/-! ## C27 -/

/-- C27: `create_consumer` returns `Err` exactly when the text is not the JSON of a source map. -/
theorem C27_err_iff (schedule : List Nat) (raw : Text) (u : Option String) :
    createConsumer (E := E) schedule raw u = .ok none ↔ fromStr E.json raw = none := by
  simp only [createConsumer]
  cases fromStr E.json raw with
  | none => simp
  | some m =>
    simp only [reduceCtorEq, iff_false]
    split
    · intro h
      simp only [Res.bind_eq_ok, Res.pure_eq, Except.ok.injEq, reduceCtorEq, and_false, exists_false] at h
    · intro h
      simp only [Res.bind_eq_ok, Res.pure_eq, Except.ok.injEq, reduceCtorEq, and_false, exists_false] at h

example : createConsumer (E := demoEnv) [] "{\"version\":}".toList none = .ok none := by
  rw [C27_err_iff]
  decide +kernel

/-- C27: and otherwise, if it returns, an indexed consumer of the map exactly when the map has
sections, else a basic consumer of it. -/
theorem C27_dispatch {schedule : List Nat} {raw : Text} {u : Option String} {k : Consumer E}
    (h : createConsumer schedule raw u = .ok (some k)) :
    ∃ m, fromStr E.json raw = some m ∧
      ((m.sections.isSome = true ∧ ∃ c, k = .indexed c ∧ fromSourceMapJson schedule m u = .ok c) ∨
       (m.sections = none ∧ ∃ c, k = .basic c ∧ BasicConsumer.Built m u c)) := by
  simp only [createConsumer] at h
  cases hm : fromStr E.json raw with
  | none => rw [hm] at h; cases h
  | some m =>
    rw [hm] at h
    refine ⟨m, rfl, ?_⟩
    simp only at h
    split at h
    · next hs =>
      simp only [Res.bind_eq_ok, Res.pure_eq, Except.ok.injEq, Option.some.injEq] at h
      obtain ⟨c, hc, rfl⟩ := h
      exact .inl ⟨hs, c, rfl, hc⟩
    · next hs =>
      simp only [Res.bind_eq_ok, Res.pure_eq, Except.ok.injEq, Option.some.injEq] at h
      obtain ⟨c, hc, rfl⟩ := h
      exact .inr ⟨by simpa using hs, c, rfl, .inr hc⟩

/-- C27: the accessors agree with the choice. Exactly one of the two `try_as_` gives the consumer,
and the `as_` accessors panic exactly when the corresponding `try_as_` gives nothing. -/
theorem C27_accessors (k : Consumer E) :
    (∀ c, k.tryAsBasic = some c ↔ k = .basic c) ∧ (∀ c, k.tryAsIndexed = some c ↔ k = .indexed c) ∧
    (k.tryAsBasic.isSome ↔ k.tryAsIndexed = none) ∧
    (∀ c, k.asBasic = .ok c ↔ k.tryAsBasic = some c) ∧
    (∀ c, k.asIndexed = .ok c ↔ k.tryAsIndexed = some c) := by
  cases k <;> simp [Consumer.tryAsBasic, Consumer.tryAsIndexed, Consumer.asBasic, Consumer.asIndexed]

/-! ## C40, C41 -/

theorem makes_of_ok {u : Option String} {s : JsonSection SourceMapJson} (h : SectionOk E u s) :
    ∃ x, Makes (E := E) u s x := by
  obtain ⟨h1, h2, h3, c, hc⟩ := h
  exact ⟨⟨⟨s.offset.line + 1, s.offset.column + 1⟩, c⟩, h1, E.cfg.arith_ok h2, E.cfg.arith_ok h3, hc⟩

/-- C40, what the code does: sections that are fine by themselves are accepted under a schedule iff
the offsets, in the order of the *schedule*, are non-decreasing and do not start before line -1. -/
theorem C40_accepts_iff_along_schedule (m : SourceMapJson) (u : Option String)
    {secs : List (JsonSection SourceMapJson)} (hv : m.version = 3) (hs : m.sections = some secs)
    (hok : ∀ s ∈ secs, SectionOk E u s) {schedule : List Nat} (hsch : IsSchedule secs.length schedule) :
    (∃ c : IndexedConsumer E, fromSourceMapJson schedule m u = .ok c) ↔
      ((⟨-1, 0⟩ : Position) :: offsetsAlong secs schedule).Pairwise Position.Le := by
  constructor
  · rintro ⟨c, hc⟩
    obtain ⟨_, _, secs', hs', hl⟩ := from_ok hc
    rw [hs] at hs'
    cases hs'
    exact (collect_ok hsch hl).2.2
  · intro h
    obtain ⟨l, hl⟩ := collect_total (E := E) (u := u) hsch
      (fun i s hi => makes_of_ok (hok s (List.mem_of_getElem? hi))) h
    exact ⟨_, from_total hv hs hl⟩

theorem offsetsAlong_range {M : Type} (secs : List (JsonSection M)) :
    offsetsAlong secs (List.range secs.length) = secs.map (·.offset) := by
  unfold offsetsAlong
  congr 1
  apply List.ext_getElem?
  intro i
  have : (List.range secs.length).filterMap (fun i => secs[i]?) = secs := by
    have h2 : ∀ (n : Nat), n ≤ secs.length →
        (List.range n).filterMap (fun i => secs[i]?) = secs.take n := by
      intro n
      induction n with
      | zero => intro _; simp
      | succ n ih =>
        intro hn
        rw [List.range_succ, List.filterMap_append, ih (by omega), List.take_add_one]
        have hn' : n < secs.length := hn
        simp [List.getElem?_eq_getElem hn']
    rw [h2 _ (Nat.le_refl _), List.take_length]
  rw [this]

/-- C40 under the sequential schedule (`_partial`: the other schedules are missing, see the
refutations): accepted iff the offsets are non-decreasing in file order. -/
theorem C40_sequential_partial (m : SourceMapJson) (u : Option String)
    {secs : List (JsonSection SourceMapJson)} (hv : m.version = 3) (hs : m.sections = some secs)
    (hok : ∀ s ∈ secs, SectionOk E u s) (hpos : ∀ s ∈ secs, 0 ≤ s.offset.line) :
    (∃ c : IndexedConsumer E, fromSourceMapJson (List.range secs.length) m u = .ok c) ↔
      (secs.map (·.offset)).Pairwise Position.Le := by
  rw [C40_accepts_iff_along_schedule m u hv hs hok (List.Perm.refl _), offsetsAlong_range]
  constructor
  · intro h; exact (List.pairwise_cons.1 h).2
  · intro h
    refine List.pairwise_cons.2 ⟨?_, h⟩
    intro p hp
    obtain ⟨s, hs, rfl⟩ := List.mem_map.1 hp
    have := hpos s hs
    unfold Position.Le
    dsimp only
    omega

/-- A valid map is accepted in order and rejected in the other order. -/
example : demoAskIndexed [0, 1] demoIndexed (fun c => pure (c.sections.length, c)) = .ok 2 ∧
    demoAskIndexed [1, 0] demoIndexed (fun c => pure (c.sections.length, c)) =
      .error (.explicit "Section offsets must be ordered and non-overlapping.") :=
  ⟨by decide +kernel, by decide +kernel⟩

/-- C40 is false of the code: whenever two sections have different offsets there is a schedule under
which the map is rejected, even if its offsets are in order. -/
theorem C40_valid_map_rejected_refuted (m : SourceMapJson) (u : Option String)
    {secs : List (JsonSection SourceMapJson)} (hs : m.sections = some secs) {i j : Nat}
    {a b : JsonSection SourceMapJson} (hij : i < j) (ha : secs[i]? = some a) (hb : secs[j]? = some b)
    (hlt : a.offset.Lt b.offset) :
    ∃ schedule, IsSchedule secs.length schedule ∧
      ∀ c : IndexedConsumer E, fromSourceMapJson schedule m u ≠ .ok c := by
  have hj : j < secs.length := (List.getElem?_eq_some_iff.1 hb).1
  refine ⟨j :: i :: (((List.range secs.length).erase j).erase i), ?_, ?_⟩
  · have h1 : j ∈ List.range secs.length := by simpa using hj
    have h2 : i ∈ (List.range secs.length).erase j := by
      rw [List.mem_erase_of_ne (by omega)]
      simp; omega
    exact ((List.perm_cons_erase h2).symm.cons j).trans (List.perm_cons_erase h1).symm
  · intro c hc
    obtain ⟨_, _, secs', hs', hl⟩ := from_ok hc
    rw [hs] at hs'
    cases hs'
    simp only [collectSections, Res.bind_eq_ok] at hl
    obtain ⟨acc, h1, _⟩ := hl
    obtain ⟨_, _, h5⟩ := runSchedule_ok h1
    have ho : offsetsAlong secs (j :: i :: (((List.range secs.length).erase j).erase i)) =
        b.offset :: a.offset :: offsetsAlong secs (((List.range secs.length).erase j).erase i) := by
      simp [offsetsAlong, ha, hb]
    rw [ho] at h5
    have h6 := (List.pairwise_cons.1 (List.pairwise_cons.1 h5).2).1 a.offset (by simp)
    unfold Position.Le at h6
    unfold Position.Lt at hlt
    omega

/-- The order of offsets as a test. -/
def leB (a b : Position) : Bool := decide (a.line < b.line ∨ (a.line = b.line ∧ a.column ≤ b.column))

/-- C40 is false of the code: sections in *any* order are accepted under some schedule, as long as
each is fine by itself. -/
theorem C40_invalid_map_accepted_refuted (m : SourceMapJson) (u : Option String)
    {secs : List (JsonSection SourceMapJson)} (hv : m.version = 3) (hs : m.sections = some secs)
    (hok : ∀ s ∈ secs, SectionOk E u s) (hpos : ∀ s ∈ secs, 0 ≤ s.offset.line) :
    ∃ schedule, IsSchedule secs.length schedule ∧
      ∃ c : IndexedConsumer E, fromSourceMapJson schedule m u = .ok c := by
  obtain ⟨off, hoff⟩ : ∃ off : Nat → Position, off = fun i => ((secs[i]?).map (·.offset)).getD ⟨0, 0⟩ := ⟨_, rfl⟩
  have hsch : IsSchedule secs.length
      ((List.range secs.length).mergeSort fun i j => leB (off i) (off j)) := List.mergeSort_perm _ _
  refine ⟨_, hsch, ?_⟩
  rw [C40_accepts_iff_along_schedule m u hv hs hok hsch]
  have hsorted := List.pairwise_mergeSort (le := fun i j => leB (off i) (off j))
    (by intro a b c; simp only [leB, decide_eq_true_eq]; omega)
    (by intro a b; simp only [leB, Bool.or_eq_true, decide_eq_true_eq]; omega) (List.range secs.length)
  obtain ⟨sch, hsch'⟩ : ∃ sch, sch = (List.range secs.length).mergeSort fun i j => leB (off i) (off j) := ⟨_, rfl⟩
  rw [← hsch'] at hsorted hsch ⊢
  have hall : ∀ i ∈ sch, i < secs.length := by
    intro i hi
    simpa using hsch.mem_iff.1 hi
  have hmap : offsetsAlong secs sch = sch.map off := by
    clear hsorted hsch hsch'
    induction sch with
    | nil => rfl
    | cons i sch ih =>
      have hi := hall i (by simp)
      have ih := ih (fun j hj => hall j (by simp [hj]))
      simp only [offsetsAlong] at ih ⊢
      simp [List.getElem?_eq_getElem hi, ih, hoff]
  rw [hmap]
  refine List.pairwise_cons.2 ⟨?_, ?_⟩
  · intro p hp
    obtain ⟨i, hi, rfl⟩ := List.mem_map.1 hp
    have hi' := hall i hi
    have := hpos secs[i] (List.getElem_mem hi')
    simp only [hoff, List.getElem?_eq_getElem hi', Option.map_some, Option.getD_some, Position.Le]
    omega
  · rw [List.pairwise_map]
    refine hsorted.imp ?_
    intro a b hab
    simpa [leB, Position.Le] using hab

/-- Sections in the wrong order are accepted if the workers run the other way round. -/
example : demoAskIndexed [1, 0] { demoIndexed with sections := demoIndexed.sections.map List.reverse }
    (fun c => pure (c.sections.map (·.generatedOffset), c)) = .ok [⟨3, 6⟩, ⟨1, 1⟩] := by decide +kernel

/-- C41: the consumer made does not depend on the schedule. -/
theorem C41_schedule_independent {m : SourceMapJson} {u : Option String}
    {secs : List (JsonSection SourceMapJson)} (hs : m.sections = some secs) {sch₁ sch₂ : List Nat}
    (h1 : IsSchedule secs.length sch₁) (h2 : IsSchedule secs.length sch₂) {c₁ c₂ : IndexedConsumer E}
    (e1 : fromSourceMapJson sch₁ m u = .ok c₁) (e2 : fromSourceMapJson sch₂ m u = .ok c₂) : c₁ = c₂ := by
  obtain ⟨_, hm1, secs1, hs1, hl1⟩ := from_ok e1
  obtain ⟨_, hm2, secs2, hs2, hl2⟩ := from_ok e2
  rw [hs] at hs1 hs2
  cases hs1; cases hs2
  obtain ⟨a1, a2, _⟩ := collect_ok h1 hl1
  obtain ⟨b1, b2, _⟩ := collect_ok h2 hl2
  obtain ⟨x1, l1⟩ := c₁
  obtain ⟨x2, l2⟩ := c₂
  simp only at hm1 hm2 a1 a2 b1 b2
  subst hm1; subst hm2
  congr 1
  apply List.ext_getElem?
  intro i
  by_cases hi : i < secs.length
  · obtain ⟨x, hx, hx'⟩ := a2 i secs[i] (List.getElem?_eq_getElem hi)
    obtain ⟨y, hy, hy'⟩ := b2 i secs[i] (List.getElem?_eq_getElem hi)
    rw [hx, hy, hx'.unique hy']
  · rw [List.getElem?_eq_none (by omega), List.getElem?_eq_none (by omega)]

/-- C41: it has one section per section of the map, in file order, with the offset shifted by one
in both coordinates and a new consumer of the section's map. -/
theorem C41_sections {m : SourceMapJson} {u : Option String}
    {secs : List (JsonSection SourceMapJson)} (hs : m.sections = some secs) {sch : List Nat}
    (h1 : IsSchedule secs.length sch) {c : IndexedConsumer E} (e1 : fromSourceMapJson sch m u = .ok c) :
    c.sections.length = secs.length ∧ ∀ (i : Nat) s, secs[i]? = some s → ∃ x, c.sections[i]? = some x ∧
      (IsI32 (s.offset.line + 1) → x.generatedOffset.line = s.offset.line + 1) ∧
      (IsI32 (s.offset.column + 1) → x.generatedOffset.column = s.offset.column + 1) ∧
      BasicConsumer.Built s.map u x.consumer := by
  obtain ⟨_, hm1, secs1, hs1, hl1⟩ := from_ok e1
  rw [hs] at hs1
  cases hs1
  obtain ⟨a1, a2, _⟩ := collect_ok h1 hl1
  refine ⟨a1, ?_⟩
  intro i s hi
  obtain ⟨x, hx, _, h3, h4, h5⟩ := a2 i s hi
  refine ⟨x, hx, ?_, ?_, .inr h5⟩
  · intro hI; exact Res.ok_inj h3 (E.cfg.arith_ok hI)
  · intro hI; exact Res.ok_inj h4 (E.cfg.arith_ok hI)

example : demoAskIndexed [0, 1] demoIndexed
    (fun c => pure (c.sections.map fun x => (x.generatedOffset, x.consumer.getSources), c)) =
      .ok [(⟨1, 1⟩, ["one.js", "two.js"]), (⟨3, 6⟩, ["/the/root/one.js", "/the/root/two.js"])] := by decide +kernel

/-- C41: a section with a `url`, or another version than 3, is rejected under every schedule. -/
theorem C41_rejects (m : SourceMapJson) (u : Option String) {secs : List (JsonSection SourceMapJson)}
    (hs : m.sections = some secs) {sch : List Nat} (h1 : IsSchedule secs.length sch)
    (hbad : m.version ≠ 3 ∨ ∃ s ∈ secs, s.url.isSome = true) (c : IndexedConsumer E) :
    fromSourceMapJson sch m u ≠ .ok c := by
  intro e1
  obtain ⟨hv, _, secs1, hs1, hl1⟩ := from_ok e1
  rw [hs] at hs1
  cases hs1
  rcases hbad with hbad | ⟨s, hsm, hurl⟩
  · exact hbad hv
  · obtain ⟨i, hi⟩ := List.getElem?_of_mem hsm
    obtain ⟨x, _, h3, _⟩ := (collect_ok h1 hl1).2.1 i s hi
    rw [h3] at hurl
    cases hurl

example : demoAskIndexed [0] { demoIndexed with sections := some [⟨⟨0, 0⟩, demoMap, some "a.map"⟩] }
    (fun c => pure ((), c)) = .error (.explicit "Section with url is not supported.") := by decide +kernel

/-! ## C42 -/

theorem recursiveSearch_congr {β : Type} (cfg : Cfg) {f g : β → Res Int} {hay : List β} (bias : Int)
    (h : ∀ x ∈ hay, f x = g x) : ∀ (fuel : Nat) (low high : Int),
    recursiveSearch cfg f hay bias fuel low high = recursiveSearch cfg g hay bias fuel low high := by
  intro fuel
  induction fuel with
  | zero => intro low high; rfl
  | succ fuel ih =>
    intro low high
    simp only [recursiveSearch]
    cases cfg.arith (high - low) with
    | error e => rfl
    | ok d =>
      simp only [Res.ok_bind]
      cases cfg.arith (d.tdiv 2 + low) with
      | error e => rfl
      | ok mid =>
        simp only [Res.ok_bind]
        cases hx : hay[cfg.asUsize mid]? with
        | none => simp only [index, hx]; rfl
        | some x =>
          simp only [index, hx, Res.ok_bind, h x (List.mem_of_getElem? hx), ih]

theorem walkBack_congr {β : Type} {f g : β → β → Res Int} {hay : List β}
    (h : ∀ x ∈ hay, ∀ y ∈ hay, f x y = g x y) : ∀ i, walkBack f hay i = walkBack g hay i := by
  intro i
  induction i with
  | zero => rfl
  | succ i ih =>
    simp only [walkBack]
    cases hx : hay[i + 1]? with
    | none => simp only [index, hx]; rfl
    | some x =>
      cases hy : hay[i]? with
      | none => simp only [index, hx, hy, Res.ok_bind]; rfl
      | some y =>
        simp only [index, hx, hy, Res.ok_bind, h x (List.mem_of_getElem? hx) y (List.mem_of_getElem? hy), ih]

theorem search_congr {α β : Type} (cfg : Cfg) {needle : α} {hay : List β} {c1 d1 : α → β → Res Int}
    {c2 d2 : β → β → Res Int} (h1 : ∀ x ∈ hay, c1 needle x = d1 needle x)
    (h2 : ∀ x ∈ hay, ∀ y ∈ hay, c2 x y = d2 x y) (bias : Option Int) :
    search cfg needle hay c1 c2 bias = search cfg needle hay d1 d2 bias := by
  simp only [search, recursiveSearch_congr cfg _ h1, walkBack_congr h2]

/-- The comparison without overflow. -/
def posCmp (a b : Position) : Int := if a.line - b.line ≠ 0 then a.line - b.line else a.column - b.column

theorem posCmp_le (a b : Position) : posCmp a b ≤ 0 ↔ a.Le b := by
  unfold posCmp Position.Le; split <;> omega

theorem posCmp_lt (a b : Position) : posCmp a b < 0 ↔ a.Lt b := by
  unfold posCmp Position.Lt; split <;> omega

theorem needleCmp_eq (cfg : Cfg) {a b : Position} (ha : 0 ≤ a.line ∧ 0 ≤ a.column ∧ IsI32 a.line ∧ IsI32 a.column)
    (hb : 0 ≤ b.line ∧ 0 ≤ b.column ∧ IsI32 b.line ∧ IsI32 b.column) :
    needleCmp cfg a b = .ok (posCmp a b) := by
  have h1 : cfg.arith (a.line - b.line) = .ok (a.line - b.line) :=
    cfg.arith_ok (by unfold IsI32 at *; omega)
  have h2 : cfg.arith (a.column - b.column) = .ok (a.column - b.column) :=
    cfg.arith_ok (by unfold IsI32 at *; omega)
  simp only [needleCmp, h1, h2, Res.ok_bind, posCmp]
  split <;> rfl

theorem posCmp_lawful {β : Type} (f : β → Position) : LawfulCmp (fun a b => posCmp (f a) (f b)) where
  anti a b := by simp only [posCmp]; split <;> split <;> omega
  trans a b c := by simp only [posCmp_le, Position.Le]; omega

/-- Where the search lands. -/
theorem sectionIndex_spec {c : IndexedConsumer E} {p : Position}
    (hlen : c.sections.length < 2147483647)
    (hp : 0 ≤ p.line ∧ 0 ≤ p.column ∧ IsI32 p.line ∧ IsI32 p.column)
    (hin : ∀ s ∈ c.sections, 0 ≤ s.generatedOffset.line ∧ 0 ≤ s.generatedOffset.column ∧
      IsI32 s.generatedOffset.line ∧ IsI32 s.generatedOffset.column)
    (hsorted : c.sections.Pairwise fun a b => a.generatedOffset.Le b.generatedOffset) :
    ∃ r, c.sectionIndex p = .ok r ∧
      (r = -1 ↔ ∀ s ∈ c.sections, ¬ s.generatedOffset.Le p) ∧
      (r ≠ -1 → ∃ (i : Nat) (x : IdxSection E), r = i ∧ c.sections[i]? = some x ∧ x.generatedOffset.Le p ∧
        (∀ y ∈ c.sections, y.generatedOffset.Le p → y.generatedOffset.Le x.generatedOffset) ∧
        ∀ (k : Nat) y, c.sections[k]? = some y → y.generatedOffset = x.generatedOffset → i ≤ k) := by
  have hcong : c.sectionIndex p = search E.cfg p c.sections
      (fun a b => .ok (posCmp a b.generatedOffset))
      (fun a b => .ok (posCmp a.generatedOffset b.generatedOffset)) none :=
    search_congr E.cfg (fun x hx => needleCmp_eq E.cfg hp (hin x hx))
      (fun x hx y hy => needleCmp_eq E.cfg (hin x hx) (hin y hy)) none
  have hcons : Consistent (fun a (b : IdxSection E) => posCmp a b.generatedOffset)
      (fun a b => posCmp a.generatedOffset b.generatedOffset) p c.sections := {
    lawful := posCmp_lawful _
    sorted := hsorted.imp fun {a b} hab => by
      rw [posCmp_le]; exact hab
    mono := fun a b h1 h2 => by
      rw [posCmp_le] at h1
      simp only [posCmp, Position.Le] at *
      split at h2 <;> split <;> omega
    monoStrict := fun a b h1 h2 => by
      rw [posCmp_le] at h1
      simp only [posCmp, Position.Le] at *
      split at h2 <;> split <;> omega
    tight := fun a b h1 h2 => by
      simp only [posCmp] at *
      split at h1 <;> split at h2 <;> split <;> omega }
  obtain ⟨r, h1, h2, h3⟩ := C13_search_glb E.cfg p c.sections _ _ none hlen (by decide) hcons
  rw [← hcong] at h1
  refine ⟨r, h1, ?_, ?_⟩
  · rw [h2]
    refine forall_congr' fun s => forall_congr' fun _ => ?_
    simp only [posCmp, Position.Le]
    split <;> omega
  · intro hr
    obtain ⟨i, x, e1, e2, e3, e4, e5⟩ := h3 hr
    refine ⟨i, x, e1, e2, ?_, ?_, ?_⟩
    · simp only [posCmp] at e3
      unfold Position.Le
      split at e3 <;> omega
    · intro y hy hle
      have h6 := e4 y hy (by
        simp only [posCmp]
        unfold Position.Le at hle
        split <;> omega)
      rwa [posCmp_le] at h6
    · intro k y hy he
      exact e5 k y hy (by simp [posCmp, he])

/-- A section with an ordinary offset. -/
def Plain (s : JsonSection SourceMapJson) : Prop :=
  0 ≤ s.offset.line ∧ 0 ≤ s.offset.column ∧ IsI32 (s.offset.line + 1) ∧ IsI32 (s.offset.column + 1)

theorem fresh_sections {m : SourceMapJson} {u : Option String}
    {secs : List (JsonSection SourceMapJson)} (hs : m.sections = some secs) {sch : List Nat}
    (h1 : IsSchedule secs.length sch) {c : IndexedConsumer E} (e1 : fromSourceMapJson sch m u = .ok c) :
    SecRel c.sections c.sections := by
  apply SecRel.self
  intro x hx
  obtain ⟨hl, hsec⟩ := C41_sections hs h1 e1
  obtain ⟨i, hi⟩ := List.getElem?_of_mem hx
  have hi' : i < secs.length := by
    have := (List.getElem?_eq_some_iff.1 hi).1; omega
  obtain ⟨y, hy, _, _, hb⟩ := hsec i secs[i] (List.getElem?_eq_getElem hi')
  rw [hi] at hy
  cases hy
  obtain ⟨_, _, _, _, _, hf, _⟩ := hb.spec
  exact hf

/-- The sections of a consumer, after any history, in terms of those of the map. -/
theorem sections_after (hL : E.maps.Laws) {m : SourceMapJson} {u : Option String}
    {secs : List (JsonSection SourceMapJson)} (hs : m.sections = some secs) {sch : List Nat}
    (h1 : IsSchedule secs.length sch) {c₀ c : IndexedConsumer E} (e1 : fromSourceMapJson sch m u = .ok c₀)
    {ops : List Op} (hrun : c₀.run ops = .ok c) :
    c.sections.length = secs.length ∧ ∀ (i : Nat) x, c.sections[i]? = some x → ∃ s x₀, secs[i]? = some s ∧
      c₀.sections[i]? = some x₀ ∧
      (IsI32 (s.offset.line + 1) → x.generatedOffset.line = s.offset.line + 1) ∧
      (IsI32 (s.offset.column + 1) → x.generatedOffset.column = s.offset.column + 1) ∧
      BasicConsumer.Built s.map u x₀.consumer ∧ BasicConsumer.Rel x₀.consumer x.consumer := by
  obtain ⟨hl, hsec⟩ := C41_sections hs h1 e1
  have hrel := ((fresh_sections hs h1 e1).run hL hrun).1
  refine ⟨hrel.length.trans hl, ?_⟩
  intro i x hx
  obtain ⟨x₀, h2, h3, h4⟩ := hrel.get hx
  have hi' : i < secs.length := by
    have := (List.getElem?_eq_some_iff.1 h2).1; omega
  obtain ⟨y, hy, h5, h6, hb⟩ := hsec i secs[i] (List.getElem?_eq_getElem hi')
  rw [h2] at hy
  cases hy
  exact ⟨secs[i], x₀, List.getElem?_eq_getElem hi', h2, by rw [h3]; exact h5, by rw [h3]; exact h6, hb, h4⟩

/-- C42 with the boundary shifted by one column (`_partial`: the claim itself is false, see below).
The query goes to the last section whose first column lies *before* the queried one (or whose first
line is before), rebased to that section; if there is none the answer is `None`. Of several sections
with the same offset, which the constructor lets pass, it is the first. -/
theorem C42_section_partial (hL : E.maps.Laws) {m : SourceMapJson} {u : Option String}
    {secs : List (JsonSection SourceMapJson)} (hs : m.sections = some secs) {sch : List Nat}
    (h1 : IsSchedule secs.length sch) {c₀ c : IndexedConsumer E} (e1 : fromSourceMapJson sch m u = .ok c₀)
    {ops : List Op} (hrun : c₀.run ops = .ok c) (hlen : secs.length < 2147483647)
    (hplain : ∀ s ∈ secs, Plain s) (hsorted : secs.Pairwise fun a b => a.offset.Le b.offset)
    {p : Position} (hp : 1 ≤ p.line ∧ 0 ≤ p.column ∧ IsI32 p.line ∧ IsI32 p.column) (b : Option Bias) :
    (∀ (i : Nat) s, secs[i]? = some s →
      (Position.mk (s.offset.line + 1) (s.offset.column + 1)).Le p →
      (∀ t ∈ secs, (Position.mk (t.offset.line + 1) (t.offset.column + 1)).Le p → t.offset.Le s.offset) →
      (∀ (j : Nat) t, secs[j]? = some t → t.offset = s.offset → i ≤ j) →
      ∃ x, c.sections[i]? = some x ∧ (c.originalPositionFor p b).map Prod.fst =
        (x.consumer.originalPositionFor ⟨p.line - s.offset.line,
          if s.offset.line + 1 = p.line then p.column - s.offset.column else p.column⟩ b).map Prod.fst) ∧
    ((∀ s ∈ secs, ¬ (Position.mk (s.offset.line + 1) (s.offset.column + 1)).Le p) →
      c.originalPositionFor p b = .ok (none, c)) := by
  obtain ⟨hl, hsec⟩ := sections_after hL hs h1 e1 hrun
  have hoff : ∀ (i : Nat) x s, c.sections[i]? = some x → secs[i]? = some s →
      x.generatedOffset = ⟨s.offset.line + 1, s.offset.column + 1⟩ := by
    intro i x s hx hs'
    obtain ⟨s'', x₀, h2, _, h3, h4, _⟩ := hsec i x hx
    rw [hs'] at h2
    cases h2
    obtain ⟨_, _, h5, h6⟩ := hplain s (List.mem_of_getElem? hs')
    have h7 := h3 h5
    have h8 := h4 h6
    cases hx : x.generatedOffset
    rw [hx] at h7 h8
    simp only at h7 h8
    rw [h7, h8]
  have hin : ∀ s ∈ c.sections, 0 ≤ s.generatedOffset.line ∧ 0 ≤ s.generatedOffset.column ∧
      IsI32 s.generatedOffset.line ∧ IsI32 s.generatedOffset.column := by
    intro x hx
    obtain ⟨i, hi⟩ := List.getElem?_of_mem hx
    have hi' : i < secs.length := by
      have := (List.getElem?_eq_some_iff.1 hi).1; omega
    rw [hoff i x secs[i] hi (List.getElem?_eq_getElem hi')]
    obtain ⟨a1, a2, a3, a4⟩ := hplain secs[i] (List.getElem_mem hi')
    refine ⟨?_, ?_, a3, a4⟩ <;> dsimp only <;> omega
  have hso : c.sections.Pairwise fun a b => a.generatedOffset.Le b.generatedOffset := by
    rw [List.pairwise_iff_getElem]
    intro i j hi hj hij
    rw [hoff i _ secs[i] (List.getElem?_eq_getElem hi) (List.getElem?_eq_getElem (by omega)),
      hoff j _ secs[j] (List.getElem?_eq_getElem hj) (List.getElem?_eq_getElem (by omega))]
    have := List.pairwise_iff_getElem.1 hsorted i j (by omega) (by omega) hij
    unfold Position.Le at *
    dsimp only
    omega
  obtain ⟨r, hr, hr1, hr2⟩ := sectionIndex_spec (c := c) (p := p) (by omega)
    ⟨by omega, hp.2.1, hp.2.2.1, hp.2.2.2⟩ hin hso
  constructor
  · intro i s hi hle hmax hfirst
    have hi' : i < secs.length := (List.getElem?_eq_some_iff.1 hi).1
    have hx : c.sections[i]? = some c.sections[i] := List.getElem?_eq_getElem (by omega)
    refine ⟨c.sections[i], hx, ?_⟩
    have hne : r ≠ -1 := by
      intro h
      have := hr1.1 h c.sections[i] (List.getElem_mem _)
      rw [hoff i _ s hx hi] at this
      exact this hle
    obtain ⟨k, y, hk, hy, hky, hkm, hkf⟩ := hr2 hne
    have hk' : k < c.sections.length := (List.getElem?_eq_some_iff.1 hy).1
    have hsk : secs[k]? = some secs[k] := List.getElem?_eq_getElem (by omega)
    have hoy := hoff k y secs[k] hy hsk
    rw [hoy] at hky
    have hm1 := hkm c.sections[i] (List.getElem_mem _) (by rw [hoff i _ s hx hi]; exact hle)
    have hm2 := hmax secs[k] (List.mem_of_getElem? hsk) hky
    rw [hoff i _ s hx hi, hoy] at hm1
    have heq : secs[k].offset = s.offset := by
      unfold Position.Le at hm1 hm2
      dsimp only at hm1
      have e1 : secs[k].offset.line = s.offset.line := by omega
      have e2 : secs[k].offset.column = s.offset.column := by omega
      cases h1 : secs[k].offset
      cases h2 : s.offset
      simp_all
    have hki : k = i := by
      have g1 := hfirst k _ hsk heq
      have g2 := hkf i _ hx (by rw [hoff i _ s hx hi, hoy, heq])
      omega
    subst hki
    have hu : E.cfg.asUsize r = k := by
      rw [hk]; unfold Cfg.asUsize; split <;> omega
    obtain ⟨g1, g2, g3, g4⟩ := hplain s (List.mem_of_getElem? hi)
    obtain ⟨x, hxe⟩ : ∃ x, x = c.sections[k] := ⟨_, rfl⟩
    rw [← hxe] at hx ⊢
    have ho := hoff k _ s hx hi
    have a1 : E.cfg.arith (x.generatedOffset.line - 1) = .ok s.offset.line := by
      rw [ho]; dsimp only
      rw [show s.offset.line + 1 - 1 = s.offset.line by omega]
      exact E.cfg.arith_ok (by unfold IsI32 at *; omega)
    have a2 : E.cfg.arith (p.line - s.offset.line) = .ok (p.line - s.offset.line) :=
      E.cfg.arith_ok (by unfold IsI32 at *; omega)
    have a3 : sectionColumnShift x p = .ok (if s.offset.line + 1 = p.line then s.offset.column else 0) := by
      simp only [sectionColumnShift, ho]
      split
      · rw [show s.offset.column + 1 - 1 = s.offset.column by omega]
        exact E.cfg.arith_ok (by unfold IsI32 at *; omega)
      · rfl
    have a4 : E.cfg.arith (p.column - if s.offset.line + 1 = p.line then s.offset.column else 0) =
        .ok (if s.offset.line + 1 = p.line then p.column - s.offset.column else p.column) := by
      have hpc := hp.2.1
      have hpi := hp.2.2.2
      split
      · exact E.cfg.arith_ok (by unfold IsI32 at *; omega)
      · rw [Int.sub_zero]
        exact E.cfg.arith_ok hpi
    simp only [IndexedConsumer.originalPositionFor, hr, Res.ok_bind, hu, hx, originalInSection, a1, a2,
      a3, a4]
    cases x.consumer.originalPositionFor ⟨p.line - s.offset.line,
      if s.offset.line + 1 = p.line then p.column - s.offset.column else p.column⟩ b <;> rfl
  · intro hno
    have hm1 : r = -1 := by
      rw [hr1]
      intro x hx
      obtain ⟨i, hi⟩ := List.getElem?_of_mem hx
      have hi' : i < secs.length := by
        have := (List.getElem?_eq_some_iff.1 hi).1; omega
      rw [hoff i x secs[i] hi (List.getElem?_eq_getElem hi')]
      exact hno _ (List.getElem_mem hi')
    have hu : c.sections[E.cfg.asUsize r]? = none := by
      apply List.getElem?_eq_none
      rw [hm1]
      unfold Cfg.asUsize
      split <;> simp <;> omega
    simp only [IndexedConsumer.originalPositionFor, hr, Res.ok_bind, hu, Res.pure_eq]

/-- Position (3, 100) belongs to the second section, where it is (1, 95). The generated position in the
answer is the one in the section. -/
example : demoAskIndexed [0, 1] demoIndexed (fun c => c.originalPositionFor ⟨3, 100⟩ (some .lub)) =
      .ok (some ⟨⟨2, 1⟩, some ⟨1, 1⟩, some "/the/root/two.js", none, none⟩) ∧
    demoAsk demoRooted (fun c => c.originalPositionFor ⟨1, 95⟩ (some .lub)) =
      .ok (some ⟨⟨2, 1⟩, some ⟨1, 1⟩, some "/the/root/two.js", none, none⟩) :=
  ⟨by decide +kernel, by decide +kernel⟩

/-- The hypotheses on the sections hold of the demo map. -/
example : ∃ secs, demoIndexed.sections = some secs ∧ IsSchedule secs.length [0, 1] ∧ (∀ s ∈ secs, Plain s) ∧
    secs.Pairwise (fun a b => a.offset.Lt b.offset) :=
  ⟨_, rfl, List.Perm.refl _, by simp [Plain, IsI32], by simp [Position.Lt]⟩

/-- Of two sections with the same offset only the first is ever asked: the answer is that of the
rooted map although the unrooted one starts at the same place. -/
example : demoAskIndexed [0, 1]
      { demoIndexed with sections := some [⟨⟨2, 5⟩, demoRooted, none⟩, ⟨⟨2, 5⟩, demoMap, none⟩] }
      (fun c => c.originalPositionFor ⟨3, 100⟩ (some .lub)) =
    .ok (some ⟨⟨2, 1⟩, some ⟨1, 1⟩, some "/the/root/two.js", none, none⟩) := by decide +kernel

/-- C42 is false of the code: a query for exactly the first position of a section other than the
first is answered by the section before it. -/
theorem C42_boundary_refuted (hL : E.maps.Laws) {m : SourceMapJson} {u : Option String}
    {secs : List (JsonSection SourceMapJson)} (hs : m.sections = some secs) {sch : List Nat}
    (h1 : IsSchedule secs.length sch) {c₀ c : IndexedConsumer E} (e1 : fromSourceMapJson sch m u = .ok c₀)
    {ops : List Op} (hrun : c₀.run ops = .ok c) (hlen : secs.length < 2147483647)
    (hplain : ∀ s ∈ secs, Plain s) (hsorted : secs.Pairwise fun a b => a.offset.Lt b.offset)
    {i : Nat} {s t : JsonSection SourceMapJson} (hi : secs[i]? = some s) (hi1 : secs[i + 1]? = some t)
    (b : Option Bias) :
    ∃ x, c.sections[i]? = some x ∧
      (c.originalPositionFor ⟨t.offset.line + 1, t.offset.column⟩ b).map Prod.fst =
        (x.consumer.originalPositionFor ⟨t.offset.line + 1 - s.offset.line,
          if s.offset.line = t.offset.line then t.offset.column - s.offset.column else t.offset.column⟩
          b).map Prod.fst := by
  obtain ⟨g1, g2, g3, g4⟩ := hplain t (List.mem_of_getElem? hi1)
  have hlt : s.offset.Lt t.offset := by
    obtain ⟨ha, rfl⟩ := List.getElem?_eq_some_iff.1 hi
    obtain ⟨hb, rfl⟩ := List.getElem?_eq_some_iff.1 hi1
    exact List.pairwise_iff_getElem.1 hsorted i (i + 1) ha hb (by omega)
  have := (C42_section_partial hL hs h1 e1 hrun hlen hplain
    (hsorted.imp fun {a b} hab => by unfold Position.Lt at hab; unfold Position.Le; omega)
    (p := ⟨t.offset.line + 1, t.offset.column⟩)
    ⟨by dsimp only; omega, g2, g3, by unfold IsI32 at *; dsimp only; omega⟩ b).1 i s hi
    (by unfold Position.Lt at hlt; unfold Position.Le; dsimp only; omega) (by
      intro r hr hle
      obtain ⟨j, hj⟩ := List.getElem?_of_mem hr
      obtain ⟨ha, rfl⟩ := List.getElem?_eq_some_iff.1 hi1
      obtain ⟨hb, rfl⟩ := List.getElem?_eq_some_iff.1 hj
      obtain ⟨hc, rfl⟩ := List.getElem?_eq_some_iff.1 hi
      rcases Nat.lt_trichotomy j i with h | h | h
      · have := List.pairwise_iff_getElem.1 hsorted j i hb hc h
        unfold Position.Lt at this; unfold Position.Le; omega
      · subst h; unfold Position.Le; omega
      · exfalso
        by_cases hje : j = i + 1
        · subst hje; unfold Position.Le at hle; dsimp only at hle; omega
        · have := List.pairwise_iff_getElem.1 hsorted (i + 1) j ha hb (by omega)
          unfold Position.Lt at this; unfold Position.Le at hle; dsimp only at hle; omega) (by
      intro j r hj he
      obtain ⟨hb, rfl⟩ := List.getElem?_eq_some_iff.1 hj
      obtain ⟨hc, rfl⟩ := List.getElem?_eq_some_iff.1 hi
      rcases Nat.lt_or_ge j i with h | h
      · have := List.pairwise_iff_getElem.1 hsorted j i hb hc h
        rw [he] at this
        unfold Position.Lt at this; omega
      · exact h)
  obtain ⟨x, hx, he⟩ := this
  refine ⟨x, hx, ?_⟩
  rw [he]
  dsimp only
  by_cases hll : s.offset.line = t.offset.line
  · rw [if_pos hll, if_pos (by omega)]
  · rw [if_neg hll, if_neg (by omega)]

/-! ## C43 -/

/-- C43 is false of the code: with the default bias `original_position_for` on an indexed map returns
`None` whenever it returns, whatever the map, the history and the query. -/
theorem C43_default_bias_refuted (hL : E.maps.Laws) {m : SourceMapJson} {u : Option String}
    {secs : List (JsonSection SourceMapJson)} (hs : m.sections = some secs) {sch : List Nat}
    (h1 : IsSchedule secs.length sch) {c₀ c : IndexedConsumer E} (e1 : fromSourceMapJson sch m u = .ok c₀)
    {ops : List Op} (hrun : c₀.run ops = .ok c) {p : Position} {b : Option Bias}
    (hb : b.getD .glb = .glb) {r : Option Mapping} {c' : IndexedConsumer E}
    (hr : c.originalPositionFor p b = .ok (r, c')) : r = none := by
  obtain ⟨hl, hsec⟩ := sections_after hL hs h1 e1 hrun
  simp only [IndexedConsumer.originalPositionFor, Res.bind_eq_ok] at hr
  obtain ⟨i, _, hr⟩ := hr
  cases hg : c.sections[E.cfg.asUsize i]? with
  | none =>
    rw [hg] at hr
    simp only [Res.pure_eq, Except.ok.injEq, Prod.mk.injEq] at hr
    exact hr.1.symm
  | some x =>
    rw [hg] at hr
    obtain ⟨_, x₀, _, _, _, _, _, hrel⟩ := hsec _ x hg
    simp only [originalInSection, Res.bind_eq_ok, Res.pure_eq, Except.ok.injEq, Prod.mk.injEq] at hr
    obtain ⟨⟨y, x'⟩, ⟨_, _, line, hline, _, _, column, hcol, ⟨z, k⟩, hz, rfl, _⟩, rfl, _⟩ := hr
    exact original_glb_none hL hrel
      ⟨E.cfg.arith_isI32 hline, E.cfg.arith_isI32 hcol⟩ hb hz

example : demoAskIndexed [0, 1] demoIndexed (fun c => c.originalPositionFor ⟨2, 5⟩ none) = .ok none := by decide +kernel

/-! ## C44 -/

/-- C44 is false of the code: with at least one section, every reverse lookup panics on a borrow of
the `RefCell`, and so does `each_mapping`. -/
theorem C44_reverse_lookups_panic_refuted (c : IndexedConsumer E) (h : c.sections ≠ []) (s : String)
    (l k : Int) (b : Option Bias) (o : BasicConsumer.IterOrd) :
    c.generatedPositionFor s l k b = .error .borrow ∧
    c.allGeneratedPositionFor s l (some k) = .error .borrow ∧
    c.allGeneratedPositionFor s l none = .error .borrow ∧
    (∃ e, c.eachMapping o = .error e) ∧
    ((∀ x ∈ c.sections, IsI32 (x.generatedOffset.line - 1) ∧ IsI32 (x.generatedOffset.column - 1)) →
      c.eachMapping o = .error .borrow) := by
  refine ⟨?_, ?_, ?_, each_panics h o, ?_⟩
  · simp [IndexedConsumer.generatedPositionFor, find_panics h]
  · simp [IndexedConsumer.allGeneratedPositionFor, find_panics h]
  · simp [IndexedConsumer.allGeneratedPositionFor, find_panics h]
  · intro hin
    cases hs : c.sections with
    | nil => exact absurd hs h
    | cons a l =>
      obtain ⟨h1, h2⟩ := hin a (by rw [hs]; simp)
      simp only [IndexedConsumer.eachMapping, BorrowFlag.borrowMut, Res.ok_bind, hs, eachLoop,
        BorrowFlag.borrow, E.cfg.arith_ok h1, E.cfg.arith_ok h2, Res.error_bind]

/-- C44: the sections of a consumer of a map with sections are never empty, whatever was called
before; so every reverse lookup panics at any time. -/
theorem C44_all_histories_refuted (hL : E.maps.Laws) {m : SourceMapJson} {u : Option String}
    {secs : List (JsonSection SourceMapJson)} (hs : m.sections = some secs) (hne : secs ≠ [])
    {sch : List Nat} (h1 : IsSchedule secs.length sch) {c₀ c : IndexedConsumer E}
    (e1 : fromSourceMapJson sch m u = .ok c₀) {ops : List Op} (hrun : c₀.run ops = .ok c)
    (s : String) (l k : Int) (b : Option Bias) (o : BasicConsumer.IterOrd) :
    c.generatedPositionFor s l k b = .error .borrow ∧
    c.allGeneratedPositionFor s l (some k) = .error .borrow ∧
    c.allGeneratedPositionFor s l none = .error .borrow ∧ ∃ e, c.eachMapping o = .error e := by
  obtain ⟨hl, _⟩ := sections_after hL hs h1 e1 hrun
  have hne' : c.sections ≠ [] := by
    intro h
    rw [h] at hl
    exact hne (List.length_eq_zero_iff.1 hl.symm)
  obtain ⟨a, b', c', d, _⟩ := C44_reverse_lookups_panic_refuted c hne' s l k b o
  exact ⟨a, b', c', d⟩

example : demoAskIndexed [0, 1] demoIndexed (fun c => c.generatedPositionFor "one.js" 1 1 none) = .error .borrow ∧
    demoAskIndexed [0, 1] demoIndexed (fun c => c.eachMapping .generated) = .error .borrow :=
  ⟨by decide +kernel, by decide +kernel⟩

/-- C44 for a consumer without sections: no source is known, so the reverse lookups answer with
nothing and `each_mapping` visits nothing; the forward lookup finds no section. -/
theorem C44_no_sections (c : IndexedConsumer E) (h : c.sections = []) (s : String) (l k : Int)
    (col : Option Int) (b : Option Bias) (o : BasicConsumer.IterOrd) (p : Position) :
    c.generatedPositionFor s l k b = .ok (none, c) ∧
    c.allGeneratedPositionFor s l col = .ok ([], c) ∧
    c.eachMapping o = .ok ([], c) ∧
    c.originalPositionFor p b = .ok (none, c) ∧
    c.getSources = .ok [] ∧ c.hasContentsOfAllSources = .ok true ∧
    c.sourceContentFor s (some false) = .ok (none, c) := by
  cases c with
  | mk secs =>
    subst h
    exact ⟨rfl, rfl, rfl, rfl, rfl, rfl, rfl⟩

example : demoAskIndexed [] { demoIndexed with sections := some [] }
    (fun c => c.allGeneratedPositionFor "one.js" 0 none) = .ok [] := by decide +kernel

/-! ## C45 -/

/-- C45: `get_sources` is the concatenation of the source lists of the section maps, in order, as
they are written there, after any history. -/
theorem C45_sources (hL : E.maps.Laws) {m : SourceMapJson} {u : Option String}
    {secs : List (JsonSection SourceMapJson)} (hs : m.sections = some secs) {sch : List Nat}
    (h1 : IsSchedule secs.length sch) {c₀ c : IndexedConsumer E} (e1 : fromSourceMapJson sch m u = .ok c₀)
    {ops : List Op} (hrun : c₀.run ops = .ok c) :
    (∀ s ∈ secs, s.map.sources.isSome = true) ∧
    c.getSources = .ok (secs.flatMap fun s => s.map.sources.getD []) := by
  obtain ⟨hl, hsec⟩ := sections_after hL hs h1 e1 hrun
  have hmaps : ∀ (i : Nat) x s, c.sections[i]? = some x → secs[i]? = some s →
      x.consumer.sourceMap = s.map ∧ ∃ srcs, s.map.sources = some srcs := by
    intro i x s hx hs'
    obtain ⟨s'', x₀, h2, _, _, _, hb, hrel⟩ := hsec i x hx
    rw [hs'] at h2
    cases h2
    obtain ⟨_, srcs, _, h3, _, _, h4, _⟩ := hb.spec
    exact ⟨hrel.map.trans h4, srcs, h3⟩
  constructor
  · intro s hsm
    obtain ⟨i, hi⟩ := List.getElem?_of_mem hsm
    have hi' : i < secs.length := (List.getElem?_eq_some_iff.1 hi).1
    obtain ⟨_, srcs, h⟩ := hmaps i _ s (List.getElem?_eq_getElem (by omega)) hi
    rw [h]; rfl
  · have key : ∀ (xs : List (IdxSection E)) (ss : List (JsonSection SourceMapJson)),
        xs.length = ss.length →
        (∀ (i : Nat) x s, xs[i]? = some x → ss[i]? = some s →
          x.consumer.sourceMap = s.map ∧ ∃ srcs, s.map.sources = some srcs) →
        xs.mapM (fun s => unwrap s.consumer.sourceMap.sources) =
          .ok (ss.map fun s => s.map.sources.getD []) := by
      intro xs
      induction xs with
      | nil =>
        intro ss h _
        have : ss = [] := List.length_eq_zero_iff.1 h.symm
        subst this; rfl
      | cons x xs ih =>
        intro ss h hm
        cases ss with
        | nil => simp at h
        | cons s ss =>
          obtain ⟨a, srcs, b⟩ := hm 0 x s rfl rfl
          have := ih ss (by simpa using h) (fun i x s hx hs => hm (i + 1) x s (by simpa using hx) (by simpa using hs))
          rw [List.mapM_cons, this, a, b]
          simp only [unwrap, Res.ok_bind, Res.pure_eq, List.map_cons, b, Option.getD_some]
    simp only [IndexedConsumer.getSources, key c.sections secs hl hmaps, Res.ok_bind, Res.pure_eq,
      List.flatMap]

example : demoAskIndexed [0, 1] demoIndexed (fun c => do let s ← c.getSources; pure (s, c)) =
    .ok ["one.js", "two.js", "one.js", "two.js"] := by decide +kernel

/-! ## C46 -/

/-- `x` is a section of a consumer of the map after some history. -/
structure Usable (x : IdxSection E) : Prop where
  built : ∃ m u c₀, BasicConsumer.Built m u c₀ ∧ BasicConsumer.Rel c₀ x.consumer
  few : x.consumer.getSources.length < 2147483648

theorem content_has {x : IdxSection E} (h : Usable x) {s t : String} (hc : x.consumer.HasContent s t)
    (p : Option Bool) : ∃ c', x.consumer.sourceContentFor s p = .ok (some t, c') := by
  obtain ⟨m, u, c₀, hb, hrel⟩ := h.built
  obtain ⟨contents, n, h1, h2, h3⟩ := hc
  have hk := ((BasicConsumer.lookup_spec hb (by rw [← hrel.getSources]; exact h.few) s).1 n).2
    ⟨n, rfl, (hrel.knows s n).1 h2⟩
  have hlt : n < 2147483648 := by
    have := h.few
    rcases h2 with ⟨_, _, hf⟩ | ⟨_, _, _, _, _, hf⟩
    · have := (List.getElem?_eq_some_iff.mp hf.1).1; omega
    · have := (List.getElem?_eq_some_iff.mp hf.1).1; omega
  have hu : E.cfg.asUsize (n : Int) = n := by
    unfold Cfg.asUsize; split <;> omega
  rcases hrel.find s with ⟨e, h4, _⟩ | ⟨r, q, h4, h5, _⟩
  · rw [hk] at h4; cases h4
  · rw [hk] at h4; cases h4
    simp only [BasicConsumer.sourceContentFor, h1, h5, Res.ok_bind, hu, index, h3, Res.pure_eq]
    exact ⟨_, rfl⟩

theorem content_lacks {x : IdxSection E} (h : Usable x) {s : String} (hc : x.consumer.LacksContent s) :
    ∃ c', x.consumer.sourceContentFor s (some false) = .ok (none, c') := by
  obtain ⟨m, u, c₀, hb, hrel⟩ := h.built
  rcases hc with hc | hc
  · exact ⟨x.consumer, by simp [BasicConsumer.sourceContentFor, hc]⟩
  · have hk := (BasicConsumer.lookup_spec hb (by rw [← hrel.getSources]; exact h.few) s).2.2
      ((hrel.unknown s).1 hc)
    cases hcon : x.consumer.sourceMap.sourcesContent with
    | none => exact ⟨x.consumer, by simp [BasicConsumer.sourceContentFor, hcon]⟩
    | some contents =>
      rcases hrel.find s with ⟨e, h4, _⟩ | ⟨r, q, h4, h5, _⟩
      · rw [hk] at h4; cases h4
      · rw [hk] at h4; cases h4
        simp only [BasicConsumer.sourceContentFor, hcon, h5, Res.ok_bind, Res.pure_eq]
        exact ⟨_, rfl⟩

theorem content_unknown {x : IdxSection E} (h : Usable x) {s : String} {contents : List String}
    (hcon : x.consumer.sourceMap.sourcesContent = some contents) (hc : x.consumer.Unknown s)
    {p : Option Bool} (hp : p.getD true = true) :
    ∃ msg, x.consumer.sourceContentFor s p = .error (.explicit msg) := by
  obtain ⟨m, u, c₀, hb, hrel⟩ := h.built
  have hk := (BasicConsumer.lookup_spec hb (by rw [← hrel.getSources]; exact h.few) s).2.2
    ((hrel.unknown s).1 hc)
  rcases hrel.find s with ⟨e, h4, _⟩ | ⟨r, q, h4, h5, _⟩
  · rw [hk] at h4; cases h4
  · rw [hk] at h4; cases h4
    simp only [BasicConsumer.sourceContentFor, hcon, h5, Res.ok_bind, hp, if_true]
    exact ⟨_, rfl⟩

theorem contentLoop_skip {s : String} {p : Option Bool} : ∀ (pre rest : List (IdxSection E)),
    (∀ x ∈ pre, ∃ c', x.consumer.sourceContentFor s p = .ok (none, c')) →
    ∃ pre', contentLoop s p (pre ++ rest) =
      (contentLoop s p rest >>= fun q => .ok (q.1, pre' ++ q.2)) := by
  intro pre rest
  induction pre with
  | nil =>
    intro _
    exact ⟨[], by cases h : contentLoop s p rest <;> simp [h]⟩
  | cons a pre ih =>
    intro h
    obtain ⟨pre', hp⟩ := ih (fun x hx => h x (by simp [hx]))
    obtain ⟨c', hc⟩ := h a (by simp)
    refine ⟨{ a with consumer := c' } :: pre', ?_⟩
    simp only [List.cons_append, contentLoop, hc, Res.ok_bind, hp]
    cases contentLoop s p rest <;> rfl

theorem usable_after (hL : E.maps.Laws) {m : SourceMapJson} {u : Option String}
    {secs : List (JsonSection SourceMapJson)} (hs : m.sections = some secs) {sch : List Nat}
    (h1 : IsSchedule secs.length sch) {c₀ c : IndexedConsumer E} (e1 : fromSourceMapJson sch m u = .ok c₀)
    {ops : List Op} (hrun : c₀.run ops = .ok c)
    (hfew : ∀ x ∈ c.sections, x.consumer.getSources.length < 2147483648) :
    ∀ x ∈ c.sections, Usable x := by
  obtain ⟨_, hsec⟩ := sections_after hL hs h1 e1 hrun
  intro x hx
  obtain ⟨i, hi⟩ := List.getElem?_of_mem hx
  obtain ⟨s, x₀, _, _, _, _, hb, hrel⟩ := hsec i x hi
  exact ⟨⟨s.map, u, x₀.consumer, hb, hrel⟩, hfew x hx⟩

/-- C46 with `panic_on_missing = false` (`_partial`: false by default, see below): the content is
that of the first section that has it, and `None` if no section has it. -/
theorem C46_content_partial (hL : E.maps.Laws) {m : SourceMapJson} {u : Option String}
    {secs : List (JsonSection SourceMapJson)} (hs : m.sections = some secs) {sch : List Nat}
    (h1 : IsSchedule secs.length sch) {c₀ c : IndexedConsumer E} (e1 : fromSourceMapJson sch m u = .ok c₀)
    {ops : List Op} (hrun : c₀.run ops = .ok c)
    (hfew : ∀ x ∈ c.sections, x.consumer.getSources.length < 2147483648) (s : String) :
    (∀ pre x post t, c.sections = pre ++ x :: post → (∀ y ∈ pre, y.consumer.LacksContent s) →
      x.consumer.HasContent s t → ∃ c', c.sourceContentFor s (some false) = .ok (some t, c')) ∧
    ((∀ y ∈ c.sections, y.consumer.LacksContent s) →
      ∃ c', c.sourceContentFor s (some false) = .ok (none, c')) := by
  have hus := usable_after hL hs h1 e1 hrun hfew
  constructor
  · intro pre x post t hsplit hpre hx
    obtain ⟨pre', hp⟩ := contentLoop_skip pre (x :: post) (p := some false) (fun y hy =>
      content_lacks (hus y (by rw [hsplit]; simp [hy])) (hpre y hy))
    obtain ⟨c', hc⟩ := content_has (hus x (by rw [hsplit]; simp)) hx (some false)
    simp only [IndexedConsumer.sourceContentFor, hsplit, hp, contentLoop, hc, Res.ok_bind, Res.pure_eq]
    exact ⟨_, rfl⟩
  · intro hall
    obtain ⟨pre', hp⟩ := contentLoop_skip c.sections [] (p := some false) (fun y hy =>
      content_lacks (hus y hy) (hall y hy))
    rw [List.append_nil] at hp
    simp only [IndexedConsumer.sourceContentFor, hp, contentLoop, Res.ok_bind, Res.pure_eq]
    exact ⟨_, rfl⟩

/-- C46 is false of the code by default: a section with contents that does not know the source makes
the call panic before the later sections are asked, whatever they have. -/
theorem C46_default_refuted (hL : E.maps.Laws) {m : SourceMapJson} {u : Option String}
    {secs : List (JsonSection SourceMapJson)} (hs : m.sections = some secs) {sch : List Nat}
    (h1 : IsSchedule secs.length sch) {c₀ c : IndexedConsumer E} (e1 : fromSourceMapJson sch m u = .ok c₀)
    {ops : List Op} (hrun : c₀.run ops = .ok c)
    (hfew : ∀ x ∈ c.sections, x.consumer.getSources.length < 2147483648) {s : String}
    {pre post : List (IdxSection E)} {x : IdxSection E} {contents : List String}
    (hsplit : c.sections = pre ++ x :: post)
    (hpre : ∀ y ∈ pre, y.consumer.sourceMap.sourcesContent = none)
    (hcon : x.consumer.sourceMap.sourcesContent = some contents) (hx : x.consumer.Unknown s)
    {p : Option Bool} (hp : p.getD true = true) :
    ∃ msg, c.sourceContentFor s p = .error (.explicit msg) := by
  have hus := usable_after hL hs h1 e1 hrun hfew
  obtain ⟨pre', hpr⟩ := contentLoop_skip (s := s) (p := p) pre (x :: post) (fun y hy =>
    ⟨y.consumer, by simp [BasicConsumer.sourceContentFor, hpre y hy]⟩)
  obtain ⟨msg, hc⟩ := content_unknown (hus x (by rw [hsplit]; simp)) hcon hx hp
  exact ⟨msg, by simp only [IndexedConsumer.sourceContentFor, hsplit, hpr, contentLoop, hc,
    Res.error_bind]⟩

/-- The content is in the second section: found with `Some(false)`, a panic by default. -/
example : demoAskIndexed [0, 1] demoIndexed (fun c => c.sourceContentFor "/the/root/two.js" (some false)) =
      .ok (some "TWO") ∧
    demoAskIndexed [0, 1] demoIndexed (fun c => c.sourceContentFor "/the/root/two.js" none) =
      .error (.explicit "is not in the SourceMap.") := ⟨by decide +kernel, by decide +kernel⟩

/-- C46, by default, if the earlier sections have no contents at all: the content is found. And if no
section has contents the call panics. -/
theorem C46_default_partial (hL : E.maps.Laws) {m : SourceMapJson} {u : Option String}
    {secs : List (JsonSection SourceMapJson)} (hs : m.sections = some secs) {sch : List Nat}
    (h1 : IsSchedule secs.length sch) {c₀ c : IndexedConsumer E} (e1 : fromSourceMapJson sch m u = .ok c₀)
    {ops : List Op} (hrun : c₀.run ops = .ok c)
    (hfew : ∀ x ∈ c.sections, x.consumer.getSources.length < 2147483648) {s : String}
    {p : Option Bool} (hp : p.getD true = true) :
    (∀ pre x post t, c.sections = pre ++ x :: post →
      (∀ y ∈ pre, y.consumer.sourceMap.sourcesContent = none) → x.consumer.HasContent s t →
      ∃ c', c.sourceContentFor s p = .ok (some t, c')) ∧
    ((∀ y ∈ c.sections, y.consumer.sourceMap.sourcesContent = none) →
      ∃ msg, c.sourceContentFor s p = .error (.explicit msg)) := by
  have hus := usable_after hL hs h1 e1 hrun hfew
  constructor
  · intro pre x post t hsplit hpre hx
    obtain ⟨pre', hpr⟩ := contentLoop_skip (s := s) (p := p) pre (x :: post) (fun y hy =>
      ⟨y.consumer, by simp [BasicConsumer.sourceContentFor, hpre y hy]⟩)
    obtain ⟨c', hc⟩ := content_has (hus x (by rw [hsplit]; simp)) hx p
    simp only [IndexedConsumer.sourceContentFor, hsplit, hpr, contentLoop, hc, Res.ok_bind, Res.pure_eq]
    exact ⟨_, rfl⟩
  · intro hall
    obtain ⟨pre', hpr⟩ := contentLoop_skip (s := s) (p := p) c.sections [] (fun y hy =>
      ⟨y.consumer, by simp [BasicConsumer.sourceContentFor, hall y hy]⟩)
    rw [List.append_nil] at hpr
    simp only [IndexedConsumer.sourceContentFor, hpr, contentLoop, Res.ok_bind, hp, if_true]
    exact ⟨_, rfl⟩

/-- C46: a section that knows the source but whose list of contents ends before it makes the call
panic, also when asked not to panic on a missing source, and although a later section may have the
content. -/
theorem C46_short_refuted (hL : E.maps.Laws) {m : SourceMapJson} {u : Option String}
    {secs : List (JsonSection SourceMapJson)} (hs : m.sections = some secs) {sch : List Nat}
    (h1 : IsSchedule secs.length sch) {c₀ c : IndexedConsumer E} (e1 : fromSourceMapJson sch m u = .ok c₀)
    {ops : List Op} (hrun : c₀.run ops = .ok c)
    (hfew : ∀ x ∈ c.sections, x.consumer.getSources.length < 2147483648) {s : String} {n : Nat}
    {pre post : List (IdxSection E)} {x : IdxSection E} {contents : List String}
    (hsplit : c.sections = pre ++ x :: post) {p : Option Bool}
    (hpre : ∀ y ∈ pre, y.consumer.sourceMap.sourcesContent = none ∨
      (p = some false ∧ y.consumer.Unknown s))
    (hcon : x.consumer.sourceMap.sourcesContent = some contents) (hx : x.consumer.Knows s n)
    (hshort : contents.length ≤ n) :
    c.sourceContentFor s p = .error .index := by
  have hus := usable_after hL hs h1 e1 hrun hfew
  obtain ⟨pre', hpr⟩ := contentLoop_skip (s := s) (p := p) pre (x :: post) (fun y hy => by
    rcases hpre y hy with h | ⟨rfl, h⟩
    · exact ⟨y.consumer, by simp [BasicConsumer.sourceContentFor, h]⟩
    · exact content_lacks (hus y (by rw [hsplit]; simp [hy])) (.inr h))
  have hc : x.consumer.sourceContentFor s p = .error .index := by
    obtain ⟨⟨m', u', c₁, hb, hrel⟩, hf⟩ := hus x (by rw [hsplit]; simp)
    have hk := ((BasicConsumer.lookup_spec hb (by rw [← hrel.getSources]; exact hf) s).1 n).2
      ⟨n, rfl, (hrel.knows s n).1 hx⟩
    have hlt : n < 2147483648 := by
      rcases hx with ⟨_, _, hf⟩ | ⟨_, _, _, _, _, hf⟩
      · have := (List.getElem?_eq_some_iff.mp hf.1).1; omega
      · have := (List.getElem?_eq_some_iff.mp hf.1).1; omega
    have hu : E.cfg.asUsize (n : Int) = n := by
      unfold Cfg.asUsize; split <;> omega
    have ht : contents[n]? = none := List.getElem?_eq_none hshort
    rcases hrel.find s with ⟨e, h4, _⟩ | ⟨r, q, h4, h5, _⟩
    · rw [hk] at h4; cases h4
    · rw [hk] at h4; cases h4
      simp only [BasicConsumer.sourceContentFor, hcon, h5, Res.ok_bind, hu, index, ht]
      rfl
  simp only [IndexedConsumer.sourceContentFor, hsplit, hpr, contentLoop, hc, Res.error_bind]

/-- The second section has the content, but the first one, whose contents are too few, is asked. -/
example : demoAskIndexed [0, 1]
    { demoIndexed with
      sections := some [⟨⟨0, 0⟩, { demoMap with sourcesContent := some ["ONE"] }, none⟩,
        ⟨⟨2, 5⟩, demoMap, none⟩] }
    (fun c => c.sourceContentFor "two.js" (some false)) = .error .index := by decide +kernel

/-! ## C47 -/

/-- C47 for indexed maps (`_partial`: basic maps are missing, see below). -/
theorem C47_indexed_version_partial (sch : List Nat) (m : SourceMapJson) (u : Option String)
    (hv : m.version ≠ 3) : ∃ msg, fromSourceMapJson (E := E) sch m u = .error (.explicit msg) := by
  refine ⟨"Unsupported version", ?_⟩
  unfold fromSourceMapJson
  exact if_pos hv

/-- C47 is false of the code for basic maps: whatever its version, a map is accepted or not. -/
theorem C47_basic_version_refuted (m : SourceMapJson) (u : Option String) (v : Int) :
    (∃ c : BasicConsumer E, BasicConsumer.fromSourceMapJson m u = .ok c) ↔
    (∃ c : BasicConsumer E, BasicConsumer.fromSourceMapJson { m with version := v } u = .ok c) := by
  simp only [BasicConsumer.fromSourceMapJson, BasicConsumer.build, Res.bind_eq_ok, Res.pure_eq,
    Except.ok.injEq]
  constructor
  · rintro ⟨_, a, ha, b, hb, _⟩; exact ⟨_, a, ha, b, hb, rfl⟩
  · rintro ⟨_, a, ha, b, hb, _⟩; exact ⟨_, a, ha, b, hb, rfl⟩

example : ((demoConsumer { demoMap with version := 99 }).map BasicConsumer.getSources : Res _) =
    .ok ["one.js", "two.js"] := by decide +kernel

/-- An indexed map with one section, whose map has version `v`. -/
def nestedVersion (v : Int) : SourceMapJson :=
  { version := 3, sections := some
      [{ offset := ⟨0, 0⟩, map := { version := v, sources := some [] }, url := none }] }

/-- C47 is false of the code for maps nested in sections: there is an accepted indexed map with a
section map of any version. -/
theorem C47_nested_version_refuted (v : Int) :
    ∃ c : IndexedConsumer E, fromSourceMapJson [0] (nestedVersion v) none = .ok c := by
  refine (C40_accepts_iff_along_schedule (nestedVersion v) none rfl rfl ?_ (List.Perm.refl _)).2 ?_
  · intro s hs
    simp only [List.mem_cons, List.not_mem_nil, or_false] at hs
    subst hs
    exact ⟨rfl, by simp [IsI32], by simp [IsI32], _, rfl⟩
  · simp [offsetsAlong, Position.Le]

end RSM
