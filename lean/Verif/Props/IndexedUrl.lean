import Verif.Props.CreateUrl
import Verif.Props.Consume
import Verif.Props.JsonExact
/-! # C85: when an indexed map is accepted, and C79 for indexed maps -/

namespace RSM
open Spec Written BasicConsumer

variable {E : Env}

/-- The source root and the sources of a map, if they are plain; nothing is asked of its other fields. -/
structure Described (j : SourceMapJson) (m : Option Written) (d : Option Written × List (Written × Tail)) : Prop where
  root : ∀ R ∈ d.1, R.Valid
  sources : ∀ x ∈ d.2, Source d.1 m x
  rootField : j.sourceRoot = d.1.map string
  sourcesField : j.sources = some (d.2.map fun x => full x.1 x.2)

/-- The located sources of a map. -/
def locatedSources (d : Option Written × List (Written × Tail)) (m : Option Written) : List String :=
  d.2.map fun x => full (located d.1 x.1 m) x.2

/-- A map all of whose texts looked at have two characters at least. -/
def AllLong (d : Option Written × List (Written × Tail)) (m : Option Written) : Prop :=
  ∀ x ∈ d.2, LongEnough d.1 x.1 x.2 m

theorem basic_of_long (hU : E.url.Laws) {m : Option Written} (hm : ∀ M ∈ m, M.MapUrl) {j : SourceMapJson}
    {d : Option Written × List (Written × Tail)} (hd : Described j m d) (hl : AllLong d m) :
    ∃ c : BasicConsumer E, BasicConsumer.fromSourceMapJson j (m.map string) = .ok c ∧
      c.getSources = locatedSources d m := by
  have hmap : (d.2.map fun x => full x.1 x.2).mapM (fun s => sourceUrl E j.sourceRoot s (m.map string)) =
      .ok (locatedSources d m) := by
    rw [hd.rootField]
    have h1 := hd.sources
    have h2 := hl
    unfold AllLong at h2
    unfold locatedSources
    generalize d.2 = srcs at h1 h2
    induction srcs with
    | nil => rfl
    | cons x srcs ih =>
      rw [List.map_cons, List.mapM_cons, sourceUrl_located hU hd.root hm (h1 x (by simp)) (h2 x (by simp)),
        Res.ok_bind, ih (fun y hy => h1 y (by simp [hy])) (fun y hy => h2 y (by simp [hy]))]
      rfl
  simp only [BasicConsumer.fromSourceMapJson, BasicConsumer.build, hd.sourcesField, unwrap, hmap, Res.ok_bind,
    Res.pure_eq]
  exact ⟨_, rfl, by simp only [BasicConsumer.getSources, C07_arrayset_duplicates]⟩

theorem long_of_basic (hU : E.url.Laws) {m : Option Written} (hm : ∀ M ∈ m, M.MapUrl) {j : SourceMapJson}
    {d : Option Written × List (Written × Tail)} (hd : Described j m d) {c : BasicConsumer E}
    (hc : BasicConsumer.fromSourceMapJson j (m.map string) = .ok c) : AllLong d m := by
  intro x hx
  by_cases hl : LongEnough d.1 x.1 x.2 m
  · exact hl
  · exfalso
    obtain ⟨srcs, urls, h1, h2, _⟩ := build_ok hc
    rw [hd.sourcesField] at h1
    cases h1
    obtain ⟨e, he⟩ := C82_panics hU hd.root (hd.sources x hx).1 hm (hd.sources x hx).2.1 (hd.sources x hx).2.2.1
      (hd.sources x hx).2.2.2 hl
    obtain ⟨e', he'⟩ := mapM_error_of (f := fun s => sourceUrl E j.sourceRoot s (m.map string))
      (List.mem_map.2 ⟨x, hx, rfl⟩ : full x.1 x.2 ∈ d.2.map fun x => full x.1 x.2) (by
        intro b hb
        simp only [sourceUrl, Res.bind_eq_ok] at hb
        obtain ⟨y, hy, _⟩ := hb
        rw [hd.rootField, map_string, map_string, full, String.toList_ofList, he] at hy
        cases hy)
    rw [he'] at h2
    cases h2

/-- What is asked of a section by itself: no `url`, texts of two characters at least, and in a build with overflow checks
an offset that is not the greatest `i32`. -/
def SectionFits (cfg : Cfg) (m : Option Written) (s : JsonSection SourceMapJson)
    (d : Option Written × List (Written × Tail)) : Prop :=
  s.url = none ∧ AllLong d m ∧
    (cfg.overflowChecks = true → s.offset.line < 2147483647 ∧ s.offset.column < 2147483647)

theorem succ_ok {cfg : Cfg} {x : Int} (hx : IsI32 x) (h : cfg.overflowChecks = true → x < 2147483647) :
    cfg.arith (x + 1) = .ok (wrap32 (x + 1)) := by
  unfold Cfg.arith
  split
  · next h1 => rw [wrap32_of_isI32 h1]
  · next h1 =>
    have : ¬ cfg.overflowChecks = true := by
      intro ho
      have := h ho
      apply h1
      unfold IsI32 at *
      omega
    rw [if_neg this]

theorem succ_lt {cfg : Cfg} {x y : Int} (h : cfg.arith (x + 1) = .ok y) (ho : cfg.overflowChecks = true) :
    x < 2147483647 := by
  unfold Cfg.arith at h
  split at h
  · next h1 => unfold IsI32 at h1; omega
  · cases h

/-- C85. For an indexed map whose sections have plain sources, under every order of the workers: the map is accepted
exactly if its version is 3, every section is fine by itself and the offsets do not decrease in the order of the workers.
The consumer then holds one section for each, in the order of the file, at the offset plus one (wrapped around in a build
without overflow checks), with the located sources. -/
theorem C85_accepts_exactly (hU : E.url.Laws) {j : SourceMapJson} {secs : List (JsonSection SourceMapJson)}
    (hs : j.sections = some secs) (hI : ∀ s ∈ secs, IsI32 s.offset.line ∧ IsI32 s.offset.column)
    {m : Option Written} {ds : List (Option Written × List (Written × Tail))}
    (hd : List.Forall₂ (fun s d => Described s.map m d) secs ds) (hm : ∀ M ∈ m, M.MapUrl) {schedule : List Nat} (hsch : IsSchedule secs.length schedule) :
    ((∃ c : IndexedConsumer E, IndexedConsumer.fromSourceMapJson schedule j (m.map string) = .ok c) ↔
      j.version = 3 ∧ List.Forall₂ (SectionFits E.cfg m) secs ds ∧
        ((⟨-1, 0⟩ : Position) :: offsetsAlong secs schedule).Pairwise Position.Le) ∧
    ∀ c : IndexedConsumer E, IndexedConsumer.fromSourceMapJson schedule j (m.map string) = .ok c →
      c.sourceMap = j ∧
      c.sections.map (·.generatedOffset) =
        secs.map (fun s => ⟨wrap32 (s.offset.line + 1), wrap32 (s.offset.column + 1)⟩) ∧
      c.sections.map (fun x => x.consumer.getSources) = ds.map (locatedSources · m) ∧
      c.sections.map (fun x => x.consumer.sourceMap) = secs.map (·.map) := by
  have hlen := hd.length_eq
  have hget : ∀ {i : Nat} {s d}, secs[i]? = some s → ds[i]? = some d → Described s.map m d := by
    intro i s d h1 h2
    have h1' := List.getElem?_eq_some_iff.1 h1
    have h2' := List.getElem?_eq_some_iff.1 h2
    obtain ⟨a, rfl⟩ := h1'
    obtain ⟨b, rfl⟩ := h2'
    exact (List.forall₂_iff_get.1 hd).2 i a b
  have hall : ∀ c : IndexedConsumer E, IndexedConsumer.fromSourceMapJson schedule j (m.map string) = .ok c →
      j.version = 3 ∧ c.sourceMap = j ∧ c.sections.length = secs.length ∧
      ((⟨-1, 0⟩ : Position) :: offsetsAlong secs schedule).Pairwise Position.Le ∧
      ∀ (i : Nat) s, secs[i]? = some s → ∃ x, c.sections[i]? = some x ∧ IndexedConsumer.Makes (m.map string) s x := by
    intro c hc
    obtain ⟨h1, h2, secs', h3, h4⟩ := IndexedConsumer.from_ok hc
    rw [hs] at h3
    cases h3
    obtain ⟨h5, h6, h7⟩ := IndexedConsumer.collect_ok hsch h4
    exact ⟨h1, h2, h5, h7, h6⟩
  have hfits : ∀ {s : JsonSection SourceMapJson} {d : Option Written × List (Written × Tail)} {x : IdxSection E},
      s ∈ secs → Described s.map m d → IndexedConsumer.Makes (m.map string) s x →
      SectionFits E.cfg m s d ∧ x.generatedOffset = ⟨wrap32 (s.offset.line + 1), wrap32 (s.offset.column + 1)⟩ ∧
        x.consumer.getSources = locatedSources d m ∧ x.consumer.sourceMap = s.map := by
    intro s d x hsm hd ⟨h1, h2, h3, h4⟩
    have hl := long_of_basic hU hm hd h4
    have hb : E.cfg.overflowChecks = true → s.offset.line < 2147483647 ∧ s.offset.column < 2147483647 :=
      fun ho => ⟨succ_lt h2 ho, succ_lt h3 ho⟩
    refine ⟨⟨h1, hl, hb⟩, ?_, ?_, ?_⟩
    · have e1 := Res.ok_inj h2 (succ_ok (hI s hsm).1 fun ho => (hb ho).1)
      have e2 := Res.ok_inj h3 (succ_ok (hI s hsm).2 fun ho => (hb ho).2)
      cases hx : x.generatedOffset
      simp only [hx] at e1 e2
      rw [e1, e2]
    · obtain ⟨c, hc, hg⟩ := basic_of_long (E := E) hU hm hd hl
      rw [Res.ok_inj h4 hc, hg]
    · exact (build_ok h4).choose_spec.choose_spec.2.2.2.1
  refine ⟨⟨?_, ?_⟩, ?_⟩
  · rintro ⟨c, hc⟩
    obtain ⟨h1, _, _, h4, h5⟩ := hall c hc
    refine ⟨h1, List.forall₂_iff_get.2 ⟨hlen, fun i a b => ?_⟩, h4⟩
    obtain ⟨x, _, hx⟩ := h5 i _ (List.getElem?_eq_getElem a)
    exact (hfits (List.getElem_mem a) (hget (List.getElem?_eq_getElem a) (List.getElem?_eq_getElem b)) hx).1
  · rintro ⟨hv, hf, ho⟩
    obtain ⟨l, hl⟩ := IndexedConsumer.collect_total (E := E) (u := m.map string) hsch (fun i s hi => by
      obtain ⟨a, rfl⟩ := List.getElem?_eq_some_iff.1 hi
      have b : i < ds.length := hlen ▸ a
      obtain ⟨f1, f2, f3⟩ := (List.forall₂_iff_get.1 hf).2 i a b
      obtain ⟨c, hc, _⟩ := basic_of_long (E := E) hU hm
        (hget (List.getElem?_eq_getElem a) (List.getElem?_eq_getElem b)) f2
      have hI' := hI secs[i] (List.getElem_mem a)
      exact ⟨⟨⟨_, _⟩, c⟩, f1, succ_ok hI'.1 fun ho => (f3 ho).1, succ_ok hI'.2 fun ho => (f3 ho).2, hc⟩) ho
    exact ⟨_, IndexedConsumer.from_total hv hs hl⟩
  · intro c hc
    obtain ⟨_, h2, h3, _, h5⟩ := hall c hc
    have key : ∀ {β : Type} (f : IdxSection E → β) (g : JsonSection SourceMapJson →
        Option Written × List (Written × Tail) → β),
        (∀ s d x, s ∈ secs → Described s.map m d → IndexedConsumer.Makes (m.map string) s x → f x = g s d) →
        c.sections.map f = (secs.zip ds).map fun p => g p.1 p.2 := by
      intro β f g h
      apply List.ext_getElem?
      intro i
      by_cases hi : i < secs.length
      · have hi' : i < ds.length := hlen ▸ hi
        obtain ⟨x, hx, hm'⟩ := h5 i _ (List.getElem?_eq_getElem hi)
        have hz : (secs.zip ds)[i]? = some (secs[i], ds[i]) := by
          rw [List.getElem?_eq_getElem (by simp; omega), List.getElem_zip]
        rw [List.getElem?_map, List.getElem?_map, hx, hz]
        simp only [Option.map_some]
        rw [h _ _ _ (List.getElem_mem hi) (hget (List.getElem?_eq_getElem hi) (List.getElem?_eq_getElem hi')) hm']
      · rw [List.getElem?_eq_none (by simp; omega), List.getElem?_eq_none (by simp; omega)]
    have hz1 : ∀ {β : Type} (g : JsonSection SourceMapJson → β), (secs.zip ds).map (fun p => g p.1) = secs.map g := by
      intro β g
      have := congrArg (List.map g) (List.map_fst_zip (l₁ := secs) (l₂ := ds) (by omega))
      rwa [List.map_map] at this
    have hz2 : ∀ {β : Type} (g : Option Written × List (Written × Tail) → β),
        (secs.zip ds).map (fun p => g p.2) = ds.map g := by
      intro β g
      have := congrArg (List.map g) (List.map_snd_zip (l₁ := secs) (l₂ := ds) (by omega))
      rwa [List.map_map] at this
    refine ⟨h2, ?_, ?_, ?_⟩
    · rw [key _ (fun s _ => ⟨wrap32 (s.offset.line + 1), wrap32 (s.offset.column + 1)⟩)
        fun s d x h1 h2 h3 => (hfits h1 h2 h3).2.1]
      exact hz1 fun s => (⟨wrap32 (s.offset.line + 1), wrap32 (s.offset.column + 1)⟩ : Position)
    · rw [key _ (fun _ d => locatedSources d m) fun s d x h1 h2 h3 => (hfits h1 h2 h3).2.2.1]
      exact hz2 (locatedSources · m)
    · rw [key _ (fun s _ => s.map) fun s d x h1 h2 h3 => (hfits h1 h2 h3).2.2.2]
      exact hz1 (·.map)

/-- The two sections of the demonstration map, their sources in plain form. -/
def demoDescribed : List (Option Written × List (Written × Tail)) :=
  [(none, [(.ref ⟨[], "one.js".toList⟩, {}), (.ref ⟨[], "two.js".toList⟩, {})]),
    (some (.path ⟨["the".toList], "root".toList⟩), [(.ref ⟨[], "one.js".toList⟩, {}), (.ref ⟨[], "two.js".toList⟩, {})])]

theorem demo_described : List.Forall₂ (fun s d => Described s.map (some (.path ⟨["js".toList], "app.map".toList⟩)) d)
    (demoIndexed.sections.getD []) demoDescribed := by
  refine .cons ⟨by rintro R ⟨⟩, ?_, rfl, rfl⟩ (.cons ⟨by rintro R ⟨⟩; show Ref.Valid _; decide, ?_, rfl, rfl⟩ .nil) <;>
  · intro x hx
    rcases List.mem_cons.1 hx with rfl | hx
    · exact ⟨⟨by decide, by decide⟩, noTail_valid, fun _ => rfl, ⟨by rintro R ⟨⟩ <;> exact False.elim, by rintro M ⟨⟩ h; exact h.elim⟩⟩
    · rw [List.mem_singleton.1 hx]
      exact ⟨⟨by decide, by decide⟩, noTail_valid, fun _ => rfl, ⟨by rintro R ⟨⟩ <;> exact False.elim, by rintro M ⟨⟩ h; exact h.elim⟩⟩

theorem demo_fits : List.Forall₂ (SectionFits demoEnv.cfg (some (.path ⟨["js".toList], "app.map".toList⟩)))
    (demoIndexed.sections.getD []) demoDescribed := by
  refine .cons ⟨rfl, ?_, fun _ => by decide⟩ (.cons ⟨rfl, ?_, fun _ => by decide⟩ .nil) <;>
  · intro x hx
    rcases List.mem_cons.1 hx with rfl | hx
    · exact ⟨by decide, by decide, by rintro R ⟨⟩; try decide, by rintro M ⟨⟩; decide⟩
    · rw [List.mem_singleton.1 hx]
      exact ⟨by decide, by decide, by rintro R ⟨⟩; try decide, by rintro M ⟨⟩; decide⟩

/-- It is accepted with the workers in order and rejected with the workers the other way round. -/
example : (∃ c : IndexedConsumer demoEnv, IndexedConsumer.fromSourceMapJson [0, 1] demoIndexed (some "/js/app.map") = .ok c ∧
      c.sections.map (fun x => x.consumer.getSources) =
        [["/js/one.js", "/js/two.js"], ["/the/root/one.js", "/the/root/two.js"]]) ∧
    ¬ ∃ c : IndexedConsumer demoEnv, IndexedConsumer.fromSourceMapJson [1, 0] demoIndexed (some "/js/app.map") = .ok c := by
  have hm : ∀ M ∈ some (Written.path ⟨["js".toList], "app.map".toList⟩), M.MapUrl := by
    rintro M ⟨⟩; exact ⟨by show Ref.Valid _; decide, by simp [IsRef]⟩
  have h1 := C85_accepts_exactly (E := demoEnv) demo_url (j := demoIndexed) rfl (by decide) demo_described hm
    (schedule := [0, 1]) (List.Perm.refl _)
  have h2 := C85_accepts_exactly (E := demoEnv) demo_url (j := demoIndexed) rfl (by decide) demo_described hm
    (schedule := [1, 0]) (List.Perm.swap _ _ _)
  constructor
  · obtain ⟨c, hc⟩ := h1.1.2 ⟨rfl, demo_fits, by simp [offsetsAlong, Position.Le]⟩
    exact ⟨c, hc, (h1.2 c hc).2.2.1.trans (by decide +kernel)⟩
  · intro h
    have := (h2.1.1 h).2.2
    simp [offsetsAlong, Position.Le] at this

/-- The offsets of a map that was read are 32-bit numbers. -/
theorem fromStr_offsets {J : JsonLib} {raw : Text} {j : SourceMapJson} (hj : fromStr J raw = some j)
    {secs : List (JsonSection SourceMapJson)} (hs : j.sections = some secs) :
    ∀ s ∈ secs, IsI32 s.offset.line ∧ IsI32 s.offset.column := by
  obtain ⟨v, hv⟩ : ∃ v, J.parse raw = some v := by
    cases h : J.parse raw with
    | none => simp [fromStr, h] at hj
    | some v => exact ⟨v, rfl⟩
  have hl : ∀ {l : List JVal} {ss : List (JsonSection SourceMapJson)}, SectionListIs l ss →
      ∀ s ∈ ss, IsI32 s.offset.line ∧ IsI32 s.offset.column := by
    intro l ss
    induction ss generalizing l with
    | nil => intro _ s hs; simp at hs
    | cons x ss ih =>
      intro h s hs
      cases h with
      | cons h1 h2 =>
        rcases List.mem_cons.1 hs with rfl | hs
        · cases h1 with
          | mk _ hp _ _ _ _ =>
            obtain ⟨_, _, _, h3, _, h4⟩ := hp
            exact ⟨h3.2, h4.2⟩
        · exact ih h2 s hs
  cases (C65_exact J hv j).1 hj with
  | mk _ _ _ _ _ _ _ _ _ _ _ _ _ _ _ h =>
    rw [hs] at h
    cases h with
    | list h => exact hl h

/-- C64 for indexed maps, under every order of the workers: `create_consumer` returns an indexed consumer with the located
sources exactly if the map is accepted (C85), and otherwise panics. -/
theorem C64_indexed_exact (hU : E.url.Laws) {raw : Text} {j : SourceMapJson} (hj : fromStr E.json raw = some j)
    {secs : List (JsonSection SourceMapJson)} (hs : j.sections = some secs)
    {m : Option Written} {ds : List (Option Written × List (Written × Tail))}
    (hd : List.Forall₂ (fun s d => Described s.map m d) secs ds) (hm : ∀ M ∈ m, M.MapUrl) {schedule : List Nat} (hsch : IsSchedule secs.length schedule) :
    ((j.version = 3 ∧ List.Forall₂ (SectionFits E.cfg m) secs ds ∧
        ((⟨-1, 0⟩ : Position) :: offsetsAlong secs schedule).Pairwise Position.Le) →
      ∃ c : IndexedConsumer E, createConsumer schedule raw (m.map string) = .ok (some (.indexed c)) ∧
        c.sourceMap = j ∧ c.sections.map (fun x => x.consumer.getSources) = ds.map (locatedSources · m)) ∧
    (¬ (j.version = 3 ∧ List.Forall₂ (SectionFits E.cfg m) secs ds ∧
        ((⟨-1, 0⟩ : Position) :: offsetsAlong secs schedule).Pairwise Position.Le) →
      ∃ e, createConsumer (E := E) schedule raw (m.map string) = .error e) := by
  obtain ⟨h1, h2⟩ := C85_accepts_exactly (E := E) hU hs (fromStr_offsets hj hs) hd hm hsch
  constructor
  · intro h
    obtain ⟨c, hc⟩ := h1.2 h
    obtain ⟨k1, _, k3, _⟩ := h2 c hc
    refine ⟨c, ?_, k1, k3⟩
    simp only [createConsumer, hj, hs, Option.isSome_some, if_true, hc, Res.ok_bind, Res.pure_eq]
  · intro h
    cases hc : IndexedConsumer.fromSourceMapJson (E := E) schedule j (m.map string) with
    | ok c => exact absurd (h1.1 ⟨c, hc⟩) h
    | error e =>
      refine ⟨e, ?_⟩
      simp only [createConsumer, hj, hs, Option.isSome_some, if_true, hc, Res.error_bind]

/-- The demonstration map, read from its text. -/
example : ∃ c : IndexedConsumer demoEnv,
    createConsumer [0, 1] (toStr demoEnv.json demoIndexed) (some "/js/app.map") = .ok (some (.indexed c)) ∧
    c.sections.map (fun x => x.consumer.getSources) =
      [["/js/one.js", "/js/two.js"], ["/the/root/one.js", "/the/root/two.js"]] := by
  have hm : ∀ M ∈ some (Written.path ⟨["js".toList], "app.map".toList⟩), M.MapUrl := by
    rintro M ⟨⟩; exact ⟨by show Ref.Valid _; decide, by simp [IsRef]⟩
  obtain ⟨c, h1, _, h2⟩ := (C64_indexed_exact (E := demoEnv) demo_url (raw := toStr demoEnv.json demoIndexed)
    (j := demoIndexed) demo_text rfl demo_described hm (schedule := [0, 1]) (List.Perm.refl _)).1
    ⟨rfl, demo_fits, by simp [offsetsAlong, Position.Le]⟩
  exact ⟨c, h1, h2.trans (by decide +kernel)⟩

/-- C79 for indexed maps, under every order of the workers: `consume` runs the callback on the one consumer of the map, or
panics without running it, exactly as the map is accepted or not (C85). -/
theorem C79_indexed (hU : E.url.Laws) {raw : Text} {j : SourceMapJson} (hj : fromStr E.json raw = some j)
    {secs : List (JsonSection SourceMapJson)} (hs : j.sections = some secs)
    {m : Written} {ds : List (Option Written × List (Written × Tail))}
    (hd : List.Forall₂ (fun s d => Described s.map (some m) d) secs ds) (hm : m.MapUrl) {schedule : List Nat} (hsch : IsSchedule secs.length schedule) :
    ((j.version = 3 ∧ List.Forall₂ (SectionFits E.cfg (some m)) secs ds ∧
        ((⟨-1, 0⟩ : Position) :: offsetsAlong secs schedule).Pairwise Position.Le) →
      ∃ c : IndexedConsumer E, c.sourceMap = j ∧
        c.sections.map (fun x => x.consumer.getSources) = ds.map (locatedSources · (some m)) ∧
        ∀ {α : Type} (f : IndexedConsumer E → Res α), IndexedConsumer.consume schedule raw m.string f = f c) ∧
    (¬ (j.version = 3 ∧ List.Forall₂ (SectionFits E.cfg (some m)) secs ds ∧
        ((⟨-1, 0⟩ : Position) :: offsetsAlong secs schedule).Pairwise Position.Le) →
      ∃ e, ∀ {α : Type} (f : IndexedConsumer E → Res α), IndexedConsumer.consume schedule raw m.string f = .error e) := by
  have hm' : ∀ M ∈ some m, M.MapUrl := by rintro M ⟨⟩; exact hm
  obtain ⟨h1, h2⟩ := C85_accepts_exactly (E := E) hU hs (fromStr_offsets hj hs) hd hm' hsch
  rw [Option.map_some] at h1 h2
  constructor
  · intro h
    obtain ⟨c, hc⟩ := h1.2 h
    obtain ⟨k1, _, k3, _⟩ := h2 c hc
    refine ⟨c, k1, k3, ?_⟩
    intro α f
    simp only [IndexedConsumer.consume, IndexedConsumer.new, hj, unwrap, Res.ok_bind, hc]
  · intro h
    cases hc : IndexedConsumer.fromSourceMapJson (E := E) schedule j (some m.string) with
    | ok c => exact absurd (h1.1 ⟨c, hc⟩) h
    | error e =>
      refine ⟨e, ?_⟩
      intro α f
      simp only [IndexedConsumer.consume, IndexedConsumer.new, hj, unwrap, Res.ok_bind, Res.error_bind, hc]

end RSM
