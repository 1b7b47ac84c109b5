import Verif.Props.JsonExact
import Verif.Props.Output
import Verif.Props.Contents
/-! # Properties C91 and C92: the JSON text that is written -/

namespace RSM

open Spec

/-! ## C91 -/

mutual
/-- The JSON of a map as it is written: an object with some of the eight fields, in their order and none twice, `version`
and `file` always among them, with `null` nowhere but in `file`; in the sections likewise. -/
inductive TidyMap : JVal → Prop
  | mk {l : List (String × JVal)} : (l.map Prod.fst).Sublist mapFields → "version" ∈ l.map Prod.fst →
      "file" ∈ l.map Prod.fst → (∀ e ∈ l, e.2 = .null → e.1 = "file") →
      (∀ xs, ("sections", JVal.arr xs) ∈ l → ∀ x ∈ xs, TidySection x) → TidyMap (.obj l)
/-- A section as it is written: exactly the three fields, in their order. -/
inductive TidySection : JVal → Prop
  | mk {line column map url : JVal} : TidyMap map →
      TidySection (.obj [("offset", .obj [("line", line), ("column", column)]), ("map", map), ("url", url)])
end

theorem optField_keys (k : String) (o : Option JVal) : ((optField k o).map Prod.fst).Sublist [k] := by
  cases o <;> simp [optField]

theorem mem_optField {k : String} {o : Option JVal} {e : String × JVal} (h : e ∈ optField k o) :
    e.1 = k ∧ o = some e.2 := by
  cases o with
  | none => cases h
  | some v => simp only [optField, List.mem_singleton] at h; subst h; exact ⟨rfl, rfl⟩

theorem tidy_toVal {m : SourceMapJson} (hm : m.I32) : TidyMap m.toVal := by
  induction hm with
  | mk m hv hl hc hs ih =>
    rw [m.toVal_eq]
    refine .mk ?_ (by simp) (by simp) ?_ ?_
    · simp only [List.map_append]
      have := fun k o => optField_keys k o
      exact ((((((((List.Sublist.refl _).append (this _ _)).append (this _ _)).append (this _ _)).append
        (List.Sublist.refl _)).append (this _ _)).append (this _ _)).append (this _ _))
    · simp only [List.mem_append]
      rintro e (((((((h | h) | h) | h) | h) | h) | h) | h) hn
      · simp only [List.mem_singleton] at h; subst h; cases hn
      · obtain ⟨_, h⟩ := mem_optField h; rw [hn] at h; cases hm : m.sources <;> rw [hm] at h <;> cases h
      · obtain ⟨_, h⟩ := mem_optField h; rw [hn] at h; cases hm : m.names <;> rw [hm] at h <;> cases h
      · obtain ⟨_, h⟩ := mem_optField h; rw [hn] at h; cases hm : m.mappings <;> rw [hm] at h <;> cases h
      · simp only [List.mem_singleton] at h; subst h; rfl
      · obtain ⟨_, h⟩ := mem_optField h; rw [hn] at h; cases hm : m.sourceRoot <;> rw [hm] at h <;> cases h
      · obtain ⟨_, h⟩ := mem_optField h; rw [hn] at h; cases hm : m.sourcesContent <;> rw [hm] at h <;> cases h
      · obtain ⟨_, h⟩ := mem_optField h; rw [hn] at h; cases hm : m.sections <;> rw [hm] at h <;> cases h
    · simp only [List.mem_append]
      rintro xs (((((((h | h) | h) | h) | h) | h) | h) | h) x hx
      · simp at h
      · exact absurd (mem_optField h).1 (by simp)
      · exact absurd (mem_optField h).1 (by simp)
      · exact absurd (mem_optField h).1 (by simp)
      · simp at h
      · exact absurd (mem_optField h).1 (by simp)
      · exact absurd (mem_optField h).1 (by simp)
      · obtain ⟨_, h⟩ := mem_optField h
        rw [Option.map_eq_some_iff] at h
        obtain ⟨ss, h1, h2⟩ := h
        cases h2
        obtain ⟨s, hs', rfl⟩ := List.mem_map.1 hx
        rw [sectionToVal_eq]
        exact .mk (ih ss h1 s hs')

/-- C91: the text of a map is the JSON of an object that holds the map and is written tidily. -/
theorem C91_written (J : JsonLib) (hJ : J.Laws) (m : SourceMapJson) (hm : m.I32) :
    ∃ v, J.parse (toStr J m) = some v ∧ MapIs v m ∧ TidyMap v :=
  ⟨m.toVal, hJ.parse_print _ (toVal_plain hm), fromVal_of _ (fromVal_toVal (m.nesting + 1) m hm (by omega)),
    tidy_toVal hm⟩

theorem entries_of_given {names : List String} {l : List (String × JVal)} {k : String} {x : Option JVal}
    (h : Given names (.obj l) k x) : entries l k = x.toList := by
  cases h with
  | absent h => exact h
  | entry h => exact h

theorem entries_mem {l : List (String × JVal)} {k : String} {w : JVal} (h : entries l k = [w]) : (k, w) ∈ l := by
  have : w ∈ entries l k := by rw [h]; simp
  simp only [entries, List.mem_map, List.mem_filter, beq_iff_eq] at this
  obtain ⟨e, ⟨h1, rfl⟩, rfl⟩ := this
  exact h1

theorem sublist_entries {F : List String} (hF : F.Nodup) : ∀ {l : List (String × JVal)},
    (l.map Prod.fst).Sublist F → l = F.flatMap fun k => (entries l k).map (Prod.mk k) := by
  induction F with
  | nil => intro l h; simpa using h
  | cons k F ih =>
    intro l h
    obtain ⟨hk, hF⟩ := List.nodup_cons.1 hF
    cases l with
    | nil => simp [entries]
    | cons e l =>
      simp only [List.map_cons] at h
      have other : ∀ (l : List (String × JVal)), (l.map Prod.fst).Sublist F → entries l k = [] := by
        intro l hl
        simp only [entries, List.map_eq_nil_iff, List.filter_eq_nil_iff, beq_iff_eq]
        rintro a ha rfl
        exact hk (hl.subset (List.mem_map_of_mem ha))
      by_cases he : e.1 = k
      · rw [he, List.cons_sublist_cons] at h
        have := ih hF h
        have hx : entries (e :: l) k = [e.2] := by
          have := other l h
          simp only [entries] at this
          simp [entries, he, this]
        have hy : ∀ k' ∈ F, entries (e :: l) k' = entries l k' := by
          intro k' hk'
          have : e.1 ≠ k' := by rintro rfl; rw [he] at hk'; exact hk hk'
          simp [entries, this]
        rw [List.flatMap_cons, hx, List.flatMap_congr fun k' hk' => by rw [hy k' hk'], ← this]
        simp [← he]
      · have h' : ((e :: l).map Prod.fst).Sublist F := by
          rcases List.sublist_cons_iff.1 h with h | ⟨r, h1, h2⟩
          · exact h
          · cases h1; exact absurd rfl he
        rw [List.flatMap_cons, other _ h']
        exact ih hF h'

/-- Optional fields, without `null`. -/
theorem opt_entries {α : Type} {Is : Option JVal → Option α → Prop} {f : α → JVal} {l : List (String × JVal)} {k : String}
    {x : Option JVal} {o : Option α} (hnull : ∀ e ∈ l, e.2 = .null → e.1 = "file") (hk : k ≠ "file")
    (h : Given mapFields (.obj l) k x) (his : Is x o)
    (hcases : Is x o → (x = some .null ∧ o = none) ∨ x = o.map f) :
    (entries l k).map (Prod.mk k) = optField k (o.map f) := by
  rw [entries_of_given h]
  rcases hcases his with ⟨rfl, _⟩ | rfl
  · cases h with
    | entry h => exact absurd (hnull _ (entries_mem h) rfl) hk
  · cases o <;> rfl

theorem strsIs_cases {x : Option JVal} {o : Option (List String)} (h : StrsIs x o) :
    (x = some .null ∧ o = none) ∨ x = o.map strsToVal := by
  cases h with
  | absent => exact .inr rfl
  | null => exact .inl ⟨rfl, rfl⟩
  | strs => exact .inr rfl

theorem strIs_cases {x : Option JVal} {o : Option String} (h : StrIs x o) :
    (x = some .null ∧ o = none) ∨ x = o.map JVal.str := by
  cases h with
  | absent => exact .inr rfl
  | null => exact .inl ⟨rfl, rfl⟩
  | str => exact .inr rfl

theorem tidy_section {s : JsonSection SourceMapJson} (ih : ∀ v, MapIs v s.map → TidyMap v → v = s.map.toVal) {x : JVal}
    (ht : TidySection x) (h : SectionIs x s) : x = sectionToVal s := by
  cases ht with
  | @mk line column map url htm =>
    cases h with
    | mk h1 h2 h3 h4 h5 h6 =>
      have e1 := entries_of_given h1
      have e3 := entries_of_given h3
      have e5 := entries_of_given h5
      simp only [entries, List.filter_cons, String.reduceBEq, Bool.false_eq_true, if_false, if_true, List.filter_nil,
        List.map_cons, List.map_nil, Option.toList_some, List.cons.injEq, and_true] at e1 e3 e5
      subst e1 e3
      rw [sectionToVal_eq, ih _ h4 htm]
      obtain ⟨a, b, g1, g2, g3, g4⟩ := h2
      have k1 := entries_of_given g1
      have k3 := entries_of_given g3
      rw [g2.1] at k1
      rw [g4.1] at k3
      simp only [entries, List.filter_cons, String.reduceBEq, Bool.false_eq_true, if_false, if_true, List.filter_nil,
        List.map_cons, List.map_nil, Option.toList_some, List.cons.injEq, and_true] at k1 k3
      subst k1 k3
      have : url = optNull (s.url.map JVal.str) := by
        generalize s.url = su at h6
        cases h6 with
        | absent => cases e5
        | null => cases e5; rfl
        | str => cases e5; rfl
      rw [this]
      rfl

theorem tidy_sections : ∀ {ss : List (JsonSection SourceMapJson)} {xs : List JVal},
    (∀ s ∈ ss, ∀ v, MapIs v s.map → TidyMap v → v = s.map.toVal) → (∀ x ∈ xs, TidySection x) →
    SectionListIs xs ss → xs = ss.map sectionToVal
  | [], _, _, _, h => by cases h; rfl
  | s :: ss, _, ih, ht, h => by
    cases h with
    | @cons x _ xs _ h1 h2 =>
      rw [List.map_cons, tidy_section (ih s (by simp)) (ht x (by simp)) h1,
        tidy_sections (fun s hs => ih s (by simp [hs])) (fun y hy => ht y (by simp [hy])) h2]

theorem tidy_unique {m : SourceMapJson} (hm : m.I32) : ∀ v, MapIs v m → TidyMap v → v = m.toVal := by
  induction hm with
  | mk m _ _ _ _ ih =>
    intro v h ht
    cases ht with
    | @mk l t1 t2 t3 t4 t5 =>
      cases h with
      | @mk _ _ version sources names mappings file sourceRoot sourcesContent sections
          a1 a2 b1 b2 c1 c2 d1 d2 e1 e2 f1 f2 g1 g2 h1 h2 =>
        rw [m.toVal_eq, sublist_entries (by decide) t1]
        simp only [mapFields, List.flatMap_cons, List.flatMap_nil, List.append_nil]
        have hv : (entries l "version").map (Prod.mk "version") = [("version", JVal.int m.version)] := by
          rw [entries_of_given a1, a2.1]; rfl
        have hf : (entries l "file").map (Prod.mk "file") = [("file", optNull (m.file.map .str))] := by
          cases e2' : file with
          | none =>
            rw [e2'] at e1
            cases e1 with
            | absent hno =>
              simp only [entries, List.map_eq_nil_iff, List.filter_eq_nil_iff, beq_iff_eq] at hno
              obtain ⟨e, he, hek⟩ := List.mem_map.1 t3
              exact absurd hek (hno e he)
          | some w =>
            rw [entries_of_given e1, e2']
            rw [e2'] at e2
            generalize m.file = mf at e2
            cases e2 <;> rfl
        rw [hv, hf, opt_entries t4 (by simp) b1 b2 strsIs_cases, opt_entries t4 (by simp) c1 c2 strsIs_cases,
          opt_entries t4 (by simp) d1 d2 strIs_cases, opt_entries t4 (by simp) f1 f2 strIs_cases,
          opt_entries t4 (by simp) g1 g2 strsIs_cases,
          opt_entries (f := fun l => JVal.arr (l.map sectionToVal)) t4 (by simp) h1 h2 ?_]
        · simp only [List.append_assoc]
        · intro hs
          generalize hms : m.sections = ms at hs
          cases hs with
          | absent => exact .inr rfl
          | null => exact .inl ⟨rfl, rfl⟩
          | @list xs ss hss =>
            right
            have hmem : ("sections", JVal.arr xs) ∈ l := entries_mem (entries_of_given h1)
            rw [tidy_sections (fun s hs => ih ss hms s hs) (t5 xs hmem) hss]
            rfl

/-- C91: no other JSON value is written: a value that holds the map and is tidy is the one the text of the map stands
for. -/
theorem C91_only (J : JsonLib) (hJ : J.Laws) (m : SourceMapJson) (hm : m.I32) (v : JVal) (h : MapIs v m)
    (ht : TidyMap v) : J.parse (toStr J m) = some v := by
  rw [tidy_unique hm v h ht]
  exact hJ.parse_print _ (toVal_plain hm)

/-- A map without a file and without names: `"file":null` is written, `names` is left out. -/
example : String.ofList (toStr jsonText { version := 3, sources := some ["a.js"], mappings := some "A" }) =
    "{\"version\":3,\"sources\":[\"a.js\"],\"mappings\":\"A\",\"file\":null}" := by decide +kernel

/-- An indexed map. -/
example : String.ofList (toStr jsonText
    { version := 3, file := some "f",
      sections := some [⟨⟨0, 7⟩, { version := 3 }, none⟩] }) =
    "{\"version\":3,\"file\":\"f\",\"sections\":[{\"offset\":{\"line\":0,\"column\":7}," ++
      "\"map\":{\"version\":3,\"file\":null},\"url\":null}]}" := by decide +kernel

/-! ## C92 -/

/-- A source map of revision 3, as the format is described: an object in which no field occurs twice, with version 3, lists of
strings `sources` and `names` and the text `mappings`, of which every segment decodes and points into the lists; `file` and
`sourceRoot` are strings if present; `sourcesContent`, if present, has one entry for each source, a string or `null`. -/
structure Revision3 (l : List (String × JVal)) (S N : List String) (text : String) (raws : List RawMapping) : Prop where
  once : ∀ k, (entries l k).length ≤ 1
  version : entries l "version" = [.int 3]
  sources : entries l "sources" = [.arr (S.map .str)]
  names : entries l "names" = [.arr (N.map .str)]
  mappings : entries l "mappings" = [.str text]
  decodes : decodeMappings text.toList = some raws
  inside : ∀ r ∈ raws, ∀ o, r.original = some o → o.source < S.length ∧ ∀ n, o.name = some n → n < N.length
  file : ∀ x ∈ entries l "file", ∃ s, x = .str s
  sourceRoot : ∀ x ∈ entries l "sourceRoot", ∃ s, x = .str s
  sourcesContent : ∀ x ∈ entries l "sourcesContent", ∃ C : List JVal, x = .arr C ∧ C.length = S.length ∧
    ∀ c ∈ C, c = .null ∨ ∃ s, c = .str s
  sections : entries l "sections" = []

/-- The text is the JSON of a source map of revision 3. -/
def IsRevision3 (J : JsonLib) (t : Text) : Prop :=
  ∃ l S N text raws, J.parse t = some (.obj l) ∧ Revision3 l S N text raws

theorem entries_append (a b : List (String × JVal)) (k : String) : entries (a ++ b) k = entries a k ++ entries b k := by
  simp [entries]

theorem entries_optField (k' : String) (o : Option JVal) (k : String) :
    entries (optField k' o) k = if k' = k then o.toList else [] := by
  cases o with
  | none => simp [entries, optField]
  | some v => by_cases h : k' = k <;> simp [entries, optField, h]

theorem entries_single (k' : String) (v : JVal) (k : String) : entries [(k', v)] k = if k' = k then [v] else [] := by
  by_cases h : k' = k <;> simp [entries, h]

theorem entries_length (l : List (String × JVal)) (k : String) : (entries l k).length = (l.map Prod.fst).count k := by
  rw [List.count, List.countP_map, List.countP_eq_length_filter, entries, List.length_map]
  rfl

/-- The fields of the JSON of a map without sections. -/
theorem toVal_entries {m : SourceMapJson} (hm : m.I32) (hs : m.sections = none) : ∃ l, m.toVal = .obj l ∧
    entries l "version" = [.int m.version] ∧ entries l "sources" = (m.sources.map strsToVal).toList ∧
    entries l "names" = (m.names.map strsToVal).toList ∧ entries l "mappings" = (m.mappings.map .str).toList ∧
    entries l "file" = [optNull (m.file.map .str)] ∧ entries l "sourceRoot" = (m.sourceRoot.map .str).toList ∧
    entries l "sourcesContent" = (m.sourcesContent.map strsToVal).toList ∧ entries l "sections" = [] ∧
    ∀ k, (entries l k).length ≤ 1 := by
  have ht := tidy_toVal hm
  refine ⟨_, m.toVal_eq, ?_, ?_, ?_, ?_, ?_, ?_, ?_, ?_, fun k => ?_⟩
  iterate 8
    · simp only [entries_append, entries_optField, entries_single, hs]
      simp
  · rw [m.toVal_eq] at ht
    cases ht with
    | mk t1 =>
      rw [entries_length]
      exact Nat.le_trans (t1.count_le k) (List.nodup_iff_count_le_one.1 (by decide) k)

/-- A map without sections is written as a source map of revision 3 exactly if it has the fields of one, a file among
them, and its segments point into its lists. -/
theorem revision3_iff (J : JsonLib) (hJ : J.Laws) {m : SourceMapJson} (hv : m.version = 3) (hs : m.sections = none)
    {S N : List String} {text : String} {raws : List RawMapping} (h1 : m.sources = some S) (h2 : m.names = some N)
    (h3 : m.mappings = some text) (h4 : decodeMappings text.toList = some raws)
    (h5 : ∀ r ∈ raws, ∀ o, r.original = some o → o.source < S.length ∧ ∀ n, o.name = some n → n < N.length) :
    IsRevision3 J (toStr J m) ↔ m.file ≠ none ∧ ∀ C, m.sourcesContent = some C → C.length = S.length := by
  have hm : m.I32 := .mk m (by rw [hv]; decide) (by simp [hs]) (by simp [hs]) (by simp [hs])
  have hp : J.parse (toStr J m) = some m.toVal := hJ.parse_print _ (toVal_plain hm)
  obtain ⟨l, e0, e1, e2, e3, e4, e5, e6, e7, e8, e9⟩ := toVal_entries hm hs
  constructor
  · rintro ⟨l', S', N', text', raws', hp', hr⟩
    rw [hp, e0] at hp'
    cases hp'
    have hS : S' = S := by
      have := hr.sources
      rw [e2, h1] at this
      simp only [Option.map_some, Option.toList_some, strsToVal, List.cons.injEq, JVal.arr.injEq, and_true] at this
      exact ((List.map_injective_iff.2 fun a b h => by cases h; rfl) this).symm
    subst hS
    constructor
    · intro hf
      obtain ⟨s, hx⟩ := hr.file (optNull (m.file.map .str)) (by rw [e5]; simp)
      rw [hf] at hx
      cases hx
    · intro C hC
      obtain ⟨C', hx, hl, _⟩ := hr.sourcesContent (strsToVal C) (by rw [e7, hC]; simp)
      cases hx
      simpa using hl
  · rintro ⟨hf, hC⟩
    refine ⟨l, S, N, text, raws, by rw [hp, e0], e9, by rw [e1, hv], by rw [e2, h1]; rfl, by rw [e3, h2]; rfl,
      by rw [e4, h3]; rfl, h4, h5, ?_, ?_, ?_, e8⟩
    · intro x hx
      rw [e5, List.mem_singleton] at hx
      subst hx
      cases hff : m.file with
      | none => exact absurd hff hf
      | some f => exact ⟨f, rfl⟩
    · intro x hx
      rw [e6] at hx
      cases hr : m.sourceRoot with
      | none => rw [hr] at hx; simp at hx
      | some f => rw [hr] at hx; simp at hx; exact ⟨f, hx⟩
    · intro x hx
      rw [e7] at hx
      cases hr : m.sourcesContent with
      | none => rw [hr] at hx; simp at hx
      | some C =>
        rw [hr] at hx
        simp only [Option.map_some, Option.toList_some, List.mem_singleton] at hx
        subst hx
        refine ⟨_, rfl, by rw [List.length_map]; exact hC C hr, ?_⟩
        rintro c hc
        obtain ⟨s, _, rfl⟩ := List.mem_map.1 hc
        exact .inr ⟨s, rfl⟩

theorem denotes_inside {S N : List String} {r : RawMapping} {m : Mapping} (h : Denotes S N r m) :
    ∀ o, r.original = some o → o.source < S.length ∧ ∀ n, o.name = some n → n < N.length := by
  intro o ho
  obtain ⟨_, h⟩ := h
  rw [ho] at h
  obtain ⟨_, ⟨s, h1, _⟩, h2⟩ := h
  refine ⟨(List.getElem?_eq_some_iff.1 h1).1, fun n hn => ?_⟩
  rw [hn] at h2
  obtain ⟨t, h3, _⟩ := h2
  exact (List.getElem?_eq_some_iff.1 h3).1

variable {E : Env}

/-- C92, exactly, whatever the source root: the text written by `as_string` is a source map of revision 3 if and only if a
file was given, and no source has a content, or every source of a mapping has one. -/
theorem C92_iff (hJ : E.json.Laws) (file root : Option String) (skip : Bool) (ops : List GOp) (g g' : Generator) (t : Text)
    (henc : ∀ m ∈ gAdded ops, m.Encodable E.cfg)
    (hS : (firstOccurrences ((gAdded ops).filterMap Mapping.source)).length < E.cfg.vlqLimit)
    (hN : (firstOccurrences ((gAdded ops).filterMap Mapping.name)).length < E.cfg.vlqLimit)
    (h : (Generator.new file root skip).run E.url E.cfg ops = .ok g) (ht : g.asString E = .ok (t, g')) :
    IsRevision3 E.json t ↔ file ≠ none ∧ ((∀ s c, ¬ SetFor E.url root s c ops) ∨
      ∀ m ∈ gAdded ops, ∀ s, m.source = some s → ∃ c, SetFor E.url root s c ops) := by
  simp only [Generator.asString, Res.bind_eq_ok, Res.pure_eq, Except.ok.injEq, Prod.mk.injEq, Prod.exists] at ht
  obtain ⟨j, g'', hj, rfl, rfl⟩ := ht
  obtain ⟨a1, a2, a3, a4⟩ := C61_fixed_fields E.url E.cfg file root skip ops g g'' j h hj
  obtain ⟨S, N, text, raws, b1, b2, b3, b4, _, b6⟩ :=
    C17_generator_sound E.url E.cfg file root skip ops g g'' j henc hS hN h hj
  have hc := C22_any_root h hj
  have hT := (C16_generator_tables E.url E.cfg file root skip ops g g'' j h hj).1
  rw [b1, Option.some.injEq] at hT
  have hmem : ∀ P : String → Prop, (∀ s ∈ S, P s) ↔ ∀ m ∈ gAdded ops, ∀ s, m.source = some s → P s := by
    intro P
    simp only [hT, mem_firstOccurrences, List.mem_filterMap]
    exact ⟨fun h m hm s hs => h s ⟨m, hm, hs⟩, fun h s ⟨m, hm, hs⟩ => h m hm s hs⟩
  rw [revision3_iff E.json hJ a1 a4 b1 b2 b3 b4 fun r hr => by
    obtain ⟨m, _, hd⟩ := b6 r hr
    exact denotes_inside hd, a2, ← hmem]
  refine and_congr_right fun _ => ?_
  cases hsc : j.sourcesContent with
  | none => exact iff_of_true (fun C hC => nomatch hC) (.inl (hc.1.1 hsc))
  | some C =>
    have hno : ¬ ∀ s c, ¬ SetFor E.url root s c ops := fun hn => by
      have := hc.1.2 hn
      rw [hsc] at this
      cases this
    simp only [Option.some.injEq, forall_eq', hno, false_or]
    exact C21_any_root h hj b1 hsc

/-- C92 is false of the code: without a file, `"file":null` is written, which is not a string. -/
theorem C92_file_refuted (hJ : E.json.Laws) : ∃ (g g' : Generator) (t : Text),
    (Generator.new none none false).run E.url E.cfg [.add gxA] = .ok g ∧ g.asString E = .ok (t, g') ∧
    ¬ IsRevision3 E.json t ∧ ∃ l, E.json.parse t = some (.obj l) ∧ entries l "file" = [.null] := by
  have henc : ∀ m ∈ gAdded [.add gxA], m.Encodable E.cfg := by
    intro m hm
    simp only [gAdded, List.mem_cons, List.not_mem_nil, or_false] at hm
    subst hm
    exact gxA_enc
  obtain ⟨hS, hN⟩ := tables_small (cfg := E.cfg) (ops := [.add gxA]) (by decide)
  obtain ⟨g, j, g', h1, h2⟩ := serialize_encodable E.url E.cfg none false [.add gxA] henc hS hN
  have ht : g.asString E = .ok (toStr E.json j, g') := by
    simp [Generator.asString, h2, Res.pure_eq]
  obtain ⟨a1, a2, a3, a4⟩ := C61_fixed_fields E.url E.cfg none none false _ g g' j h1 h2
  have hm : j.I32 := .mk j (by rw [a1]; decide) (by simp [a4]) (by simp [a4]) (by simp [a4])
  obtain ⟨l, e0, _, _, _, _, e5, _⟩ := toVal_entries hm a4
  refine ⟨g, g', _, h1, ht, ?_, l, by rw [← e0]; exact hJ.parse_print _ (toVal_plain hm), by rw [e5, a2]; rfl⟩
  rw [C92_iff hJ none none false _ g g' _ henc hS hN h1 ht]
  simp

/-- Contents for both sources, with a file; and for one of two only. -/
example : (∃ (g g' : Generator) (t : Text), (Generator.new (some "min.js") none false).run demoEnv.url demoEnv.cfg
      [.add gxA, .add gxB, .setContent "a.js" (some "A"), .setContent "b.js" (some "B")] = .ok g ∧
      g.asString demoEnv = .ok (t, g') ∧ IsRevision3 demoEnv.json t) ∧
    (∃ (g g' : Generator) (t : Text), (Generator.new (some "min.js") none false).run demoEnv.url demoEnv.cfg
      [.add gxA, .add gxB, .setContent "b.js" (some "B")] = .ok g ∧
      g.asString demoEnv = .ok (t, g') ∧ ¬ IsRevision3 demoEnv.json t) := by
  have key : ∀ ops : List GOp, gAdded ops = [gxA, gxB] → ∃ (g g' : Generator) (t : Text),
      (Generator.new (some "min.js") none false).run demoEnv.url demoEnv.cfg ops = .ok g ∧
      g.asString demoEnv = .ok (t, g') ∧ (IsRevision3 demoEnv.json t ↔ some "min.js" ≠ none ∧
        ((∀ s c, ¬ SetFor demoEnv.url none s c ops) ∨
          ∀ m ∈ gAdded ops, ∀ s, m.source = some s → ∃ c, SetFor demoEnv.url none s c ops)) := by
    intro ops ho
    have henc : ∀ m ∈ gAdded ops, m.Encodable demoEnv.cfg := by
      intro m hm
      simp only [ho, List.mem_cons, List.not_mem_nil, or_false] at hm
      rcases hm with rfl | rfl
      · exact gxA_enc
      · exact gxB_enc
    obtain ⟨hS, hN⟩ := tables_small (cfg := demoEnv.cfg) (ops := ops) (by rw [ho]; decide)
    obtain ⟨g, j, g', h1, h2⟩ := serialize_encodable demoEnv.url demoEnv.cfg (some "min.js") false ops henc hS hN
    have ht : g.asString demoEnv = .ok (toStr demoEnv.json j, g') := by
      simp [Generator.asString, h2, Res.pure_eq]
    exact ⟨g, g', _, h1, ht, C92_iff demo_json (some "min.js") none false ops g g' _ henc hS hN h1 ht⟩
  constructor
  · obtain ⟨g, g', t, h1, h2, h3⟩ := key
      [.add gxA, .add gxB, .setContent "a.js" (some "A"), .setContent "b.js" (some "B")] rfl
    refine ⟨g, g', t, h1, h2, h3.2 ⟨by simp, .inr ?_⟩⟩
    intro m hm s hs
    simp only [gAdded, List.mem_cons, List.not_mem_nil, or_false] at hm
    rcases hm with rfl | rfl <;> cases hs
    · exact ⟨"A", [.add gxA, .add gxB], "a.js", [.setContent "b.js" (some "B")], rfl, rfl, by
        intro t v hv
        simp only [List.mem_singleton, GOp.setContent.injEq] at hv
        rw [hv.1]
        exact fun e => absurd (show "b.js" = "a.js" from e) (by decide)⟩
    · exact ⟨"B", [.add gxA, .add gxB, .setContent "a.js" (some "A")], "b.js", [], rfl, rfl, by simp⟩
  · obtain ⟨g, g', t, h1, h2, h3⟩ := key [.add gxA, .add gxB, .setContent "b.js" (some "B")] rfl
    refine ⟨g, g', t, h1, h2, fun hr => ?_⟩
    rcases (h3.1 hr).2 with h | h
    · exact h "b.js" "B" ⟨[.add gxA, .add gxB], "b.js", [], rfl, rfl, by simp⟩
    · obtain ⟨c, pre, t, post, e, ht, _⟩ := h gxA (by decide) "a.js" rfl
      have hm : GOp.setContent t (some c) ∈ [GOp.add gxA, .add gxB, .setContent "b.js" (some "B")] := by
        rw [e]; simp
      simp only [List.mem_cons, List.not_mem_nil, or_false, GOp.setContent.injEq, reduceCtorEq, false_or] at hm
      rw [hm.1] at ht
      exact absurd (show "b.js" = "a.js" from ht) (by decide)

end RSM
