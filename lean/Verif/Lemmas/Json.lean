import Verif.Dep.Json
import Verif.Spec.Json
/-! # Writing a record as JSON and reading it back -/

namespace RSM

theorem sectionsToVal_eq (l : List (JsonSection SourceMapJson)) : sectionsToVal l = l.map sectionToVal := by
  induction l with
  | nil => simp [sectionsToVal]
  | cons s ss ih => simp [sectionsToVal, ih]

theorem SourceMapJson.toVal_eq (m : SourceMapJson) : m.toVal =
    .obj ([("version", .int m.version)] ++
      optField "sources" (m.sources.map strsToVal) ++
      optField "names" (m.names.map strsToVal) ++
      optField "mappings" (m.mappings.map .str) ++
      [("file", optNull (m.file.map .str))] ++
      optField "sourceRoot" (m.sourceRoot.map .str) ++
      optField "sourcesContent" (m.sourcesContent.map strsToVal) ++
      optField "sections" (m.sections.map fun l => .arr (l.map sectionToVal))) := by
  cases m with
  | mk a b c d e f g h => cases h <;> simp [SourceMapJson.toVal, optField, sectionsToVal_eq]

theorem sectionToVal_eq (s : JsonSection SourceMapJson) : sectionToVal s =
    .obj [("offset", s.offset.toVal), ("map", s.map.toVal), ("url", optNull (s.url.map .str))] := by
  cases s; simp [sectionToVal]

theorem le_sectionsNesting {l : List (JsonSection SourceMapJson)} {s} (h : s ∈ l) :
    1 + max 1 s.map.nesting ≤ sectionsNesting l := by
  induction l with
  | nil => simp at h
  | cons a l ih =>
    rw [sectionsNesting]
    rcases List.mem_cons.mp h with rfl | h
    · cases s; simp only [sectionNesting]; omega
    · have := ih h; omega

theorem nesting_eq (m : SourceMapJson) : m.nesting =
    1 + max (if m.sources.isSome || m.names.isSome || m.sourcesContent.isSome then 1 else 0)
      (optNesting m.sections) := by
  cases m; simp only [SourceMapJson.nesting]

theorem filter_optField (k k' : String) (o : Option JVal) :
    (optField k o).filter (fun e => e.1 == k') = if k = k' then optField k o else [] := by
  cases o <;> simp [optField]
  split <;> simp_all

theorem fields_map (m : SourceMapJson) : structFields ["version", "sources", "names", "mappings",
      "file", "sourceRoot", "sourcesContent", "sections"] m.toVal =
    some [some (.int m.version), m.sources.map strsToVal, m.names.map strsToVal,
      m.mappings.map .str, some (optNull (m.file.map .str)), m.sourceRoot.map .str,
      m.sourcesContent.map strsToVal, m.sections.map fun l => .arr (l.map sectionToVal)] := by
  rw [m.toVal_eq]
  have ho : ∀ (k : String) (o : Option JVal), single (optField k o) = some o := by
    intro k o; cases o <;> rfl
  have h1 : ∀ e, single [e] = some (some e.2) := fun _ => rfl
  simp [structFields, fieldOf, List.filter_append, filter_optField, ho, h1]

theorem optional_none_or {α : Type} (f : JVal → Option α) (g : α → JVal) (hg : ∀ a, g a ≠ .null)
    (o : Option α) (h : ∀ a, o = some a → f (g a) = some a) : optional f (o.map g) = some o := by
  cases o with
  | none => rfl
  | some a =>
    have := h a rfl
    have hn := hg a
    simp only [Option.map_some]
    generalize g a = v at *
    cases v <;> first | exact absurd rfl hn | simp [optional, this]

theorem optional_optNull (o : Option String) : optional decodeStr (some (optNull (o.map .str))) = some o := by
  cases o <;> rfl

theorem optional_str (o : Option String) : optional decodeStr (o.map .str) = some o :=
  optional_none_or _ _ (by simp) o (by intro a _; rfl)

theorem decodeVec_strs {d : Nat} (h : 2 ≤ d) (l : List String) :
    decodeVec (fun _ => decodeStr) d (strsToVal l) = some l := by
  have he : enter d = some (d - 1) := by simp [enter]; omega
  simp only [decodeVec, strsToVal, he, Option.bind_eq_bind, Option.bind_some]
  induction l with
  | nil => rfl
  | cons a l ih => simp [List.mapM_cons, ih, decodeStr]

theorem decodeVec_strs_fail {d : Nat} (h : ¬ 2 ≤ d) (l : List String) :
    decodeVec (fun _ => decodeStr) d (strsToVal l) = none := by
  have he : enter d = none := by simp [enter]; omega
  simp only [decodeVec, strsToVal, he, Option.bind_eq_bind, Option.bind_none]

theorem optional_strs {d : Nat} (o : Option (List String)) (h : o.isSome = true → 2 ≤ d) :
    optional (decodeVec (fun _ => decodeStr) d) (o.map strsToVal) = some o :=
  optional_none_or _ _ (by simp [strsToVal]) o (by
    rintro a rfl; exact decodeVec_strs (h rfl) a)

theorem mapM_map_eq {α β : Type} (f : β → Option α) (g : α → β) (l : List α)
    (h : ∀ a ∈ l, f (g a) = some a) : (l.map g).mapM f = some l := by
  induction l with
  | nil => rfl
  | cons a l ih =>
    simp [List.mapM_cons, h a (by simp), ih (fun b hb => h b (by simp [hb]))]

theorem decodePosition_toVal {d : Nat} (hd : 2 ≤ d) {p : Position} (h1 : IsI32 p.line) (h2 : IsI32 p.column) :
    decodePosition d p.toVal = some p := by
  have he : enter d = some (d - 1) := by simp [enter]; omega
  simp [decodePosition, he, structFields, Position.toVal, fieldOf, single, required,
    decodeI32, h1, h2]

theorem decodeSection_toVal {d : Nat} (hd : 3 ≤ d) (rec : JVal → Option SourceMapJson)
    {s : JsonSection SourceMapJson} (h1 : IsI32 s.offset.line) (h2 : IsI32 s.offset.column)
    (h : rec s.map.toVal = some s.map) : decodeSection rec d (sectionToVal s) = some s := by
  have he : enter d = some (d - 1) := by simp [enter]; omega
  rw [sectionToVal_eq]
  simp [decodeSection, he, structFields, fieldOf, single, required,
    decodePosition_toVal (show 2 ≤ d - 1 by omega) h1 h2, h, optional_optNull]

theorem fromVal_toVal (d : Nat) : ∀ m : SourceMapJson, m.I32 → m.nesting < d → fromVal d m.toVal = some m := by
  induction d using Nat.strongRecOn with
  | _ d ih =>
    intro m hm hd
    obtain ⟨_, hv, hsl, hsc, hs⟩ := hm
    rw [nesting_eq] at hd
    have he : enter d = some (d - 1) := by simp [enter]; omega
    have key : ∀ rec : JVal → Option SourceMapJson,
        (∀ l, m.sections = some l → ∀ s ∈ l, rec s.map.toVal = some s.map) →
        decodeMap rec d m.toVal = some m := by
      intro rec hrec
      have h1 : ∀ o : Option (List String), (o.isSome = true → m.sources.isSome || m.names.isSome || m.sourcesContent.isSome) →
          optional (decodeVec (fun _ => decodeStr) (d - 1)) (o.map strsToVal) = some o := by
        intro o ho
        refine optional_strs o ?_
        intro h
        have := ho h
        rw [this] at hd
        simp only [if_true] at hd
        omega
      have h2 : optional (decodeVec (decodeSection rec) (d - 1))
          (m.sections.map fun l => .arr (l.map sectionToVal)) = some m.sections := by
        refine optional_none_or _ _ (by simp) _ ?_
        intro l hl
        rw [hl, optNesting] at hd
        have he : enter (d - 1) = some (d - 2) := by simp [enter]; omega
        simp only [decodeVec, he, Option.bind_eq_bind, Option.bind_some]
        refine mapM_map_eq _ _ _ ?_
        intro s hm
        have := le_sectionsNesting hm
        exact decodeSection_toVal (by omega) rec (hsl l hl s hm) (hsc l hl s hm) (hrec l hl s hm)
      simp [decodeMap, he, fields_map, required, decodeI32, hv, optional_optNull, optional_str,
        h1 m.sources (by simp +contextual), h1 m.names (by simp +contextual),
        h1 m.sourcesContent (by simp +contextual), h2]
      cases m; rfl
    by_cases h4 : 4 ≤ d
    · obtain ⟨k, rfl⟩ : ∃ k, d = k + 4 := ⟨d - 4, by omega⟩
      rw [fromVal]
      refine key _ ?_
      intro l hl s hm
      have h6 := le_sectionsNesting hm
      rw [hl, optNesting] at hd
      exact ih (k + 1) (by omega) s.map (hs l hl s hm) (by omega)
    · have : fromVal d m.toVal = decodeMap (fun _ => none) d m.toVal := by
        match d, h4 with
        | 0, _ => rfl
        | 1, _ => rfl
        | 2, _ => rfl
        | 3, _ => rfl
        | k + 4, h => omega
      rw [this]
      refine key _ ?_
      intro l hl s hm
      have h6 := le_sectionsNesting hm
      rw [hl, optNesting] at hd
      omega

theorem optional_some {α : Type} {f : JVal → Option α} {v : JVal} (hv : v ≠ .null) {x : Option α}
    (h : optional f (some v) = some x) : ∃ a, f v = some a := by
  cases v <;> first | exact absurd rfl hv | skip
  all_goals
    simp only [optional, Option.map_eq_some_iff] at h
    obtain ⟨a, ha, _⟩ := h
    exact ⟨a, ha⟩

theorem optional_strs_some {d : Nat} {o : Option (List String)} {x : Option (List String)}
    (h : optional (decodeVec (fun _ => decodeStr) d) (o.map strsToVal) = some x) :
    o.isSome = true → 2 ≤ d := by
  intro ho
  cases o with
  | none => simp at ho
  | some l =>
    obtain ⟨a, ha⟩ := optional_some (by simp [strsToVal]) h
    apply Decidable.byContradiction
    intro hd
    rw [decodeVec_strs_fail hd] at ha
    cases ha

theorem mem_of_mapM {α β : Type} {f : α → Option β} : ∀ {l : List α} {r : List β}, l.mapM f = some r →
    ∀ a ∈ l, ∃ b, f a = some b := by
  intro l
  induction l with
  | nil => intro r _ a ha; simp at ha
  | cons x l ih =>
    intro r h a ha
    simp only [List.mapM_cons, Option.bind_eq_bind, Option.bind_eq_some_iff] at h
    obtain ⟨b, hb, t, ht, _⟩ := h
    rcases List.mem_cons.mp ha with rfl | ha
    · exact ⟨b, hb⟩
    · exact ih ht a ha

theorem enter_some {d e : Nat} (h : enter d = some e) : 2 ≤ d ∧ e = d - 1 := by
  simp only [enter] at h
  split at h
  · cases h
  · cases h; exact ⟨by omega, rfl⟩

theorem sectionsNesting_le {l : List (JsonSection SourceMapJson)} {n : Nat}
    (h : ∀ s ∈ l, 1 + max 1 s.map.nesting ≤ n) : sectionsNesting l ≤ n := by
  induction l with
  | nil => simp [sectionsNesting]
  | cons a l ih =>
    rw [sectionsNesting]
    have h1 := h a (by simp)
    have h2 := ih (fun s hs => h s (by simp [hs]))
    cases a
    simp only [sectionNesting] at *
    omega

theorem decodeSection_some {rec : JVal → Option SourceMapJson} {d : Nat}
    {s s' : JsonSection SourceMapJson} (h : decodeSection rec d (sectionToVal s) = some s') :
    3 ≤ d ∧ ∃ m', rec s.map.toVal = some m' := by
  rw [sectionToVal_eq] at h
  simp only [decodeSection, Option.bind_eq_bind, Option.bind_eq_some_iff] at h
  obtain ⟨e, he, l, hl, h⟩ := h
  obtain ⟨he1, rfl⟩ := enter_some he
  simp [structFields, fieldOf, single] at hl
  subst hl
  simp only [required, Option.bind_eq_some_iff] at h
  obtain ⟨p, hp, m', hm, _⟩ := h
  simp only [decodePosition, Option.bind_eq_bind, Option.bind_eq_some_iff] at hp
  obtain ⟨e', he', _⟩ := hp
  have := (enter_some he').1
  exact ⟨by omega, m', hm⟩

theorem decodeMap_some {rec : JVal → Option SourceMapJson} {d : Nat} {m m' : SourceMapJson}
    (hrec : ∀ l, m.sections = some l → ∀ s ∈ l, 4 ≤ d → ∀ m', rec s.map.toVal = some m' → s.map.nesting < d - 3)
    (h : decodeMap rec d m.toVal = some m') : m.nesting < d := by
  simp only [decodeMap, Option.bind_eq_bind, Option.bind_eq_some_iff, fields_map] at h
  obtain ⟨e, he, l, hl, h⟩ := h
  obtain ⟨he1, rfl⟩ := enter_some he
  simp only [Option.some.injEq] at hl
  subst hl
  simp only [Option.bind_eq_some_iff] at h
  obtain ⟨_, _, _, h1, _, h2, _, _, _, _, _, _, _, h3, _, h4, _⟩ := h
  have h1 := optional_strs_some h1
  have h2 := optional_strs_some h2
  have h3 := optional_strs_some h3
  rw [nesting_eq]
  have hA : (if m.sources.isSome || m.names.isSome || m.sourcesContent.isSome then 1 else 0) + 1 < d := by
    split
    · next h =>
      simp only [Bool.or_eq_true] at h
      rcases h with (h | h) | h
      · have := h1 h; omega
      · have := h2 h; omega
      · have := h3 h; omega
    · omega
  have hB : 1 + optNesting m.sections < d := by
    cases hs : m.sections with
    | none => simp only [optNesting]; omega
    | some l =>
      rw [hs] at h4
      obtain ⟨x, hx⟩ := optional_some (by simp) h4
      simp only [decodeVec, Option.bind_eq_bind, Option.bind_eq_some_iff] at hx
      obtain ⟨e', he', hx⟩ := hx
      obtain ⟨he2, rfl⟩ := enter_some he'
      have hall := mem_of_mapM hx
      simp only [optNesting]
      have : sectionsNesting l ≤ d - 3 := by
        refine sectionsNesting_le ?_
        intro s hsl
        obtain ⟨s', hs'⟩ := hall (sectionToVal s) (List.mem_map_of_mem hsl)
        obtain ⟨h5, m'', hm⟩ := decodeSection_some hs'
        have := hrec l hs s hsl (by omega) m'' hm
        omega
      omega
  omega

theorem fromVal_some (d : Nat) : ∀ m m' : SourceMapJson, fromVal d m.toVal = some m' → m.nesting < d := by
  induction d using Nat.strongRecOn with
  | _ d ih =>
    intro m m' h
    by_cases h4 : 4 ≤ d
    · obtain ⟨k, rfl⟩ : ∃ k, d = k + 4 := ⟨d - 4, by omega⟩
      rw [fromVal] at h
      refine decodeMap_some ?_ h
      intro l hl s hs _ m' hm'
      exact ih (k + 1) (by omega) s.map m' hm'
    · have he : fromVal d m.toVal = decodeMap (fun _ => none) d m.toVal := by
        match d, h4 with
        | 0, _ => rfl
        | 1, _ => rfl
        | 2, _ => rfl
        | 3, _ => rfl
        | k + 4, h => omega
      rw [he] at h
      refine decodeMap_some ?_ h
      intro l hl s hs h5
      exact absurd h5 h4

theorem JVal.Plain.optField {k : String} {o : Option JVal} (h : ∀ v, o = some v → v.Plain) :
    ∀ e ∈ optField k o, e.2.Plain := by
  intro e he
  cases o with
  | none => simp [RSM.optField] at he
  | some v => simp [RSM.optField] at he; subst he; exact h v rfl

theorem JVal.Plain.strs (l : List String) : (strsToVal l).Plain := by
  refine .arr _ ?_
  simp only [List.mem_map, forall_exists_index, and_imp]
  rintro v s _ rfl
  exact .str s

theorem JInt.of_i32 {n : Int} (h : IsI32 n) : JInt n := by
  simp only [IsI32, JInt] at *; omega

theorem JVal.Plain.optNull (o : Option String) : (optNull (o.map JVal.str)).Plain := by
  cases o with
  | none => exact .null
  | some s => exact .str s

theorem toVal_plain {m : SourceMapJson} (hm : m.I32) : m.toVal.Plain := by
  induction hm with
  | mk m hv hl hc hs ih =>
    rw [m.toVal_eq]
    refine .obj _ ?_
    simp only [List.mem_append]
    rintro e (((((((h | h) | h) | h) | h) | h) | h) | h)
    · simp at h; subst h; exact .int _ (.of_i32 hv)
    · refine JVal.Plain.optField ?_ e h
      simp only [Option.map_eq_some_iff]; rintro v ⟨l, _, rfl⟩; exact .strs l
    · refine JVal.Plain.optField ?_ e h
      simp only [Option.map_eq_some_iff]; rintro v ⟨l, _, rfl⟩; exact .strs l
    · refine JVal.Plain.optField ?_ e h
      simp only [Option.map_eq_some_iff]; rintro v ⟨l, _, rfl⟩; exact .str l
    · simp at h; subst h; exact .optNull _
    · refine JVal.Plain.optField ?_ e h
      simp only [Option.map_eq_some_iff]; rintro v ⟨l, _, rfl⟩; exact .str l
    · refine JVal.Plain.optField ?_ e h
      simp only [Option.map_eq_some_iff]; rintro v ⟨l, _, rfl⟩; exact .strs l
    · refine JVal.Plain.optField ?_ e h
      simp only [Option.map_eq_some_iff]
      rintro v ⟨l, hsec, rfl⟩
      refine .arr _ ?_
      simp only [List.mem_map]
      rintro v ⟨s, hsl, rfl⟩
      rw [sectionToVal_eq]
      refine .obj _ ?_
      intro e he
      simp only [List.mem_cons, List.not_mem_nil, or_false] at he
      rcases he with rfl | rfl | rfl
      · refine .obj _ ?_
        intro e he
        simp only [List.mem_cons, List.not_mem_nil, or_false] at he
        rcases he with rfl | rfl
        · exact .int _ (.of_i32 (hl l hsec s hsl))
        · exact .int _ (.of_i32 (hc l hsec s hsl))
      · exact ih l hsec s hsl
      · exact .optNull _

end RSM
