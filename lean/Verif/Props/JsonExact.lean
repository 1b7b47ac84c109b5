import Verif.Props.JsonRead
import Mathlib.Data.List.Nodup
/-! # C65, exactly: what is read from a JSON value -/

namespace RSM

/-! ## Specification -/

/-- What an object has under a name. -/
def entries (l : List (String × JVal)) (k : String) : List JVal := (l.filter fun e => e.1 == k).map Prod.snd

/-- What a value has for the field `k` of a record with the given fields: the entry of an object, which may be absent but
not occur twice, or the place in an array with one element for each field. -/
inductive Given (names : List String) : JVal → String → Option JVal → Prop
  | absent {l : List (String × JVal)} {k : String} : entries l k = [] → Given names (.obj l) k none
  | entry {l : List (String × JVal)} {k : String} {w : JVal} : entries l k = [w] → Given names (.obj l) k (some w)
  | place {l : List JVal} {k : String} {w : JVal} {i : Nat} : l.length = names.length → names[i]? = some k →
      l[i]? = some w → Given names (.arr l) k (some w)

/-- A 32-bit integer. -/
def IntIs (x : Option JVal) (n : Int) : Prop := x = some (.int n) ∧ IsI32 n

/-- A string, or nothing. -/
inductive StrIs : Option JVal → Option String → Prop
  | absent : StrIs none none
  | null : StrIs (some .null) none
  | str (s : String) : StrIs (some (.str s)) (some s)

/-- A list of strings, or nothing. -/
inductive StrsIs : Option JVal → Option (List String) → Prop
  | absent : StrsIs none none
  | null : StrsIs (some .null) none
  | strs (ss : List String) : StrsIs (some (.arr (ss.map .str))) (some ss)

/-- The fields of an offset. -/
def offsetFields : List String := ["line", "column"]

/-- The fields of a section. -/
def sectionFields : List String := ["offset", "map", "url"]

/-- The offset of a section. -/
def PosIs (v : JVal) (p : Position) : Prop :=
  ∃ a b, Given offsetFields v "line" a ∧ IntIs a p.line ∧ Given offsetFields v "column" b ∧ IntIs b p.column

mutual
/-- The value holds the map. -/
inductive MapIs : JVal → SourceMapJson → Prop
  | mk {v : JVal} {m : SourceMapJson} {version sources names mappings file sourceRoot sourcesContent sections : Option JVal} :
      Given mapFields v "version" version → IntIs version m.version →
      Given mapFields v "sources" sources → StrsIs sources m.sources →
      Given mapFields v "names" names → StrsIs names m.names →
      Given mapFields v "mappings" mappings → StrIs mappings m.mappings →
      Given mapFields v "file" file → StrIs file m.file →
      Given mapFields v "sourceRoot" sourceRoot → StrIs sourceRoot m.sourceRoot →
      Given mapFields v "sourcesContent" sourcesContent → StrsIs sourcesContent m.sourcesContent →
      Given mapFields v "sections" sections → SectionsIs sections m.sections → MapIs v m
/-- A list of sections, or nothing. -/
inductive SectionsIs : Option JVal → Option (List (JsonSection SourceMapJson)) → Prop
  | absent : SectionsIs none none
  | null : SectionsIs (some .null) none
  | list {l : List JVal} {ss : List (JsonSection SourceMapJson)} : SectionListIs l ss →
      SectionsIs (some (.arr l)) (some ss)
/-- Section by section. -/
inductive SectionListIs : List JVal → List (JsonSection SourceMapJson) → Prop
  | nil : SectionListIs [] []
  | cons {v : JVal} {s : JsonSection SourceMapJson} {l : List JVal} {ss : List (JsonSection SourceMapJson)} :
      SectionIs v s → SectionListIs l ss → SectionListIs (v :: l) (s :: ss)
/-- The value holds the section. -/
inductive SectionIs : JVal → JsonSection SourceMapJson → Prop
  | mk {v o w : JVal} {u : Option JVal} {s : JsonSection SourceMapJson} :
      Given sectionFields v "offset" (some o) → PosIs o s.offset →
      Given sectionFields v "map" (some w) → MapIs w s.map →
      Given sectionFields v "url" u → StrIs u s.url → SectionIs v s
end

/-- Arrays and objects are nested at most `n` levels deep. -/
inductive Within : Nat → JVal → Prop
  | null {n : Nat} : Within n .null
  | bool {n : Nat} (b : Bool) : Within n (.bool b)
  | int {n : Nat} (i : Int) : Within n (.int i)
  | float {n : Nat} (s : String) : Within n (.float s)
  | str {n : Nat} (s : String) : Within n (.str s)
  | arr {n : Nat} {l : List JVal} : (∀ v ∈ l, Within n v) → Within (n + 1) (.arr l)
  | obj {n : Nat} {l : List (String × JVal)} : (∀ e ∈ l, Within n e.2) → Within (n + 1) (.obj l)

/-! ## Fields -/

theorem fieldOf_iff {l : List (String × JVal)} {k : String} {x : Option JVal} {names : List String} :
    fieldOf l k = some x ↔ Given names (.obj l) k x := by
  unfold fieldOf
  constructor
  · intro h
    match hl : l.filter (fun e => e.1 == k) with
    | [] => rw [hl] at h; cases h; exact .absent (by simp [entries, hl])
    | [e] => rw [hl] at h; cases h; exact .entry (by simp [entries, hl])
    | _ :: _ :: _ => rw [hl] at h; cases h
  · intro h
    cases h with
    | absent h =>
      simp only [entries, List.map_eq_nil_iff] at h
      rw [h]; rfl
    | entry h =>
      simp only [entries, List.map_eq_singleton_iff] at h
      obtain ⟨e, h, rfl⟩ := h
      rw [h]; rfl

theorem mapM_fieldOf {l : List (String × JVal)} {f : List String} : ∀ {names : List String} {xs : List (Option JVal)},
    names.mapM (fieldOf l) = some xs ↔ List.Forall₂ (Given f (.obj l)) names xs := by
  intro names
  induction names with
  | nil => intro xs; cases xs <;> simp
  | cons k names ih =>
    intro xs
    rw [List.mapM_cons]
    simp only [Option.bind_eq_bind, Option.bind_eq_some_iff, Option.pure_def, Option.some.injEq, ih,
      fieldOf_iff (names := f)]
    constructor
    · rintro ⟨x, h1, ys, h2, rfl⟩
      exact .cons h1 h2
    · intro h
      cases h with
      | cons h1 h2 => exact ⟨_, h1, _, h2, rfl⟩

/-- The fields of a record. -/
theorem structFields_iff {names : List String} (hn : names.Nodup) (hne : names ≠ []) {v : JVal}
    {xs : List (Option JVal)} : structFields names v = some xs ↔ List.Forall₂ (Given names v) names xs := by
  cases v with
  | obj l => exact mapM_fieldOf
  | arr l =>
    simp only [structFields]
    constructor
    · intro h
      split at h
      · rename_i hl
        cases h
        refine List.forall₂_iff_get.2 ⟨by simp [hl], fun i h1 h2 => ?_⟩
        simp only [List.get_eq_getElem, List.getElem_map]
        exact .place hl (List.getElem?_eq_getElem h1) (List.getElem?_eq_getElem (by omega))
      · cases h
    · intro h
      obtain ⟨hlen, h⟩ := List.forall₂_iff_get.1 h
      have hpos : 0 < names.length := List.length_pos_iff.2 hne
      have hl : l.length = names.length := by
        have := h 0 hpos (by omega)
        generalize xs.get ⟨0, _⟩ = x at this
        cases this with
        | place h _ _ => exact h
      rw [if_pos hl]
      congr 1
      apply List.ext_getElem (by simp; omega)
      intro i h1 h2
      simp only [List.length_map] at h1
      have := h i (by omega) h2
      simp only [List.get_eq_getElem] at this
      rw [List.getElem_map]
      generalize xs[i] = x at this
      cases this with
      | @place _ _ w j _ hj hw =>
        have hji : j = i := by
          obtain ⟨hj', e⟩ := List.getElem?_eq_some_iff.1 hj
          exact (List.Nodup.getElem_inj_iff hn).1 e
        subst hji
        rw [List.getElem?_eq_getElem (by omega)] at hw
        exact hw
  | _ =>
    simp only [structFields, reduceCtorEq, false_iff]
    intro h
    cases names with
    | nil => exact hne rfl
    | cons k names =>
      cases h with
      | cons h _ => cases h

theorem intIs_iff {x : Option JVal} {n : Int} : required decodeI32 x = some n ↔ IntIs x n := by
  unfold IntIs
  match x with
  | none => simp [required]
  | some (.int i) =>
    simp only [required, decodeI32]
    by_cases h : IsI32 i
    · simp only [h, if_true, Option.some.injEq, JVal.int.injEq]
      exact ⟨fun e => e ▸ ⟨rfl, h⟩, fun e => e.1⟩
    · simp only [h, if_false, Option.some.injEq, JVal.int.injEq, reduceCtorEq, false_iff, not_and]
      rintro rfl; exact h
  | some .null => simp [required, decodeI32]
  | some (.bool _) => simp [required, decodeI32]
  | some (.float _) => simp [required, decodeI32]
  | some (.str _) => simp [required, decodeI32]
  | some (.arr _) => simp [required, decodeI32]
  | some (.obj _) => simp [required, decodeI32]

theorem strIs_iff {x : Option JVal} {y : Option String} : optional decodeStr x = some y ↔ StrIs x y := by
  constructor
  · intro h
    match x, h with
    | none, h => cases h; exact .absent
    | some .null, h => cases h; exact .null
    | some (.str s), h => cases h; exact .str s
  · intro h
    cases h <;> rfl

theorem mapM_str {l : List JVal} {ss : List String} : l.mapM decodeStr = some ss ↔ l = ss.map .str := by
  constructor
  · exact mapM_strs
  · rintro rfl
    induction ss with
    | nil => rfl
    | cons s ss ih => rw [List.map_cons, List.mapM_cons, ih]; rfl

theorem enter_iff {d d' : Nat} : enter d = some d' ↔ d = d' + 1 ∧ 1 ≤ d' := by
  unfold enter
  split
  · simp; omega
  · simp; omega

theorem strsIs_of {x : Option JVal} {y : Option (List String)} {d : Nat}
    (h : optional (decodeVec (fun _ => decodeStr) d) x = some y) : StrsIs x y := by
  match x, h with
  | none, h => cases h; exact .absent
  | some .null, h => cases h; exact .null
  | some (.arr l), h' =>
    simp only [RSM.optional, decodeVec, Option.map_eq_some_iff, Option.bind_eq_bind, Option.bind_eq_some_iff] at h'
    obtain ⟨ss, ⟨_, _, h'⟩, rfl⟩ := h'
    rw [mapM_str.1 h']
    exact .strs ss

theorem strsIs_to {x : Option JVal} {y : Option (List String)} {d : Nat} (hd : ∀ w, x = some w → Within d w)
    (h : StrsIs x y) : optional (decodeVec (fun _ => decodeStr) (d + 1)) x = some y := by
  cases h with
  | absent => rfl
  | null => rfl
  | strs ss =>
    have hd := hd _ rfl
    generalize hl : ss.map JVal.str = l at hd
    cases hd with
    | @arr n _ _ =>
      simp only [RSM.optional, decodeVec, enter, Option.bind_eq_bind]
      rw [if_neg (by omega)]
      simp only [Option.bind_some, Nat.add_sub_cancel]
      rw [mapM_str.2 hl.symm]
      rfl

/-- What a field holds is less deep than the whole. -/
theorem Given.within {names : List String} {v w : JVal} {k : String} {d : Nat} (h : Given names v k (some w))
    (hv : Within d v) : ∃ n, d = n + 1 ∧ Within n w := by
  cases h with
  | @entry l _ _ h =>
    cases hv with
    | obj hv =>
      refine ⟨_, rfl, ?_⟩
      have : w ∈ entries l k := by rw [h]; simp
      simp only [entries, List.mem_map, List.mem_filter] at this
      obtain ⟨e, ⟨he, _⟩, rfl⟩ := this
      exact hv e he
  | place _ _ hw =>
    cases hv with
    | arr hv => exact ⟨_, rfl, hv w (List.mem_of_getElem? hw)⟩

theorem Given.positive {names : List String} {v : JVal} {k : String} {x : Option JVal} {d : Nat}
    (h : Given names v k x) (hv : Within d v) : ∃ n, d = n + 1 := by
  cases h <;> cases hv <;> exact ⟨_, rfl⟩

/-! ## Offsets and sections -/

theorem position_iff {d : Nat} {v : JVal} {p : Position} : decodePosition d v = some p ↔
    (∃ d', enter d = some d') ∧ PosIs v p := by
  unfold decodePosition PosIs
  simp only [Option.bind_eq_bind, Option.bind_eq_some_iff]
  have hf : ∀ xs, structFields ["line", "column"] v = some xs ↔
      ∃ a b, xs = [a, b] ∧ Given offsetFields v "line" a ∧ Given offsetFields v "column" b := by
    intro xs
    rw [structFields_iff (by decide) (by decide)]
    constructor
    · intro h
      rcases h with _ | ⟨h1, _ | ⟨h2, _ | _⟩⟩
      exact ⟨_, _, rfl, h1, h2⟩
    · rintro ⟨a, b, rfl, h1, h2⟩
      exact .cons h1 (.cons h2 .nil)
  constructor
  · rintro ⟨d', h1, xs, h2, h3⟩
    obtain ⟨a, b, rfl, g1, g2⟩ := (hf xs).1 h2
    simp only [Option.bind_eq_some_iff, Option.some.injEq] at h3
    obtain ⟨i, h3, j, h4, rfl⟩ := h3
    exact ⟨⟨d', h1⟩, a, b, g1, intIs_iff.1 h3, g2, intIs_iff.1 h4⟩
  · rintro ⟨⟨d', h1⟩, a, b, g1, h3, g2, h4⟩
    refine ⟨d', h1, _, (hf _).2 ⟨a, b, rfl, g1, g2⟩, ?_⟩
    simp only [intIs_iff.2 h3, intIs_iff.2 h4, Option.bind_some]

theorem section_fields {v : JVal} {xs : List (Option JVal)} : structFields ["offset", "map", "url"] v = some xs ↔
    ∃ a b c, xs = [a, b, c] ∧ Given sectionFields v "offset" a ∧ Given sectionFields v "map" b ∧
      Given sectionFields v "url" c := by
  rw [structFields_iff (by decide) (by decide)]
  constructor
  · intro h
    rcases h with _ | ⟨h1, _ | ⟨h2, _ | ⟨h3, _ | _⟩⟩⟩
    exact ⟨_, _, _, rfl, h1, h2, h3⟩
  · rintro ⟨a, b, c, rfl, h1, h2, h3⟩
    exact .cons h1 (.cons h2 (.cons h3 .nil))

theorem section_of {rec : JVal → Option SourceMapJson} (hrec : ∀ w m, rec w = some m → MapIs w m) {d : Nat} {v : JVal}
    {s : JsonSection SourceMapJson} (h : decodeSection rec d v = some s) : SectionIs v s := by
  simp only [decodeSection, Option.bind_eq_bind, Option.bind_eq_some_iff] at h
  obtain ⟨d', _, xs, h2, h3⟩ := h
  obtain ⟨a, b, c, rfl, g1, g2, g3⟩ := section_fields.1 h2
  simp only [Option.bind_eq_some_iff, Option.some.injEq] at h3
  obtain ⟨o, h4, m, h5, u, h6, rfl⟩ := h3
  cases a with
  | none => cases h4
  | some a =>
    cases b with
    | none => cases h5
    | some b => exact .mk g1 (position_iff.1 h4).2 g2 (hrec _ _ h5) g3 (strIs_iff.1 h6)

/-- `d` levels are left below the section. -/
theorem section_to {rec : JVal → Option SourceMapJson} {d : Nat}
    (hrec : ∀ n w m, d = n + 1 → Within n w → MapIs w m → rec w = some m) {v : JVal}
    {s : JsonSection SourceMapJson} (hv : Within d v) (h : SectionIs v s) : decodeSection rec (d + 1) v = some s := by
  cases h with
  | @mk _ o w u _ g1 h1 g2 h2 g3 h3 =>
    obtain ⟨n, rfl, ho⟩ := g1.within hv
    obtain ⟨n', e, hw⟩ := g2.within hv
    have : n' = n := by omega
    subst this
    have hen : enter (n' + 1 + 1) = some (n' + 1) := enter_iff.2 ⟨rfl, by omega⟩
    have hpos : decodePosition (n' + 1) o = some s.offset := by
      refine position_iff.2 ⟨?_, h1⟩
      obtain ⟨a, _, ga, _⟩ := h1
      obtain ⟨k, rfl⟩ := ga.positive ho
      exact ⟨k + 1, enter_iff.2 ⟨rfl, by omega⟩⟩
    simp only [decodeSection, hen, section_fields.2 ⟨_, _, _, rfl, g1, g2, g3⟩, Option.bind_eq_bind, Option.bind_some,
      required, hpos, hrec n' w s.map rfl hw h2, strIs_iff.2 h3]

theorem sections_of {rec : JVal → Option SourceMapJson} (hrec : ∀ w m, rec w = some m → MapIs w m) {d : Nat} :
    ∀ {l : List JVal} {ss : List (JsonSection SourceMapJson)}, l.mapM (decodeSection rec d) = some ss →
    SectionListIs l ss := by
  intro l
  induction l with
  | nil => intro ss h; cases h; exact .nil
  | cons v l ih =>
    intro ss h
    rw [List.mapM_cons] at h
    simp only [Option.bind_eq_bind, Option.bind_eq_some_iff, Option.pure_def, Option.some.injEq] at h
    obtain ⟨s, h1, ss, h2, rfl⟩ := h
    exact .cons (section_of hrec h1) (ih h2)

theorem sections_to {rec : JVal → Option SourceMapJson} {d : Nat}
    (hrec : ∀ n w m, d = n + 1 → Within n w → MapIs w m → rec w = some m) :
    ∀ {l : List JVal} {ss : List (JsonSection SourceMapJson)}, (∀ v ∈ l, Within d v) → SectionListIs l ss →
    l.mapM (decodeSection rec (d + 1)) = some ss := by
  intro l
  induction l with
  | nil => intro ss _ h; cases h; rfl
  | cons v l ih =>
    intro ss hv h
    cases h with
    | cons h1 h2 =>
      rw [List.mapM_cons, section_to hrec (hv v (by simp)) h1, ih (fun v hv' => hv v (by simp [hv'])) h2]
      rfl

/-! ## Maps -/

theorem map_fields {v : JVal} {xs : List (Option JVal)} : structFields ["version", "sources", "names", "mappings",
    "file", "sourceRoot", "sourcesContent", "sections"] v = some xs ↔
    ∃ a b c d e f g h, xs = [a, b, c, d, e, f, g, h] ∧ Given mapFields v "version" a ∧ Given mapFields v "sources" b ∧
      Given mapFields v "names" c ∧ Given mapFields v "mappings" d ∧ Given mapFields v "file" e ∧
      Given mapFields v "sourceRoot" f ∧ Given mapFields v "sourcesContent" g ∧ Given mapFields v "sections" h := by
  rw [structFields_iff (by decide) (by decide)]
  constructor
  · intro h
    rcases h with _ | ⟨h1, _ | ⟨h2, _ | ⟨h3, _ | ⟨h4, _ | ⟨h5, _ | ⟨h6, _ | ⟨h7, _ | ⟨h8, _ | _⟩⟩⟩⟩⟩⟩⟩⟩
    exact ⟨_, _, _, _, _, _, _, _, rfl, h1, h2, h3, h4, h5, h6, h7, h8⟩
  · rintro ⟨a, b, c, d, e, f, g, h, rfl, h1, h2, h3, h4, h5, h6, h7, h8⟩
    exact .cons h1 (.cons h2 (.cons h3 (.cons h4 (.cons h5 (.cons h6 (.cons h7 (.cons h8 .nil)))))))

theorem map_of {rec : JVal → Option SourceMapJson} (hrec : ∀ w m, rec w = some m → MapIs w m) {d : Nat} {v : JVal}
    {m : SourceMapJson} (h : decodeMap rec d v = some m) : MapIs v m := by
  simp only [decodeMap, Option.bind_eq_bind, Option.bind_eq_some_iff] at h
  obtain ⟨d', _, xs, h2, h3⟩ := h
  obtain ⟨_, _, _, _, _, _, _, s, rfl, g1, g2, g3, g4, g5, g6, g7, g8⟩ := map_fields.1 h2
  simp only [Option.bind_eq_some_iff, Option.some.injEq] at h3
  obtain ⟨_, k1, _, k2, _, k3, _, k4, _, k5, _, k6, _, k7, ss, k8, rfl⟩ := h3
  refine .mk g1 (intIs_iff.1 k1) g2 (strsIs_of k2) g3 (strsIs_of k3) g4 (strIs_iff.1 k4) g5 (strIs_iff.1 k5)
    g6 (strIs_iff.1 k6) g7 (strsIs_of k7) g8 ?_
  clear g8 h2
  match s, k8 with
  | none, h => cases h; exact .absent
  | some .null, h => cases h; exact .null
  | some (.arr l), h =>
    simp only [RSM.optional, decodeVec, Option.map_eq_some_iff, Option.bind_eq_bind, Option.bind_eq_some_iff] at h
    obtain ⟨ss, ⟨_, _, h⟩, rfl⟩ := h
    exact .list (sections_of hrec h)

/-- `d` levels are left below the map. -/
theorem map_to {rec : JVal → Option SourceMapJson} {d : Nat}
    (hrec : ∀ n w m, d = n + 3 → Within n w → MapIs w m → rec w = some m) {v : JVal} {m : SourceMapJson}
    (hv : Within d v) (h : MapIs v m) : decodeMap rec (d + 1) v = some m := by
  cases h with
  | @mk _ _ _ _ _ _ _ _ _ s g1 k1 g2 k2 g3 k3 g4 k4 g5 k5 g6 k6 g7 k7 g8 k8 =>
    obtain ⟨n, rfl⟩ := g1.positive hv
    have hen : enter (n + 1 + 1) = some (n + 1) := enter_iff.2 ⟨rfl, by omega⟩
    have hw : ∀ {k x}, Given mapFields v k x → ∀ w, x = some w → Within n w := by
      rintro k x g w rfl
      obtain ⟨n', e, hw⟩ := g.within hv
      have : n' = n := by omega
      exact this ▸ hw
    have hs : optional (decodeVec (decodeSection rec) (n + 1)) s = some m.sections := by
      have hws := hw g8
      clear g8
      generalize m.sections = ss at k8
      cases k8 with
      | absent => rfl
      | null => rfl
      | @list l ss h =>
        cases hws _ rfl with
        | @arr n' _ hl =>
          simp only [RSM.optional, decodeVec, enter_iff.2 ⟨rfl, Nat.le_add_left 1 n'⟩, Option.bind_eq_bind,
            Option.bind_some]
          rw [sections_to (d := n') (fun j w m e hw hm => hrec j w m (by omega) hw hm) hl h]
          rfl
    simp only [decodeMap, hen, map_fields.2 ⟨_, _, _, _, _, _, _, _, rfl, g1, g2, g3, g4, g5, g6, g7, g8⟩,
      Option.bind_eq_bind, Option.bind_some, intIs_iff.2 k1, strsIs_to (hw g2) k2, strsIs_to (hw g3) k3,
      strIs_iff.2 k4, strIs_iff.2 k5, strIs_iff.2 k6, strsIs_to (hw g7) k7, hs]
    cases m; rfl

theorem fromVal_of : ∀ (d : Nat) {v : JVal} {m : SourceMapJson}, fromVal d v = some m → MapIs v m
  | k + 4, _, _, h => map_of (fun _ _ h => fromVal_of (k + 1) h) h
  | 0, _, _, h => map_of (fun _ _ h => by cases h) h
  | 1, _, _, h => map_of (fun _ _ h => by cases h) h
  | 2, _, _, h => map_of (fun _ _ h => by cases h) h
  | 3, _, _, h => map_of (fun _ _ h => by cases h) h

theorem fromVal_to : ∀ (d : Nat) {v : JVal} {m : SourceMapJson}, Within d v → MapIs v m → fromVal (d + 1) v = some m
  | k + 3, _, _, hv, h => map_to (d := k + 3) (fun n w m e hw hm => by
      have : n = k := by omega
      subst this
      exact fromVal_to n hw hm) hv h
  | 0, _, _, hv, h => map_to (d := 0) (fun n w m e => by omega) hv h
  | 1, _, _, hv, h => map_to (d := 1) (fun n w m e => by omega) hv h
  | 2, _, _, hv, h => map_to (d := 2) (fun n w m e => by omega) hv h

/-- C65, exactly. What is read from a text is what its JSON value holds: for values nested at most 127 levels deep, a map is
read if and only if the value holds it, section by section and at every level; beyond that, only if. -/
theorem C65_exact (J : JsonLib) {t : Text} {v : JVal} (h : J.parse t = some v) (m : SourceMapJson) :
    (fromStr J t = some m → MapIs v m) ∧ (Within 127 v → MapIs v m → fromStr J t = some m) := by
  simp only [fromStr, h, Option.bind_eq_bind, Option.bind_some]
  exact ⟨fromVal_of 128, fromVal_to 127⟩

/-- A map with one section, with an unknown field at every level and an offset written as an array. -/
example (t : Text) (h : jsonText.parse t = some (.obj [("x", .bool true), ("sections", .arr [.obj [("y", .null),
      ("map", .obj [("version", .int 3), ("z", .arr []), ("names", .arr [.str "n"])]),
      ("offset", .arr [.int 4, .int 5])]]), ("version", .int 3)])) :
    fromStr jsonText t = some ⟨3, none, none, none, none, none, none,
      some [⟨⟨4, 5⟩, ⟨3, none, some ["n"], none, none, none, none, none⟩, none⟩]⟩ := by
  refine (C65_exact jsonText h _).2 ?_ ?_
  · refine .obj fun e he => ?_
    simp only [List.mem_cons, List.not_mem_nil, or_false] at he
    rcases he with rfl | rfl | rfl
    · exact .bool _
    · refine .arr fun e he => ?_
      simp only [List.mem_cons, List.not_mem_nil, or_false] at he
      subst he
      refine .obj fun e he => ?_
      simp only [List.mem_cons, List.not_mem_nil, or_false] at he
      rcases he with rfl | rfl | rfl
      · exact .null
      · refine .obj fun e he => ?_
        simp only [List.mem_cons, List.not_mem_nil, or_false] at he
        rcases he with rfl | rfl | rfl
        · exact .int _
        · exact .arr (by simp)
        · exact .arr fun e he => by
            simp only [List.mem_cons, List.not_mem_nil, or_false] at he
            subst he; exact .str _
      · exact .arr fun e he => by
          simp only [List.mem_cons, List.not_mem_nil, or_false] at he
          rcases he with rfl | rfl <;> exact .int _
    · exact .int _
  · have i3 : IsI32 3 := by decide
    refine .mk (.entry rfl) ⟨rfl, i3⟩ (.absent rfl) .absent (.absent rfl) .absent (.absent rfl) .absent (.absent rfl)
      .absent (.absent rfl) .absent (.absent rfl) .absent (.entry rfl) (.list (.cons (.mk (.entry rfl) ?_ (.entry rfl)
        (.mk (.entry rfl) ⟨rfl, i3⟩ (.absent rfl) .absent (.entry rfl) (.strs ["n"]) (.absent rfl) .absent (.absent rfl)
          .absent (.absent rfl) .absent (.absent rfl) .absent (.absent rfl) .absent) (.absent rfl) .absent) .nil))
    exact ⟨_, _, .place (i := 0) rfl rfl rfl, ⟨rfl, by decide⟩, .place (i := 1) rfl rfl rfl, ⟨rfl, by decide⟩⟩

end RSM
