import Verif.Model.Indexed
import Verif.Dep.Demo
import Verif.Props.Json
import Mathlib.Data.List.Forall2
import Mathlib.Logic.Relation
/-! # Property C65: what reading a source map depends on -/

namespace RSM

/-- Two JSON values that differ in the order of the fields of one object in them. -/
inductive Reordered : JVal → JVal → Prop
  | here {l₁ l₂ : List (String × JVal)} : l₁.Perm l₂ → Reordered (.obj l₁) (.obj l₂)
  | field {v w : JVal} (a b : List (String × JVal)) (k : String) : Reordered v w →
      Reordered (.obj (a ++ (k, v) :: b)) (.obj (a ++ (k, w) :: b))
  | elem {v w : JVal} (a b : List JVal) : Reordered v w → Reordered (.arr (a ++ v :: b)) (.arr (a ++ w :: b))

/-- The fields of a source map. -/
def mapFields : List String :=
  ["version", "sources", "names", "mappings", "file", "sourceRoot", "sourcesContent", "sections"]

/-! ## Fields of objects -/

theorem single_perm {l₁ l₂ : List (String × JVal)} (h : l₁.Perm l₂) : single l₁ = single l₂ := by
  match l₁, l₂, h with
  | [], _, h => rw [h.nil_eq]
  | [a], _, h => rw [List.singleton_perm.1 h]
  | _ :: _ :: _, [], h => exact absurd h.length_eq (by simp)
  | _ :: _ :: _, [_], h => exact absurd h.length_eq (by simp)
  | _ :: _ :: _, _ :: _ :: _, _ => rfl

theorem fieldOf_perm {l₁ l₂ : List (String × JVal)} (h : l₁.Perm l₂) (k : String) :
    fieldOf l₁ k = fieldOf l₂ k := single_perm (h.filter _)

/-- Two values of a field: equal, or reordered. -/
def Close (x y : Option JVal) : Prop := x = y ∨ ∃ v w, x = some v ∧ y = some w ∧ Reordered v w

theorem Close.rfl {x : Option JVal} : Close x x := .inl (Eq.refl x)

theorem fieldOf_field {v w : JVal} (h : Reordered v w) (a b : List (String × JVal)) (k key : String) :
    (fieldOf (a ++ (k, v) :: b) key = none ∧ fieldOf (a ++ (k, w) :: b) key = none) ∨
    ∃ x y, fieldOf (a ++ (k, v) :: b) key = some x ∧ fieldOf (a ++ (k, w) :: b) key = some y ∧ Close x y := by
  unfold fieldOf
  simp only [List.filter_append, List.filter_cons]
  cases hk : (k == key)
  · simp only [Bool.false_eq_true, if_false]
    cases hs : single (List.filter (fun e => e.1 == key) a ++ List.filter (fun e => e.1 == key) b) with
    | none => exact .inl ⟨rfl, rfl⟩
    | some x => exact .inr ⟨x, x, rfl, rfl, .rfl⟩
  · simp only [if_true]
    generalize List.filter (fun e : String × JVal => e.1 == key) a = a'
    generalize List.filter (fun e : String × JVal => e.1 == key) b = b'
    match a', b' with
    | [], [] => exact .inr ⟨some v, some w, rfl, rfl, .inr ⟨v, w, rfl, rfl, h⟩⟩
    | [], _ :: _ => exact .inl ⟨rfl, rfl⟩
    | [_], _ => exact .inl ⟨rfl, rfl⟩
    | _ :: _ :: _, _ => exact .inl ⟨rfl, rfl⟩

theorem mapM_rel {R : Option JVal → Option JVal → Prop} {f g : String → Option (Option JVal)} :
    ∀ (names : List String),
    (∀ k ∈ names, (f k = none ∧ g k = none) ∨ ∃ x y, f k = some x ∧ g k = some y ∧ R x y) →
    (names.mapM f = none ∧ names.mapM g = none) ∨
    ∃ xs ys, names.mapM f = some xs ∧ names.mapM g = some ys ∧ List.Forall₂ R xs ys
  | [], _ => .inr ⟨[], [], rfl, rfl, .nil⟩
  | k :: names, h => by
    simp only [List.mapM_cons]
    rcases h k (by simp) with ⟨h1, h2⟩ | ⟨x, y, h1, h2, hc⟩
    · exact .inl ⟨by rw [h1]; rfl, by rw [h2]; rfl⟩
    · rcases mapM_rel names (fun k hk => h k (by simp [hk])) with ⟨h3, h4⟩ | ⟨xs, ys, h3, h4, hcs⟩
      · exact .inl ⟨by rw [h1, h3]; rfl, by rw [h2, h4]; rfl⟩
      · exact .inr ⟨x :: xs, y :: ys, by rw [h1, h3]; rfl, by rw [h2, h4]; rfl, .cons hc hcs⟩

theorem close_refl : ∀ xs : List (Option JVal), List.Forall₂ Close xs xs
  | [] => .nil
  | _ :: xs => .cons .rfl (close_refl xs)

theorem close_elem {v w : JVal} (h : Reordered v w) (b : List JVal) : ∀ a : List JVal,
    List.Forall₂ Close ((a ++ v :: b).map some) ((a ++ w :: b).map some)
  | [] => .cons (.inr ⟨v, w, rfl, rfl, h⟩) (close_refl _)
  | _ :: a => .cons .rfl (close_elem h b a)

/-- The fields of a struct, read from two values that differ in an order of fields. -/
theorem structFields_reordered {v w : JVal} (h : Reordered v w) (names : List String) :
    (structFields names v = none ∧ structFields names w = none) ∨
    ∃ xs ys, structFields names v = some xs ∧ structFields names w = some ys ∧ List.Forall₂ Close xs ys := by
  cases h with
  | here hp =>
    simp only [structFields, funext (fieldOf_perm hp)]
    cases List.mapM (fieldOf _) names with
    | none => exact .inl ⟨rfl, rfl⟩
    | some xs => exact .inr ⟨xs, xs, rfl, rfl, close_refl xs⟩
  | field a b k h => exact mapM_rel names (fun key _ => fieldOf_field h a b k key)
  | elem a b h =>
    simp only [structFields, List.length_append, List.length_cons]
    split
    · exact .inr ⟨_, _, rfl, rfl, close_elem h b a⟩
    · exact .inl ⟨rfl, rfl⟩

/-! ## Decoders -/

/-- A decoder that does not see the order of fields. -/
def Blind {α : Type} (f : JVal → Option α) : Prop := ∀ v w, Reordered v w → f v = f w

theorem blind_i32 : Blind decodeI32 := by intro v w h; cases h <;> rfl
theorem blind_str : Blind decodeStr := by intro v w h; cases h <;> rfl

theorem Blind.required {α : Type} {f : JVal → Option α} (hf : Blind f) {x y : Option JVal} (h : Close x y) :
    required f x = required f y := by
  rcases h with rfl | ⟨v, w, rfl, rfl, h⟩
  · rfl
  · exact hf v w h

theorem Blind.optional {α : Type} {f : JVal → Option α} (hf : Blind f) {x y : Option JVal} (h : Close x y) :
    optional f x = optional f y := by
  rcases h with rfl | ⟨v, w, rfl, rfl, h⟩
  · rfl
  · have e := hf v w h
    cases h <;> simp only [RSM.optional, e]

theorem blind_vec {α : Type} {f : Nat → JVal → Option α} (hf : ∀ d, Blind (f d)) (d : Nat) :
    Blind (decodeVec f d) := by
  intro v w h
  cases h with
  | here => rfl
  | field => rfl
  | elem a b h => simp only [decodeVec, List.mapM_append, List.mapM_cons, hf _ _ _ h]

theorem blind_position (d : Nat) : Blind (decodePosition d) := by
  intro v w h
  simp only [decodePosition]
  rcases structFields_reordered h ["line", "column"] with ⟨h1, h2⟩ | ⟨xs, ys, h1, h2, hc⟩
  · rw [h1, h2]
  · rw [h1, h2]
    cases hc with
    | nil => rfl
    | cons c1 hc => cases hc with
      | nil => rfl
      | cons c2 hc => cases hc with
        | nil => simp only [Option.bind_eq_bind, Option.bind_some, blind_i32.required c1, blind_i32.required c2]
        | cons _ _ => rfl

theorem blind_section {rec : JVal → Option SourceMapJson} (hrec : Blind rec) (d : Nat) :
    Blind (decodeSection rec d) := by
  intro v w h
  simp only [decodeSection]
  rcases structFields_reordered h ["offset", "map", "url"] with ⟨h1, h2⟩ | ⟨xs, ys, h1, h2, hc⟩
  · rw [h1, h2]
  · rw [h1, h2]
    cases hc with
    | nil => rfl
    | cons c1 hc => cases hc with
      | nil => rfl
      | cons c2 hc => cases hc with
        | nil => rfl
        | cons c3 hc => cases hc with
          | nil => simp only [Option.bind_eq_bind, Option.bind_some, (blind_position _).required c1,
              hrec.required c2, blind_str.optional c3]
          | cons _ _ => rfl

theorem blind_map {rec : JVal → Option SourceMapJson} (hrec : Blind rec) (d : Nat) :
    Blind (decodeMap rec d) := by
  intro v w h
  simp only [decodeMap]
  rcases structFields_reordered h ["version", "sources", "names", "mappings", "file", "sourceRoot",
      "sourcesContent", "sections"] with ⟨h1, h2⟩ | ⟨xs, ys, h1, h2, hc⟩
  · rw [h1, h2]
  · rw [h1, h2]
    rcases hc with _ | ⟨c1, _ | ⟨c2, _ | ⟨c3, _ | ⟨c4, _ | ⟨c5, _ | ⟨c6, _ | ⟨c7, _ | ⟨c8, _ | ⟨_, _⟩⟩⟩⟩⟩⟩⟩⟩⟩ <;>
      try rfl
    simp only [Option.bind_eq_bind, Option.bind_some, blind_i32.required c1,
      (blind_vec (fun _ => blind_str) _).optional c2, (blind_vec (fun _ => blind_str) _).optional c3,
      blind_str.optional c4, blind_str.optional c5, blind_str.optional c6,
      (blind_vec (fun _ => blind_str) _).optional c7, (blind_vec (blind_section hrec) _).optional c8]

theorem blind_fromVal : ∀ d, Blind (fromVal d)
  | k + 4 => by
    intro v w h
    simp only [fromVal]
    exact blind_map (blind_fromVal (k + 1)) _ v w h
  | 0 => blind_map (fun _ _ _ => rfl) _
  | 1 => blind_map (fun _ _ _ => rfl) _
  | 2 => blind_map (fun _ _ _ => rfl) _
  | 3 => blind_map (fun _ _ _ => rfl) _

/-! ## C65 -/

/-- C65. The order of the fields of any object in the text, at any depth, has no influence on what is read. -/
theorem C65_field_order (J : JsonLib) {t₁ t₂ : Text} {v₁ v₂ : JVal} (h₁ : J.parse t₁ = some v₁)
    (h₂ : J.parse t₂ = some v₂) (h : Relation.ReflTransGen Reordered v₁ v₂) : fromStr J t₁ = fromStr J t₂ := by
  simp only [fromStr, h₁, h₂, Option.bind_eq_bind, Option.bind_some]
  clear h₁ h₂
  induction h with
  | refl => rfl
  | tail _ h ih => rw [ih, blind_fromVal 128 _ _ h]

/-- Equal values of a field, or one absent and the other `null`. -/
def Nullish (x y : Option JVal) : Prop :=
  x = y ∨ (x = none ∧ y = some .null) ∨ (x = some .null ∧ y = none)

theorem Nullish.optional {α : Type} {f : JVal → Option α} {x y : Option JVal} (h : Nullish x y) :
    optional f x = optional f y := by
  rcases h with rfl | ⟨rfl, rfl⟩ | ⟨rfl, rfl⟩ <;> rfl

/-- The fields other than `version`. -/
def optFields : List String :=
  ["sources", "names", "mappings", "file", "sourceRoot", "sourcesContent", "sections"]

/-- What is read is determined by the eight fields, up to `null`. -/
theorem decodeMap_fields {l₁ l₂ : List (String × JVal)} (hv : fieldOf l₁ "version" = fieldOf l₂ "version")
    (h : ∀ k ∈ optFields, (fieldOf l₁ k = none ∧ fieldOf l₂ k = none) ∨
      ∃ x y, fieldOf l₁ k = some x ∧ fieldOf l₂ k = some y ∧ Nullish x y)
    (rec : JVal → Option SourceMapJson) (d : Nat) :
    decodeMap rec d (.obj l₁) = decodeMap rec d (.obj l₂) := by
  have e : ∀ l, structFields ["version", "sources", "names", "mappings", "file", "sourceRoot",
      "sourcesContent", "sections"] (.obj l) = (fieldOf l "version").bind fun v =>
        (optFields.mapM (fieldOf l)).bind fun r => some (v :: r) := by
    intro l
    simp only [structFields, optFields]
    rw [List.mapM_cons]
    rfl
  simp only [decodeMap, e, hv]
  cases fieldOf l₂ "version" with
  | none => rfl
  | some version =>
    rcases mapM_rel optFields h with ⟨h1, h2⟩ | ⟨xs, ys, h1, h2, hc⟩
    · rw [h1, h2]
    · rw [h1, h2]
      rcases hc with _ | ⟨c2, _ | ⟨c3, _ | ⟨c4, _ | ⟨c5, _ | ⟨c6, _ | ⟨c7, _ | ⟨c8, _ | ⟨_, _⟩⟩⟩⟩⟩⟩⟩⟩ <;>
        try rfl
      simp only [Option.bind_eq_bind, Option.bind_some, c2.optional, c3.optional, c4.optional,
        c5.optional, c6.optional, c7.optional, c8.optional]

theorem fromVal_fields {l₁ l₂ : List (String × JVal)} (hv : fieldOf l₁ "version" = fieldOf l₂ "version")
    (h : ∀ k ∈ optFields, (fieldOf l₁ k = none ∧ fieldOf l₂ k = none) ∨
      ∃ x y, fieldOf l₁ k = some x ∧ fieldOf l₂ k = some y ∧ Nullish x y) :
    ∀ d, fromVal d (.obj l₁) = fromVal d (.obj l₂)
  | _ + 4 => decodeMap_fields hv h _ _
  | 0 => decodeMap_fields hv h _ _
  | 1 => decodeMap_fields hv h _ _
  | 2 => decodeMap_fields hv h _ _
  | 3 => decodeMap_fields hv h _ _

theorem fields_same {l₁ l₂ : List (String × JVal)} {k : String} (h : fieldOf l₁ k = fieldOf l₂ k) :
    (fieldOf l₁ k = none ∧ fieldOf l₂ k = none) ∨
      ∃ x y, fieldOf l₁ k = some x ∧ fieldOf l₂ k = some y ∧ Nullish x y := by
  rw [h]
  cases fieldOf l₂ k with
  | none => exact .inl ⟨rfl, rfl⟩
  | some x => exact .inr ⟨x, x, rfl, rfl, .inl rfl⟩

/-- C65. Unknown fields are ignored, whatever their values. -/
theorem C65_unknown_ignored (J : JsonLib) {t₁ t₂ : Text} {a b : List (String × JVal)} {k : String} {v : JVal}
    (hk : k ∉ mapFields) (h₁ : J.parse t₁ = some (.obj (a ++ (k, v) :: b)))
    (h₂ : J.parse t₂ = some (.obj (a ++ b))) : fromStr J t₁ = fromStr J t₂ := by
  simp only [fromStr, h₁, h₂, Option.bind_eq_bind, Option.bind_some]
  have same : ∀ key ∈ mapFields, fieldOf (a ++ (k, v) :: b) key = fieldOf (a ++ b) key := by
    intro key hkey
    have : (k == key) = false := by
      rw [beq_eq_false_iff_ne]; rintro rfl; exact hk hkey
    simp only [fieldOf, List.filter_append, List.filter_cons, this, Bool.false_eq_true, if_false]
  exact fromVal_fields (same _ (by decide)) (fun key hkey => fields_same (same key (by
    simp only [optFields, mapFields, List.mem_cons, List.not_mem_nil, or_false] at hkey ⊢
    exact .inr hkey))) _

/-- C65. For every field other than `version`, `null` is the same as leaving the field out. -/
theorem C65_null_absent (J : JsonLib) {t₁ t₂ : Text} {a b : List (String × JVal)} {k : String}
    (hk : k ≠ "version") (ha : ∀ e ∈ a ++ b, e.1 ≠ k) (h₁ : J.parse t₁ = some (.obj (a ++ (k, .null) :: b)))
    (h₂ : J.parse t₂ = some (.obj (a ++ b))) : fromStr J t₁ = fromStr J t₂ := by
  simp only [fromStr, h₁, h₂, Option.bind_eq_bind, Option.bind_some]
  have other : ∀ key, key ≠ k → fieldOf (a ++ (k, .null) :: b) key = fieldOf (a ++ b) key := by
    intro key hkey
    have : (k == key) = false := by
      rw [beq_eq_false_iff_ne]; exact fun e => hkey e.symm
    simp only [fieldOf, List.filter_append, List.filter_cons, this, Bool.false_eq_true, if_false]
  refine fromVal_fields (other _ (Ne.symm hk)) (fun key _ => ?_) _
  by_cases e : key = k
  · subst e
    have e1 : ∀ l : List (String × JVal), (∀ x ∈ l, x.1 ≠ key) → l.filter (fun e => e.1 == key) = [] := by
      intro l hl
      rw [List.filter_eq_nil_iff]
      intro x hx
      simp only [beq_iff_eq]
      exact hl x hx
    right
    refine ⟨some .null, none, ?_, ?_, .inr (.inr ⟨rfl, rfl⟩)⟩
    · simp only [fieldOf, List.filter_append, List.filter_cons, beq_self_eq_true, if_true,
        e1 a (fun x hx => ha x (by simp [hx])), e1 b (fun x hx => ha x (by simp [hx]))]
      rfl
    · simp only [fieldOf, e1 (a ++ b) ha]
      rfl
  · exact fields_same (other key e)

/-- A text is rejected if one of the eight fields occurs twice. -/
theorem fromVal_none {l : List (String × JVal)} {k : String} (hk : k ∈ mapFields) (h : fieldOf l k = none) :
    ∀ d, fromVal d (.obj l) = none := by
  have hm : ∀ names : List String, k ∈ names → names.mapM (fieldOf l) = none := by
    intro names
    induction names with
    | nil => intro h; cases h
    | cons x names ih =>
      intro hx
      rw [List.mapM_cons]
      rcases List.mem_cons.1 hx with rfl | hx
      · rw [h]; rfl
      · rw [ih hx]
        cases fieldOf l x <;> rfl
  have hd : ∀ rec d, decodeMap rec d (.obj l) = none := by
    intro rec d
    have := hm mapFields hk
    unfold mapFields at this
    simp only [decodeMap, structFields, this]
    cases enter d <;> rfl
  intro d
  match d with
  | _ + 4 => exact hd _ _
  | 0 => exact hd _ _
  | 1 => exact hd _ _
  | 2 => exact hd _ _
  | 3 => exact hd _ _

/-- C65. A text in which one of the eight fields occurs twice is rejected. -/
theorem C65_duplicate_rejected (J : JsonLib) {t : Text} {a b c : List (String × JVal)} {k : String} {v w : JVal}
    (hk : k ∈ mapFields) (h : J.parse t = some (.obj (a ++ (k, v) :: b ++ (k, w) :: c))) : fromStr J t = none := by
  simp only [fromStr, h, Option.bind_eq_bind, Option.bind_some]
  apply fromVal_none hk
  simp only [fieldOf, List.filter_append, List.filter_cons, beq_self_eq_true, if_true]
  generalize List.filter (fun e : String × JVal => e.1 == k) a = a'
  generalize List.filter (fun e : String × JVal => e.1 == k) b = b'
  match a', b' with
  | [], [] => rfl
  | [], _ :: _ => rfl
  | [_], _ => rfl
  | _ :: _ :: _, _ => rfl

/-- Without a readable version nothing is read. -/
theorem decodeMap_version {l : List (String × JVal)} {x : Option JVal} (h : fieldOf l "version" = some x)
    (hx : required decodeI32 x = none) (rec : JVal → Option SourceMapJson) (d : Nat) :
    decodeMap rec d (.obj l) = none := by
  have e : structFields ["version", "sources", "names", "mappings", "file", "sourceRoot",
      "sourcesContent", "sections"] (.obj l) = (optFields.mapM (fieldOf l)).bind fun r => some (x :: r) := by
    simp only [structFields, optFields]
    rw [List.mapM_cons, h]
    rfl
  simp only [decodeMap, e]
  cases enter d with
  | none => rfl
  | some d =>
    cases optFields.mapM (fieldOf l) with
    | none => rfl
    | some r =>
      simp only [Option.bind_eq_bind, Option.bind_some]
      split
      · rename_i he
        simp only [List.cons.injEq] at he
        rw [← he.1, hx]
        rfl
      · rfl

theorem fieldOf_mem {l : List (String × JVal)} {k : String} {v : JVal} (h : fieldOf l k = some (some v)) :
    (k, v) ∈ l := by
  unfold fieldOf at h
  have hmem : ∀ l' : List (String × JVal), single l' = some (some v) → ∃ e ∈ l', e.2 = v := by
    intro l' h
    match l', h with
    | [e], h => exact ⟨e, by simp, by simpa [single] using h⟩
  obtain ⟨⟨k', v'⟩, he, rfl⟩ := hmem _ h
  rw [List.mem_filter] at he
  obtain ⟨he, hk⟩ := he
  simp only [beq_iff_eq] at hk
  subst hk
  exact he

/-- C65. Without a `version` that is an `i32` literal the text is rejected. -/
theorem C65_version_required (J : JsonLib) {t : Text} {l : List (String × JVal)} (h : J.parse t = some (.obj l))
    (hv : ∀ n, ("version", JVal.int n) ∈ l → ¬ IsI32 n) : fromStr J t = none := by
  simp only [fromStr, h, Option.bind_eq_bind, Option.bind_some]
  cases hf : fieldOf l "version" with
  | none => exact fromVal_none (by decide) hf _
  | some x =>
    refine decodeMap_version hf ?_ _ _
    match x, hf with
    | none, _ => rfl
    | some (.int n), hf => simp [required, decodeI32, hv n (fieldOf_mem hf)]
    | some .null, _ => rfl
    | some (.bool _), _ => rfl
    | some (.float _), _ => rfl
    | some (.str _), _ => rfl
    | some (.arr _), _ => rfl
    | some (.obj _), _ => rfl

/-- Field `k` of an object holds the value, or, for `none`, is absent or `null`. -/
def FieldIs (l : List (String × JVal)) (k : String) : Option JVal → Prop
  | none => ∀ v, (k, v) ∈ l → v = .null
  | some v => ∀ w, (k, w) ∈ l ↔ w = v

theorem fieldOf_some {l : List (String × JVal)} {k : String} {x : Option JVal} (h : fieldOf l k = some x) :
    ∀ v, (k, v) ∈ l ↔ x = some v := by
  intro v
  constructor
  · intro hm
    have hm : (k, v) ∈ l.filter (fun e => e.1 == k) := List.mem_filter.2 ⟨hm, by simp⟩
    unfold fieldOf at h
    match hl : l.filter (fun e => e.1 == k) with
    | [] => rw [hl] at hm; cases hm
    | [e] =>
      rw [hl] at hm h
      simp only [List.mem_singleton] at hm
      subst hm
      simpa [single] using h.symm
    | _ :: _ :: _ => rw [hl] at h; cases h
  · rintro rfl
    exact fieldOf_mem h

theorem read_str {x : Option JVal} {y : Option String} (h : optional decodeStr x = some y) :
    (x = none ∨ x = some .null) ∧ y = none ∨ ∃ s, x = some (.str s) ∧ y = some s := by
  match x, h with
  | none, h => cases h; exact .inl ⟨.inl rfl, rfl⟩
  | some .null, h => cases h; exact .inl ⟨.inr rfl, rfl⟩
  | some (.str s), h => cases h; exact .inr ⟨s, rfl, rfl⟩

theorem mapM_strs : ∀ {l : List JVal} {ss : List String}, l.mapM decodeStr = some ss → l = ss.map .str
  | [], ss, h => by cases h; rfl
  | v :: l, ss, h => by
    rw [List.mapM_cons] at h
    simp only [Option.bind_eq_bind, Option.bind_eq_some_iff, Option.pure_def, Option.some.injEq] at h
    obtain ⟨s, hs, rest, hr, rfl⟩ := h
    rw [mapM_strs hr]
    match v, hs with
    | .str _, hs => cases hs; rfl

theorem read_strs {d : Nat} {x : Option JVal} {y : Option (List String)}
    (h : optional (decodeVec (fun _ => decodeStr) d) x = some y) :
    (x = none ∨ x = some .null) ∧ y = none ∨ ∃ ss, x = some (.arr (ss.map .str)) ∧ y = some ss := by
  match x, h with
  | none, h => cases h; exact .inl ⟨.inl rfl, rfl⟩
  | some .null, h => cases h; exact .inl ⟨.inr rfl, rfl⟩
  | some (.arr l), h =>
    simp only [optional, decodeVec, Option.bind_eq_bind, Option.map_eq_some_iff, Option.bind_eq_some_iff] at h
    obtain ⟨ss, ⟨_, _, hl⟩, rfl⟩ := h
    exact .inr ⟨ss, by rw [mapM_strs hl], rfl⟩

theorem fieldIs_of {α : Type} {l : List (String × JVal)} {k : String} {x : Option JVal} {y : Option α}
    {enc : α → JVal} (h : fieldOf l k = some x)
    (hx : (x = none ∨ x = some .null) ∧ y = none ∨ ∃ s, x = some (enc s) ∧ y = some s) :
    FieldIs l k (y.map enc) := by
  have hm := fieldOf_some h
  rcases hx with ⟨hx, rfl⟩ | ⟨s, rfl, rfl⟩
  · intro v hv
    rcases hx with rfl | rfl
    · cases (hm v).1 hv
    · cases (hm v).1 hv; rfl
  · intro w
    rw [hm w]
    constructor
    · intro e; cases e; rfl
    · rintro rfl; rfl

theorem decodeMap_fieldIs {rec : JVal → Option SourceMapJson} {d : Nat} {l : List (String × JVal)}
    {m : SourceMapJson} (h : decodeMap rec d (.obj l) = some m) :
    FieldIs l "version" (some (.int m.version)) ∧ IsI32 m.version ∧
    FieldIs l "sources" (m.sources.map fun ss => .arr (ss.map .str)) ∧
    FieldIs l "names" (m.names.map fun ss => .arr (ss.map .str)) ∧
    FieldIs l "mappings" (m.mappings.map .str) ∧
    FieldIs l "file" (m.file.map .str) ∧
    FieldIs l "sourceRoot" (m.sourceRoot.map .str) ∧
    FieldIs l "sourcesContent" (m.sourcesContent.map fun ss => .arr (ss.map .str)) := by
  simp only [decodeMap, structFields, List.mapM_cons, List.mapM_nil, Option.bind_eq_bind,
    Option.bind_eq_some_iff, Option.pure_def, Option.some.injEq] at h
  obtain ⟨d', _, fs, ⟨f1, h1, _, ⟨f2, h2, _, ⟨f3, h3, _, ⟨f4, h4, _, ⟨f5, h5, _, ⟨f6, h6, _, ⟨f7, h7, _,
    ⟨f8, h8, _, rfl, rfl⟩, rfl⟩, rfl⟩, rfl⟩, rfl⟩, rfl⟩, rfl⟩, rfl⟩, h⟩ := h
  simp only [Option.bind_eq_some_iff, Option.some.injEq] at h
  obtain ⟨version, g1, sources, g2, names, g3, mappings, g4, file, g5, root, g6, contents, g7, secs, _, rfl⟩ := h
  have hv : f1 = some (.int version) ∧ IsI32 version := by
    match f1, g1 with
    | some (.int n), g1 =>
      simp only [required, decodeI32] at g1
      split at g1
      · cases g1; exact ⟨rfl, by assumption⟩
      · cases g1
  refine ⟨?_, hv.2, fieldIs_of h2 (read_strs g2), fieldIs_of h3 (read_strs g3), fieldIs_of h4 (read_str g4),
    fieldIs_of h5 (read_str g5), fieldIs_of h6 (read_str g6), fieldIs_of h7 (read_strs g7)⟩
  exact fieldIs_of (y := some version) h1 (.inr ⟨version, hv.1, rfl⟩)

/-- C65. What is read from an object: every field of the record is what the object holds under that name, and is
`None` only if the object has nothing but `null` there. -/
theorem C65_fields (J : JsonLib) {t : Text} {l : List (String × JVal)} {m : SourceMapJson}
    (h : J.parse t = some (.obj l)) (hm : fromStr J t = some m) :
    FieldIs l "version" (some (.int m.version)) ∧ IsI32 m.version ∧
    FieldIs l "sources" (m.sources.map fun ss => .arr (ss.map .str)) ∧
    FieldIs l "names" (m.names.map fun ss => .arr (ss.map .str)) ∧
    FieldIs l "mappings" (m.mappings.map .str) ∧
    FieldIs l "file" (m.file.map .str) ∧
    FieldIs l "sourceRoot" (m.sourceRoot.map .str) ∧
    FieldIs l "sourcesContent" (m.sourcesContent.map fun ss => .arr (ss.map .str)) := by
  simp only [fromStr, h, Option.bind_eq_bind, Option.bind_some] at hm
  exact decodeMap_fieldIs hm

/-! ## Concrete texts -/

theorem plain_obj_nil : JVal.Plain (.obj []) := .obj _ (by simp)
theorem plain_arr_nil : JVal.Plain (.arr []) := .arr _ (by simp)
theorem plain_obj_cons {k : String} {v : JVal} {l : List (String × JVal)} (hv : v.Plain) (hl : (JVal.obj l).Plain) :
    (JVal.obj ((k, v) :: l)).Plain := by
  cases hl with
  | obj _ h => exact .obj _ (fun e he => by rcases List.mem_cons.1 he with rfl | he; exacts [hv, h e he])
theorem plain_arr_cons {v : JVal} {l : List JVal} (hv : v.Plain) (hl : (JVal.arr l).Plain) :
    (JVal.arr (v :: l)).Plain := by
  cases hl with
  | arr _ h => exact .arr _ (fun e he => by rcases List.mem_cons.1 he with rfl | he; exacts [hv, h e he])

theorem parse_text {v : JVal} {t : Text} (hp : v.Plain) (h : jsonText.print v = t) : jsonText.parse t = some v := by
  rw [← h]; exact jsonText_laws.parse_print v hp

/-- Decides that a concrete value is plain. -/
local macro "plain" : tactic => `(tactic| repeat (first
  | exact JVal.Plain.str _
  | exact JVal.Plain.int _ (by unfold JInt; decide)
  | exact JVal.Plain.null
  | exact plain_obj_nil
  | exact plain_arr_nil
  | apply plain_obj_cons
  | apply plain_arr_cons))

/-- The same indexed map with the fields in another order, outside and inside the section. -/
example : fromStr jsonText
      "{\"version\":3,\"sections\":[{\"offset\":{\"line\":0,\"column\":1},\"map\":{\"version\":3}}]}".toList =
    fromStr jsonText
      "{\"sections\":[{\"offset\":{\"column\":1,\"line\":0},\"map\":{\"version\":3}}],\"version\":3}".toList := by
  refine C65_field_order jsonText
    (v₁ := .obj [("version", .int 3), ("sections", .arr [.obj [("offset", .obj [("line", .int 0), ("column", .int 1)]),
      ("map", .obj [("version", .int 3)])]])])
    (v₂ := .obj [("sections", .arr [.obj [("offset", .obj [("column", .int 1), ("line", .int 0)]),
      ("map", .obj [("version", .int 3)])]]), ("version", .int 3)])
    (parse_text (by plain) (by decide +kernel)) (parse_text (by plain) (by decide +kernel)) ?_
  refine .tail (.tail .refl (.here (List.Perm.swap _ _ _))) ?_
  exact .field [] _ _ (.elem [] [] (.field [] _ _ (.here (List.Perm.swap _ _ _))))

/-- An unknown field, and a `null`. -/
example : fromStr jsonText "{\"version\":3,\"x\":[1],\"file\":\"a\"}".toList =
      fromStr jsonText "{\"version\":3,\"file\":\"a\"}".toList ∧
    fromStr jsonText "{\"version\":3,\"names\":null,\"file\":\"a\"}".toList =
      fromStr jsonText "{\"version\":3,\"file\":\"a\"}".toList := by
  constructor
  · exact C65_unknown_ignored jsonText (a := [("version", .int 3)]) (b := [("file", .str "a")]) (k := "x")
      (v := .arr [.int 1]) (by decide) (parse_text (by plain) (by decide +kernel))
      (parse_text (by plain) (by decide +kernel))
  · exact C65_null_absent jsonText (a := [("version", .int 3)]) (b := [("file", .str "a")]) (k := "names")
      (by decide) (by simp) (parse_text (by plain) (by decide +kernel))
      (parse_text (by plain) (by decide +kernel))

/-- A field twice, and a version that is a string: rejected, and so `create_consumer` returns an error. -/
example : fromStr jsonText "{\"version\":3,\"file\":\"a\",\"file\":\"b\"}".toList = none ∧
    fromStr jsonText "{\"version\":\"3\",\"file\":\"a\"}".toList = none := by
  constructor
  · exact C65_duplicate_rejected jsonText (a := [("version", .int 3)]) (b := []) (c := []) (k := "file")
      (v := .str "a") (w := .str "b") (by decide) (parse_text (by plain) (by decide +kernel))
  · exact C65_version_required jsonText (l := [("version", .str "3"), ("file", .str "a")])
      (parse_text (by plain) (by decide +kernel)) (by intro n hn; simp at hn)

/-- Reading a map with a file and without names. -/
example (t : Text) (h : jsonText.parse t = some (.obj [("version", .int 3), ("file", .str "a")])) :
    ∃ m, fromStr jsonText t = some m ∧ m.version = 3 ∧ m.file = some "a" ∧ m.names = none := by
  obtain ⟨m, hm⟩ : ∃ m, fromStr jsonText t = some m := by
    simp only [fromStr, h, Option.bind_eq_bind, Option.bind_some]
    exact ⟨_, rfl⟩
  obtain ⟨h1, _, _, h4, _, h6, _, _⟩ := C65_fields jsonText h hm
  refine ⟨m, hm, ?_, ?_, ?_⟩
  · have := (h1 (.int 3)).1 (by simp)
    injection this with e
    exact e.symm
  · cases hf : m.file with
    | none => rw [hf] at h6; exact absurd (h6 (.str "a") (by simp)) (by simp)
    | some f =>
      rw [hf] at h6
      have := (h6 (.str "a")).1 (by simp)
      injection this with e
      rw [e]
  · cases hf : m.names with
    | none => rfl
    | some f =>
      rw [hf] at h4
      have := (h4 _).2 rfl
      simp at this

end RSM
