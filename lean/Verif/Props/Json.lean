import Verif.Lemmas.Json
/-! # C26: JSON of source map records -/

namespace RSM

/-- C26, as far as it holds: for every JSON library satisfying the contract and every record whose
JSON nests at most 127 arrays and objects, reading what was written gives the record back. The
missing part is refuted below. -/
theorem C26_roundtrip_partial (J : JsonLib) (hJ : J.Laws) (m : SourceMapJson) (hm : m.I32)
    (hd : m.nesting ≤ 127) : fromStr J (toStr J m) = some m := by
  simp [fromStr, toStr, hJ.parse_print _ (toVal_plain hm), fromVal_toVal 128 m hm (by omega)]

/-- In particular every record without sections. -/
theorem C26_roundtrip_flat_partial (J : JsonLib) (hJ : J.Laws) (m : SourceMapJson)
    (hv : IsI32 m.version) (hs : m.sections = none) : fromStr J (toStr J m) = some m := by
  refine C26_roundtrip_partial J hJ m (.mk m hv (by simp [hs]) (by simp [hs]) (by simp [hs])) ?_
  rw [nesting_eq, hs, optNesting]
  split <;> omega

/-- A map inside `n` indexed maps. -/
def wrapped : Nat → SourceMapJson
  | 0 => { version := 3 }
  | n + 1 => { version := 3, sections := some [⟨⟨0, 0⟩, wrapped n, none⟩] }

theorem wrapped_i32 (n : Nat) : (wrapped n).I32 := by
  induction n with
  | zero => exact .mk _ (by decide) (by simp [wrapped]) (by simp [wrapped]) (by simp [wrapped])
  | succ n ih =>
    refine .mk _ (by show IsI32 3; decide) ?_ ?_ ?_
    · simp [wrapped]; decide
    · simp [wrapped]; decide
    · simpa [wrapped] using ih

theorem wrapped_nesting (n : Nat) : (wrapped n).nesting = 3 * n + 1 := by
  induction n with
  | zero => simp [wrapped, nesting_eq, optNesting]
  | succ n ih =>
    rw [nesting_eq]
    simp [wrapped, optNesting, sectionsNesting, sectionNesting, ih]
    omega

/-- The rest of C26 is false of the code: a deeper record is written, but the text is then
rejected, by `serde_json`'s recursion limit. Such records exist. -/
theorem C26_roundtrip_refuted (J : JsonLib) (hJ : J.Laws) :
    (∀ m : SourceMapJson, m.I32 → 127 < m.nesting → fromStr J (toStr J m) = none) ∧
    (∃ m : SourceMapJson, m.I32 ∧ fromStr J (toStr J m) = none) := by
  have h : ∀ m : SourceMapJson, m.I32 → 127 < m.nesting → fromStr J (toStr J m) = none := by
    intro m hm hd
    simp only [fromStr, toStr, hJ.parse_print _ (toVal_plain hm), Option.bind_eq_bind,
      Option.bind_some]
    cases h : fromVal 128 m.toVal with
    | none => rfl
    | some m' => have := fromVal_some 128 m m' h; omega
  exact ⟨h, wrapped 43, wrapped_i32 43, h _ (wrapped_i32 43) (by rw [wrapped_nesting]; omega)⟩

/-- Distinct records are written as distinct texts, within the limit. -/
theorem C26_injective_partial (J : JsonLib) (hJ : J.Laws) (m m' : SourceMapJson) (hm : m.I32)
    (hm' : m'.I32) (hd : m.nesting ≤ 127) (hd' : m'.nesting ≤ 127)
    (h : toStr J m = toStr J m') : m = m' := by
  have h1 := C26_roundtrip_partial J hJ m hm hd
  have h2 := C26_roundtrip_partial J hJ m' hm' hd'
  rw [h, h2] at h1
  exact (Option.some.inj h1).symm

/-- The contract is satisfiable, and a nested record within the limit. -/
example : fromStr jsonText (toStr jsonText (wrapped 42)) = some (wrapped 42) :=
  C26_roundtrip_partial jsonText jsonText_laws _ (wrapped_i32 42) (by rw [wrapped_nesting]; decide)

/-- The text of the crate's own test (`/repo/src/generator.rs` 247). -/
example : String.ofList (toStr jsonText
    { version := 3, sources := some [], names := some [], mappings := some "",
      file := some "foo.js", sourceRoot := some "." }) =
    "{\"version\":3,\"sources\":[],\"names\":[],\"mappings\":\"\",\"file\":\"foo.js\",\"sourceRoot\":\".\"}" := by
  decide +kernel

end RSM
