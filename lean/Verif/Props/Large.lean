import Verif.Props.Generator
/-! # Property C75: large coordinates -/

namespace RSM
open Spec

/-- A mapping of one of the two documented shapes, with coordinates of type `i32`. -/
def Mapping.Accepted (m : Mapping) : Prop :=
  (1 ≤ m.generated.line ∧ 0 ≤ m.generated.column ∧
    ((m.original = none ∧ m.source = none ∧ m.name = none) ∨
     (∃ o s, m.original = some o ∧ m.source = some s ∧ 1 ≤ o.line ∧ 0 ≤ o.column))) ∧ IsI32 m.generated.line ∧ IsI32 m.generated.column ∧
  ∀ p, m.original = some p → IsI32 p.line ∧ IsI32 p.column

theorem Mapping.Accepted.of_validate {m : Mapping} (h : Generator.validateMapping m = true)
    (h1 : IsI32 m.generated.line) (h2 : IsI32 m.generated.column)
    (h3 : ∀ p, m.original = some p → IsI32 p.line ∧ IsI32 p.column) : m.Accepted :=
  ⟨(C23_validate_mapping_partial m).1 h, h1, h2, h3⟩

theorem Mapping.Accepted.encodable {m : Mapping} (h : m.Accepted) {cfg : Cfg}
    (hg : m.generated.column < cfg.vlqLimit)
    (ho : ∀ p, m.original = some p → p.line ≤ cfg.vlqLimit ∧ p.column < cfg.vlqLimit) : m.Encodable cfg := by
  obtain ⟨hv, h1, h2, h3⟩ := h
  unfold IsI32 at h1 h2 h3
  obtain ⟨k1, k2, k3⟩ := hv
  refine ⟨by omega, by omega, ?_, ?_, ?_⟩
  · rcases k3 with ⟨a, b, _⟩ | ⟨o, s, a, b, _⟩ <;> rw [a, b] <;> rfl
  · intro p hp
    have e1 := h3 p hp
    have e2 := ho p hp
    rcases k3 with ⟨a, _, _⟩ | ⟨o, s, a, b, c, d⟩
    · rw [a] at hp; cases hp
    · rw [a] at hp; cases hp; omega
  · intro hs
    rcases k3 with ⟨_, _, c⟩ | ⟨o, s, _, b, _⟩
    · exact c
    · rw [b] at hs; cases hs

theorem Mapping.Accepted.valid {m : Mapping} (h : m.Accepted) : m.Valid ∧ 1 ≤ m.generated.line := by
  have := h.1.1
  have h32 : (⟨false, false⟩ : Cfg).vlqLimit = 2147483648 := rfl
  have hacc := h
  obtain ⟨_, h1, h2, h3⟩ := h
  unfold IsI32 at h1 h2 h3
  refine ⟨(Mapping.Accepted.encodable hacc (cfg := ⟨false, false⟩) (by rw [h32]; omega) ?_).valid, this⟩
  intro p hp
  have := h3 p hp
  rw [h32]
  omega

/-- The emitted map says exactly what the added mappings say: its mappings can be decoded, every segment denotes an
added mapping, and every added mapping is denoted. -/
def Faithful (j : SourceMapJson) (ms : List Mapping) : Prop :=
  ∃ S N text raws, j.sources = some S ∧ j.names = some N ∧ j.mappings = some text ∧
    decodeMappings text.toList = some raws ∧
    (∀ r ∈ raws, ∃ m ∈ ms, Denotes S N r m) ∧ ∀ m ∈ ms, ∃ r ∈ raws, Denotes S N r m

/-- C75 below the limit of the target (`_partial`). Missing: larger coordinates with 64-bit pointers, for which
it is false. -/
theorem C75_faithful_partial (U : UrlLib) (cfg : Cfg) (file : Option String) (skip : Bool) (ops : List GOp)
    (hacc : ∀ m ∈ gAdded ops, m.Accepted)
    (hsmall : cfg.ptr64 = true → ∀ m ∈ gAdded ops, m.generated.column < 1073741824 ∧
      ∀ p, m.original = some p → p.line ≤ 1073741824 ∧ p.column < 1073741824)
    (hlen : (gAdded ops).length < 1073741824) :
    ∃ g j g', (Generator.new file none skip).run U cfg ops = .ok g ∧ g.asJson U cfg = .ok (j, g') ∧
      Faithful j (gAdded ops) := by
  have henc : ∀ m ∈ gAdded ops, m.Encodable cfg := by
    intro m hm
    by_cases h64 : cfg.ptr64 = true
    · obtain ⟨h1, h2⟩ := hsmall h64 m hm
      have hl : cfg.vlqLimit = 1073741824 := by simp [Cfg.vlqLimit, h64]
      exact (hacc m hm).encodable (by rw [hl]; exact h1) (by rw [hl]; exact h2)
    · have hl : cfg.vlqLimit = 2147483648 := by simp [Cfg.vlqLimit, h64]
      obtain ⟨_, _, h2, h3⟩ := hacc m hm
      unfold IsI32 at h2 h3
      refine (hacc m hm).encodable (by rw [hl]; omega) ?_
      intro p hp
      have := h3 p hp
      rw [hl]
      omega
  obtain ⟨hS, hN⟩ := tables_small (cfg := cfg) hlen
  obtain ⟨g, j, g', h1, h2⟩ := serialize_encodable U cfg file skip ops henc hS hN
  refine ⟨g, j, g', h1, h2, ?_⟩
  obtain ⟨S, N, text, raws, a1, a2, a3, a4, _, a6⟩ := C17_generator_sound U cfg file none skip ops g g' j henc hS hN h1 h2
  obtain ⟨S', N', text', raws', b1, b2, b3, b4, b5, _⟩ :=
    C18_generator_complete U cfg file none skip ops g g' j henc hS hN h1 h2
  rw [a1] at b1; rw [a2] at b2; rw [a3] at b3
  cases b1; cases b2; cases b3
  rw [a4] at b4; cases b4
  exact ⟨S, N, text, raws, a1, a2, a3, a4, a6, b5⟩

/-- The greatest coordinates. -/
def lgP : Mapping := ⟨⟨2147483647, 2147483647⟩, some ⟨2147483647, 2147483647⟩, some "a", none, none⟩

/-- With 32-bit pointers, the greatest coordinates. -/
example (U : UrlLib) (checks : Bool) : ∃ g j g', (Generator.new none none false).run U ⟨checks, false⟩
      [.add lgP, .add gxP] = .ok g ∧ g.asJson U ⟨checks, false⟩ = .ok (j, g') ∧ Faithful j [lgP, gxP] :=
  C75_faithful_partial U ⟨checks, false⟩ none false _ (by
    intro m hm
    simp only [gAdded, List.mem_cons, List.not_mem_nil, or_false] at hm
    rcases hm with rfl | rfl
    · exact .of_validate (by decide) (by decide) (by decide) (by intro p hp; cases hp; decide)
    · exact .of_validate (by decide) (by decide) (by decide) (by intro p hp; cases hp; decide)) (by intro h; cases h) (by decide)

theorem decodeVlq_digit {d : Nat} (hd : d < 32) (rest : List Char) :
    decodeVlq (digitChar d :: rest) = some (unsign d, rest) := by
  simp [decodeVlq, decodeUnsigned, digitValue_digitChar (show d < 64 by omega), hd]

theorem decodeSegment_digit {line col : Nat} {st st' : DState} {d : Nat} (hd : d < 32) {rest : List Char}
    {r : RawMapping} (h : decodeSegment line col st (digitChar d :: rest) = some (r, st')) :
    r.line = line ∧ (r.column : Int) = col + unsign d := by
  have hoff : ∀ {c : Nat}, offset col (unsign d) = some c → (c : Int) = col + unsign d := by
    intro c hc
    unfold offset at hc
    split at hc
    · cases hc; omega
    · cases hc
  have hf : ∀ fs, decodeFields (digitChar d :: rest) = some fs → ∃ fs', fs = unsign d :: fs' := by
    intro fs hfs
    rw [decodeFields, decodeVlq_digit hd] at hfs
    dsimp only at hfs
    split at hfs
    · split at hfs
      · cases hfs
      · cases hfs; exact ⟨_, rfl⟩
    · cases hfs
  unfold decodeSegment at h
  split at h
  · rename_i a hfs
    obtain ⟨_, e⟩ := hf _ hfs
    cases e
    simp only [Option.bind_eq_bind, Option.bind_eq_some_iff] at h
    obtain ⟨c, h1, h2⟩ := h
    cases h2
    exact ⟨rfl, hoff h1⟩
  · rename_i a s l k hfs
    obtain ⟨_, e⟩ := hf _ hfs
    cases e
    simp only [Option.bind_eq_bind, Option.bind_eq_some_iff] at h
    obtain ⟨c, h1, s', _, l', _, k', _, h2⟩ := h
    cases h2
    exact ⟨rfl, hoff h1⟩
  · rename_i a s l k n hfs
    obtain ⟨_, e⟩ := hf _ hfs
    cases e
    simp only [Option.bind_eq_bind, Option.bind_eq_some_iff] at h
    obtain ⟨c, h1, s', _, l', _, k', _, n', _, h2⟩ := h
    cases h2
    exact ⟨rfl, hoff h1⟩
  · cases h

/-- The first segment of a text that starts with a digit below 32. -/
theorem decodeLines_digit {line : Nat} {st : DState} {d : Nat} (hd : d < 32) {rest : List Char}
    {raws : List RawMapping} (h : decodeLines line st (splitOn ';' (digitChar d :: rest)) = some raws) :
    ∃ r raws', raws = r :: raws' ∧ r.line = line ∧ (r.column : Int) = unsign d := by
  have hv : digitValue (digitChar d) ≠ none := by rw [digitValue_digitChar (show d < 64 by omega)]; simp
  have hsemi : ';' ∉ [digitChar d] := by
    intro hm; rw [List.mem_singleton] at hm; rw [← hm] at hv; exact hv (by decide)
  have hcomma : ',' ∉ [digitChar d] := by
    intro hm; rw [List.mem_singleton] at hm; rw [← hm] at hv; exact hv (by decide)
  obtain ⟨l, ls, h1⟩ := splitOn_cons_of ';' rest
  have h2 := splitOn_append ';' hsemi h1
  obtain ⟨s, ss, h3⟩ := splitOn_cons_of ',' l
  have h4 := splitOn_append ',' hcomma h3
  simp only [List.cons_append, List.nil_append] at h2 h4
  rw [h2, decodeLines, if_neg (by simp), h4] at h
  simp only [Option.bind_eq_bind, Option.bind_eq_some_iff, decodeSegments] at h
  obtain ⟨⟨ms, st1⟩, ⟨⟨r, st2⟩, h5, ⟨ms', st3⟩, _, h6⟩, rest', _, h7⟩ := h
  cases h6
  cases h7
  obtain ⟨e1, e2⟩ := decodeSegment_digit hd h5
  exact ⟨r, ms' ++ rest', rfl, e1, by simpa using e2⟩

/-- C75 is false with 64-bit pointers: if all mappings on the first line with mappings have columns of `2^30` or
more, everything returns, but the first segment denotes none of the mappings added. -/
theorem C75_large_columns_refuted (U : UrlLib) (cfg : Cfg) (h64 : cfg.ptr64 = true) (file : Option String) (skip : Bool)
    (ops : List GOp) (hacc : ∀ m ∈ gAdded ops, m.Accepted) (hlen : (gAdded ops).length < 1073741824)
    {m₀ : Mapping} (hm₀ : m₀ ∈ gAdded ops) (hfirst : ∀ m ∈ gAdded ops, m₀.generated.line ≤ m.generated.line)
    (hlarge : ∀ m ∈ gAdded ops, m.generated.line = m₀.generated.line → 1073741824 ≤ m.generated.column) :
    ∃ g j g', (Generator.new file none skip).run U cfg ops = .ok g ∧ g.asJson U cfg = .ok (j, g') ∧
      ¬ Faithful j (gAdded ops) := by
  have hval := fun m hm => (hacc m hm).valid
  obtain ⟨hS, hN⟩ := tables_limit (B := 2147483648) (ops := ops) (by omega)
  obtain ⟨g, j, g', hg, hj⟩ := C24_serialize_total U cfg file skip ops hval hS hN
  refine ⟨g, j, g', hg, hj, ?_⟩
  rintro ⟨S, N, text, raws, a1, a2, a3, a4, a5, a6⟩
  obtain ⟨_, _, h3, _⟩ := gRun_new hg
  obtain ⟨sc, out, l, t, _, k2, k3, _, rfl⟩ := asJson_ok hj
  have hrun := run_perm cfg _ _ _ h3
  rw [added_mlOps] at hrun
  have hv : ∀ m ∈ added (mlOps ops), m.Valid := by
    rw [added_mlOps]; intro m hm; exact (hval m hm).1
  obtain ⟨l1, r1, r2⟩ := run_valid cfg (mlOps ops) MappingList.new MappingList.inv_new hv
  rw [h3] at r1; cases r1
  obtain ⟨out', l', r3, _, _, rp, r4, _⟩ := toArray_valid cfg r2
  rw [k2] at r3; cases r3
  have hp : out.Perm (gAdded ops) := rp.trans (by simpa [MappingList.new] using hrun)
  simp only [Option.some.injEq] at a3
  subst a3
  rw [String.toList_ofList] at a4
  cases out with
  | nil => exact absurd (hp.mem_iff.2 hm₀) (by simp)
  | cons m ms =>
    have hm := hp.mem_iff.1 (List.mem_cons_self (a := m) (l := ms))
    have hline : m.generated.line = m₀.generated.line := by
      have h1 := hfirst m hm
      rcases List.mem_cons.1 (hp.mem_iff.2 hm₀) with rfl | h2
      · rfl
      · have h3 := (List.pairwise_cons.1 r4).1 _ h2
        unfold posLE at h3
        omega
    have hbig := hlarge m hm hline
    have hmv := (hval m hm).1
    have hgc := hmv.gc
    have hgl := hmv.gl
    have hl1 := (hval m hm).2
    obtain ⟨d, hd, henc⟩ := encode_large cfg h64 m.generated.column (by omega) (by omega)
    have harith : cfg.arith (m.generated.column - 0) = .ok m.generated.column := by
      rw [Int.sub_zero]; exact cfg.arith_ok (by unfold IsI32; omega)
    have htext : ∃ n rest, t = List.replicate n ';' ++ digitChar d :: rest ∧ (n : Int) = m.generated.line - 1 := by
      have hseg : ∀ st seg st', st.generatedColumn = 0 →
          segmentText cfg g.sources g.names st m = .ok (seg, st') → ∃ u, seg = digitChar d :: u := by
        intro st seg st' h0 hs
        simp only [segmentText, h0, harith, Res.ok_bind, henc, Res.bind_eq_ok] at hs
        obtain ⟨⟨u, st1⟩, _, hs⟩ := hs
        simp only [Res.pure_eq, Except.ok.injEq, Prod.mk.injEq] at hs
        exact ⟨u, hs.1.symm⟩
      simp only [serializeLoop, Res.bind_eq_ok] at k3
      obtain ⟨⟨t1, st1⟩, c1, t2, c2, c3⟩ := k3
      cases c3
      unfold serializeStep at c1
      by_cases hne : m.generated.line = 1
      · rw [if_neg (by simp [hne, SerState.init])] at c1
        obtain ⟨u, rfl⟩ := hseg _ _ _ rfl c1
        exact ⟨0, u ++ t2, rfl, by rw [hne]; rfl⟩
      · rw [if_pos (by simpa [SerState.init] using hne)] at c1
        have hup := advanceLine_up cfg SerState.init.generatedLine m.generated.line (by decide)
          (by unfold IsI32; omega) hl1
        simp only [hup, Res.ok_bind, Res.bind_eq_ok] at c1
        obtain ⟨⟨seg, st2⟩, c4, c5⟩ := c1
        cases c5
        obtain ⟨u, rfl⟩ := hseg _ _ _ rfl c4
        exact ⟨(m.generated.line - SerState.init.generatedLine).toNat, u ++ t2, by simp, by
          simp only [SerState.init]; omega⟩
    obtain ⟨n, rest, rfl, hn⟩ := htext
    rw [decodeMappings, decode_semis] at a4
    obtain ⟨r, raws', rfl, e1, e2⟩ := decodeLines_digit hd a4
    obtain ⟨m', hm', hden⟩ := a5 r (by simp)
    have hg' := hden.1
    have e3 : m'.generated.line = m₀.generated.line := by rw [hg']; simp; omega
    have e4 := hlarge m' hm' e3
    rw [hg'] at e4
    simp only [e2] at e4
    unfold unsign at e4
    split at e4 <;> omega

/-- One mapping in column `2^30`. -/
example (U : UrlLib) (checks : Bool) : ∃ g j g', (Generator.new none none false).run U ⟨checks, true⟩
      [.add { generated := ⟨7, 1073741824⟩ }, .add { generated := ⟨8, 0⟩ }] = .ok g ∧
      g.asJson U ⟨checks, true⟩ = .ok (j, g') ∧
      ¬ Faithful j [{ generated := ⟨7, 1073741824⟩ }, { generated := ⟨8, 0⟩ }] :=
  C75_large_columns_refuted U ⟨checks, true⟩ rfl none false _ (by
    intro m hm
    simp only [gAdded, List.mem_cons, List.not_mem_nil, or_false] at hm
    rcases hm with rfl | rfl
    · exact .of_validate (by decide) (by decide) (by decide) (by intro p hp; cases hp)
    · exact .of_validate (by decide) (by decide) (by decide) (by intro p hp; cases hp)) (by decide)
    (m₀ := { generated := ⟨7, 1073741824⟩ }) (by decide) (by decide) (by decide)

end RSM
