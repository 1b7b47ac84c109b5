import Verif.Props.Large
import Verif.Props.Order
import Verif.Lemmas.LargeShape
import Mathlib.Data.List.Perm.Subperm
/-! # Property C75: exactly when large coordinates are emitted rightly -/

namespace RSM
open Spec

theorem Mapping.Accepted.narrow {m : Mapping} (h : m.Accepted) (cfg : Cfg) : m.Encodable cfg.narrow := by
  have hl : cfg.narrow.vlqLimit = 2147483648 := rfl
  have h2 := h.2.2.1
  have h3 := h.2.2.2
  unfold IsI32 at h2 h3
  refine h.encodable (by rw [hl]; omega) ?_
  intro p hp
  have := h3 p hp
  rw [hl]
  omega

/-- What is emitted for accepted mappings, whatever their size. -/
theorem large_output (U : UrlLib) (cfg : Cfg) (file : Option String) (skip : Bool) (ops : List GOp)
    (hacc : ∀ m ∈ gAdded ops, m.Accepted) (hlen : (gAdded ops).length < 1073741824) :
    ∃ g j g' S N t out, (Generator.new file none skip).run U cfg ops = .ok g ∧
      g.asJson U cfg = .ok (j, g') ∧ j.sources = some S ∧ j.names = some N ∧ j.mappings = some (String.ofList t) ∧
      S.Nodup ∧ N.Nodup ∧ out.Perm (gAdded ops) ∧ out.Pairwise posLE ∧
      ((gAdded ops).Pairwise posLE → out = gAdded ops) ∧
      (∀ m ∈ out, m.Encodable cfg.narrow ∧ Denotes S N (toRaw S N m) m) ∧
      (decodeMappings t = some ((dropRepeats none out).map (toRaw S N)) ↔
        (cfg.ptr64 = true → ∀ δ ∈ written ((dropRepeats none out).map (toRaw S N)), δ.natAbs < 1073741824)) ∧
      ∀ raws, decodeMappings t = some raws → raws.length = (dropRepeats none out).length ∧ raws.Pairwise rawLE := by
  have hval := fun m hm => (hacc m hm).valid
  obtain ⟨hS, hN⟩ := tables_limit (B := 2147483648) (ops := ops) (by omega)
  obtain ⟨g, j, g', hg, hj⟩ := C24_serialize_total U cfg file skip ops hval hS hN
  obtain ⟨_, _, h3, h4, h5, _⟩ := gRun_new hg
  obtain ⟨sc, out, l, t, _, k2, k3, _, rfl⟩ := asJson_ok hj
  have hrun := run_perm cfg _ _ _ h3
  rw [added_mlOps] at hrun
  have hv : ∀ m ∈ added (mlOps ops), m.Valid := by
    rw [added_mlOps]; intro m hm; exact (hval m hm).1
  obtain ⟨l1, r1, r2⟩ := run_valid cfg (mlOps ops) MappingList.new MappingList.inv_new hv
  rw [h3] at r1; cases r1
  obtain ⟨out', l', r3, _, _, rp, r4, _⟩ := toArray_valid cfg r2
  rw [k2] at r3; cases r3
  have hp : out.Perm (gAdded ops) := rp.trans (by simpa [MappingList.new] using hrun)
  have iS := tableOf_inv ((gAdded ops).filterMap Mapping.source)
  have iN := tableOf_inv ((gAdded ops).filterMap Mapping.name)
  rw [← h4] at iS
  rw [← h5] at iN
  have hk : ∀ m ∈ out, Known g.sources g.names m := by
    intro m hm
    have hm' := hp.mem_iff.1 hm
    rw [h4, h5]
    refine ⟨?_, ?_⟩ <;> intro s hs <;> rw [tableOf_array, mem_firstOccurrences, List.mem_filterMap] <;>
      exact ⟨m, hm', hs⟩
  have hS' : g.sources.array.length < 2147483648 := by rw [h4, tableOf_array]; exact hS
  have hN' : g.names.array.length < 2147483648 := by rw [h5, tableOf_array]; exact hN
  have henc : ∀ m ∈ out, m.Encodable cfg.narrow := fun m hm => (hacc m (hp.mem_iff.1 hm)).narrow cfg
  obtain ⟨t', e1, e2, e3⟩ := serializeLoop_spec cfg.narrow iS iN rfl hS' hN' out r4 (comparable_encodable henc)
    (fun m hm => (henc m hm).writable) hk
  obtain ⟨a, b, f1, f2, f3⟩ := serializeLoop_shrunk cfg iS iN hS' hN' out SerState.init none ⟨0, 0, 0, 0⟩ 0 0 r4
    (by intro p hp; cases hp) henc hk rfl (fun m hm => (henc m hm).line.1)
    ⟨rfl, rfl, rfl, rfl, rfl, by decide, by decide, by decide, by decide, by decide⟩
  rw [k3] at f1; cases f1
  rw [e1] at f2; cases f2
  refine ⟨g, _, g', g.sources.array, g.names.array, t, out, hg, hj, rfl, rfl, rfl,
    by rw [h4, tableOf_array]; exact nodup_firstOccurrences _, by rw [h5, tableOf_array]; exact nodup_firstOccurrences _,
    hp, r4, ?_, fun m hm => ⟨henc m hm, denotes_toRaw (henc m hm) (hk m hm)⟩, ?_,
    fun raws hd => serializeLoop_shape_all cfg out r4 henc k3 hd⟩
  · intro hord
    obtain ⟨l₁, q1, _, q3, q4⟩ := run_flag_order cfg (mlOps ops) MappingList.new MappingList.inv_new hv
      (by rw [added_mlOps, not_outOfOrder_iff]; exact ⟨hord, by simp [MappingList.new]⟩) rfl
    rw [h3] at q1
    cases q1
    rw [added_mlOps] at q3
    simp only [MappingList.toArray, q4, q3] at k2
    cases k2
    rfl
  · constructor
    · intro hdec h64 δ hδ
      rcases f3 with ⟨f3, _⟩ | ⟨_, f3⟩
      · exact f3 δ hδ h64
      · have := e3 t hdec
        omega
    · intro hsmall
      rcases f3 with ⟨_, rfl⟩ | ⟨f3, _⟩
      · exact e2
      · exact absurd (fun δ hδ h64 => hsmall h64 δ hδ) f3

/-- C75, exactly (`_partial`, since the claim is false): serialisation returns whatever the size of the coordinates.
With 32-bit pointers the emitted segments are those of the added mappings in generated order (as added, if they were
added in order), each denoting its mapping, repeats left out. With 64-bit pointers they are if and only if every number
that has to be written, a difference between a value and the one before, is below `2^30` in absolute value. -/
theorem C75_exact_partial (U : UrlLib) (cfg : Cfg) (file : Option String) (skip : Bool) (ops : List GOp)
    (hacc : ∀ m ∈ gAdded ops, m.Accepted) (hlen : (gAdded ops).length < 1073741824) :
    ∃ g j g' S N text out wanted, (Generator.new file none skip).run U cfg ops = .ok g ∧
      g.asJson U cfg = .ok (j, g') ∧ j.sources = some S ∧ j.names = some N ∧ j.mappings = some text ∧
      out.Perm (gAdded ops) ∧ out.Pairwise posLE ∧ ((gAdded ops).Pairwise posLE → out = gAdded ops) ∧
      List.Forall₂ (Denotes S N) wanted (withoutRepeats out) ∧
      (decodeMappings text.toList = some wanted ↔
        (cfg.ptr64 = true → ∀ δ ∈ written wanted, δ.natAbs < 1073741824)) := by
  obtain ⟨g, j, g', S, N, t, out, h1, h2, h3, h4, h5, _, _, h6, h7, h8, h9, h10, _⟩ := large_output U cfg file skip ops hacc hlen
  refine ⟨g, j, g', S, N, String.ofList t, out, (dropRepeats none out).map (toRaw S N), h1, h2, h3, h4, h5, h6, h7, h8,
    ?_, by rw [String.toList_ofList]; exact h10⟩
  rw [← dropRepeats_eq, List.forall₂_map_left_iff, List.forall₂_same]
  exact fun m hm => (h9 m ((dropRepeats_sublist out none).subset hm)).2

/-- A mapping is denoted by one segment only. -/
theorem denotes_unique {S N : List String} (hS : S.Nodup) (hN : N.Nodup) {r s : RawMapping} {m : Mapping}
    (hr : Denotes S N r m) (hs : Denotes S N s m) : r = s := by
  obtain ⟨rl, rc, ro⟩ := r
  obtain ⟨sl, sc, so⟩ := s
  obtain ⟨r1, r2⟩ := hr
  obtain ⟨s1, s2⟩ := hs
  rw [r1] at s1
  simp only [Position.mk.injEq] at s1
  obtain rfl : rl = sl := by omega
  obtain rfl : rc = sc := by omega
  have inj : ∀ {T : List String}, T.Nodup → ∀ {i k : Nat} {x : String}, T[i]? = some x → T[k]? = some x → i = k := by
    intro T hT i k x hi hk
    obtain ⟨p1, p2⟩ := List.getElem?_eq_some_iff.1 hi
    obtain ⟨p3, p4⟩ := List.getElem?_eq_some_iff.1 hk
    exact hT.getElem_inj_iff.1 (p2.trans p4.symm)
  cases ro with
  | none =>
    cases so with
    | none => rfl
    | some o => simp only at r2 s2; rw [r2.1] at s2; cases s2.1
  | some o =>
    cases so with
    | none => simp only at r2 s2; rw [s2.1] at r2; cases r2.1
    | some p =>
      obtain ⟨o1, o2, o3, o4⟩ := o
      obtain ⟨p1, p2, p3, p4⟩ := p
      simp only at r2 s2
      obtain ⟨a1, ⟨x, a2, a3⟩, a4⟩ := r2
      obtain ⟨b1, ⟨y, b2, b3⟩, b4⟩ := s2
      rw [a1] at b1
      rw [a3] at b3
      simp only [Option.some.injEq, Position.mk.injEq] at b1 b3
      subst b3
      obtain rfl := inj hS a2 b2
      obtain rfl : o2 = p2 := by omega
      obtain rfl : o3 = p3 := by omega
      cases o4 with
      | none =>
        cases p4 with
        | none => rfl
        | some n => simp only at a4 b4; rw [a4] at b4; obtain ⟨_, _, b4⟩ := b4; cases b4
      | some n =>
        cases p4 with
        | none => simp only at a4 b4; rw [b4] at a4; obtain ⟨_, _, a4⟩ := a4; cases a4
        | some n' =>
          simp only at a4 b4
          obtain ⟨t, a5, a6⟩ := a4
          obtain ⟨t', b5, b6⟩ := b4
          rw [a6] at b6
          cases b6
          rw [inj hN a5 b5]

/-- C75, exactly, for mappings at different generated positions (`_partial`, since the claim is false): `wanted` are the
segments denoting the added mappings in generated order; the map says exactly what the added mappings say if and only if,
with 64-bit pointers, every number that has to be written for these is below `2^30` in absolute value. -/
theorem C75_faithful_exact_partial (U : UrlLib) (cfg : Cfg) (file : Option String) (skip : Bool) (ops : List GOp)
    (hacc : ∀ m ∈ gAdded ops, m.Accepted) (hlen : (gAdded ops).length < 1073741824)
    (hdist : (gAdded ops).Pairwise fun a b => a.generated ≠ b.generated) :
    ∃ g j g' S N out wanted, (Generator.new file none skip).run U cfg ops = .ok g ∧
      g.asJson U cfg = .ok (j, g') ∧ j.sources = some S ∧ j.names = some N ∧
      out.Perm (gAdded ops) ∧ out.Pairwise posLE ∧ List.Forall₂ (Denotes S N) wanted out ∧
      (Faithful j (gAdded ops) ↔ (cfg.ptr64 = true → ∀ δ ∈ written wanted, δ.natAbs < 1073741824)) := by
  obtain ⟨g, j, g', S, N, t, out, h1, h2, h3, h4, h5, nS, nN, h6, h7, _, h9, h10, h11⟩ :=
    large_output U cfg file skip ops hacc hlen
  have hdist' : out.Pairwise fun a b => a.generated ≠ b.generated :=
    (h6.pairwise_iff (fun h => Ne.symm h)).2 hdist
  have hself : dropRepeats none out = out :=
    dropRepeats_eq_self out none (hdist'.imp fun h hc => h hc.1) (by intro q hq; cases hq)
  rw [hself] at h10 h11
  refine ⟨g, j, g', S, N, out, out.map (toRaw S N), h1, h2, h3, h4, h6, h7, ?_, ?_⟩
  · rw [List.forall₂_map_left_iff, List.forall₂_same]
    exact fun m hm => (h9 m hm).2
  · rw [← h10]
    constructor
    · rintro ⟨S', N', text, raws, a1, a2, a3, a4, _, a6⟩
      rw [h3] at a1; rw [h4] at a2; rw [h5] at a3
      cases a1; cases a2; cases a3
      rw [String.toList_ofList] at a4
      obtain ⟨b1, b2⟩ := h11 raws a4
      have hpos : ∀ a ∈ out, ∀ b ∈ out, rawLE (toRaw S N a) (toRaw S N b) → rawLE (toRaw S N b) (toRaw S N a) →
          a.generated = b.generated := by
        intro a ha b hb h h'
        have c1 := (h9 a ha).2.1
        have c2 := (h9 b hb).2.1
        unfold rawLE at h h'
        rw [c1, c2, Position.mk.injEq]
        omega
      have hnd : (out.map (toRaw S N)).Nodup := by
        rw [List.nodup_iff_pairwise_ne, List.pairwise_map]
        refine hdist'.imp_of_mem fun {a b} ha hb hab hc => hab ?_
        rw [(h9 a ha).2.1, (h9 b hb).2.1, hc]
      have hsub : out.map (toRaw S N) ⊆ raws := by
        intro x hx
        obtain ⟨m, hm, rfl⟩ := List.mem_map.1 hx
        obtain ⟨r, hr, hrm⟩ := a6 m (h6.mem_iff.1 hm)
        rw [denotes_unique nS nN (h9 m hm).2 hrm]
        exact hr
      have hperm : (out.map (toRaw S N)).Perm raws :=
        (List.subperm_of_subset hnd hsub).perm_of_length_le (by rw [List.length_map, b1])
      have hsorted : (out.map (toRaw S N)).Pairwise rawLE := by
        rw [List.pairwise_map]
        exact h7.imp_of_mem fun {a b} ha hb hab => toRaw_posLE (h9 a ha).1 (h9 b hb).1 hab
      rw [a4, hperm.eq_of_pairwise ?_ hsorted b2]
      intro x y hx hy hxy hyx
      obtain ⟨a, ha, rfl⟩ := List.mem_map.1 hx
      obtain ⟨b, hb, rfl⟩ := List.mem_map.1 (hperm.mem_iff.2 hy)
      have hgen := hpos a ha b hb hxy hyx
      by_cases hab : a = b
      · rw [hab]
      · have : Std.Symm fun a b : Mapping => a.generated ≠ b.generated := ⟨fun _ _ h => Ne.symm h⟩
        exact absurd hgen (hdist'.forall ha hb hab)
    · intro hdec
      refine ⟨S, N, String.ofList t, _, h3, h4, h5, by rw [String.toList_ofList]; exact hdec, ?_, ?_⟩
      · intro r hr
        obtain ⟨m, hm, rfl⟩ := List.mem_map.1 hr
        exact ⟨m, h6.mem_iff.1 hm, (h9 m hm).2⟩
      · intro m hm
        have hm' := h6.mem_iff.2 hm
        exact ⟨_, List.mem_map_of_mem hm', (h9 m hm').2⟩

theorem denotes_bare {S N : List String} {r : RawMapping} {l c : Int} (h : Denotes S N r { generated := ⟨l, c⟩ }) :
    r = ⟨(l - 1).toNat, c.toNat, none⟩ := by
  obtain ⟨h1, h2⟩ := h
  obtain ⟨rl, rc, ro⟩ := r
  simp only [Position.mk.injEq] at h1
  cases ro with
  | some o => simp only at h2; cases h2.1
  | none =>
    obtain rfl : rl = (l - 1).toNat := by omega
    obtain rfl : rc = c.toNat := by omega
    rfl

/-- Two mappings on a line, and what is wanted for them: the numbers to be written are the column of the first and the
difference of the columns. -/
theorem two_columns (U : UrlLib) (cfg : Cfg) {a b : Int} (ha : 0 ≤ a) (hab : a < b) (hb : b ≤ 2147483647) :
    ∃ g j g', (Generator.new none none false).run U cfg
        [.add { generated := ⟨1, a⟩ }, .add { generated := ⟨1, b⟩ }] = .ok g ∧ g.asJson U cfg = .ok (j, g') ∧
      (Faithful j [{ generated := ⟨1, a⟩ }, { generated := ⟨1, b⟩ }] ↔
        (cfg.ptr64 = true → a < 1073741824 ∧ b - a < 1073741824)) := by
  obtain ⟨g, j, g', S, N, out, wanted, h1, h2, _, _, h3, h4, h5, h6⟩ := C75_faithful_exact_partial U cfg none false
    [.add { generated := ⟨1, a⟩ }, .add { generated := ⟨1, b⟩ }] (by
      intro m hm
      simp only [gAdded, List.mem_cons, List.not_mem_nil, or_false] at hm
      rcases hm with rfl | rfl
      · exact ⟨⟨by simp, ha, .inl ⟨rfl, rfl, rfl⟩⟩, by unfold IsI32; simp, by unfold IsI32; simp only; omega, by simp⟩
      · exact ⟨⟨by simp, by simp only; omega, .inl ⟨rfl, rfl, rfl⟩⟩, by unfold IsI32; simp, by unfold IsI32; simp only; omega,
          by simp⟩) (by simp [gAdded]) (by simp [gAdded]; omega)
  have hout : out = [{ generated := ⟨1, a⟩ }, { generated := ⟨1, b⟩ }] := by
    refine h3.eq_of_pairwise ?_ h4 ?_
    · intro x y hx hy hxy hyx
      have hx' := h3.mem_iff.1 hx
      simp only [gAdded, List.mem_cons, List.not_mem_nil, or_false] at hx' hy
      unfold posLE at hxy hyx
      rcases hx' with rfl | rfl <;> rcases hy with rfl | rfl <;> simp_all <;> omega
    · simp only [List.pairwise_cons]
      refine ⟨?_, by simp, .nil⟩
      intro m hm
      simp only [List.mem_cons, List.not_mem_nil, or_false] at hm
      subst hm
      exact .inr ⟨rfl, by simp only; omega⟩
  subst hout
  refine ⟨g, j, g', h1, h2, ?_⟩
  rw [show gAdded [.add { generated := ⟨1, a⟩ }, .add { generated := ⟨1, b⟩ }] =
    [{ generated := ⟨1, a⟩ }, { generated := ⟨1, b⟩ }] from rfl] at h6
  rw [h6]
  cases h5 with
  | cons d1 h5 =>
    cases h5 with
    | cons d2 h5 =>
      cases h5
      rw [denotes_bare d1, denotes_bare d2]
      simp only [written, writtenFrom, fieldsOf, List.mem_append, List.mem_cons, List.not_mem_nil, or_false,
        forall_eq_or_imp, forall_eq, if_true, ite_self]
      constructor
      · intro h h64; have := h h64; omega
      · intro h h64; have := h h64; omega

/-- Columns above `2^30` that are emitted rightly, since the difference is small. -/
example (U : UrlLib) (cfg : Cfg) : ∃ g j g', (Generator.new none none false).run U cfg
      [.add { generated := ⟨1, 1073741823⟩ }, .add { generated := ⟨1, 2147483646⟩ }] = .ok g ∧ g.asJson U cfg = .ok (j, g') ∧
    Faithful j [{ generated := ⟨1, 1073741823⟩ }, { generated := ⟨1, 2147483646⟩ }] := by
  obtain ⟨g, j, g', h1, h2, h3⟩ := two_columns U cfg (a := 1073741823) (b := 2147483646) (by omega) (by omega) (by omega)
  exact ⟨g, j, g', h1, h2, h3.2 (by omega)⟩

/-- One more in the second column, and with 64-bit pointers they are not. -/
example (U : UrlLib) (checks : Bool) : ∃ g j g', (Generator.new none none false).run U ⟨checks, true⟩
      [.add { generated := ⟨1, 1073741823⟩ }, .add { generated := ⟨1, 2147483647⟩ }] = .ok g ∧
    g.asJson U ⟨checks, true⟩ = .ok (j, g') ∧
    ¬ Faithful j [{ generated := ⟨1, 1073741823⟩ }, { generated := ⟨1, 2147483647⟩ }] := by
  obtain ⟨g, j, g', h1, h2, h3⟩ := two_columns U ⟨checks, true⟩ (a := 1073741823) (b := 2147483647)
    (by omega) (by omega) (by omega)
  exact ⟨g, j, g', h1, h2, fun h => absurd (h3.1 h rfl) (by omega)⟩

end RSM
