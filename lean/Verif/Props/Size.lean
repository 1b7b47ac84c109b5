import Verif.Props.Output
import Verif.Dep.Demo
/-! # Property C112: how long the emitted mappings can be -/

namespace RSM

open Spec

/-- What a mapping may cost: a comma, and seven characters for each of the one, four or five numbers of its segment. -/
def Mapping.cost (m : Mapping) : Nat :=
  match m.source, m.name with
  | none, _ => 8
  | some _, none => 29
  | some _, some _ => 36

theorem arith_range (cfg : Cfg) {x y : Int} (h : cfg.arith x = .ok y) : IsI32 y := by
  unfold Cfg.arith at h
  split at h
  · cases h; assumption
  · split at h
    · cases h
    · cases h; exact wrap32_isI32 _

theorem toVlqSigned_range {cfg : Cfg} {v w : Int} (h : toVlqSigned cfg v = .ok w) : IsI32 w := by
  unfold toVlqSigned at h
  split at h
  · obtain ⟨n, _, h⟩ := Res.bind_eq_ok.1 h
    exact arith_range cfg h
  · cases h; exact wrap32_isI32 _

/-- No number has more than seven digits. -/
theorem vlqEncode_length {cfg : Cfg} {v : Int} {t : List Char} (h : base64vlqEncode cfg v = .ok t) : t.length ≤ 7 := by
  obtain ⟨w, h1, h2⟩ := Res.bind_eq_ok.1 h
  have hw := toVlqSigned_range h1
  by_cases hc : cfg.ptr64 = true ∧ w < 0
  · rw [vlqLoop_neg64 cfg hc.1 w hw hc.2] at h2
    cases h2
    simp
  · have hu : cfg.asUsize w < 4294967296 := by
      unfold Cfg.asUsize
      unfold IsI32 at hw
      split
      · rename_i hp; have : ¬ w < 0 := fun hn => hc ⟨hp, hn⟩; omega
      · omega
    rw [vlqLoop_eq cfg _ w hu rfl] at h2
    cases h2
    exact encU_length _ 6 (Nat.lt_of_lt_of_le hu (by decide))

theorem nameField_length {cfg : Cfg} {N : ArraySet} {st : SerState} {m : Mapping} {r : Text × SerState}
    (h : nameField cfg N st m = .ok r) : r.1.length ≤ if m.name.isSome then 7 else 0 := by
  unfold nameField at h
  cases hn : m.name with
  | none => rw [hn] at h; cases h; simp
  | some n =>
    rw [hn] at h
    simp only [Res.bind_eq_ok] at h
    obtain ⟨i, _, d, _, t, ht, h⟩ := h
    have h := congrArg Prod.fst (Except.ok.inj h)
    simp only at h
    rw [← h]
    exact vlqEncode_length ht

theorem originalFields_length {cfg : Cfg} {S N : ArraySet} {st : SerState} {m : Mapping} {r : Text × SerState}
    (h : originalFields cfg S N st m = .ok r) : r.1.length + 8 ≤ m.cost := by
  unfold originalFields at h
  unfold Mapping.cost
  cases hs : m.source with
  | none => rw [hs] at h; cases h; simp
  | some s =>
    rw [hs] at h
    simp only [Res.bind_eq_ok, Res.pure_eq, Except.ok.injEq] at h
    obtain ⟨i, _, d, _, t1, e1, o, _, l, _, d2, _, t2, e2, d3, _, t3, e3, x, h4, h⟩ := h
    have l1 := vlqEncode_length e1
    have l2 := vlqEncode_length e2
    have l3 := vlqEncode_length e3
    have l4 := nameField_length h4
    rw [← h]
    simp only [List.length_append]
    cases hn : m.name with
    | none => rw [hn] at l4; simp at l4; simp only [l4, List.length_nil]; omega
    | some n => rw [hn] at l4; simp at l4; simp only; omega

theorem segmentText_length {cfg : Cfg} {S N : ArraySet} {st : SerState} {m : Mapping} {r : Text × SerState}
    (h : segmentText cfg S N st m = .ok r) : r.1.length + 1 ≤ m.cost := by
  simp only [segmentText, Res.bind_eq_ok, Res.pure_eq, Except.ok.injEq] at h
  obtain ⟨d, _, t, h0, x, h1, h⟩ := h
  have l1 := vlqEncode_length h0
  have l2 := originalFields_length h1
  rw [← h]
  simp only [List.length_append]
  omega

theorem length_eq_count {t : Text} (h : ∀ c ∈ t, c = ';') : t.length = t.count ';' := by
  rw [List.count_eq_length.2]
  exact fun c hc => (h c hc).symm

theorem serializeStep_length {cfg : Cfg} {S N : ArraySet} {st : SerState} {p : Option Mapping} {m : Mapping}
    {r : Text × SerState} (h : serializeStep cfg S N st p m = .ok r) : r.1.length ≤ r.1.count ';' + m.cost := by
  unfold serializeStep at h
  split at h
  · simp only [Res.bind_eq_ok, Res.pure_eq, Except.ok.injEq] at h
    obtain ⟨semis, h1, x, h2, rfl⟩ := h
    have l1 := length_eq_count (advanceLoop_semis h1)
    have l2 := segmentText_length h2
    simp only [List.length_append, List.count_append]
    omega
  · split at h
    · simp only [Res.bind_eq_ok] at h
      obtain ⟨c, _, h⟩ := h
      split at h
      · cases h; simp
      · simp only [Res.bind_eq_ok, Res.pure_eq, Except.ok.injEq] at h
        obtain ⟨x, h1, rfl⟩ := h
        have l2 := segmentText_length h1
        simp only [List.length_cons]
        omega
    · have l2 := segmentText_length h
      omega

theorem serializeLoop_length {cfg : Cfg} {S N : ArraySet} : ∀ {ms : List Mapping} {st : SerState} {p : Option Mapping}
    {t : Text}, serializeLoop cfg S N st p ms = .ok t → t.length ≤ t.count ';' + (ms.map Mapping.cost).sum := by
  intro ms
  induction ms with
  | nil => intro st p t h; cases h; simp
  | cons m ms ih =>
    intro st p t h
    simp only [serializeLoop, Res.bind_eq_ok, Res.pure_eq, Except.ok.injEq] at h
    obtain ⟨x, h1, r, h2, rfl⟩ := h
    have l1 := serializeStep_length h1
    have l2 := ih h2
    simp only [List.length_append, List.count_append, List.map_cons, List.sum_cons]
    omega

/-- C112: apart from the semicolons, the text has no more characters than the mappings added may cost, however often they
were added and whether they are valid or not. -/
theorem C112_size (U : UrlLib) (cfg : Cfg) (file root : Option String) (skip : Bool) (ops : List GOp) (g g' : Generator)
    (j : SourceMapJson) (h : (Generator.new file root skip).run U cfg ops = .ok g) (hj : g.asJson U cfg = .ok (j, g')) :
    ∃ text, j.mappings = some text ∧
      text.toList.length ≤ text.toList.count ';' + ((gAdded ops).map Mapping.cost).sum := by
  obtain ⟨_, _, h3, _⟩ := gRun_new h
  obtain ⟨_, out, l, t, _, h4, h5, _, rfl⟩ := asJson_ok hj
  refine ⟨_, rfl, ?_⟩
  rw [String.toList_ofList]
  have hp := run_perm cfg _ _ _ h3
  rw [added_mlOps] at hp
  have hp' : out.Perm (gAdded ops) := (toArray_perm cfg h4).1.trans (by simpa [MappingList.new] using hp)
  rw [← (hp'.map Mapping.cost).sum_nat]
  exact serializeLoop_length h5

/-- C112, with the semicolons: linear in the number of lines and of mappings. -/
theorem C112_linear (U : UrlLib) (cfg : Cfg) (file root : Option String) (skip : Bool) (ops : List GOp) (g g' : Generator)
    (j : SourceMapJson) (hval : ∀ m ∈ gAdded ops, m.Valid ∧ 1 ≤ m.generated.line) {lines : Int}
    (hlines : 1 ≤ lines ∧ ∀ m ∈ gAdded ops, m.generated.line ≤ lines)
    (h : (Generator.new file root skip).run U cfg ops = .ok g) (hj : g.asJson U cfg = .ok (j, g')) :
    ∃ text, j.mappings = some text ∧ (text.toList.length : Int) ≤ (lines - 1) + 36 * (gAdded ops).length := by
  obtain ⟨text, ht, hs⟩ := C112_size U cfg file root skip ops g g' j h hj
  refine ⟨text, ht, ?_⟩
  have hc : ∀ ms : List Mapping, (ms.map Mapping.cost).sum ≤ 36 * ms.length := by
    intro ms
    induction ms with
    | nil => simp
    | cons m ms ih =>
      have : m.cost ≤ 36 := by unfold Mapping.cost; split <;> omega
      simp only [List.map_cons, List.sum_cons, List.length_cons]; omega
  have hc := hc (gAdded ops)
  have hsemi : (text.toList.count ';' : Int) ≤ lines - 1 := by
    by_cases he : gAdded ops = []
    · rw [he] at hs
      simp only [List.map_nil, List.sum_nil] at hs
      obtain ⟨_, _, h3, _⟩ := gRun_new h
      obtain ⟨_, out, l, t, _, h4, h5, _, rfl⟩ := asJson_ok hj
      have hp := run_perm cfg _ _ _ h3
      rw [added_mlOps] at hp
      have hp' : out.Perm (gAdded ops) := (toArray_perm cfg h4).1.trans (by simpa [MappingList.new] using hp)
      rw [he] at hp'
      rw [hp'.eq_nil] at h5
      cases h5
      cases ht
      simp
      omega
    · obtain ⟨m, hm, hmax⟩ : ∃ m ∈ gAdded ops, ∀ x ∈ gAdded ops, x.generated.line ≤ m.generated.line := by
        generalize gAdded ops = l at he
        induction l with
        | nil => exact absurd rfl he
        | cons a l ih =>
          by_cases hl : l = []
          · subst hl; exact ⟨a, by simp, by simp⟩
          · obtain ⟨m, hm, hx⟩ := ih hl
            by_cases hle : m.generated.line ≤ a.generated.line
            · refine ⟨a, by simp, ?_⟩
              intro x hx'
              rcases List.mem_cons.1 hx' with rfl | hx'
              · omega
              · have := hx x hx'; omega
            · refine ⟨m, by simp [hm], ?_⟩
              intro x hx'
              rcases List.mem_cons.1 hx' with rfl | hx'
              · omega
              · exact hx x hx'
      obtain ⟨text', ht', hs'⟩ := C62_line_count U cfg file root skip ops g g' j (fun m hm => ⟨(hval m hm).1, (hval m hm).2, by
        have := (hval m hm).1.gl; unfold IsI32; omega⟩) h hj m hm hmax
      rw [ht] at ht'
      cases ht'
      have := hlines.2 m hm
      omega
  omega

/-! ## Cases -/

/-- Three mappings, one of each kind, on two lines: 1 semicolon and 8 + 29 + 36 = 73 characters are allowed, 13 used. -/
example : let ops : List GOp := [.add { generated := ⟨1, 9⟩ },
      .add { generated := ⟨2, 3⟩, original := some ⟨7, 4⟩, source := some "a.js" },
      .add { generated := ⟨2, 9⟩, original := some ⟨700, 4⟩, source := some "a.js", name := some "n" }]
    ((gAdded ops).map Mapping.cost).sum = 73 ∧
    (((Generator.new none none false).run MiniUrl.lib ⟨true, true⟩ ops >>= fun g =>
      g.asJson MiniUrl.lib ⟨true, true⟩).map fun r => r.1.mappings) = .ok (some "S;GAMI,MAqrBAA") := by
  decide +kernel

end RSM
