import Verif.Model.Generator
import Verif.Lemmas.DecodeInv
import Verif.Lemmas.MappingList
import Verif.Lemmas.ArraySet
/-! # The text emitted by the generator decodes to its mappings -/

namespace RSM

open Spec

theorem advanceLoop_up (cfg : Cfg) : ∀ (n : Nat) (prev line : Int), line = prev + n → IsI32 prev →
    IsI32 line → advanceLoop cfg line n prev = .ok (List.replicate n ';') := by
  intro n
  induction n with
  | zero => intro prev line h _ _; simp [advanceLoop, show line = prev by omega]
  | succ n ih =>
    intro prev line h hp hl
    have h1 : cfg.arith (prev + 1) = .ok (prev + 1) := cfg.arith_ok (by unfold IsI32 at *; omega)
    have h2 := ih (prev + 1) line (by omega) (by unfold IsI32 at *; omega) hl
    simp only [advanceLoop, h1, Res.ok_bind, h2, if_neg (show ¬ line = prev by omega)]
    rfl

theorem advanceLine_up (cfg : Cfg) (prev line : Int) (hp : IsI32 prev) (hl : IsI32 line)
    (h : prev ≤ line) : advanceLine cfg prev line = .ok (List.replicate (line - prev).toNat ';') := by
  unfold advanceLine
  have : ((line - prev) % 4294967296).toNat = (line - prev).toNat := by
    unfold IsI32 at *; omega
  rw [this]
  exact advanceLoop_up cfg _ prev line (by omega) hp hl

theorem advanceLoop_release (cfg : Cfg) (hc : cfg.overflowChecks = false) (line : Int)
    (hl : IsI32 line) : ∀ (n : Nat) (prev : Int), IsI32 prev → (line - prev) % 4294967296 = n →
    advanceLoop cfg line n prev = .ok (List.replicate n ';') := by
  intro n
  induction n with
  | zero =>
    intro prev hp h
    simp [advanceLoop, show line = prev by unfold IsI32 at *; omega]
  | succ n ih =>
    intro prev hp h
    have hne : ¬ line = prev := by rintro rfl; simp at h; omega
    obtain ⟨p, h1, h2, h3⟩ : ∃ p, cfg.arith (prev + 1) = .ok p ∧ IsI32 p ∧
        (line - p) % 4294967296 = n := by
      by_cases hi : IsI32 (prev + 1)
      · exact ⟨_, cfg.arith_ok hi, hi, by omega⟩
      · refine ⟨wrap32 (prev + 1), ?_, wrap32_isI32 _, ?_⟩
        · simp only [Cfg.arith, hi, if_false, hc, Bool.false_eq_true]
        · unfold wrap32; omega
    simp only [advanceLoop, h1, Res.ok_bind, ih p h2 h3, if_neg hne]
    rfl

theorem advanceLoop_debug (cfg : Cfg) (hc : cfg.overflowChecks = true) (line : Int) :
    ∀ (n : Nat) (prev : Int), IsI32 prev → line < prev → 2147483648 - prev ≤ n →
    advanceLoop cfg line n prev = .error .overflow := by
  intro n
  induction n with
  | zero => intro prev hp h hn; unfold IsI32 at hp; omega
  | succ n ih =>
    intro prev hp h hn
    simp only [advanceLoop, if_neg (show ¬ line = prev by omega)]
    by_cases hi : IsI32 (prev + 1)
    · rw [cfg.arith_ok hi, Res.ok_bind, ih (prev + 1) hi (by omega) (by omega)]; rfl
    · have : cfg.arith (prev + 1) = .error .overflow := by
        simp only [Cfg.arith, hi, if_false, hc, if_true]
      rw [this]; rfl

/-- What the generator is to encode for a mapping. -/
def toRaw (S N : List String) (m : Mapping) : RawMapping :=
  ⟨(m.generated.line - 1).toNat, m.generated.column.toNat,
    match m.source, m.original with
    | some s, some o => some ⟨S.idxOf s, (o.line - 1).toNat, o.column.toNat, m.name.map (fun n => N.idxOf n)⟩
    | _, _ => none⟩

/-- The encoder's running values agree with the decoder's. -/
structure Agree (B : Nat) (st : SerState) (d : DState) (col : Nat) : Prop where
  gc : st.generatedColumn = col
  oc : st.originalColumn = d.column
  ol : st.originalLine = d.line
  nm : st.name = d.name
  sr : st.source = d.source
  bgc : col < B
  boc : d.column < B
  bol : d.line < B
  bnm : d.name < B
  bsr : d.source < B

theorem offset_eq {B : Nat} (hB : B ≤ 2147483648) (base : Nat) (target : Nat) (h : target < B) :
    offset base ((target : Int) - base) = some target := by
  unfold offset
  rw [if_pos (by omega)]
  congr 1
  omega

/-- The tables hold the strings of the mapping. -/
def Known (S N : ArraySet) (m : Mapping) : Prop :=
  (∀ s, m.source = some s → s ∈ S.array) ∧ (∀ n, m.name = some n → n ∈ N.array)

theorem indexOf_mem {a : ArraySet} (h : a.Inv) {s : String} (hs : s ∈ a.array) :
    a.indexOf s = some (a.array.idxOf s) := by
  unfold ArraySet.indexOf
  rw [h.get, List.idxOf?_eq_some_iff]
  exact ⟨List.idxOf_lt_length_of_mem hs, by simp, by
    intro j hj
    have := List.not_of_lt_findIdx (p := fun x => x == s) hj
    simpa using this⟩

theorem encode_delta {B : Nat} (cfg : Cfg) (hB : B ≤ cfg.vlqLimit) (a b : Nat) (ha : a < B) (hb : b < B) :
    cfg.arith ((a : Int) - b) = .ok ((a : Int) - b) ∧
    base64vlqEncode cfg ((a : Int) - b) = .ok (encU (signed ((a : Int) - b))) :=
  ⟨cfg.arith_ok (by have := cfg.vlqLimit_le; unfold IsI32; omega), encode_eq_limit cfg _ (by omega)⟩

theorem delta_bound {B : Nat} (hB : B ≤ 2147483648) (a b : Nat) (ha : a < B) (hb : b < B) :
    ((a : Int) - b).natAbs < 2147483648 := by omega

theorem wrap32_small {B : Nat} (hB : B ≤ 2147483648) {i : Nat} (h : i < B) : wrap32 (i : Int) = i :=
  wrap32_of_isI32 (by unfold IsI32; omega)

theorem arith_small {B : Nat} (hB : B ≤ 2147483648) (cfg : Cfg) {i : Nat} (h : i < B) :
    cfg.arith (i : Int) = .ok (i : Int) :=
  cfg.arith_ok (by unfold IsI32; omega)

theorem decodeSegment_one {line col : Nat} {d : DState} {cs : List Char} {a : Int} {gc : Nat}
    (h : decodeFields cs = some [a]) (h1 : offset col a = some gc) :
    decodeSegment line col d cs = some (⟨line, gc, none⟩, d) := by
  simp only [decodeSegment, h, h1, Option.bind_eq_bind, Option.bind_some]

theorem decodeSegment_four {line col : Nat} {d : DState} {cs : List Char} {a s l k : Int}
    {gc si ol oc : Nat}
    (h : decodeFields cs = some [a, s, l, k]) (h1 : offset col a = some gc)
    (h2 : offset d.source s = some si) (h3 : offset d.line l = some ol)
    (h4 : offset d.column k = some oc) :
    decodeSegment line col d cs =
      some (⟨line, gc, some ⟨si, ol, oc, none⟩⟩, { d with source := si, line := ol, column := oc }) := by
  simp only [decodeSegment, h, h1, h2, h3, h4, Option.bind_eq_bind, Option.bind_some]

theorem decodeSegment_five {line col : Nat} {d : DState} {cs : List Char} {a s l k n : Int}
    {gc si ol oc ni : Nat}
    (h : decodeFields cs = some [a, s, l, k, n]) (h1 : offset col a = some gc)
    (h2 : offset d.source s = some si) (h3 : offset d.line l = some ol)
    (h4 : offset d.column k = some oc) (h5 : offset d.name n = some ni) :
    decodeSegment line col d cs =
      some (⟨line, gc, some ⟨si, ol, oc, some ni⟩⟩, ⟨si, ol, oc, ni⟩) := by
  simp only [decodeSegment, h, h1, h2, h3, h4, h5, Option.bind_eq_bind, Option.bind_some]

theorem nameField_none (cfg : Cfg) (N : ArraySet) (st : SerState) {m : Mapping} (hn : m.name = none) :
    nameField cfg N st m = .ok ([], st) := by
  simp only [nameField, hn, Res.pure_eq]

theorem nameField_some {B : Nat} (cfg : Cfg) (hB : B ≤ cfg.vlqLimit) {N : ArraySet} (st : SerState)
    {m : Mapping} {n : String} (hn : m.name = some n) {ni dn : Nat} (hidx : N.indexOf n = some ni)
    (hni : ni < B) (hdn : dn < B) (hst : st.name = dn) :
    nameField cfg N st m = .ok (encU (signed ((ni : Int) - dn)), { st with name := ni }) := by
  obtain ⟨e1, e2⟩ := encode_delta cfg hB ni dn hni hdn
  simp only [nameField, hn, hidx, unwrap, Res.ok_bind]
  have hw := wrap32_small (Nat.le_trans hB cfg.vlqLimit_le) hni
  generalize wrap32 (ni : Int) = w at hw
  subst hw
  simp only [hst, e1, e2, Res.ok_bind, Res.pure_eq]

theorem originalFields_some {B : Nat} (cfg : Cfg) (hB : B ≤ cfg.vlqLimit) {S N : ArraySet} (st : SerState)
    {m : Mapping} {s : String} (hs : m.source = some s) {si ds ol dl oc dc : Nat} {o : Position}
    (ho : m.original = some o) (hol : o.line - 1 = (ol : Int)) (hoc : o.column = (oc : Int))
    (hidx : S.indexOf s = some si) (hsi : si < B) (hds : ds < B) (hols : ol < B) (hdl : dl < B)
    (hocs : oc < B) (hdc : dc < B) (h1 : st.source = ds) (h2 : st.originalLine = dl)
    (h3 : st.originalColumn = dc) {t : Text} {st' : SerState}
    (hname : nameField cfg N { st with source := si, originalLine := ol, originalColumn := oc } m =
      .ok (t, st')) :
    originalFields cfg S N st m = .ok (encU (signed ((si : Int) - ds)) ++ encU (signed ((ol : Int) - dl)) ++
      encU (signed ((oc : Int) - dc)) ++ t, st') := by
  obtain ⟨e1, e2⟩ := encode_delta cfg hB si ds hsi hds
  obtain ⟨e3, e4⟩ := encode_delta cfg hB ol dl hols hdl
  obtain ⟨e5, e6⟩ := encode_delta cfg hB oc dc hocs hdc
  simp only [originalFields, hs, hidx, unwrap, Res.ok_bind]
  have hw := wrap32_small (Nat.le_trans hB cfg.vlqLimit_le) hsi
  generalize wrap32 (si : Int) = w at hw
  subst hw
  simp only [h1, e1, e2, ho, hol,
    arith_small (Nat.le_trans hB cfg.vlqLimit_le) cfg hols, h2, e3, e4, hoc, h3, e5, e6, hname, Res.ok_bind, Res.pure_eq]

theorem segmentText_eq {B : Nat} (cfg : Cfg) (hB : B ≤ cfg.vlqLimit) {S N : ArraySet} (st : SerState)
    {m : Mapping} {gc col : Nat} (hgc : m.generated.column = (gc : Int)) (h1 : gc < B) (h2 : col < B)
    (hc : st.generatedColumn = col) {t : Text} {st' : SerState}
    (ho : originalFields cfg S N { st with generatedColumn := gc } m = .ok (t, st')) :
    segmentText cfg S N st m = .ok (encU (signed ((gc : Int) - col)) ++ t, st') := by
  obtain ⟨e1, e2⟩ := encode_delta cfg hB gc col h1 h2
  simp only [segmentText, hgc, hc, e1, e2, Res.ok_bind, ho, Res.pure_eq]

theorem toRaw_none {S N : List String} {m : Mapping} {line gc : Nat}
    (hl1 : (m.generated.line - 1).toNat = line) (hl2 : m.generated.column.toNat = gc)
    (hs : m.source = none) : toRaw S N m = ⟨line, gc, none⟩ := by
  simp only [toRaw, hs, hl1, hl2]

theorem toRaw_some {S N : List String} {m : Mapping} {line gc : Nat} {s : String} {o : Position}
    {ol oc : Nat} (hl1 : (m.generated.line - 1).toNat = line) (hl2 : m.generated.column.toNat = gc)
    (hs : m.source = some s) (ho : m.original = some o) (h3 : (o.line - 1).toNat = ol)
    (h4 : o.column.toNat = oc) :
    toRaw S N m = ⟨line, gc, some ⟨S.idxOf s, ol, oc, m.name.map (fun n => N.idxOf n)⟩⟩ := by
  simp only [toRaw, hs, ho, hl1, hl2, h3, h4]

theorem toRaw_column {S N : List String} (m : Mapping) : (toRaw S N m).column = m.generated.column.toNat := by
  unfold toRaw; split <;> rfl

theorem toRaw_line {S N : List String} (m : Mapping) : (toRaw S N m).line = (m.generated.line - 1).toNat := by
  unfold toRaw; split <;> rfl

theorem segmentText_spec {B : Nat} (cfg : Cfg) (hB : B ≤ cfg.vlqLimit) {S N : ArraySet} (hS : S.Inv) (hN : N.Inv)
    (hSl : S.array.length < B) (hNl : N.array.length < B) {m : Mapping}
    (hm : m.Writable cfg) (hmc : m.generated.column < B)
    (hmo : ∀ s o, m.source = some s → m.original = some o → o.line ≤ B ∧ o.column < B) (hk : Known S N m) {st : SerState}
    {d : DState} {col : Nat}
    (ha : Agree B st d col) (line : Nat) (hline : (line : Int) + 1 = m.generated.line) :
    ∃ seg st' d', segmentText cfg S N st m = .ok (seg, st') ∧ seg ≠ [] ∧ ',' ∉ seg ∧ ';' ∉ seg ∧
      decodeSegment line col d seg = some (toRaw S.array N.array m, d') ∧
      Agree B st' d' (toRaw S.array N.array m).column ∧ st'.generatedLine = st.generatedLine ∧
      ∀ seg' d'', decodeSegment line col d seg' = some (toRaw S.array N.array m, d'') →
        seg.length ≤ seg'.length ∧ d'' = d' := by
  obtain ⟨gc, hgc⟩ : ∃ gc : Nat, m.generated.column = gc := ⟨m.generated.column.toNat, by have := hm.column; omega⟩
  have hgcb : gc < B := by omega
  have bgc := delta_bound (Nat.le_trans hB cfg.vlqLimit_le) gc col hgcb ha.bgc
  have hl1 : (m.generated.line - 1).toNat = line := by omega
  have hl2 : m.generated.column.toNat = gc := by omega
  rcases Option.eq_none_or_eq_some m.source with hs | ⟨s, hs⟩
  · rw [toRaw_none hl1 hl2 hs]
    have hf : originalFields cfg S N { st with generatedColumn := gc } m =
        .ok ([], { st with generatedColumn := gc }) := by simp only [originalFields, hs, Res.pure_eq]
    have he : encU (signed ((gc : Int) - col)) ++ [] = encAll [(gc : Int) - col] := by
      simp [encAll]
    refine ⟨encAll [(gc : Int) - col], { st with generatedColumn := gc }, d,
      he ▸ segmentText_eq cfg hB st hgc hgcb ha.bgc ha.gc hf, ?_, encAll_comma _, encAll_semi _,
      decodeSegment_one (decodeFields_encAll _ (by simpa using bgc)) (offset_eq (Nat.le_trans hB cfg.vlqLimit_le) col gc hgcb), ?_, rfl,
      fun _ _ h => segment_shortest h⟩
    · simp [encAll_cons, encU_ne_nil]
    · exact ⟨rfl, ha.oc, ha.ol, ha.nm, ha.sr, hgcb, ha.boc, ha.bol, ha.bnm, ha.bsr⟩
  · obtain ⟨o, ho, hr⟩ := hm.orig s hs
    have hr2 := hmo s o hs ho
    obtain ⟨ol, hol⟩ : ∃ ol : Nat, o.line - 1 = ol := ⟨(o.line - 1).toNat, by omega⟩
    obtain ⟨oc, hoc⟩ : ∃ oc : Nat, o.column = oc := ⟨o.column.toNat, by omega⟩
    have hmem := hk.1 s hs
    have hidx := indexOf_mem hS hmem
    have hidxb := List.idxOf_lt_length_of_mem hmem
    have holb : ol < B := by omega
    have hocb : oc < B := by omega
    have hol' : (o.line - 1).toNat = ol := by omega
    have hoc' : o.column.toNat = oc := by omega
    rw [toRaw_some hl1 hl2 hs ho hol' hoc']
    generalize S.array.idxOf s = si at hidx hidxb ⊢
    have hsib : si < B := Nat.lt_trans hidxb hSl
    have bsi := delta_bound (Nat.le_trans hB cfg.vlqLimit_le) si d.source hsib ha.bsr
    have bol := delta_bound (Nat.le_trans hB cfg.vlqLimit_le) ol d.line holb ha.bol
    have boc := delta_bound (Nat.le_trans hB cfg.vlqLimit_le) oc d.column hocb ha.boc
    clear hmo hr hr2 hmc
    have F := fun (t : Text) (st' : SerState) h =>
      segmentText_eq cfg hB st hgc hgcb ha.bgc ha.gc
        (originalFields_some cfg hB { st with generatedColumn := gc } hs ho hol hoc hidx hsib ha.bsr
          holb ha.bol hocb ha.boc ha.sr ha.ol ha.oc (N := N) (t := t) (st' := st') h)
    rcases Option.eq_none_or_eq_some m.name with hn | ⟨n, hn⟩
    · have F' := F _ _ (nameField_none cfg N _ hn)
      rw [hn]
      refine ⟨encAll [(gc : Int) - col, (si : Int) - d.source, (ol : Int) - d.line, (oc : Int) - d.column],
        { st with generatedColumn := gc, source := si, originalLine := ol, originalColumn := oc },
        { d with source := si, line := ol, column := oc }, ?_, ?_, encAll_comma _,
        encAll_semi _, decodeSegment_four (decodeFields_encAll _ ?_) (offset_eq (Nat.le_trans hB cfg.vlqLimit_le) col gc hgcb)
          (offset_eq (Nat.le_trans hB cfg.vlqLimit_le) d.source si hsib) (offset_eq (Nat.le_trans hB cfg.vlqLimit_le) d.line ol holb) (offset_eq (Nat.le_trans hB cfg.vlqLimit_le) d.column oc hocb),
        ?_, ?_, fun _ _ h => segment_shortest h⟩
      · rw [F']
        simp only [encAll, List.map_cons, List.map_nil, List.flatten_cons, List.flatten_nil,
          List.append_nil, List.append_assoc]
      · simp [encAll_cons, encU_ne_nil]
      · simp only [List.forall_mem_cons]
        exact ⟨bgc, bsi, bol, boc, by simp⟩
      · exact ⟨rfl, rfl, rfl, ha.nm, rfl, hgcb, hocb, holb, ha.bnm, hsib⟩
      · rfl
    · have hmemn := hk.2 n hn
      have hidxn := indexOf_mem hN hmemn
      have hidxnb := List.idxOf_lt_length_of_mem hmemn
      rw [hn, Option.map_some]
      generalize N.array.idxOf n = ni at hidxn hidxnb ⊢
      have hnib : ni < B := Nat.lt_trans hidxnb hNl
      have bni := delta_bound (Nat.le_trans hB cfg.vlqLimit_le) ni d.name hnib ha.bnm
      have F' := F _ _ (nameField_some cfg hB _ hn hidxn hnib ha.bnm ha.nm)
      refine ⟨encAll [(gc : Int) - col, (si : Int) - d.source, (ol : Int) - d.line, (oc : Int) - d.column,
          (ni : Int) - d.name],
        { st with generatedColumn := gc, source := si, originalLine := ol, originalColumn := oc, name := ni },
        ⟨si, ol, oc, ni⟩, ?_, ?_, encAll_comma _,
        encAll_semi _, decodeSegment_five (decodeFields_encAll _ ?_) (offset_eq (Nat.le_trans hB cfg.vlqLimit_le) col gc hgcb)
          (offset_eq (Nat.le_trans hB cfg.vlqLimit_le) d.source si hsib) (offset_eq (Nat.le_trans hB cfg.vlqLimit_le) d.line ol holb) (offset_eq (Nat.le_trans hB cfg.vlqLimit_le) d.column oc hocb)
          (offset_eq (Nat.le_trans hB cfg.vlqLimit_le) d.name ni hnib),
        ?_, ?_, fun _ _ h => segment_shortest h⟩
      · rw [F']
        simp only [encAll, List.map_cons, List.map_nil, List.flatten_cons, List.flatten_nil,
          List.append_nil, List.append_assoc]
      · simp [encAll_cons, encU_ne_nil]
      · simp only [List.forall_mem_cons]
        exact ⟨bgc, bsi, bol, boc, bni, by simp⟩
      · exact ⟨rfl, rfl, rfl, rfl, rfl, hgcb, hocb, holb, hnib, hsib⟩
      · rfl

instance (a b : Mapping) : Decidable (SameKey a b) := by unfold SameKey; infer_instance

/-- Drop every mapping that repeats its predecessor. -/
def dropRepeats : Option Mapping → List Mapping → List Mapping
  | _, [] => []
  | none, m :: ms => m :: dropRepeats (some m) ms
  | some p, m :: ms => if SameKey m p then dropRepeats (some m) ms else m :: dropRepeats (some m) ms

theorem Mapping.Encodable.valid {m : Mapping} {cfg : Cfg} (h : m.Encodable cfg) : m.Valid := by
  have := cfg.vlqLimit_le
  refine ⟨?_, ?_, h.orig, ?_⟩
  · have := h.line; omega
  · have := h.column; omega
  · intro p hp; have := h.range p hp; omega

theorem Mapping.Encodable.writable {m : Mapping} {cfg : Cfg} (h : m.Encodable cfg) : m.Writable cfg := by
  refine ⟨h.line, h.column, fun s hs => ?_⟩
  obtain ⟨o, ho⟩ : ∃ o, m.original = some o := by
    have := h.orig; rw [hs] at this; simpa [Option.isSome_iff_exists] using this
  exact ⟨o, ho, h.range o ho⟩

theorem Mapping.Writable.columnN {m : Mapping} {cfg : Cfg} (h : m.Writable cfg) :
    m.generated.column < (cfg.vlqLimit : Int) := h.column.2

theorem Mapping.Writable.rangeN {m : Mapping} {cfg : Cfg} (h : m.Writable cfg) :
    ∀ s o, m.source = some s → m.original = some o →
      o.line ≤ (cfg.vlqLimit : Int) ∧ o.column < (cfg.vlqLimit : Int) := by
  intro s o hs ho
  obtain ⟨o', ho', hr⟩ := h.orig s hs
  rw [ho] at ho'; cases ho'
  exact ⟨hr.2.2.1, hr.2.2.2.2⟩

/-- The comparison returns on any two of these mappings, and is the documented order. -/
def Comparable (cfg : Cfg) (ms : List Mapping) : Prop :=
  ∀ a ∈ ms, ∀ b ∈ ms, compareByGeneratedPosInflated cfg a b = .ok (cmpVal a b)

theorem Comparable.tail {cfg : Cfg} {m : Mapping} {ms : List Mapping} (h : Comparable cfg (m :: ms)) :
    Comparable cfg ms := fun a ha b hb => h a (by simp [ha]) b (by simp [hb])

theorem comparable_encodable {cfg : Cfg} {ms : List Mapping} (h : ∀ m ∈ ms, m.Encodable cfg) :
    Comparable cfg ms := fun a ha b hb => compare_eq_cmpVal cfg (h a ha).valid (h b hb).valid

theorem serializeLoop_mid (cfg : Cfg) {S N : ArraySet} (hS : S.Inv) (hN : N.Inv)
    {B : Nat} (hB : B = cfg.vlqLimit)
    (hSl : S.array.length < B) (hNl : N.array.length < B) :
    ∀ (ms : List Mapping) (st : SerState) (d : DState) (p : Mapping), (p :: ms).Pairwise posLE →
      Comparable cfg (p :: ms) → p.Writable cfg → (∀ m ∈ ms, m.Writable cfg) → (∀ m ∈ ms, Known S N m) →
      st.generatedLine = p.generated.line → Agree B st d p.generated.column.toNat →
      ∃ t, serializeLoop cfg S N st (some p) ms = .ok t ∧
        decodeMid (p.generated.line - 1).toNat p.generated.column.toNat d t =
          some ((dropRepeats (some p) ms).map (toRaw S.array N.array)) ∧
        ∀ t', decodeMid (p.generated.line - 1).toNat p.generated.column.toNat d t' =
          some ((dropRepeats (some p) ms).map (toRaw S.array N.array)) → t.length ≤ t'.length := by
  intro ms
  induction ms with
  | nil => intro st d p _ _ _ _ _ _ _; exact ⟨[], rfl, rfl, fun _ _ => Nat.zero_le _⟩
  | cons m ms ih =>
    intro st d p hpw hcp hp hms hks hline ha
    have hm := hms m (by simp)
    have hpm : posLE p m := by
      have := (List.pairwise_cons.1 hpw).1 m (by simp); exact this
    have hpw' := (List.pairwise_cons.1 hpw).2
    have hms' : ∀ x ∈ ms, x.Writable cfg := fun x hx => hms x (by simp [hx])
    have hks' : ∀ x ∈ ms, Known S N x := fun x hx => hks x (by simp [hx])
    have hml := hm.line
    have hpl := hp.line
    obtain ⟨line, hl⟩ : ∃ line : Nat, (line : Int) + 1 = m.generated.line :=
      ⟨(m.generated.line - 1).toNat, by omega⟩
    by_cases hne : m.generated.line = st.generatedLine
    · -- same line
      have hcmp := hcp m (by simp) p (by simp)
      have hpline : (p.generated.line - 1).toNat = line := by omega
      by_cases hsk : SameKey m p
      · have hc0 := (cmpVal_eq_zero m p).2 hsk
        obtain ⟨t, ht1, ht2, ht3⟩ := ih st d m hpw' hcp.tail hm hms' hks' (by omega) (by rw [hsk.1]; exact ha)
        refine ⟨t, ?_, ?_, ?_⟩
        · simp only [serializeLoop, serializeStep, hne, ne_eq, not_true_eq_false, if_false, hcmp, hc0,
            Res.ok_bind, if_true, Res.pure_eq, ht1, List.nil_append]
        · simp only [dropRepeats, hsk, if_true]
          rw [← ht2, hsk.1]
        · simp only [dropRepeats, hsk, if_true]
          rw [← hsk.1]
          exact ht3
      · have hc0 : cmpVal m p ≠ 0 := fun h => hsk ((cmpVal_eq_zero m p).1 h)
        obtain ⟨seg, st', d', g1, g2, g3, g4, g5, g6, g7, g8⟩ := segmentText_spec cfg (Nat.le_of_eq hB) hS hN hSl hNl hm
          (hB ▸ hm.columnN) (hB ▸ hm.rangeN)
          (hks m (by simp)) ha line hl
        obtain ⟨t, ht1, ht2, ht3⟩ := ih st' d' m hpw' hcp.tail hm hms' hks' (by omega) g6
        have hrc : (toRaw S.array N.array m).column = m.generated.column.toNat := toRaw_column m
        have hrl : (toRaw S.array N.array m).line = line := by rw [toRaw_line]; omega
        refine ⟨',' :: (seg ++ t), ?_, ?_, ?_⟩
        · simp only [serializeLoop, serializeStep, hne, ne_eq, not_true_eq_false, if_false, hcmp, hc0,
            Res.ok_bind, Res.pure_eq, g1, ht1, List.cons_append]
        · simp only [dropRepeats, hsk, if_false, List.map_cons]
          rw [hpline]
          apply decode_comma_segment g3 g4 g5
          rw [← ht2]
          congr 1
          omega
        · simp only [dropRepeats, hsk, if_false, List.map_cons]
          intro t' ht'
          rw [hpline] at ht'
          rcases decodeMid_inv ht' with ⟨_, seg', t'', d1, rfl, k1, k2⟩ | ⟨k, _⟩
          · obtain ⟨k3, rfl⟩ := g8 _ _ k1
            have := ht3 t'' (by rw [show (m.generated.line - 1).toNat = line by omega, ← hrc]; exact k2)
            simp only [List.length_cons, List.length_append]
            omega
          · omega
    · -- a later line
      have hlt : p.generated.line < m.generated.line := by
        unfold posLE at hpm; omega
      have hadv := advanceLine_up cfg st.generatedLine m.generated.line (by unfold IsI32; omega)
        (by unfold IsI32; omega) (by omega)
      obtain ⟨seg, st', d', g1, g2, g3, g4, g5, g6, g7, g8⟩ := segmentText_spec cfg (Nat.le_of_eq hB) hS hN hSl hNl hm
          (hB ▸ hm.columnN) (hB ▸ hm.rangeN)
        (hks m (by simp)) (st := { st with generatedColumn := 0, generatedLine := m.generated.line })
        (d := d) (col := 0)
        ⟨rfl, ha.oc, ha.ol, ha.nm, ha.sr, by omega, ha.boc, ha.bol, ha.bnm, ha.bsr⟩ line hl
      obtain ⟨t, ht1, ht2, ht3⟩ := ih st' d' m hpw' hcp.tail hm hms' hks' (by rw [g7]) g6
      have hrc : (toRaw S.array N.array m).column = m.generated.column.toNat := toRaw_column m
      have hrl : (toRaw S.array N.array m).line = line := by rw [toRaw_line]; omega
      have hsk : ¬ SameKey m p := by
        intro h; have := h.1; rw [this] at hlt; omega
      obtain ⟨k, hk⟩ : ∃ k, (m.generated.line - st.generatedLine).toNat = k + 1 :=
        ⟨(m.generated.line - st.generatedLine).toNat - 1, by omega⟩
      refine ⟨List.replicate (m.generated.line - st.generatedLine).toNat ';' ++ (seg ++ t), ?_, ?_, ?_⟩
      · simp only [serializeLoop, serializeStep, ne_eq, hne, not_false_eq_true, if_true, hadv,
          Res.ok_bind, Res.pure_eq, g1, ht1, List.append_assoc]
      · simp only [dropRepeats, hsk, if_false, List.map_cons]
        rw [hk, decode_mid_semis]
        have : (p.generated.line - 1).toNat + (k + 1) = line := by omega
        rw [this]
        apply decode_start_segment g2 g3 g4 g5
        rw [← ht2]
        congr 1
        omega
      · simp only [dropRepeats, hsk, if_false, List.map_cons]
        intro t' ht'
        rcases decodeMid_inv ht' with ⟨k1, _⟩ | ⟨_, t1, rfl, k1⟩
        · omega
        · obtain ⟨t2, rfl, k2⟩ := decodeLines_skip k (by omega) k1
          rcases decodeLines_inv k2 with ⟨_, seg', t3, d1, rfl, k3, k4⟩ | ⟨k3, _⟩
          · rw [hrl] at k3 k4
            obtain ⟨k5, rfl⟩ := g8 _ _ k3
            have := ht3 t3 (by rw [show (m.generated.line - 1).toNat = line by omega, ← hrc]; exact k4)
            simp only [hk, List.length_cons, List.length_append, List.length_replicate]
            omega
          · omega

theorem serializeLoop_spec (cfg : Cfg) {S N : ArraySet} (hS : S.Inv) (hN : N.Inv)
    {B : Nat} (hB : B = cfg.vlqLimit)
    (hSl : S.array.length < B) (hNl : N.array.length < B) (ms : List Mapping)
    (hpw : ms.Pairwise posLE) (hcp : Comparable cfg ms) (hms : ∀ m ∈ ms, m.Writable cfg) (hks : ∀ m ∈ ms, Known S N m) :
    ∃ t, serializeLoop cfg S N SerState.init none ms = .ok t ∧
      decodeMappings t = some ((dropRepeats none ms).map (toRaw S.array N.array)) ∧
      ∀ t', decodeMappings t' = some ((dropRepeats none ms).map (toRaw S.array N.array)) → t.length ≤ t'.length := by
  cases ms with
  | nil => exact ⟨[], rfl, rfl, fun _ _ => Nat.zero_le _⟩
  | cons m ms =>
    have hm := hms m (by simp)
    have hms' : ∀ x ∈ ms, x.Writable cfg := fun x hx => hms x (by simp [hx])
    have hks' : ∀ x ∈ ms, Known S N x := fun x hx => hks x (by simp [hx])
    have hml := hm.line
    obtain ⟨line, hl⟩ : ∃ line : Nat, (line : Int) + 1 = m.generated.line :=
      ⟨(m.generated.line - 1).toNat, by omega⟩
    have hpos : 0 < B := by have := cfg.le_vlqLimit; omega
    obtain ⟨seg, st', d', g1, g2, g3, g4, g5, g6, g7, g8⟩ := segmentText_spec cfg (Nat.le_of_eq hB) hS hN hSl hNl hm
          (hB ▸ hm.columnN) (hB ▸ hm.rangeN)
      (hks m (by simp)) (st := { SerState.init with generatedLine := m.generated.line })
      (d := ⟨0, 0, 0, 0⟩) (col := 0)
      ⟨rfl, rfl, rfl, rfl, rfl, hpos, hpos, hpos, hpos, hpos⟩ line hl
    obtain ⟨t, ht1, ht2, ht3⟩ := serializeLoop_mid cfg hS hN hB hSl hNl ms st' d' m hpw hcp hm hms' hks'
      (by rw [g7]) g6
    have hdec : decodeLines line ⟨0, 0, 0, 0⟩ (splitOn ';' (seg ++ t)) =
        some ((dropRepeats none (m :: ms)).map (toRaw S.array N.array)) := by
      simp only [dropRepeats, List.map_cons]
      apply decode_start_segment g2 g3 g4 g5
      rw [← ht2]
      congr 1
      omega
    have hrc : (toRaw S.array N.array m).column = m.generated.column.toNat := toRaw_column m
    have hrl : (toRaw S.array N.array m).line = line := by rw [toRaw_line]; omega
    have hshort : ∀ t', decodeMappings t' = some ((dropRepeats none (m :: ms)).map (toRaw S.array N.array)) →
        line + (seg.length + t.length) ≤ t'.length := by
      simp only [dropRepeats, List.map_cons]
      intro t' ht'
      obtain ⟨t2, rfl, k2⟩ := decodeLines_skip line (by omega) ht'
      rcases decodeLines_inv k2 with ⟨_, seg', t3, d1, rfl, k3, k4⟩ | ⟨k3, _⟩
      · rw [hrl] at k3 k4
        obtain ⟨k5, rfl⟩ := g8 _ _ k3
        have := ht3 t3 (by rw [show (m.generated.line - 1).toNat = line by omega, ← hrc]; exact k4)
        simp only [List.length_append, List.length_replicate]
        omega
      · omega
    by_cases hne : m.generated.line = 1
    · refine ⟨seg ++ t, ?_, ?_, fun t' ht' => by have := hshort t' ht'; rw [List.length_append]; omega⟩
      · rw [hne] at g1
        have hinit : ({ SerState.init with generatedLine := 1 } : SerState) = SerState.init := rfl
        rw [hinit] at g1
        simp only [serializeLoop, serializeStep, hne, SerState.init, ne_eq, not_true_eq_false, if_false,
          Res.pure_eq]
        have g1' : segmentText cfg S N { generatedColumn := 0, generatedLine := 1, originalColumn := 0, originalLine := 0, name := 0, source := 0 } m = .ok (seg, st') := g1
        simp only [g1', Res.ok_bind, ht1]
      · unfold decodeMappings
        rw [← hdec]; congr 1; omega
    · have hadv := advanceLine_up cfg 1 m.generated.line (by decide)
        (by unfold IsI32; omega) (by omega)
      refine ⟨List.replicate (m.generated.line - 1).toNat ';' ++ (seg ++ t), ?_, ?_, fun t' ht' => by
        have := hshort t' ht'
        rw [List.length_append, List.length_append, List.length_replicate]; omega⟩
      · simp only [serializeLoop, serializeStep, SerState.init, ne_eq, hne, not_false_eq_true, if_true, hadv,
          Res.ok_bind, Res.pure_eq]
        have g1' : segmentText cfg S N { generatedColumn := 0, generatedLine := m.generated.line, originalColumn := 0, originalLine := 0, name := 0, source := 0 } m = .ok (seg, st') := g1
        simp only [g1', Res.ok_bind, ht1, List.append_assoc]
      · unfold decodeMappings
        rw [decode_semis, ← hdec]; congr 1; omega

end RSM
