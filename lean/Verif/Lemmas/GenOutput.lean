import Verif.Lemmas.GenHistory
import Verif.Lemmas.GenTotal
/-! # What the emitted segments say -/

namespace RSM

open Spec

theorem SameKey.refl (a : Mapping) : SameKey a a := ⟨rfl, rfl, rfl, rfl⟩
theorem SameKey.symm {a b : Mapping} (h : SameKey a b) : SameKey b a :=
  ⟨h.1.symm, h.2.1.symm, h.2.2.1.symm, h.2.2.2.symm⟩
theorem SameKey.trans {a b c : Mapping} (h : SameKey a b) (k : SameKey b c) : SameKey a c :=
  ⟨h.1.trans k.1, h.2.1.trans k.2.1, h.2.2.1.trans k.2.2.1, h.2.2.2.trans k.2.2.2⟩

theorem getElem?_idxOf {l : List String} {s : String} (h : s ∈ l) : l[l.idxOf s]? = some s := by
  rw [List.getElem?_eq_getElem (List.idxOf_lt_length_of_mem h), List.getElem_idxOf]

/-- What is emitted for a mapping denotes it. -/
theorem denotes_toRaw {S N : ArraySet} {m : Mapping} (hm : m.Encodable cfg) (hk : Known S N m) :
    Denotes S.array N.array (toRaw S.array N.array m) m := by
  have hl := hm.line
  have hc := hm.column
  have hpos : ∀ (p : Position) (a b : Int), p.line = a → p.column = b → p = ⟨a, b⟩ := by
    intro p a b h1 h2; cases p; simp_all
  unfold Denotes toRaw
  refine ⟨hpos _ _ _ (by simp only; omega) (by simp only; omega), ?_⟩
  rcases Option.eq_none_or_eq_some m.source with hs | ⟨s, hs⟩
  · have ho : m.original = none := by
      have := hm.orig; rw [hs] at this; simpa using this
    rw [hs]
    exact ⟨ho, rfl, hm.name hs⟩
  · obtain ⟨o, ho⟩ : ∃ o, m.original = some o := by
      have := hm.orig; rw [hs] at this; simpa [Option.isSome_iff_exists] using this
    have hr := hm.range o ho
    rw [hs, ho]
    refine ⟨?_, ⟨s, getElem?_idxOf (hk.1 s hs), rfl⟩, ?_⟩
    · rw [hpos o _ _ rfl rfl]; congr 2 <;> (simp only; omega)
    · rcases Option.eq_none_or_eq_some m.name with hn | ⟨n, hn⟩
      · simp [hn]
      · simp only [hn, Option.map_some]
        exact ⟨n, getElem?_idxOf (hk.2 n hn), rfl⟩

/-- A segment denotes at most one mapping, up to the compared fields. -/
theorem denotes_sameKey {S N : List String} {r : RawMapping} {a b : Mapping}
    (ha : Denotes S N r a) (hb : Denotes S N r b) : SameKey a b := by
  obtain ⟨a1, a2⟩ := ha
  obtain ⟨b1, b2⟩ := hb
  cases ho : r.original with
  | none =>
    rw [ho] at a2 b2
    exact ⟨a1.trans b1.symm, a2.2.1.trans b2.2.1.symm, a2.1.trans b2.1.symm, a2.2.2.trans b2.2.2.symm⟩
  | some o =>
    rw [ho] at a2 b2
    obtain ⟨a2, ⟨s, a3, a4⟩, a5⟩ := a2
    obtain ⟨b2, ⟨s', b3, b4⟩, b5⟩ := b2
    have hs : s = s' := by rw [a3] at b3; simpa using b3
    subst hs
    refine ⟨a1.trans b1.symm, a4.trans b4.symm, a2.trans b2.symm, ?_⟩
    cases hn : o.name with
    | none => rw [hn] at a5 b5; exact a5.trans b5.symm
    | some n =>
      rw [hn] at a5 b5
      obtain ⟨t, a6, a7⟩ := a5
      obtain ⟨t', b6, b7⟩ := b5
      have ht : t = t' := by rw [a6] at b6; simpa using b6
      subst ht
      exact a7.trans b7.symm

theorem dropRepeats_sublist : ∀ (ms : List Mapping) (p : Option Mapping), (dropRepeats p ms).Sublist ms := by
  intro ms
  induction ms with
  | nil => intro p; cases p <;> simp [dropRepeats]
  | cons m ms ih =>
    intro p
    cases p with
    | none => simp only [dropRepeats]; exact (ih _).cons_cons m
    | some p =>
      simp only [dropRepeats]
      split
      · exact (ih _).cons m
      · exact (ih _).cons_cons m

theorem dropRepeats_covers : ∀ (ms : List Mapping) (p : Option Mapping), ∀ m ∈ ms,
    (∃ m' ∈ dropRepeats p ms, SameKey m m') ∨ ∃ q, p = some q ∧ SameKey m q := by
  intro ms
  induction ms with
  | nil => intro p m hm; cases hm
  | cons x ms ih =>
    intro p m hm
    have step : ∀ l, dropRepeats p (x :: ms) = l → (x ∈ l ∨ ∃ q, p = some q ∧ SameKey x q) →
        (∀ y ∈ dropRepeats (some x) ms, y ∈ l) →
        (∃ m' ∈ l, SameKey m m') ∨ ∃ q, p = some q ∧ SameKey m q := by
      intro l _ hx hsub
      rcases List.mem_cons.1 hm with rfl | hm
      · rcases hx with hx | hx
        · exact .inl ⟨m, hx, SameKey.refl m⟩
        · exact .inr hx
      · rcases ih (some x) m hm with ⟨m', h1, h2⟩ | ⟨q, h1, h2⟩
        · exact .inl ⟨m', hsub m' h1, h2⟩
        · cases h1
          rcases hx with hx | ⟨q, h3, h4⟩
          · exact .inl ⟨x, hx, h2⟩
          · exact .inr ⟨q, h3, h2.trans h4⟩
    cases p with
    | none => exact step _ rfl (by simp [dropRepeats]) (by intro y hy; simp [dropRepeats, hy])
    | some p =>
      by_cases hsk : SameKey x p
      · exact step _ rfl (.inr ⟨p, rfl, hsk⟩) (by intro y hy; simpa [dropRepeats, hsk] using hy)
      · exact step _ rfl (.inl (by simp [dropRepeats, hsk])) (by intro y hy; simp [dropRepeats, hsk, hy])

/-- Neighbours satisfy `R`. -/
def Neighbours {α : Type} (R : α → α → Prop) (l : List α) : Prop :=
  ∀ i a b, l[i]? = some a → l[i + 1]? = some b → R a b

theorem neighbours_cons_cons {α : Type} {R : α → α → Prop} {a b : α} {l : List α} (h : R a b)
    (hl : Neighbours R (b :: l)) : Neighbours R (a :: b :: l) := by
  intro i x y hx hy
  cases i with
  | zero =>
    simp only [List.getElem?_cons_zero, Option.some.injEq] at hx
    simp only [Nat.zero_add, List.getElem?_cons_succ, List.getElem?_cons_zero, Option.some.injEq] at hy
    subst hx; subst hy; exact h
  | succ i =>
    rw [List.getElem?_cons_succ] at hx hy
    exact hl i x y hx hy

theorem neighbours_tail {α : Type} {R : α → α → Prop} {a : α} {l : List α}
    (h : Neighbours R (a :: l)) : Neighbours R l := by
  intro i x y hx hy
  exact h (i + 1) x y (by simpa using hx) (by simpa using hy)

theorem neighbours_single {α : Type} {R : α → α → Prop} (a : α) : Neighbours R [a] := by
  intro i x y _ hy; simp at hy

theorem dropRepeats_neighbours : ∀ (ms : List Mapping) (p q : Mapping), SameKey p q →
    Neighbours (fun a b => ¬ SameKey a b) (q :: dropRepeats (some p) ms) := by
  intro ms
  induction ms with
  | nil => intro p q _; simp only [dropRepeats]; exact neighbours_single q
  | cons m ms ih =>
    intro p q hpq
    simp only [dropRepeats]
    split
    · rename_i h
      exact ih m q (h.trans hpq)
    · rename_i h
      refine neighbours_cons_cons ?_ (ih m m (SameKey.refl m))
      intro hc
      exact h (hc.symm.trans hpq.symm)

theorem dropRepeats_none_neighbours (ms : List Mapping) :
    Neighbours (fun a b => ¬ SameKey a b) (dropRepeats none ms) := by
  cases ms with
  | nil => intro i a b ha; simp [dropRepeats] at ha
  | cons m ms => exact dropRepeats_neighbours ms m m (SameKey.refl m)

theorem dropRepeats_eq_self : ∀ (ms : List Mapping) (p : Option Mapping),
    ms.Pairwise (fun a b => ¬ SameKey a b) → (∀ q, p = some q → ∀ m ∈ ms, ¬ SameKey m q) →
    dropRepeats p ms = ms := by
  intro ms
  induction ms with
  | nil => intro p _ _; cases p <;> rfl
  | cons m ms ih =>
    intro p hpw hp
    have h1 := (List.pairwise_cons.1 hpw).1
    have hr := ih (some m) (List.pairwise_cons.1 hpw).2 (by
      intro q hq x hx; cases hq; intro hc; exact h1 x hx hc.symm)
    cases p with
    | none => simp only [dropRepeats, hr]
    | some q =>
      have : ¬ SameKey m q := hp q rfl m (by simp)
      simp only [dropRepeats, this, if_false, hr]

theorem toRaw_posLE {S N : List String} {a b : Mapping} (ha : a.Encodable cfg) (hb : b.Encodable cfg)
    (h : posLE a b) : (toRaw S N a).line < (toRaw S N b).line ∨
      ((toRaw S N a).line = (toRaw S N b).line ∧ (toRaw S N a).column ≤ (toRaw S N b).column) := by
  have := ha.line; have := hb.line; have := ha.column; have := hb.column
  unfold posLE at h
  simp only [toRaw]
  omega

/-- The emitted text in terms of the mappings of a history: the array of the mappings list, an ordering of the added
mappings by generated position, with repeats of the predecessor dropped, is what it decodes to. -/
theorem output_array {U : UrlLib} {cfg : Cfg} {file root : Option String} {skip : Bool} {ops : List GOp}
    {g g' : Generator} {j : SourceMapJson} (henc : ∀ m ∈ gAdded ops, m.Encodable cfg)
    (hS : (firstOccurrences ((gAdded ops).filterMap Mapping.source)).length < cfg.vlqLimit)
    (hN : (firstOccurrences ((gAdded ops).filterMap Mapping.name)).length < cfg.vlqLimit)
    (h : (Generator.new file root skip).run U cfg ops = .ok g) (hj : g.asJson U cfg = .ok (j, g')) :
    ∃ S N out t l, g.mappings.toArray cfg = .ok (out, l) ∧ S.Inv ∧ N.Inv ∧
      j.sources = some S.array ∧ j.names = some N.array ∧
      j.mappings = some (String.ofList t) ∧
      (∀ m ∈ out, Known S N m) ∧ out.Perm (gAdded ops) ∧ out.Pairwise posLE ∧
      decodeMappings t = some ((dropRepeats none out).map (toRaw S.array N.array)) ∧
      ∀ t', decodeMappings t' = decodeMappings t → t.length ≤ t'.length := by
  obtain ⟨_, _, h3, h4, h5, _⟩ := gRun_new h
  obtain ⟨sc, out, l, t, _, k2, k3, _, rfl⟩ := asJson_ok hj
  have hperm := toArray_perm cfg k2
  have hrun := run_perm cfg _ _ _ h3
  rw [added_mlOps] at hrun
  have hp : out.Perm (gAdded ops) := hperm.1.trans (by simpa [MappingList.new] using hrun)
  have hv : ∀ m ∈ added (mlOps ops), m.Valid := by
    rw [added_mlOps]; intro m hm; exact (henc m hm).valid
  obtain ⟨l1, r1, r2⟩ := run_valid cfg (mlOps ops) MappingList.new MappingList.inv_new hv
  rw [h3] at r1; cases r1
  obtain ⟨out', l', r3, _, _, _, r4, _⟩ := toArray_valid cfg r2
  rw [k2] at r3; cases r3
  have iS := tableOf_inv ((gAdded ops).filterMap Mapping.source)
  have iN := tableOf_inv ((gAdded ops).filterMap Mapping.name)
  rw [← h4] at iS
  rw [← h5] at iN
  have hk : ∀ m ∈ out, Known g.sources g.names m := by
    intro m hm
    have hm' := hp.mem_iff.1 hm
    rw [h4, h5]
    refine ⟨?_, ?_⟩
    · intro s hs
      rw [tableOf_array, mem_firstOccurrences, List.mem_filterMap]
      exact ⟨m, hm', hs⟩
    · intro s hs
      rw [tableOf_array, mem_firstOccurrences, List.mem_filterMap]
      exact ⟨m, hm', hs⟩
  have hS' : g.sources.array.length < cfg.vlqLimit := by rw [h4, tableOf_array]; exact hS
  have hN' : g.names.array.length < cfg.vlqLimit := by rw [h5, tableOf_array]; exact hN
  obtain ⟨t', e1, e2, e3⟩ := serializeLoop_spec cfg iS iN rfl hS' hN' out r4
    (comparable_encodable fun m hm => henc m (hp.mem_iff.1 hm)) (fun m hm => (henc m (hp.mem_iff.1 hm)).writable) hk
  rw [k3] at e1; cases e1
  exact ⟨g.sources, g.names, out, t, l, k2, iS, iN, rfl, rfl, rfl, hk, hp, r4, e2, fun t' ht' => e3 t' (ht'.trans e2)⟩

/-- The same without saying which ordering. -/
theorem output_spec {U : UrlLib} {cfg : Cfg} {file root : Option String} {skip : Bool} {ops : List GOp}
    {g g' : Generator} {j : SourceMapJson} (henc : ∀ m ∈ gAdded ops, m.Encodable cfg)
    (hS : (firstOccurrences ((gAdded ops).filterMap Mapping.source)).length < cfg.vlqLimit)
    (hN : (firstOccurrences ((gAdded ops).filterMap Mapping.name)).length < cfg.vlqLimit)
    (h : (Generator.new file root skip).run U cfg ops = .ok g) (hj : g.asJson U cfg = .ok (j, g')) :
    ∃ S N out t, S.Inv ∧ N.Inv ∧
      j.sources = some S.array ∧ j.names = some N.array ∧
      j.mappings = some (String.ofList t) ∧
      (∀ m ∈ out, Known S N m) ∧ out.Perm (gAdded ops) ∧ out.Pairwise posLE ∧
      decodeMappings t = some ((dropRepeats none out).map (toRaw S.array N.array)) := by
  obtain ⟨S, N, out, t, _, _, h1, h2, h3, h4, h5, h6, h7, h8, h9, _⟩ := output_array henc hS hN h hj
  exact ⟨S, N, out, t, h1, h2, h3, h4, h5, h6, h7, h8, h9⟩

theorem generateSourcesContents_congr {U : UrlLib} {g g' : Generator} {root : Option String}
    (h : g.sourceContents = g'.sourceContents) (ss : List String) :
    g.generateSourcesContents U root ss = g'.generateSourcesContents U root ss := by
  induction ss with
  | nil => rfl
  | cons s ss ih => simp only [Generator.generateSourcesContents, Generator.contentOf, h, ih]

theorem sourcesContent_congr {U : UrlLib} {g g' : Generator} (h : g.sourceContents = g'.sourceContents)
    (h1 : g.sourceRoot = g'.sourceRoot) (h2 : g.sources = g'.sources) :
    g.sourcesContent U = g'.sourcesContent U := by
  simp only [Generator.sourcesContent, h, h1, h2, generateSourcesContents_congr h]

/-- The contents found, given the keys. -/
theorem generateSourcesContents_eq {U : UrlLib} {g : Generator} {root : Option String}
    (key : String → String) (ss : List String)
    (hkey : ∀ s ∈ ss, Generator.contentKey U root s = .ok (key s)) :
    g.generateSourcesContents U root ss = .ok (ss.map fun s => g.sourceContents.get? (key s)) := by
  induction ss with
  | nil => rfl
  | cons s ss ih =>
    simp only [Generator.generateSourcesContents, Generator.contentOf, hkey s (by simp), Res.ok_bind,
      Res.pure_eq, ih (fun x hx => hkey x (by simp [hx])), List.map_cons]

theorem sourcesContent_eq {U : UrlLib} {g : Generator} (key : String → String)
    (hkey : ∀ s ∈ g.sources.array, Generator.contentKey U g.sourceRoot s = .ok (key s)) :
    g.sourcesContent U = .ok (if g.sourceContents.isEmpty then none
      else some (g.sources.array.filterMap fun s => g.sourceContents.get? (key s))) := by
  unfold Generator.sourcesContent
  cases g.sourceContents.isEmpty with
  | true => rfl
  | false =>
    simp only [Bool.not_false, if_true, ArraySet.toVec, generateSourcesContents_eq key _ hkey,
      Res.ok_bind, Res.pure_eq, List.filterMap_map]
    rfl

theorem HMap.isEmpty_iff {α β : Type} [DecidableEq α] (m : HMap α β) :
    m.isEmpty = true ↔ ∀ k, m.get? k = none := by
  unfold HMap.isEmpty HMap.get?
  cases h : m.entries with
  | nil => simp
  | cons e l =>
    simp only [List.isEmpty_cons, Bool.false_eq_true, false_iff]
    intro hk
    have := hk e.1
    rw [List.lookup_cons] at this
    simp at this

/-- The content given by the latest call for a source with the same key. -/
def latestContent (key : String → String) (s : String) (ops : List GOp) : Option String :=
  ops.foldl (fun acc op => match op with
    | .setContent t c => if key t = key s then c else acc
    | _ => acc) none

theorem contentsRun_eq {U : UrlLib} {root : Option String} (key : String → String) (s : String) :
    ∀ (ops : List GOp) (c c' : HMap String String),
    (∀ t v, GOp.setContent t v ∈ ops → Generator.contentKey U root t = .ok (key t)) →
    contentsRun U root c ops = .ok c' →
    c'.get? (key s) = ops.foldl (fun acc op => match op with
      | .setContent t c => if key t = key s then c else acc
      | _ => acc) (c.get? (key s)) := by
  intro ops
  induction ops with
  | nil => intro c c' _ h; cases h; rfl
  | cons op ops ih =>
    intro c c' hk h
    have hk' : ∀ t v, GOp.setContent t v ∈ ops → Generator.contentKey U root t = .ok (key t) :=
      fun t v hv => hk t v (by simp [hv])
    cases op with
    | add m => exact ih c c' hk' h
    | asJson => exact ih c c' hk' h
    | setContent t v =>
      simp only [contentsRun, hk t v (by simp), Res.ok_bind] at h
      rw [ih _ c' hk' h, List.foldl_cons]
      congr 1
      cases v with
      | none =>
        simp only [setContents, HMap.get?_remove, eq_comm]
      | some v =>
        simp only [setContents, HMap.get?_insert, eq_comm]

/-- A key present in the map was put there by a call. -/
theorem contentsRun_keys {U : UrlLib} {root : Option String} (key : String → String) :
    ∀ (ops : List GOp) (c c' : HMap String String),
    (∀ t v, GOp.setContent t v ∈ ops → Generator.contentKey U root t = .ok (key t)) →
    contentsRun U root c ops = .ok c' → ∀ k, c'.get? k ≠ none →
    c.get? k ≠ none ∨ ∃ t v, GOp.setContent t v ∈ ops ∧ key t = k := by
  intro ops
  induction ops with
  | nil => intro c c' _ h; cases h; intro k hk; exact .inl hk
  | cons op ops ih =>
    intro c c' hk h k hc
    have hk' : ∀ t v, GOp.setContent t v ∈ ops → Generator.contentKey U root t = .ok (key t) :=
      fun t v hv => hk t v (by simp [hv])
    have lift : (∃ t v, GOp.setContent t v ∈ ops ∧ key t = k) →
        ∃ t v, GOp.setContent t v ∈ op :: ops ∧ key t = k := by
      rintro ⟨t, v, h1, h2⟩; exact ⟨t, v, by simp [h1], h2⟩
    cases op with
    | add m => exact (ih c c' hk' h k hc).imp_right lift
    | asJson => exact (ih c c' hk' h k hc).imp_right lift
    | setContent t v =>
      simp only [contentsRun, hk t v (by simp), Res.ok_bind] at h
      rcases ih _ c' hk' h k hc with h1 | h1
      · by_cases hkt : k = key t
        · exact .inr ⟨t, v, by simp, hkt.symm⟩
        · left
          cases v with
          | none => simpa only [setContents, HMap.get?_remove, hkt, if_false] using h1
          | some v => simpa only [setContents, HMap.get?_insert, hkt, if_false] using h1
      · exact .inr (lift h1)

/-- What `as_json` emits for the contents. -/
theorem content_output {U : UrlLib} {cfg : Cfg} {file root : Option String} {skip : Bool} {ops : List GOp}
    {g g' : Generator} {j : SourceMapJson} (key : String → String)
    (hkey1 : ∀ t v, GOp.setContent t v ∈ ops → Generator.contentKey U root t = .ok (key t))
    (hkey2 : ∀ m ∈ gAdded ops, ∀ s, m.source = some s → Generator.contentKey U root s = .ok (key s))
    (h : (Generator.new file root skip).run U cfg ops = .ok g) (hj : g.asJson U cfg = .ok (j, g')) :
    ((∃ s, latestContent key s ops ≠ none) → j.sourcesContent =
      some ((firstOccurrences ((gAdded ops).filterMap Mapping.source)).filterMap
        fun s => latestContent key s ops)) ∧
    ((∀ s, latestContent key s ops = none) → j.sourcesContent = none) := by
  obtain ⟨_, h2, _, h4, _, h6⟩ := gRun_new h
  obtain ⟨sc, _, _, _, k1, _, _, _, rfl⟩ := asJson_ok hj
  have hget : ∀ s, g.sourceContents.get? (key s) = latestContent key s ops :=
    fun s => contentsRun_eq key s ops _ _ hkey1 h6
  rw [sourcesContent_eq key (by
    rw [h2, h4, tableOf_array]
    intro s hs
    rw [mem_firstOccurrences, List.mem_filterMap] at hs
    obtain ⟨m, hm, hs⟩ := hs
    exact hkey2 m hm s hs)] at k1
  simp only [Except.ok.injEq] at k1
  subst k1
  constructor
  · rintro ⟨s, hs⟩
    have : g.sourceContents.isEmpty = false := by
      cases he : g.sourceContents.isEmpty with
      | false => rfl
      | true => exact absurd ((hget s).symm.trans ((HMap.isEmpty_iff _).1 he (key s))) hs
    simp only [this, Bool.false_eq_true, if_false, h4, tableOf_array]
    congr 2
    funext s
    exact hget s
  · intro hs
    have : g.sourceContents.isEmpty = true := by
      rw [HMap.isEmpty_iff]
      intro k
      cases hc : g.sourceContents.get? k with
      | none => rfl
      | some v =>
        rcases contentsRun_keys key ops _ _ hkey1 h6 k (by rw [hc]; simp) with h1 | ⟨t, w, _, rfl⟩
        · simp at h1
        · rw [hget, hs] at hc; cases hc
    simp only [this, if_true]

/-! ## Totality -/

theorem firstOccurrences_mono (l l' : List String) :
    (firstOccurrences l).length ≤ (firstOccurrences (l ++ l')).length := by
  induction l' generalizing l with
  | nil => simp
  | cons s l' ih =>
    have := ih (l ++ [s])
    rw [List.append_assoc] at this
    refine Nat.le_trans ?_ this
    rw [firstOccurrences_snoc]
    split
    · exact Nat.le_refl _
    · simp

theorem gRun_append {U : UrlLib} {cfg : Cfg} (a b : List GOp) (g g' : Generator)
    (h : g.run U cfg a = .ok g') : g.run U cfg (a ++ b) = g'.run U cfg b := by
  induction a generalizing g with
  | nil => cases h; rfl
  | cons op a ih =>
    simp only [Generator.run] at h
    rw [Res.bind_eq_ok] at h
    obtain ⟨g1, h1, h2⟩ := h
    simp only [List.cons_append, Generator.run, h1, Res.ok_bind]
    exact ih g1 h2

theorem gAdded_append (a b : List GOp) : gAdded (a ++ b) = gAdded a ++ gAdded b := by
  induction a with
  | nil => rfl
  | cons op a ih => cases op <;> simp [gAdded, ih]

/-- The mappings themselves can always be written. -/
theorem serialize_total {U : UrlLib} {cfg : Cfg} {file root : Option String} {skip : Bool} {ops : List GOp}
    {g : Generator}
    (hval : ∀ m ∈ gAdded ops, m.Valid ∧ 1 ≤ m.generated.line)
    (hS : (firstOccurrences ((gAdded ops).filterMap Mapping.source)).length < 2147483648)
    (hN : (firstOccurrences ((gAdded ops).filterMap Mapping.name)).length < 2147483648)
    (h : (Generator.new file root skip).run U cfg ops = .ok g) :
    ∃ out l t, g.mappings.toArray cfg = .ok (out, l) ∧
      serializeLoop cfg g.sources g.names SerState.init none out = .ok t := by
  obtain ⟨_, _, h3, h4, h5, _⟩ := gRun_new h
  have hv : ∀ m ∈ added (mlOps ops), m.Valid := by
    rw [added_mlOps]; intro m hm; exact (hval m hm).1
  obtain ⟨l1, r1, r2⟩ := run_valid cfg (mlOps ops) MappingList.new MappingList.inv_new hv
  rw [h3] at r1; cases r1
  obtain ⟨out, l', r3, _, _, rp, r4, _⟩ := toArray_valid cfg r2
  have hrun := run_perm cfg _ _ _ h3
  rw [added_mlOps] at hrun
  have hp : out.Perm (gAdded ops) := rp.trans (by simpa [MappingList.new] using hrun)
  have iS := tableOf_inv ((gAdded ops).filterMap Mapping.source)
  have iN := tableOf_inv ((gAdded ops).filterMap Mapping.name)
  rw [← h4] at iS
  rw [← h5] at iN
  have hk : ∀ m ∈ out, Known g.sources g.names m := by
    intro m hm
    have hm' := hp.mem_iff.1 hm
    rw [h4, h5]
    refine ⟨?_, ?_⟩
    · intro s hs
      rw [tableOf_array, mem_firstOccurrences, List.mem_filterMap]
      exact ⟨m, hm', hs⟩
    · intro s hs
      rw [tableOf_array, mem_firstOccurrences, List.mem_filterMap]
      exact ⟨m, hm', hs⟩
  have hS' : g.sources.array.length < 2147483648 := by rw [h4, tableOf_array]; exact hS
  have hN' : g.names.array.length < 2147483648 := by rw [h5, tableOf_array]; exact hN
  obtain ⟨t, e1⟩ := serializeLoop_total cfg iS iN hS' hN' out SerState.init none r4 (by simp)
    (fun m hm => (hval m (hp.mem_iff.1 hm)).1) hk ⟨by decide, by decide, by decide, by decide, by decide⟩ (by decide)
    (fun m hm => (hval m (hp.mem_iff.1 hm)).2)
  exact ⟨_, _, _, r3, e1⟩

theorem asJson_total {U : UrlLib} {cfg : Cfg} {file root : Option String} {skip : Bool} {ops : List GOp}
    {g : Generator} (key : String → String)
    (hkey2 : ∀ m ∈ gAdded ops, ∀ s, m.source = some s → Generator.contentKey U root s = .ok (key s))
    (hval : ∀ m ∈ gAdded ops, m.Valid ∧ 1 ≤ m.generated.line)
    (hS : (firstOccurrences ((gAdded ops).filterMap Mapping.source)).length < 2147483648)
    (hN : (firstOccurrences ((gAdded ops).filterMap Mapping.name)).length < 2147483648)
    (h : (Generator.new file root skip).run U cfg ops = .ok g) : ∃ j g', g.asJson U cfg = .ok (j, g') := by
  obtain ⟨_, h2, _, h4, _, _⟩ := gRun_new h
  obtain ⟨out, l, t, r3, e1⟩ := serialize_total hval hS hN h
  have hsc := sourcesContent_eq (U := U) (g := g) key (by
    rw [h2, h4, tableOf_array]
    intro s hs
    rw [mem_firstOccurrences, List.mem_filterMap] at hs
    obtain ⟨m, hm, hs⟩ := hs
    exact hkey2 m hm s hs)
  exact ⟨_, _, asJson_intro hsc r3 e1⟩

theorem gRun_total {U : UrlLib} {cfg : Cfg} {file root : Option String} {skip : Bool} (key : String → String) :
    ∀ (ops pre : List GOp) (g : Generator),
    (∀ t v, GOp.setContent t v ∈ ops → Generator.contentKey U root t = .ok (key t)) →
    (∀ m ∈ gAdded (pre ++ ops), ∀ s, m.source = some s → Generator.contentKey U root s = .ok (key s)) →
    (∀ m ∈ gAdded (pre ++ ops), m.Valid ∧ 1 ≤ m.generated.line) →
    (firstOccurrences ((gAdded (pre ++ ops)).filterMap Mapping.source)).length < 2147483648 →
    (firstOccurrences ((gAdded (pre ++ ops)).filterMap Mapping.name)).length < 2147483648 →
    (Generator.new file root skip).run U cfg pre = .ok g → ∃ g', g.run U cfg ops = .ok g' := by
  intro ops
  induction ops with
  | nil => intro pre g _ _ _ _ _ _; exact ⟨g, rfl⟩
  | cons op ops ih =>
    intro pre g hk1 hk2 hval hS hN hpre
    have hstep : ∃ g1, g.step U cfg op = .ok g1 := by
      cases op with
      | add m =>
        obtain ⟨_, _, h3, _⟩ := gRun_new hpre
        have hv : ∀ m ∈ added (mlOps pre), m.Valid := by
          rw [added_mlOps]; intro m hm; exact (hval m (by rw [gAdded_append]; simp [hm])).1
        obtain ⟨l1, r1, r2⟩ := run_valid cfg (mlOps pre) MappingList.new MappingList.inv_new hv
        rw [h3] at r1; cases r1
        obtain ⟨l', e, _⟩ := add_valid cfg r2 (hval m (by rw [gAdded_append]; simp [gAdded])).1
        exact ⟨_, by simp only [Generator.step, Generator.addMapping, e, Res.ok_bind, Res.pure_eq]; rfl⟩
      | setContent s c =>
        obtain ⟨_, h2, _⟩ := gRun_new hpre
        have hk := hk1 s c (by simp)
        cases c with
        | none =>
          exact ⟨_, by simp only [Generator.step, Generator.setSourceContent, h2, hk,
            Res.ok_bind, Res.pure_eq]; rfl⟩
        | some c =>
          exact ⟨_, by simp only [Generator.step, Generator.setSourceContent, h2, hk,
            Res.ok_bind, Res.pure_eq]; rfl⟩
      | asJson =>
        rw [gAdded_append, List.filterMap_append] at hS hN
        obtain ⟨j, g', e⟩ := asJson_total (U := U) (cfg := cfg) key
          (fun m hm => hk2 m (by rw [gAdded_append]; simp [hm]))
          (fun m hm => hval m (by rw [gAdded_append]; simp [hm]))
          (Nat.lt_of_le_of_lt (firstOccurrences_mono _ _) hS)
          (Nat.lt_of_le_of_lt (firstOccurrences_mono _ _) hN) hpre
        exact ⟨g', by simp only [Generator.step, e, Res.ok_bind, Res.pure_eq]⟩
    obtain ⟨g1, hg1⟩ := hstep
    have happ : pre ++ op :: ops = (pre ++ [op]) ++ ops := by simp
    rw [happ] at hk2 hval hS hN
    obtain ⟨g', e⟩ := ih (pre ++ [op]) g1 (fun t v hv => hk1 t v (by simp [hv])) hk2 hval hS hN (by
      rw [gRun_append pre [op] _ g hpre]
      simp only [Generator.run, hg1, Res.ok_bind])
    exact ⟨g', by simp only [Generator.run, hg1, Res.ok_bind, e]⟩

/-! ## Mappings with a source but no original position -/

/-- Coordinates are `i32`s, as the Rust type says. -/
structure Mapping.I32 (m : Mapping) : Prop where
  line : IsI32 m.generated.line
  column : IsI32 m.generated.column

/-- `a` agrees with `b` on everything but the original position, and has one. -/
def Shadows (a b : Mapping) : Prop :=
  a.generated = b.generated ∧ a.source = b.source ∧ a.name = b.name ∧ a.original.isSome = true

theorem arith_sub_zero {cfg : Cfg} {a b : Int} (ha : IsI32 a) (hb : IsI32 b)
    (h : cfg.arith (a - b) = .ok 0) : a = b := by
  unfold Cfg.arith at h
  split at h
  · simp only [Except.ok.injEq] at h; omega
  · split at h
    · cases h
    · simp only [Except.ok.injEq] at h
      unfold wrap32 at h; unfold IsI32 at *; omega

theorem compare_zero {cfg : Cfg} {a b : Mapping} (ha : a.I32) (hb : b.I32)
    (h : compareByGeneratedPosInflated cfg a b = .ok 0) :
    a.generated = b.generated ∧ a.source = b.source ∧ a.name = b.name := by
  unfold compareByGeneratedPosInflated at h
  rw [Res.bind_eq_ok] at h
  obtain ⟨c, h1, h⟩ := h
  split at h
  · rename_i hc; simp only [Res.pure_eq, Except.ok.injEq] at h; exact absurd h hc
  rename_i hc
  have hc : c = 0 := by omega
  subst hc
  have e1 := arith_sub_zero ha.line hb.line h1
  rw [Res.bind_eq_ok] at h
  obtain ⟨c, h2, h⟩ := h
  split at h
  · rename_i hc; simp only [Res.pure_eq, Except.ok.injEq] at h; exact absurd h hc
  rename_i hc
  have hc : c = 0 := by omega
  subst hc
  have e2 := arith_sub_zero ha.column hb.column h2
  have eg : a.generated = b.generated := by
    cases hg : a.generated; cases hg' : b.generated; rw [hg, hg'] at e1 e2; simp_all
  dsimp only at h
  split at h
  · rename_i hc; simp only [Res.pure_eq, Except.ok.injEq] at h; exact absurd h hc
  rename_i hc
  have es := (strcmp_eq_zero a.source b.source).1 (by omega)
  refine ⟨eg, es, ?_⟩
  have hname : strcmp a.name b.name = 0 := by
    unfold compareOriginalThenName at h
    split at h
    · rw [Res.bind_eq_ok] at h
      obtain ⟨c, _, h⟩ := h
      split at h
      · rename_i hc; simp only [Res.pure_eq, Except.ok.injEq] at h; exact absurd h hc
      · rw [Res.bind_eq_ok] at h
        obtain ⟨c, _, h⟩ := h
        split at h
        · rename_i hc; simp only [Res.pure_eq, Except.ok.injEq] at h; exact absurd h hc
        · simpa using h
    · simpa using h
  exact (strcmp_eq_zero a.name b.name).1 hname

theorem segmentText_original {cfg : Cfg} {S N : ArraySet} {st st' : SerState} {m : Mapping} {t : Text}
    (h : segmentText cfg S N st m = .ok (t, st')) (hs : m.source.isSome = true) :
    m.original.isSome = true := by
  unfold segmentText at h
  rw [Res.bind_eq_ok] at h
  obtain ⟨_, _, h⟩ := h
  rw [Res.bind_eq_ok] at h
  obtain ⟨_, _, h⟩ := h
  rw [Res.bind_eq_ok] at h
  obtain ⟨_, h, _⟩ := h
  obtain ⟨s, hs⟩ := Option.isSome_iff_exists.1 hs
  simp only [originalFields, hs] at h
  rw [Res.bind_eq_ok] at h
  obtain ⟨_, _, h⟩ := h
  rw [Res.bind_eq_ok] at h
  obtain ⟨_, _, h⟩ := h
  rw [Res.bind_eq_ok] at h
  obtain ⟨_, _, h⟩ := h
  rw [Res.bind_eq_ok] at h
  obtain ⟨o, h, _⟩ := h
  cases ho : m.original with
  | none => rw [ho] at h; cases h
  | some o => rfl

theorem serializeLoop_original {cfg : Cfg} {S N : ArraySet} : ∀ (ms : List Mapping) (st : SerState)
    (prev : Option Mapping) (t : Text) (acc : List Mapping),
    serializeLoop cfg S N st prev ms = .ok t → (∀ m ∈ ms, m.I32) → (∀ p, prev = some p → p.I32) →
    (∀ p, prev = some p → p.source.isSome = true → ∃ m' ∈ acc, Shadows m' p) →
    ∀ m ∈ ms, m.source.isSome = true → ∃ m' ∈ acc ++ ms, Shadows m' m := by
  intro ms
  induction ms with
  | nil => intro _ _ _ _ _ _ _ _ m hm; cases hm
  | cons x ms ih =>
    intro st prev t acc h hi hpi hprev m hm hms
    simp only [serializeLoop] at h
    rw [Res.bind_eq_ok] at h
    obtain ⟨⟨t1, st1⟩, h1, h2⟩ := h
    rw [Res.bind_eq_ok] at h2
    obtain ⟨t2, h2, _⟩ := h2
    have hx : x.source.isSome = true → ∃ m' ∈ acc ++ [x], Shadows m' x := by
      intro hxs
      have emitted : ∀ {st st' t}, segmentText cfg S N st x = .ok (t, st') →
          ∃ m' ∈ acc ++ [x], Shadows m' x := fun hseg =>
        ⟨x, by simp, rfl, rfl, rfl, segmentText_original hseg hxs⟩
      unfold serializeStep at h1
      split at h1
      · rw [Res.bind_eq_ok] at h1
        obtain ⟨_, _, h1⟩ := h1
        rw [Res.bind_eq_ok] at h1
        obtain ⟨⟨_, _⟩, h1, _⟩ := h1
        exact emitted h1
      · cases hp : prev with
        | none => rw [hp] at h1; exact emitted h1
        | some p =>
          rw [hp] at h1
          simp only at h1
          rw [Res.bind_eq_ok] at h1
          obtain ⟨c, hc, h1⟩ := h1
          split at h1
          · rename_i hc0
            subst hc0
            have hk := compare_zero (hi x (by simp)) (hpi p hp) hc
            obtain ⟨m', h3, h4⟩ := hprev p hp (by rw [← hk.2.1]; exact hxs)
            exact ⟨m', by simp [h3], h4.1.trans hk.1.symm, h4.2.1.trans hk.2.1.symm,
              h4.2.2.1.trans hk.2.2.symm, h4.2.2.2⟩
          · rw [Res.bind_eq_ok] at h1
            obtain ⟨⟨_, _⟩, h1, _⟩ := h1
            exact emitted h1
    rcases List.mem_cons.1 hm with rfl | hm
    · obtain ⟨m', h3, h4⟩ := hx hms
      refine ⟨m', ?_, h4⟩
      simp only [List.mem_append, List.mem_cons, List.not_mem_nil, or_false] at h3 ⊢
      rcases h3 with h3 | h3
      · exact .inl h3
      · exact .inr (.inl h3)
    · obtain ⟨m', h3, h4⟩ := ih st1 (some x) t2 (acc ++ [x]) h2 (fun y hy => hi y (by simp [hy]))
        (by intro p hp; cases hp; exact hi x (by simp)) (by intro p hp; cases hp; exact hx) m hm hms
      exact ⟨m', by simpa using h3, h4⟩

end RSM
