import Verif.Props.LastColumn
import Verif.Lemmas.GenOutput
import Verif.Props.Order
import Verif.Props.LineShift
/-! # Property C110: what was added determines the map -/

namespace RSM
open Spec

/-! ## Tables -/

theorem tableOf_snoc (l : List String) (s : String) : tableOf (l ++ [s]) = (tableOf l).add s false := by
  simp [tableOf, ArraySet.fromArray, List.foldl_append]

theorem tableOf_first (l : List String) : tableOf l = tableOf (firstOccurrences l) := by
  have key : ∀ r : List String, tableOf r.reverse = tableOf (firstOccurrences r.reverse) := by
    intro r
    induction r with
    | nil => rfl
    | cons s r ih =>
      rw [List.reverse_cons, tableOf_snoc, firstOccurrences_snoc]
      split
      · rename_i h
        have hs : (tableOf r.reverse).has s = true := by
          rw [(tableOf_inv _).has_iff, tableOf_array, mem_firstOccurrences]; exact h
        rw [← ih]
        simp [ArraySet.add, hs]
      · rw [tableOf_snoc, ih]
  simpa using key l.reverse

/-! ## Contents -/

/-- The contents set by a history of calls, in order. -/
def contentCalls : List GOp → List (String × Option String)
  | [] => []
  | .setContent s c :: ops => (s, c) :: contentCalls ops
  | _ :: ops => contentCalls ops

theorem contentsRun_calls (U : UrlLib) (root : Option String) : ∀ (ops : List GOp) (c : HMap String String),
    contentsRun U root c ops = contentsRun U root c ((contentCalls ops).map fun x => .setContent x.1 x.2) := by
  intro ops
  induction ops with
  | nil => intro c; rfl
  | cons op ops ih =>
    intro c
    cases op with
    | add m => exact ih c
    | asJson => exact ih c
    | setContent s v =>
      simp only [contentsRun, contentCalls, List.map_cons, ih]

/-! ## The loop over the mappings -/

theorem SameKey.bare_eq {a b : Mapping} (h : SameKey a b) : a.bare = b.bare := by
  obtain ⟨h1, h2, h3, h4⟩ := h
  simp only [Mapping.bare, h1, h2, h3, h4]

theorem sameKey_bare {a b : Mapping} : SameKey a.bare b.bare ↔ SameKey a b := Iff.rfl

theorem bare_bare (m : Mapping) : m.bare.bare = m.bare := rfl

/-- Repeated mappings leave no trace. -/
theorem serializeLoop_dropRepeats (cfg : Cfg) (S N : ArraySet) : ∀ (ms : List Mapping) (st : SerState) (p : Option Mapping),
    (∀ m ∈ ms, m.Valid ∧ m.bare = m) → (∀ q, p = some q → q.Valid ∧ q.bare = q ∧ st.generatedLine = q.generated.line) →
    serializeLoop cfg S N st p ms = serializeLoop cfg S N st p (dropRepeats p ms) := by
  intro ms
  induction ms with
  | nil => intro st p _ _; cases p <;> rfl
  | cons m ms ih =>
    intro st p hm hp
    have h1 := hm m (by simp)
    have go : serializeLoop cfg S N st p (m :: ms) = serializeLoop cfg S N st p (m :: dropRepeats (some m) ms) := by
      simp only [serializeLoop]
      cases hs : serializeStep cfg S N st p m with
      | error e => rfl
      | ok r =>
        simp only [Res.ok_bind]
        rw [ih r.2 (some m) (fun x hx => hm x (by simp [hx])) (fun q hq => by
          cases hq; exact ⟨h1.1, h1.2, serializeStep_line hs⟩)]
    cases p with
    | none => exact go
    | some p =>
      obtain ⟨hpv, hpb, hpl⟩ := hp p rfl
      simp only [dropRepeats]
      split
      · rename_i hsk
        have e : m = p := by have := hsk.bare_eq; rw [h1.2, hpb] at this; exact this
        subst e
        have hstep : serializeStep cfg S N st (some m) m = .ok ([], st) := by
          unfold serializeStep
          rw [if_neg (by omega)]
          have : compareByGeneratedPosInflated cfg m m = .ok 0 := by
            rw [compare_eq_cmpVal cfg h1.1 h1.1, (cmpVal_eq_zero _ _).2 ⟨rfl, rfl, rfl, rfl⟩]
          simp only [this, Res.ok_bind, if_true, Res.pure_eq]
        rw [← ih st (some m) (fun x hx => hm x (by simp [hx])) (fun q hq => by cases hq; exact ⟨h1.1, h1.2, hpl⟩)]
        simp only [serializeLoop, hstep, Res.ok_bind, List.nil_append]
        cases serializeLoop cfg S N st (some m) ms <;> rfl
      · exact go

theorem posLE.antisymm {a b : Mapping} (h1 : posLE a b) (h2 : posLE b a) : a.generated = b.generated := by
  unfold posLE at h1 h2
  obtain ⟨⟨l, c⟩⟩ := a
  obtain ⟨⟨l', c'⟩⟩ := b
  simp only [Position.mk.injEq] at *
  omega

theorem dropRepeats_nodup : ∀ (ms : List Mapping) (p : Option Mapping), (∀ m ∈ ms, m.bare = m) →
    (∀ q, p = some q → q.bare = q ∧ ∀ m ∈ ms, posLE q m ∧ (m.generated = q.generated → m = q)) → ms.Pairwise posLE →
    (∀ a ∈ ms, ∀ b ∈ ms, a.generated = b.generated → a = b) →
    (dropRepeats p ms).Nodup ∧ ∀ q, p = some q → q ∉ dropRepeats p ms := by
  intro ms
  induction ms with
  | nil => intro p _ _ _ _; cases p <;> simp [dropRepeats]
  | cons m ms ih =>
    intro p hb hp hpw hinj
    have hpw' := List.pairwise_cons.1 hpw
    obtain ⟨h1, h2⟩ := ih (some m) (fun x hx => hb x (by simp [hx]))
      (fun q hq => by cases hq; exact ⟨hb m (by simp), fun x hx => ⟨hpw'.1 x hx, hinj x (by simp [hx]) m (by simp)⟩⟩)
      hpw'.2 (fun a ha b hb => hinj a (by simp [ha]) b (by simp [hb]))
    have go : (m :: dropRepeats (some m) ms).Nodup := List.nodup_cons.2 ⟨h2 m rfl, h1⟩
    cases p with
    | none => exact ⟨go, by simp⟩
    | some p =>
      obtain ⟨hpb, hq⟩ := hp p rfl
      simp only [dropRepeats]
      split
      · rename_i hsk
        have e : m = p := by have := hsk.bare_eq; rw [hb m (by simp), hpb] at this; exact this
        subst e
        exact ⟨h1, h2⟩
      · rename_i hsk
        refine ⟨go, ?_⟩
        rintro q hq'
        cases hq'
        intro hmem
        rcases List.mem_cons.1 hmem with e | hmem
        · exact hsk (e ▸ ⟨rfl, rfl, rfl, rfl⟩)
        · have hin := (dropRepeats_sublist ms (some m)).subset hmem
          have e := posLE.antisymm (hpw'.1 p hin) (hq m (by simp)).1
          have := (hq m (by simp)).2 e
          exact hsk (this ▸ ⟨rfl, rfl, rfl, rfl⟩)

theorem mem_dropRepeats {ms : List Mapping} (hb : ∀ m ∈ ms, m.bare = m) (m : Mapping) : m ∈ dropRepeats none ms ↔ m ∈ ms := by
  refine ⟨fun h => (dropRepeats_sublist ms none).subset h, fun h => ?_⟩
  rcases dropRepeats_covers ms none m h with ⟨m', h1, h2⟩ | ⟨q, h1, _⟩
  · have := h2.bare_eq
    rw [hb m h, hb m' ((dropRepeats_sublist ms none).subset h1)] at this
    rw [this]; exact h1
  · cases h1

theorem dropRepeats_canonical {ms ms' : List Mapping} (hb : ∀ m ∈ ms, m.bare = m) (hmem : ∀ m, m ∈ ms ↔ m ∈ ms')
    (hs : ms.Pairwise posLE) (hs' : ms'.Pairwise posLE) (hinj : ∀ a ∈ ms, ∀ b ∈ ms, a.generated = b.generated → a = b) :
    dropRepeats none ms = dropRepeats none ms' := by
  have hb' : ∀ m ∈ ms', m.bare = m := fun m hm => hb m ((hmem m).2 hm)
  have n1 := (dropRepeats_nodup ms none hb (by simp) hs hinj).1
  have n2 := (dropRepeats_nodup ms' none hb' (by simp) hs'
    (fun a ha b hb => hinj a ((hmem a).2 ha) b ((hmem b).2 hb))).1
  have hperm : (dropRepeats none ms).Perm (dropRepeats none ms') := by
    rw [List.perm_ext_iff_of_nodup n1 n2]
    intro m
    rw [mem_dropRepeats hb, mem_dropRepeats hb', hmem]
  refine hperm.eq_of_pairwise (le := posLE) ?_ (hs.sublist (dropRepeats_sublist _ _)) (hs'.sublist (dropRepeats_sublist _ _))
  intro a b ha hb h1 h2
  refine hinj a ((dropRepeats_sublist _ _).subset ha) b ?_ (posLE.antisymm h1 h2)
  exact (hmem b).2 ((dropRepeats_sublist _ _).subset hb)

/-! ## The property -/

/-- The same mappings were added, however often and in whatever order (`last_generated_column` aside), and at one
generated position one mapping only. -/
structure SameAdded (ms ms' : List Mapping) : Prop where
  sub : ∀ m ∈ ms, ∃ m' ∈ ms', SameKey m m'
  sup : ∀ m ∈ ms', ∃ m' ∈ ms, SameKey m m'
  one : ∀ a ∈ ms, ∀ b ∈ ms, a.generated = b.generated → SameKey a b
  sources : firstOccurrences (ms.filterMap Mapping.source) = firstOccurrences (ms'.filterMap Mapping.source)
  names : firstOccurrences (ms.filterMap Mapping.name) = firstOccurrences (ms'.filterMap Mapping.name)

theorem run_inv {U : UrlLib} {cfg : Cfg} {file root : Option String} {skip : Bool} {ops : List GOp} {g : Generator}
    (hr : (Generator.new file root skip).run U cfg ops = .ok g) (hv : ∀ m ∈ gAdded ops, m.Valid) :
    g.mappings.Inv ∧ g.mappings.array.Perm (gAdded ops) := by
  have hp := run_perm cfg _ _ _ (gRun_new hr).2.2.1
  rw [added_mlOps] at hp
  refine ⟨?_, by simpa [MappingList.new] using hp⟩
  obtain ⟨l, h2, h3⟩ := run_valid cfg (mlOps ops) MappingList.new MappingList.inv_new (by
    rw [added_mlOps]; exact hv)
  rw [(gRun_new hr).2.2.1] at h2
  cases h2
  exact h3

theorem mem_bare_map {ms ms' : List Mapping} (h : ∀ m ∈ ms, ∃ m' ∈ ms', SameKey m m') (x : Mapping)
    (hx : x ∈ ms.map Mapping.bare) : x ∈ ms'.map Mapping.bare := by
  obtain ⟨m, hm, rfl⟩ := List.mem_map.1 hx
  obtain ⟨m', hm', he⟩ := h m hm
  exact List.mem_map.2 ⟨m', hm', he.bare_eq.symm⟩

/-- C110: two histories of calls in which the same valid mappings were added, in whatever order and however often, with
sources and names in the same order of first use and one mapping at one generated position, and the same contents set in
the same order, end in the same map, to the letter, or in the same panic of the serialisation. It does not matter where
the generators were serialised in between. -/
theorem C110_added_determines (U : UrlLib) (cfg : Cfg) (file root : Option String) (skip skip' : Bool) {ops ops' : List GOp}
    {g g' : Generator} (hv : ∀ m ∈ gAdded ops, m.Valid) (hsame : SameAdded (gAdded ops) (gAdded ops'))
    (hcont : contentCalls ops = contentCalls ops') (hr : (Generator.new file root skip).run U cfg ops = .ok g)
    (hr' : (Generator.new file root skip').run U cfg ops' = .ok g') :
    (g'.asJson U cfg).map Prod.fst = (g.asJson U cfg).map Prod.fst := by
  have hv' : ∀ m ∈ gAdded ops', m.Valid := by
    intro m hm
    obtain ⟨m', hm', h1, h2, h3, h4⟩ := hsame.sup m hm
    have := hv m' hm'
    exact ⟨h1 ▸ this.gl, h1 ▸ this.gc, by rw [h2, h3]; exact this.orig, by rw [h3]; exact this.range⟩
  obtain ⟨hi, hp⟩ := run_inv hr hv
  obtain ⟨hi', hp'⟩ := run_inv hr' hv'
  obtain ⟨f1, f2, _, f4, f5, f6⟩ := gRun_new hr
  obtain ⟨k1, k2, _, k4, k5, k6⟩ := gRun_new hr'
  have eS : g'.sources = g.sources := by rw [f4, k4, tableOf_first, ← hsame.sources, ← tableOf_first]
  have eN : g'.names = g.names := by rw [f5, k5, tableOf_first, ← hsame.names, ← tableOf_first]
  have eC : g'.sourceContents = g.sourceContents := by
    rw [contentsRun_calls, ← hcont, ← contentsRun_calls, f6] at k6
    injection k6 with k6
    exact k6.symm
  have eR : g'.sourceRoot = g.sourceRoot := by rw [f2, k2]
  have eF : g'.file = g.file := by rw [f1, k1]
  have eSC : g'.sourcesContent U = g.sourcesContent U := by
    simp only [Generator.sourcesContent, eC, eS, eR, generateSourcesContents_congr eC]
  obtain ⟨out, l, ht, _, _, hperm, hpw, _⟩ := toArray_valid cfg hi
  obtain ⟨out', l', ht', _, _, hperm', hpw', _⟩ := toArray_valid cfg hi'
  have hloop : serializeLoop cfg g.sources g.names SerState.init none out' =
      serializeLoop cfg g.sources g.names SerState.init none out := by
    have q1 := hperm.trans hp
    have q2 := hperm'.trans hp'
    have b1 := serializeLoop_bare cfg g.sources g.names out SerState.init none
    have b2 := serializeLoop_bare cfg g.sources g.names out' SerState.init none
    rw [Option.map_none] at b1 b2
    have hb : ∀ ms : List Mapping, ∀ m ∈ ms.map Mapping.bare, m.bare = m := by
      intro ms m hm
      obtain ⟨x, _, rfl⟩ := List.mem_map.1 hm
      rfl
    rw [← b1, ← b2, serializeLoop_dropRepeats cfg _ _ _ _ none (fun m hm => ⟨?_, hb _ m hm⟩) (by simp),
      serializeLoop_dropRepeats cfg _ _ (out.map Mapping.bare) _ none (fun m hm => ⟨?_, hb _ m hm⟩) (by simp)]
    · congr 1
      symm
      refine dropRepeats_canonical (hb out) (fun m => ⟨mem_bare_map ?_ m, mem_bare_map ?_ m⟩)
        (List.pairwise_map.2 hpw) (List.pairwise_map.2 hpw') ?_
      · intro m hm
        obtain ⟨m', h1, h2⟩ := hsame.sub m (q1.mem_iff.1 hm)
        exact ⟨m', q2.mem_iff.2 h1, h2⟩
      · intro m hm
        obtain ⟨m', h1, h2⟩ := hsame.sup m (q2.mem_iff.1 hm)
        exact ⟨m', q1.mem_iff.2 h1, h2⟩
      · intro a ha b hb' e
        obtain ⟨x, hx, rfl⟩ := List.mem_map.1 ha
        obtain ⟨y, hy, rfl⟩ := List.mem_map.1 hb'
        exact (hsame.one x (q1.mem_iff.1 hx) y (q1.mem_iff.1 hy) e).bare_eq
    · obtain ⟨x, hx, rfl⟩ := List.mem_map.1 hm
      exact bare_valid (hv x (q1.mem_iff.1 hx))
    · obtain ⟨x, hx, rfl⟩ := List.mem_map.1 hm
      exact bare_valid (hv' x (q2.mem_iff.1 hx))
  simp only [Generator.asJson, Generator.serializeMappings, eSC, ht, ht', Res.ok_bind, eS, eN, hloop, eF, eR]
  cases g.sourcesContent U with
  | error e => rfl
  | ok x => cases serializeLoop cfg g.sources g.names SerState.init none out <;> rfl

theorem gAdded_insert (pre post : List GOp) (m : Mapping) :
    gAdded (pre ++ .add m :: post) = gAdded pre ++ m :: gAdded post := by rw [gAdded_append]; rfl

theorem contentCalls_append (a b : List GOp) : contentCalls (a ++ b) = contentCalls a ++ contentCalls b := by
  induction a with
  | nil => rfl
  | cons op a ih => cases op <;> simp [contentCalls, ih]

theorem firstOccurrences_again {l : List String} {s : String} (h : s ∈ l) (l' : List String) :
    firstOccurrences (l ++ s :: l') = firstOccurrences (l ++ l') := by
  have key : ∀ r : List String, firstOccurrences (l ++ s :: r.reverse) = firstOccurrences (l ++ r.reverse) := by
    intro r
    induction r with
    | nil => simp only [List.reverse_nil, List.append_nil]; rw [firstOccurrences_snoc, if_pos h]
    | cons t r ih =>
      rw [List.reverse_cons, ← List.cons_append, ← List.append_assoc, ← List.append_assoc, firstOccurrences_snoc,
        firstOccurrences_snoc, ih]
      have : t ∈ l ++ s :: r.reverse ↔ t ∈ l ++ r.reverse := by
        simp only [List.mem_append, List.mem_cons]
        constructor
        · rintro (h1 | rfl | h1)
          · exact .inl h1
          · exact .inl h
          · exact .inr h1
        · rintro (h1 | h1)
          · exact .inl h1
          · exact .inr (.inr h1)
      simp only [this]
  simpa using key l'.reverse

/-- C110, a mapping added again: nothing changes, wherever in the history it is added once more, if of the mappings added
there is one only at each generated position. -/
theorem C110_added_again (U : UrlLib) (cfg : Cfg) (file root : Option String) (skip : Bool) {pre post : List GOp} {m : Mapping}
    (hm : m ∈ gAdded pre) (hv : ∀ x ∈ gAdded (pre ++ post), x.Valid)
    (hone : ∀ a ∈ gAdded (pre ++ post), ∀ b ∈ gAdded (pre ++ post), a.generated = b.generated → SameKey a b) {g g' : Generator}
    (hr : (Generator.new file root skip).run U cfg (pre ++ post) = .ok g)
    (hr' : (Generator.new file root skip).run U cfg (pre ++ .add m :: post) = .ok g') :
    (g'.asJson U cfg).map Prod.fst = (g.asJson U cfg).map Prod.fst := by
  have ht : ∀ f : Mapping → Option String, firstOccurrences ((gAdded pre ++ gAdded post).filterMap f) =
      firstOccurrences ((gAdded pre ++ m :: gAdded post).filterMap f) := by
    intro f
    rw [List.filterMap_append, List.filterMap_append, List.filterMap_cons]
    cases hf : f m with
    | none => rfl
    | some s =>
      rw [firstOccurrences_again (List.mem_filterMap.2 ⟨m, hm, hf⟩)]
  refine C110_added_determines U cfg file root skip skip hv ⟨?_, ?_, hone, ?_, ?_⟩ ?_ hr hr'
  · intro x hx
    refine ⟨x, ?_, rfl, rfl, rfl, rfl⟩
    rw [gAdded_insert]
    rw [gAdded_append] at hx
    rcases List.mem_append.1 hx with hx | hx <;> simp [hx]
  · intro x hx
    refine ⟨x, ?_, rfl, rfl, rfl, rfl⟩
    rw [gAdded_insert] at hx
    rw [gAdded_append]
    rcases List.mem_append.1 hx with hx | hx
    · simp [hx]
    · rcases List.mem_cons.1 hx with rfl | hx
      · simp [hm]
      · simp [hx]
  · rw [gAdded_insert, gAdded_append]; exact ht _
  · rw [gAdded_insert, gAdded_append]; exact ht _
  · rw [contentCalls_append, contentCalls_append]; rfl

/-! ## Cases -/

/-- Three mappings in order; the same backwards with one of them twice and a serialisation in between, the sources in the
same order of first use. -/
example (U : UrlLib) (cfg : Cfg) {g g' : Generator}
    (hr : (Generator.new none none false).run U cfg [.add { generated := ⟨1, 4⟩, original := some ⟨7, 0⟩, source := some "a.js" },
      .add { generated := ⟨2, 1⟩ }, .add { generated := ⟨2, 9⟩ }] = .ok g)
    (hr' : (Generator.new none none false).run U cfg [.add { generated := ⟨2, 9⟩ }, .asJson,
      .add { generated := ⟨1, 4⟩, original := some ⟨7, 0⟩, source := some "a.js" }, .add { generated := ⟨2, 9⟩ },
      .add { generated := ⟨2, 1⟩ }] = .ok g') :
    (g'.asJson U cfg).map Prod.fst = (g.asJson U cfg).map Prod.fst := by
  refine C110_added_determines U cfg none none false false ?_ ⟨?_, ?_, ?_, ?_, ?_⟩ (by rfl) hr hr'
  · intro m hm
    simp only [gAdded, List.mem_cons, List.not_mem_nil, or_false] at hm
    rcases hm with rfl | rfl | rfl <;> exact ⟨by decide, by decide, rfl, by simp⟩
  all_goals decide

/-- With two mappings at one generated position the second addition of the first is a third segment. -/
theorem C110_positions_needed : [[exA, exB], [exA, exB, exA]].map (fun ms =>
      ((Generator.new none none false).run MiniUrl.lib ⟨true, true⟩ (ms.map .add) >>= fun g =>
        g.asJson MiniUrl.lib ⟨true, true⟩).map fun r => (r.1.mappings.map fun t => t.toList.count ',')) =
    [.ok (some 1), .ok (some 2)] := by decide +kernel

end RSM
