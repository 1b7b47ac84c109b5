import Verif.Dep.Demo
import Verif.Props.ArraySet
import Verif.Props.Order
/-! # C87: additions in order only extend the map emitted before -/

namespace RSM
open Spec

theorem serializeLoop_prefix {cfg : Cfg} {S N : ArraySet} : ∀ {xs ys : List Mapping} {st : SerState}
    {prev : Option Mapping} {t : Text}, serializeLoop cfg S N st prev (xs ++ ys) = .ok t →
    ∃ t₁ t₂, serializeLoop cfg S N st prev xs = .ok t₁ ∧ t = t₁ ++ t₂ := by
  intro xs
  induction xs with
  | nil => intro ys st prev t h; exact ⟨[], t, rfl, rfl⟩
  | cons x xs ih =>
    intro ys st prev t h
    simp only [List.cons_append, serializeLoop, Res.bind_eq_ok] at h
    obtain ⟨⟨a, st'⟩, h1, b, h2, h3⟩ := h
    obtain ⟨t₁, t₂, h4, rfl⟩ := ih h2
    cases h3
    exact ⟨a ++ t₁, t₂, by simp only [serializeLoop, h1, Res.ok_bind, h4, Res.pure_eq], by simp⟩

theorem serializeLoop_tables {cfg : Cfg} {S N S' N' : ArraySet} : ∀ {xs : List Mapping} {st : SerState}
    {prev : Option Mapping}, (∀ m ∈ xs, ∀ s, m.source = some s → S.indexOf s = S'.indexOf s) →
    (∀ m ∈ xs, ∀ s, m.name = some s → N.indexOf s = N'.indexOf s) →
    serializeLoop cfg S N st prev xs = serializeLoop cfg S' N' st prev xs := by
  intro xs
  induction xs with
  | nil => intro st prev _ _; rfl
  | cons x xs ih =>
    intro st prev hS hN
    have hname : ∀ st, nameField cfg N st x = nameField cfg N' st x := by
      intro st
      unfold nameField
      cases hx : x.name with
      | none => rfl
      | some n => simp only [hN x (by simp) n hx]
    have horig : ∀ st, originalFields cfg S N st x = originalFields cfg S' N' st x := by
      intro st
      unfold originalFields
      cases hx : x.source with
      | none => rfl
      | some n => simp only [hS x (by simp) n hx, hname]
    have hseg : ∀ st, segmentText cfg S N st x = segmentText cfg S' N' st x := by
      intro st
      simp only [segmentText, horig]
    have hstep : serializeStep cfg S N st prev x = serializeStep cfg S' N' st prev x := by
      simp only [serializeStep, hseg]
    simp only [serializeLoop, hstep]
    congr 1
    funext y
    rw [ih (fun m hm => hS m (by simp [hm])) (fun m hm => hN m (by simp [hm]))]

theorem tableOf_run (l : List String) : tableOf l = ArraySet.new.run (l.map fun s => (s, false)) := by
  unfold ArraySet.run
  rw [List.foldl_map]
  rfl

theorem tableOf_prefix (l l' : List String) : (tableOf l).array <+: (tableOf (l ++ l')).array := by
  rw [tableOf_run, tableOf_run, List.map_append]
  have := ArraySet.run_prefix (ArraySet.inv_new.run (l.map fun s => (s, false))) (l'.map fun s => (s, false))
  simpa [ArraySet.run, List.foldl_append] using this

theorem tableOf_indexOf {l l' : List String} {s : String} (h : s ∈ l) :
    (tableOf l).indexOf s = (tableOf (l ++ l')).indexOf s := by
  have hi : (tableOf l).indexOf s ≠ none := by
    rw [tableOf_run]
    intro hn
    exact (C06_arrayset_refines _ s).2.2.1 hn (by simpa using h)
  obtain ⟨i, hi⟩ := Option.ne_none_iff_exists'.1 hi
  rw [hi]
  rw [tableOf_run] at hi
  have := (C08_arrayset_stable _ (l'.map fun s => (s, false)) s i hi).1
  rw [← List.map_append, ← tableOf_run] at this
  exact this.symm

/-- C87: if since a serialisation every mapping was added at or after all earlier ones, the map emitted next extends the
one emitted then: the sources, the names and the text of the mappings begin with those emitted then. -/
theorem C87_extends (U : UrlLib) (cfg : Cfg) (file root : Option String) (skip : Bool) (pre post : List GOp)
    (g₀ g₀' g g' : Generator) (j₀ j : SourceMapJson) (hv : ∀ m ∈ gAdded (pre ++ post), m.Valid)
    (h₀ : (Generator.new file root skip).run U cfg pre = .ok g₀) (hj₀ : g₀.asJson U cfg = .ok (j₀, g₀'))
    (h : g₀'.run U cfg post = .ok g) (hj : g.asJson U cfg = .ok (j, g'))
    (hord : ¬ OutOfOrder (gAdded pre) (gAdded post)) :
    ∃ S N S' N' text more, j₀.sources = some S ∧ j₀.names = some N ∧ j₀.mappings = some text ∧
      j.sources = some (S ++ S') ∧ j.names = some (N ++ N') ∧ j.mappings = some (text ++ more) := by
  have h : (Generator.new file root skip).run U cfg (pre ++ .asJson :: post) = .ok g := by
    rw [gRun_append _ _ _ _ h₀]
    simp only [Generator.run, Generator.step, hj₀, Res.ok_bind, Res.pure_eq, h]
  obtain ⟨_, _, a3, a4, a5, _⟩ := gRun_new h₀
  obtain ⟨_, _, b3, b4, b5, _⟩ := gRun_new h
  obtain ⟨sc₀, out₀, l₀, t₀, c1, c2, c3, rfl, rfl⟩ := asJson_ok hj₀
  obtain ⟨sc, out, l, t, d1, d2, d3, rfl, rfl⟩ := asJson_ok hj
  have hg : gAdded (pre ++ .asJson :: post) = gAdded pre ++ gAdded post := by simp [gAdded_append, gAdded]
  rw [hg, List.filterMap_append] at b4 b5
  rw [mlOps_append] at b3
  obtain ⟨l₁, l₂, k1, k2⟩ := C73_in_order cfg (mlOps pre) (mlOps post) g₀.mappings l₀ out₀
    (by rw [← mlOps_append, added_mlOps]; exact hv) a3 c2 (by rw [added_mlOps, added_mlOps]; exact hord)
  have b3' : MappingList.new.run cfg (mlOps pre ++ .toArray :: mlOps post) = .ok g.mappings := b3
  rw [b3'] at k1
  cases k1
  rw [d2, added_mlOps] at k2
  cases k2
  have hmem : ∀ m ∈ out₀, m ∈ gAdded pre := by
    intro m hm
    have := run_perm cfg _ _ _ a3
    rw [added_mlOps] at this
    exact (((toArray_perm cfg c2).1.trans (by simpa [MappingList.new] using this)).mem_iff).1 hm
  obtain ⟨t₁, t₂, k3, rfl⟩ := serializeLoop_prefix d3
  have heq : serializeLoop cfg g₀.sources g₀.names SerState.init none out₀ =
      serializeLoop cfg g.sources g.names SerState.init none out₀ := by
    refine serializeLoop_tables ?_ ?_
    · intro m hm s hs
      rw [a4, b4]
      exact tableOf_indexOf (List.mem_filterMap.2 ⟨m, hmem m hm, hs⟩)
    · intro m hm s hs
      rw [a5, b5]
      exact tableOf_indexOf (List.mem_filterMap.2 ⟨m, hmem m hm, hs⟩)
  rw [← heq, c3] at k3
  cases k3
  obtain ⟨S', hS'⟩ := tableOf_prefix ((gAdded pre).filterMap Mapping.source) ((gAdded post).filterMap Mapping.source)
  obtain ⟨N', hN'⟩ := tableOf_prefix ((gAdded pre).filterMap Mapping.name) ((gAdded post).filterMap Mapping.name)
  refine ⟨_, _, S', N', _, String.ofList t₂, rfl, rfl, rfl, ?_, ?_, ?_⟩
  · simp only [ArraySet.toVec, a4, b4, hS']
  · simp only [ArraySet.toVec, a5, b5, hN']
  · simp

/-- Serialising, adding in order, serialising again: the second text begins with the first. -/
example : (do
    let g ← (Generator.new none none false).run demoEnv.url demoEnv.cfg [.add gxQ, .add gxP]
    let j₀ ← g.asJson demoEnv.url demoEnv.cfg
    let g ← j₀.2.run demoEnv.url demoEnv.cfg [.add gxR]
    let j ← g.asJson demoEnv.url demoEnv.cfg
    pure (j₀.1.mappings, j.1.mappings)) = .ok (some "G,EAECA", some "G,EAECA;;;ACFD") := by decide +kernel

example : ¬ OutOfOrder (gAdded [.add gxP, .add gxQ]) (gAdded [.add gxR]) ∧
    OutOfOrder (gAdded [.add gxP, .add gxQ]) (gAdded [.add { generated := ⟨1, 0⟩ }]) := by
  refine ⟨?_, ⟨[], _, [], rfl, gxP, by simp [gAdded], by decide⟩⟩
  rw [not_outOfOrder_iff]
  decide

end RSM
