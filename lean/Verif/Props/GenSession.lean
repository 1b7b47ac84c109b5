import Verif.Props.Serialise
/-! # Property C124: which sessions with a generator end without a panic -/

namespace RSM
open Spec

/-- The text under which a source is known to the generator: itself, or relative to the root, if there is one. -/
def nameUnder (U : UrlLib) (root : Option String) (s : String) : Option String :=
  match root with
  | none => some s
  | some r => ((relative U r.toList s.toList).toOption).map String.ofList

/-- After the calls some content is held: one that was set and neither replaced nor taken back since. -/
def ContentHeld (U : UrlLib) (root : Option String) (ops : List GOp) : Prop :=
  ∃ a s v b, ops = a ++ .setContent s (some v) :: b ∧
    ∀ t w, GOp.setContent t w ∈ b → nameUnder U root t = nameUnder U root s → w.isSome

/-- What a call needs after the calls `before`: `set_source_content` a source that can be named under the root; serialising the same
of the sources of all mappings, if some content is held; `add_mapping` nothing. -/
def GenNeeds (U : UrlLib) (root : Option String) (before : List GOp) : GOp → Prop
  | .add _ => True
  | .setContent s _ => nameUnder U root s ≠ none
  | .asJson => ContentHeld U root before → ∀ m ∈ gAdded before, ∀ s, m.source = some s → nameUnder U root s ≠ none

theorem contentKey_iff {U : UrlLib} {root : Option String} {s k : String} :
    Generator.contentKey U root s = .ok k ↔ nameUnder U root s = some k := by
  cases root with
  | none => simp [Generator.contentKey, nameUnder]
  | some r =>
    simp only [Generator.contentKey, nameUnder, relativeString]
    cases relative U r.toList s.toList with
    | error e => simp [Except.toOption]
    | ok t => simp [Except.toOption]

theorem nameUnder_ne {U : UrlLib} {root : Option String} {s : String} :
    nameUnder U root s ≠ none ↔ ∃ k, Generator.contentKey U root s = .ok k := by
  simp only [contentKey_iff]
  cases nameUnder U root s <;> simp

theorem latestContent_snoc (key : String → String) (s : String) (ops : List GOp) (op : GOp) :
    latestContent key s (ops ++ [op]) = match op with
      | .setContent t c => if key t = key s then c else latestContent key s ops
      | _ => latestContent key s ops := by
  unfold latestContent
  rw [List.foldl_append]
  rfl

theorem latest_iff (key : String → String) (s : String) (ops : List GOp) : latestContent key s ops ≠ none ↔
    ∃ a t v b, ops = a ++ .setContent t (some v) :: b ∧ key t = key s ∧
      ∀ t' w, GOp.setContent t' w ∈ b → key t' = key s → w.isSome := by
  induction ops using List.reverseRecOn with
  | nil =>
    refine ⟨fun h => absurd rfl h, ?_⟩
    rintro ⟨a, t, v, b, h, _⟩
    cases a <;> cases h
  | append_singleton ops op ih =>
    have keep : (∀ t c, op = .setContent t c → key t = key s → c.isSome) →
        (∃ a t v b, ops = a ++ .setContent t (some v) :: b ∧ key t = key s ∧
          ∀ t' w, GOp.setContent t' w ∈ b → key t' = key s → w.isSome) →
        ∃ a t v b, ops ++ [op] = a ++ .setContent t (some v) :: b ∧ key t = key s ∧
          ∀ t' w, GOp.setContent t' w ∈ b → key t' = key s → w.isSome := by
      rintro hop ⟨a, t, v, b, rfl, h2, h3⟩
      refine ⟨a, t, v, b ++ [op], by simp, h2, fun t' w hm hk => ?_⟩
      rcases List.mem_append.1 hm with hm | hm
      · exact h3 t' w hm hk
      · exact hop t' w (List.mem_singleton.1 hm).symm hk
    have drop : (∀ t v, op = .setContent t (some v) → key t ≠ key s) →
        (∃ a t v b, ops ++ [op] = a ++ .setContent t (some v) :: b ∧ key t = key s ∧
          ∀ t' w, GOp.setContent t' w ∈ b → key t' = key s → w.isSome) →
        (∃ a t v b, ops = a ++ .setContent t (some v) :: b ∧ key t = key s ∧
          ∀ t' w, GOp.setContent t' w ∈ b → key t' = key s → w.isSome) := by
      rintro hop ⟨a, t, v, b, h1, h2, h3⟩
      rcases List.eq_nil_or_concat b with rfl | ⟨b', x, rfl⟩
      · have := List.append_inj' h1 rfl
        obtain ⟨_, h⟩ := this
        cases h
        exact absurd h2 (hop t v rfl)
      · have h1' : ops ++ [op] = (a ++ .setContent t (some v) :: b') ++ [x] := by simpa using h1
        obtain ⟨h, _⟩ := List.append_inj' h1' rfl
        exact ⟨a, t, v, b', h, h2, fun t' w hm => h3 t' w (by simp [hm])⟩
    rw [latestContent_snoc]
    cases op with
    | add m => exact ih.trans ⟨keep (by intro _ _ h; cases h), drop (by intro _ _ h; cases h)⟩
    | asJson => exact ih.trans ⟨keep (by intro _ _ h; cases h), drop (by intro _ _ h; cases h)⟩
    | setContent t c =>
      by_cases hk : key t = key s
      · simp only [hk, if_true]
        cases c with
        | some v => exact ⟨fun _ => ⟨ops, t, v, [], by simp, hk, by simp⟩, fun _ => by simp⟩
        | none =>
          refine ⟨fun h => absurd rfl h, ?_⟩
          rintro ⟨a, t', v, b, h1, h2, h3⟩
          rcases List.eq_nil_or_concat b with rfl | ⟨b', x, rfl⟩
          · obtain ⟨_, h⟩ := List.append_inj' h1 rfl
            cases h
          · have h1' : ops ++ [.setContent t none] = (a ++ .setContent t' (some v) :: b') ++ [x] := by simpa using h1
            obtain ⟨_, h⟩ := List.append_inj' h1' rfl
            cases h
            have := h3 t none (by simp) hk
            cases this
      · simp only [hk, if_false]
        exact ih.trans ⟨keep (by intro _ _ h hk'; cases h; exact absurd hk' hk), drop (by intro _ _ h; cases h; exact hk)⟩

/-- The text under which a source is known, if it has one. -/
def nameOr (U : UrlLib) (root : Option String) (s : String) : String := (nameUnder U root s).getD ""

theorem held_iff {U : UrlLib} {root : Option String} {ops : List GOp}
    (h : ∀ t v, GOp.setContent t v ∈ ops → nameUnder U root t ≠ none) :
    (∃ s, latestContent (nameOr U root) s ops ≠ none) ↔ ContentHeld U root ops := by
  have same : ∀ {s t : String}, nameUnder U root s ≠ none → nameUnder U root t ≠ none →
      (nameOr U root s = nameOr U root t ↔ nameUnder U root s = nameUnder U root t) := by
    intro s t hs ht
    unfold nameOr
    cases h1 : nameUnder U root s with
    | none => exact absurd h1 hs
    | some x =>
      cases h2 : nameUnder U root t with
      | none => exact absurd h2 ht
      | some y => simp
  constructor
  · rintro ⟨s, hs⟩
    obtain ⟨a, t, v, b, rfl, h2, h3⟩ := (latest_iff _ s ops).1 hs
    refine ⟨a, t, v, b, rfl, fun t' w hm hk => h3 t' w hm ?_⟩
    rw [← h2]
    exact (same (h t' w (by simp [hm])) (h t (some v) (by simp))).2 hk
  · rintro ⟨a, t, v, b, rfl, h3⟩
    refine ⟨t, (latest_iff _ t _).2 ⟨a, t, v, b, rfl, rfl, fun t' w hm hk => h3 t' w hm ?_⟩⟩
    exact (same (h t' w (by simp [hm])) (h t (some v) (by simp))).1 hk

/-- C124: a session with a generator, of valid mappings, ends without a panic if and only if every call has what it needs after the
calls before it. -/
theorem C124_returns_iff (U : UrlLib) (cfg : Cfg) (file root : Option String) (skip : Bool) : ∀ (ops : List GOp)
    (_ : ∀ m ∈ gAdded ops, m.Valid ∧ 1 ≤ m.generated.line)
    (_ : (firstOccurrences ((gAdded ops).filterMap Mapping.source)).length < 2147483648)
    (_ : (firstOccurrences ((gAdded ops).filterMap Mapping.name)).length < 2147483648),
    (∃ g, (Generator.new file root skip).run U cfg ops = .ok g) ↔
      ∀ before op after, ops = before ++ op :: after → GenNeeds U root before op := by
  intro ops
  induction ops using List.reverseRecOn with
  | nil =>
    intro _ _ _
    refine ⟨fun _ before op after h => ?_, fun _ => ⟨_, rfl⟩⟩
    cases before <;> cases h
  | append_singleton ops op ih =>
    intro hval hS hN
    have hval' : ∀ m ∈ gAdded ops, m.Valid ∧ 1 ≤ m.generated.line := fun m hm => hval m (by rw [gAdded_append]; simp [hm])
    have hS' : (firstOccurrences ((gAdded ops).filterMap Mapping.source)).length < 2147483648 := by
      rw [gAdded_append, List.filterMap_append] at hS
      exact Nat.lt_of_le_of_lt (firstOccurrences_mono _ _) hS
    have hN' : (firstOccurrences ((gAdded ops).filterMap Mapping.name)).length < 2147483648 := by
      rw [gAdded_append, List.filterMap_append] at hN
      exact Nat.lt_of_le_of_lt (firstOccurrences_mono _ _) hN
    have ih := ih hval' hS' hN'
    have hsplit : (∀ before op' after, ops ++ [op] = before ++ op' :: after → GenNeeds U root before op') ↔
        (∀ before op' after, ops = before ++ op' :: after → GenNeeds U root before op') ∧ GenNeeds U root ops op := by
      constructor
      · intro h
        exact ⟨fun b o a he => h b o (a ++ [op]) (by rw [he]; simp), h ops op [] rfl⟩
      · rintro ⟨h1, h2⟩ b o a he
        rcases List.eq_nil_or_concat a with rfl | ⟨a', x, rfl⟩
        · obtain ⟨rfl, h⟩ := List.append_inj' he rfl
          cases h
          exact h2
        · have he' : ops ++ [op] = (b ++ o :: a') ++ [x] := by simpa using he
          exact h1 b o a' (List.append_inj' he' rfl).1
    rw [hsplit, ← ih]
    have one : ∀ g, (Generator.new file root skip).run U cfg ops = .ok g →
        ((∃ g', g.step U cfg op = .ok g') ↔ GenNeeds U root ops op) := by
      intro g hg
      obtain ⟨_, h2, h3, _⟩ := gRun_new hg
      have hset : ∀ t v, GOp.setContent t v ∈ ops → nameUnder U root t ≠ none := by
        intro t v hm
        obtain ⟨b, a, rfl⟩ := List.append_of_mem hm
        exact ih.1 ⟨g, hg⟩ b _ a rfl
      cases op with
      | add m =>
        refine ⟨fun _ => trivial, fun _ => ?_⟩
        have hv : ∀ m ∈ added (mlOps ops), m.Valid := by
          rw [added_mlOps]; exact fun m hm => (hval' m hm).1
        obtain ⟨l1, r1, r2⟩ := run_valid cfg (mlOps ops) MappingList.new MappingList.inv_new hv
        rw [h3] at r1; cases r1
        obtain ⟨l', e, _⟩ := add_valid cfg r2 (hval m (by rw [gAdded_append]; simp [gAdded])).1
        exact ⟨_, by simp only [Generator.step, Generator.addMapping, e, Res.ok_bind, Res.pure_eq]; rfl⟩
      | setContent s c =>
        simp only [GenNeeds, nameUnder_ne, Generator.step, Generator.setSourceContent, h2]
        constructor
        · rintro ⟨g', hg'⟩
          obtain ⟨k, hk, _⟩ := Res.bind_eq_ok.1 hg'
          exact ⟨k, hk⟩
        · rintro ⟨k, hk⟩
          rw [hk]
          cases c <;> exact ⟨_, rfl⟩
      | asJson =>
        have hk : ∀ t v, GOp.setContent t v ∈ ops → Generator.contentKey U root t = .ok (nameOr U root t) := by
          intro t v hm
          rw [contentKey_iff]
          unfold nameOr
          have := hset t v hm
          cases h : nameUnder U root t with
          | none => exact absurd h this
          | some x => rfl
        have h1 := C24_returns_iff U cfg file root skip (nameOr U root) ops g hval' hS' hN' hk hg
        have h4 : (∀ s, latestContent (nameOr U root) s ops = none) ↔ ¬ ContentHeld U root ops := by
          rw [← held_iff hset]
          simp
        simp only [GenNeeds, nameUnder_ne, Generator.step]
        have h5 : (∃ g', (do let r ← g.asJson U cfg; pure r.2 : Res Generator) = .ok g') ↔ ∃ j g', g.asJson U cfg = .ok (j, g') := by
          cases g.asJson U cfg with
          | error e => simp
          | ok r => exact ⟨fun _ => ⟨r.1, r.2, rfl⟩, fun _ => ⟨_, rfl⟩⟩
        rw [h5, h1, h4]
        by_cases hc : ContentHeld U root ops <;> simp [hc]
    constructor
    · rintro ⟨g, hg⟩
      cases hr : (Generator.new file root skip).run U cfg ops with
      | error e =>
        exfalso
        have : ∀ (a b : List GOp) (g : Generator) e, g.run U cfg a = .error e → g.run U cfg (a ++ b) = .error e := by
          intro a
          induction a with
          | nil => intro b g e h; cases h
          | cons o a ih =>
            intro b g e h
            simp only [List.cons_append, Generator.run] at h ⊢
            cases hs : g.step U cfg o with
            | error e' => rw [hs] at h; exact h
            | ok g' => rw [hs] at h; exact ih b g' e h
        rw [this _ _ _ _ hr] at hg
        cases hg
      | ok g₁ =>
        rw [gRun_append _ _ _ _ hr] at hg
        simp only [Generator.run, Res.bind_eq_ok] at hg
        obtain ⟨g2, hg2, _⟩ := hg
        exact ⟨⟨g₁, rfl⟩, (one g₁ hr).1 ⟨g2, hg2⟩⟩
    · rintro ⟨⟨g, hg⟩, hn⟩
      obtain ⟨g', hg'⟩ := (one g hg).2 hn
      exact ⟨g', by rw [gRun_append _ _ _ _ hg]; simp only [Generator.run, hg', Res.ok_bind]⟩

/-- Which sources can be named under a root written in the usual way: those that are not written like the root, as a reference, as a
path or with the same host, for `relative` panics on these (C83). -/
theorem C124_named {U : UrlLib} (hU : U.Laws) {R p : Written} {t : Tail} (hR : R.Valid) (hp : p.Valid) (ht : t.Valid)
    (hRl : 2 ≤ R.text.length) (hpl : 2 ≤ (p.text ++ t.text).length) :
    nameUnder U (some (String.ofList R.text)) (String.ofList (p.text ++ t.text)) ≠ none ↔ ¬ R.Together p := by
  have hg : (Generator.new none (some (String.ofList R.text)) false).sourceRoot = some (String.ofList R.text) := rfl
  rw [nameUnder_ne, ← C63_returns_iff hU hR hp ht hRl hpl hg none]
  simp only [Generator.setSourceContent, hg, Res.bind_eq_ok]
  constructor
  · rintro ⟨k, hk⟩
    exact ⟨_, k, hk, rfl⟩
  · rintro ⟨_, k, hk, _⟩
    exact ⟨k, hk⟩

/-- Under the root `src`: with the content of a path and a mapping in the reference `a.js`, which cannot be named, serialising
panics; after the content has been taken back, it returns. -/
theorem C124_case :
    (∀ ops ∈ [[GOp.setContent "/lib/x.js" (some "x"), .add gxR, .asJson],
        [.setContent "/lib/x.js" (some "x"), .add gxR, .setContent "/lib/x.js" none, .asJson]],
      (∀ m ∈ gAdded ops, m.Valid ∧ 1 ≤ m.generated.line) ∧
      (firstOccurrences ((gAdded ops).filterMap Mapping.source)).length < 2147483648 ∧
      (firstOccurrences ((gAdded ops).filterMap Mapping.name)).length < 2147483648) ∧
    ((Generator.new none (some "src") false).run MiniUrl.lib ⟨true, true⟩
      [.setContent "/lib/x.js" (some "x"), .add gxR, .asJson]).toOption.isNone ∧
    ((Generator.new none (some "src") false).run MiniUrl.lib ⟨true, true⟩
      [.setContent "/lib/x.js" (some "x"), .add gxR, .setContent "/lib/x.js" none, .asJson]).toOption.isSome := by
  refine ⟨?_, by decide +kernel, by decide +kernel⟩
  intro ops hops
  simp only [List.mem_cons, List.not_mem_nil, or_false] at hops
  rcases hops with rfl | rfl <;> refine ⟨?_, by decide, by decide⟩ <;>
    · intro m hm
      simp only [gAdded, List.mem_singleton] at hm
      subst hm
      exact ⟨(gxR_enc (cfg := ⟨true, true⟩)).valid, by decide⟩

end RSM
