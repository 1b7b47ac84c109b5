import Verif.Props.Forward
import Verif.Props.Reverse
import Verif.Props.Copy
import Verif.Props.ConsumerShift
import Verif.Props.ConsumerLocal
/-! # Property C122: which sessions with a consumer end without a panic, and what they answer -/

namespace RSM
open Spec

variable {E : Env}

namespace BasicConsumer

/-- A session: calls one after the other, with their answers; it ends with the first panic. -/
def session (c : BasicConsumer E) : List Op → Res (List Ans)
  | [] => .ok []
  | op :: ops => do
    let r ← c.step op
    let rest ← session r.2 ops
    pure (r.1 :: rest)

/-- The answer of a fresh consumer to one call. -/
def answer (c : BasicConsumer E) (op : Op) : Res RawAns := (c.step op).map fun r => r.1.strip

/-- The integers of the call are of the type they have in the code. -/
def Op.InRange : Op → Prop
  | .original p _ => IsI32 p.line ∧ IsI32 p.column
  | .generated _ l k _ => IsI32 l ∧ IsI32 k
  | .all _ l k => IsI32 l ∧ IsI32 (k.getD 0)
  | _ => True

/-- What a call needs in order to return, of a consumer of a map with these segments, names and contents: positions that
count from 1 and 0; a source that can be located; for `generated_position_for` a name under the number of the source, unless there is
nothing to be found; for `source_content_for` of a map with contents a content under the number of the source, or that the
caller put up with an unknown source. -/
def Needs (c : BasicConsumer E) (raws : List RawMapping) (names : List String) (contents : Option (List String)) : Op → Prop
  | .each _ => True
  | .spans => True
  | .original p _ => 1 ≤ p.line ∧ 0 ≤ p.column
  | .generated s l k b => c.Unknown s ∨ ∃ n, c.Knows s n ∧ 1 ≤ l ∧ 0 ≤ k ∧ (n < names.length ∨
      Nearest RawMapping.origPos (raws.filter (·.fromSource n)) ((l - 1).toNat, k.toNat) (b.getD .glb) none)
  | .all s l k => c.Unknown s ∨ ∃ n, c.Knows s n ∧ 1 ≤ l ∧ 0 ≤ k.getD 0
  | .content s p => ∀ l, contents = some l → (c.Unknown s ∧ p = some false) ∨ ∃ n, c.Knows s n ∧ n < l.length

end BasicConsumer

open BasicConsumer

theorem session_rel (hL : E.maps.Laws) (hT : E.maps.Total) {c₀ : BasicConsumer E} (h₀ : Rel c₀ c₀) : ∀ (ops : List Op)
    {c : BasicConsumer E}, Rel c₀ c → (c.session ops).map (List.map Ans.strip) = ops.mapM c₀.answer := by
  intro ops
  induction ops with
  | nil => intro c _; rfl
  | cons op ops ih =>
    intro c h
    have ha := h.agree_total hL hT h₀ op
    rw [List.mapM_cons]
    simp only [BasicConsumer.session]
    unfold BasicConsumer.answer at ih ⊢
    rw [← ha]
    cases hs : c.step op with
    | error e => rfl
    | ok r =>
      obtain ⟨a, c'⟩ := r
      have := ih (h.step hL hs)
      simp only [Res.ok_bind, Except.map] at this ⊢
      rw [← this]
      cases c'.session ops <;> rfl

/-- C122: a session answers, call by call, what a fresh consumer asked only that would answer, span ends apart, and ends with the
panic of the first call that panics there; and it returns, if none does. -/
theorem C122_session (hL : E.maps.Laws) (hT : E.maps.Total) {m : SourceMapJson} {u : Option String}
    {c₀ : BasicConsumer E} (h : Built m u c₀) (ops : List Op) :
    (c₀.session ops).map (List.map Ans.strip) = ops.mapM c₀.answer := session_rel hL hT h.rel ops h.rel

/-- Which calls return, on a map whose segments are in range. -/
theorem C122_call (hL : E.maps.Laws) (hT : E.maps.Total) {m : SourceMapJson} {u : Option String} {c : BasicConsumer E}
    (h : Built m u c) {raws : List RawMapping} (hseg : m.Segments raws) {N : List String} (hN : m.names = some N)
    (hlen : c.getSources.length < 2147483648) (hfit : ∀ x ∈ raws, Fits c.getSources N 2147483648 x) {op : Op} (hr : op.InRange) :
    (∃ a, c.answer op = .ok a) ↔ c.Needs raws N m.sourcesContent op := by
  have hrun : c.run [] = .ok c := rfl
  have hret : (∃ a, c.answer op = .ok a) ↔ ∃ r, c.step op = .ok r := by
    unfold BasicConsumer.answer
    cases c.step op with
    | error e => exact ⟨fun ⟨_, h⟩ => (by cases h), fun ⟨_, h⟩ => (by cases h)⟩
    | ok r => exact ⟨fun _ => ⟨r, rfl⟩, fun _ => ⟨_, rfl⟩⟩
  rw [hret]
  have hlines : ∀ r ∈ raws, r.line < 4294967295 := fun r hr => by have := (hfit r hr).1; omega
  have hcases : ∀ s, (∃ e, c.findSourceIndex s = .error e ∧ ¬ c.Unknown s ∧ ∀ n, ¬ c.Knows s n) ∨
      (c.Unknown s ∧ ∀ n, ¬ c.Knows s n) ∨ (∃ n, c.Knows s n ∧ (∀ n', c.Knows s n' → n' = n) ∧ ¬ c.Unknown s) := by
    intro s
    obtain ⟨l1, l2⟩ := lookup_spec h hlen s
    rcases h.rel.find s with ⟨e, h1, h2⟩ | ⟨r, k, h1, h2, _⟩
    · refine .inl ⟨e, h2, fun hu => ?_, fun n hn => ?_⟩
      · rw [l2.2 hu] at h1; cases h1
      · rw [(l1 n).2 ⟨n, rfl, hn⟩] at h1; cases h1
    · cases r with
      | none =>
        refine .inr (.inl ⟨l2.1 h1, fun n hn => ?_⟩)
        rw [(l1 n).2 ⟨n, rfl, hn⟩] at h1; cases h1
      | some i =>
        obtain ⟨n, rfl, hn⟩ := (l1 i).1 h1
        refine .inr (.inr ⟨n, hn, fun n' hn' => ?_, fun hu => ?_⟩)
        · rw [(l1 n').2 ⟨n', rfl, hn'⟩] at h1
          cases h1; rfl
        · rw [l2.2 hu] at h1; cases h1
  cases op with
  | each o =>
    refine ⟨fun _ => trivial, fun _ => ?_⟩
    cases o with
    | generated =>
      obtain ⟨l, c', e, _⟩ := C36_each_generated hL h hrun hseg
      exact ⟨_, by simp only [BasicConsumer.step, e, Res.ok_bind, Res.pure_eq]; rfl⟩
    | original =>
      obtain ⟨r, e⟩ := (C36_each_original hL h hrun hseg).2 hT
      exact ⟨_, by simp only [BasicConsumer.step, e, Res.ok_bind, Res.pure_eq]; rfl⟩
  | spans =>
    refine ⟨fun _ => trivial, fun _ => ?_⟩
    obtain ⟨M, hM, _⟩ := ensure_segments hL h h.rel hseg
    obtain ⟨M', hM'⟩ := hT.spans M
    simp only [BasicConsumer.step, computeColumnSpans, hM, hM', Res.ok_bind, Res.pure_eq]
    split <;> exact ⟨_, rfl⟩
  | original p b =>
    constructor
    · rintro ⟨r, hr'⟩
      refine Classical.byContradiction fun hn => ?_
      obtain ⟨msg, e⟩ := C32_original_guard c p b (by simp only [BasicConsumer.Needs] at hn; omega)
      simp only [BasicConsumer.step, e] at hr'
      cases hr'
    · intro hn
      obtain ⟨r, c', e⟩ := C31_returns hL hT h hrun hseg hlines (fun r hr o ho => by
        have := (hfit r hr).2.2 o ho
        exact ⟨by omega, fun i hi => ⟨N, hN, this.2.2.2.2 i hi⟩⟩) hr hn b
      exact ⟨_, by simp only [BasicConsumer.step, e, Res.ok_bind, Res.pure_eq]; rfl⟩
  | generated s l k b =>
    simp only [BasicConsumer.Needs]
    rcases hcases s with ⟨e, h1, h2, h3⟩ | ⟨h1, h2⟩ | ⟨n, h1, h2, h3⟩
    · constructor
      · rintro ⟨r, hr'⟩
        simp only [BasicConsumer.step, generatedPositionFor, h1] at hr'
        cases hr'
      · rintro (hu | ⟨n, hn, _⟩)
        · exact absurd hu h2
        · exact absurd hn (h3 n)
    · refine ⟨fun _ => .inl h1, fun _ => ?_⟩
      obtain ⟨_, c', e⟩ := C35_unknown hL h hrun hlen h1 l k b
      exact ⟨_, by simp only [BasicConsumer.step, e, Res.ok_bind, Res.pure_eq]; rfl⟩
    · constructor
      · rintro ⟨r, hr'⟩
        refine .inr ⟨n, h1, ?_⟩
        have hpos : 1 ≤ l ∧ 0 ≤ k := Classical.byContradiction fun hn => by
          obtain ⟨⟨msg, e⟩, _⟩ := C32_reverse_guard hL h hrun hlen h1 l k b (by omega)
          simp only [BasicConsumer.step, e] at hr'
          cases hr'
        refine ⟨hpos.1, hpos.2, Classical.byContradiction fun hn => ?_⟩
        obtain ⟨e, he⟩ := C34_too_few_names_refuted hL hT h hrun hseg hlen h1 hr hpos.1 hpos.2 b (fun names hnm => by
          rw [hN] at hnm; cases hnm
          exact Nat.le_of_not_lt fun hlt => hn (.inl hlt)) (fun hne => hn (.inr hne))
        simp only [BasicConsumer.step, he] at hr'
        cases hr'
      · rintro (hu | ⟨n', hn', hl, hk, hne⟩)
        · exact absurd hu h3
        · obtain rfl := h2 n' hn'
          have : ∃ r c', c.generatedPositionFor s l k b = .ok (r, c') := by
            by_cases hlt : n' < N.length
            · exact C34_returns_partial hL hT h hrun hseg hlen h1 hr hl hk b hN hlt hlines
            · obtain ⟨x, c', g1, g2⟩ := generated_run hL hT h hrun hseg hlen h1 hr hl hk b
              have hnone := hne.resolve_left hlt
              cases x with
              | none => exact ⟨none, c', by rw [g2]; rfl⟩
              | some x =>
                have s1 := g1.side
                have s2 := hnone.side
                simp only [Option.map_some] at s1
                exact absurd s1.2.1 (s2 _ s1.1)
          obtain ⟨r, c', e⟩ := this
          exact ⟨_, by simp only [BasicConsumer.step, e, Res.ok_bind, Res.pure_eq]; rfl⟩
  | all s l k =>
    simp only [BasicConsumer.Needs]
    have hcol : c.allGeneratedPositionFor s l k = c.allGeneratedPositionFor s l (some (k.getD 0)) := by
      cases k <;> rfl
    rcases hcases s with ⟨e, h1, h2, h3⟩ | ⟨h1, h2⟩ | ⟨n, h1, h2, h3⟩
    · constructor
      · rintro ⟨r, hr'⟩
        simp only [BasicConsumer.step, allGeneratedPositionFor, h1] at hr'
        cases hr'
      · rintro (hu | ⟨n, hn, _⟩)
        · exact absurd hu h2
        · exact absurd hn (h3 n)
    · refine ⟨fun _ => .inl h1, fun _ => ?_⟩
      obtain ⟨⟨c', e⟩, _⟩ := C35_unknown hL h hrun hlen h1 l (k.getD 0) none
      exact ⟨_, by simp only [BasicConsumer.step, hcol, e, Res.ok_bind, Res.pure_eq]; rfl⟩
    · constructor
      · rintro ⟨r, hr'⟩
        refine .inr ⟨n, h1, Classical.byContradiction fun hn => ?_⟩
        obtain ⟨_, ⟨msg, e⟩⟩ := C32_reverse_guard hL h hrun hlen h1 l (k.getD 0) none (by omega)
        simp only [BasicConsumer.step, hcol, e] at hr'
        cases hr'
      · rintro (hu | ⟨n', hn', hpos⟩)
        · exact absurd hu h3
        · obtain ⟨r, c', e⟩ := (C35_all_generated_partial hL h hrun hseg hlen hn' hr hpos).2 hT
          exact ⟨_, by simp only [BasicConsumer.step, hcol, e, Res.ok_bind, Res.pure_eq]; rfl⟩
  | content s p =>
    simp only [BasicConsumer.Needs]
    have hmap : c.sourceMap = m := by obtain ⟨_, _, _, _, _, _, hm, _⟩ := h.spec; exact hm
    cases hc : m.sourcesContent with
    | none =>
      refine ⟨fun _ _ h => (by cases h), fun _ => ?_⟩
      have e := (C39_no_contents hL h hrun hc s p).2
      exact ⟨_, by simp only [BasicConsumer.step, e, Res.ok_bind, Res.pure_eq]; rfl⟩
    | some contents =>
      constructor
      · rintro ⟨r, hr'⟩ l' hl'
        cases hl'
        rcases hcases s with ⟨e, h1, h2, h3⟩ | ⟨h1, h2⟩ | ⟨n, h1, h2, h3⟩
        · simp only [BasicConsumer.step, sourceContentFor, hmap, hc, h1] at hr'
          cases hr'
        · refine .inl ⟨h1, ?_⟩
          obtain ⟨⟨m1, e1⟩, ⟨m2, e2⟩, _⟩ := C39_unknown hL h hrun hlen hc h1
          cases p with
          | none => simp only [BasicConsumer.step, e1] at hr'; cases hr'
          | some p =>
            cases p with
            | true => simp only [BasicConsumer.step, e2] at hr'; cases hr'
            | false => rfl
        · refine .inr ⟨n, h1, Classical.byContradiction fun hn => ?_⟩
          have e := (C39_content_at hL h hrun hlen hc h1 p).2 (by omega)
          simp only [BasicConsumer.step, e] at hr'
          cases hr'
      · intro hn
        rcases hn contents rfl with ⟨h1, rfl⟩ | ⟨n, h1, h2⟩
        · obtain ⟨_, _, c', e⟩ := C39_unknown hL h hrun hlen hc h1
          exact ⟨_, by simp only [BasicConsumer.step, e, Res.ok_bind, Res.pure_eq]; rfl⟩
        · obtain ⟨c', e⟩ := (C39_content_at hL h hrun hlen hc h1 p).1 _ (List.getElem?_eq_getElem h2)
          exact ⟨_, by simp only [BasicConsumer.step, e, Res.ok_bind, Res.pure_eq]; rfl⟩

theorem mapM_returns_iff {α β : Type} (f : α → Res β) : ∀ (l : List α), (∃ r, l.mapM f = .ok r) ↔ ∀ a ∈ l, ∃ b, f a = .ok b := by
  intro l
  induction l with
  | nil => exact ⟨fun _ _ h => (by cases h), fun _ => ⟨[], rfl⟩⟩
  | cons a l ih =>
    rw [List.mapM_cons, List.forall_mem_cons, ← ih]
    cases f a with
    | error e => exact ⟨fun ⟨_, h⟩ => (by cases h), fun ⟨⟨_, h⟩, _⟩ => (by cases h)⟩
    | ok b =>
      cases l.mapM f with
      | error e => exact ⟨fun ⟨_, h⟩ => (by cases h), fun ⟨_, _, h⟩ => (by cases h)⟩
      | ok bs => exact ⟨fun _ => ⟨⟨b, rfl⟩, bs, rfl⟩, fun _ => ⟨_, rfl⟩⟩

/-- C122, exactly when: a session ends without a panic if and only if every call of it has what it needs, in the fresh
consumer. -/
theorem C122_returns_iff (hL : E.maps.Laws) (hT : E.maps.Total) {m : SourceMapJson} {u : Option String} {c : BasicConsumer E}
    (h : Built m u c) {raws : List RawMapping} (hseg : m.Segments raws) {N : List String} (hN : m.names = some N)
    (hlen : c.getSources.length < 2147483648) (hfit : ∀ x ∈ raws, Fits c.getSources N 2147483648 x) {ops : List Op}
    (hr : ∀ op ∈ ops, op.InRange) :
    (∃ l, c.session ops = .ok l) ↔ ∀ op ∈ ops, c.Needs raws N m.sourcesContent op := by
  have h1 : (∃ l, c.session ops = .ok l) ↔ ∃ r, ops.mapM c.answer = .ok r := by
    rw [← C122_session hL hT h ops]
    cases c.session ops with
    | error e => exact ⟨fun ⟨_, h⟩ => (by cases h), fun ⟨_, h⟩ => (by cases h)⟩
    | ok r => exact ⟨fun _ => ⟨_, rfl⟩, fun _ => ⟨r, rfl⟩⟩
  rw [h1, mapM_returns_iff]
  exact forall₂_congr fun op hop => C122_call hL hT h hseg hN hlen hfit (hr op hop)

/-- A map without names, as the generator writes it when no mapping was named: the bytes name one place. -/
def nameless : SourceMapJson := { demoMap with names := some [], mappings := some "CAAC" }

/-- The hypotheses hold together, of a map whose consumer answers calls of every kind, the session of them returning; and of
a map without names, where the session returns up to the call that asks back from the place told, and panics there. -/
theorem C122_case : (∃ c : BasicConsumer demoEnv, Built demoMap none c ∧ demoMap.Segments demoRaws ∧
      demoMap.names = some ["bar", "baz", "n"] ∧ c.getSources.length < 2147483648 ∧
      (∀ x ∈ demoRaws, Fits c.getSources ["bar", "baz", "n"] 2147483648 x) ∧ (∀ op ∈ demoOps, op.InRange) ∧
      ∃ l, c.session demoOps = .ok l) ∧
    ∃ c : BasicConsumer demoEnv, Built nameless none c ∧ nameless.Segments [⟨0, 1, some ⟨0, 0, 1, none⟩⟩] ∧
      nameless.names = some [] ∧ c.getSources.length < 2147483648 ∧
      (∀ x ∈ [(⟨0, 1, some ⟨0, 0, 1, none⟩⟩ : RawMapping)], Fits c.getSources [] 2147483648 x) ∧
      (∃ l, c.session [.original ⟨1, 1⟩ none, .generated "one.js" 1 0 none, .generated "two.js" 1 1 none] = .ok l) ∧
      ¬ ∃ l, c.session [.original ⟨1, 1⟩ none, .generated "one.js" 1 1 none] = .ok l := by
  constructor
  · obtain ⟨c, hc, h⟩ := Res.of_test (r := demoConsumer demoMap)
      (fun c => decide (c.getSources = ["one.js", "two.js"]) && (c.session demoOps).toOption.isSome) (by decide +kernel)
    simp only [Bool.and_eq_true, decide_eq_true_eq] at h
    obtain ⟨h1, h2⟩ := h
    refine ⟨c, .inr hc, ⟨_, rfl, by decide +kernel, by simp [demoRaws, Spec.RawMapping.U32]⟩, rfl, by rw [h1]; decide, ?_, ?_, ?_⟩
    · rw [h1]; decide
    · simp [demoOps, BasicConsumer.Op.InRange, IsI32]
    · cases hs : c.session demoOps with
      | error e => rw [hs] at h2; cases h2
      | ok l => exact ⟨l, rfl⟩
  · obtain ⟨c, hc, h⟩ := Res.of_test (r := demoConsumer nameless)
      (fun c => decide (c.getSources = ["one.js", "two.js"]) &&
        ((c.session [.original ⟨1, 1⟩ none, .generated "one.js" 1 0 none, .generated "two.js" 1 1 none]).toOption.isSome &&
        (c.session [.original ⟨1, 1⟩ none, .generated "one.js" 1 1 none]).toOption.isNone)) (by decide +kernel)
    simp only [Bool.and_eq_true, decide_eq_true_eq] at h
    obtain ⟨h1, h2, h3⟩ := h
    refine ⟨c, .inr hc, ⟨_, rfl, by decide +kernel, by simp [Spec.RawMapping.U32]⟩, rfl, by rw [h1]; decide, ?_, ?_, ?_⟩
    · rw [h1]; decide
    · cases hs : c.session [.original ⟨1, 1⟩ none, .generated "one.js" 1 0 none, .generated "two.js" 1 1 none] with
      | error e => rw [hs] at h2; cases h2
      | ok l => exact ⟨l, rfl⟩
    · rintro ⟨l, hl⟩
      rw [hl] at h3; cases h3

end RSM
