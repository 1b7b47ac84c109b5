import Verif.Model.Caught
import Verif.Lemmas.Consumer
import Verif.Lemmas.Indexed
/-! # What calls leave behind: consumers -/

namespace RSM

variable {E : Env} {S T α β : Type}

/-- The two models of a method agree: the same result and object, or the same panic. -/
def Left.Agrees (x : Left S α) (y : S → Res (α × S)) : Prop :=
  ∀ s, (∀ a s', y s = .ok (a, s') → x s = (.ok a, s')) ∧ ∀ e, y s = .error e → (x s).1 = .error e

theorem Left.Agrees.fst {x : Left S α} {y : S → Res (α × S)} (h : x.Agrees y) (s : S) :
    (x s).1 = (y s).map Prod.fst := by
  cases hy : y s with
  | error e => exact (h s).2 e hy
  | ok r => rw [(h s).1 r.1 r.2 hy]; rfl

/-- However the call ends, `P` holds of the object, and `Q` of the result if there is one. -/
def Left.Keeps (P : S → Prop) (x : Left S α) (Q : α → Prop) : Prop :=
  ∀ s, P s → P (x s).2 ∧ ∀ a, (x s).1 = .ok a → Q a

theorem Left.bind_apply (x : Left S α) (f : α → Left S β) (s : S) :
    (x >>= f) s = match x s with
      | (.ok a, s') => f a s'
      | (.error e, s') => (.error e, s') := rfl

theorem Left.pure_apply (a : α) (s : S) : (pure a : Left S α) s = (.ok a, s) := rfl

theorem Left.Keeps.bind {P : S → Prop} {x : Left S α} {f : α → Left S β} {Q : α → Prop} {R : β → Prop}
    (hx : x.Keeps P Q) (hf : ∀ a, Q a → (f a).Keeps P R) : Left.Keeps P (x >>= f) R := by
  intro s hs
  obtain ⟨h1, h2⟩ := hx s hs
  rw [Left.bind_apply]
  revert h1 h2
  rcases x s with ⟨r, s'⟩
  cases r with
  | error e => intro h1 _; exact ⟨h1, fun a ha => nomatch ha⟩
  | ok a => intro h1 h2; exact hf a (h2 a rfl) s' h1

theorem Left.Keeps.pure {P : S → Prop} {a : α} {Q : α → Prop} (h : Q a) : Left.Keeps P (pure a : Left S α) Q := by
  intro s hs
  refine ⟨hs, fun b hb => ?_⟩
  cases hb
  exact h

theorem Left.Keeps.lift {P : S → Prop} {r : Res α} {Q : α → Prop} (h : ∀ a, r = .ok a → Q a) :
    Left.Keeps P (Left.lift r) Q := fun _ hs => ⟨hs, h⟩

theorem Left.Keeps.lift' {P : S → Prop} (r : Res α) : Left.Keeps P (Left.lift r) fun _ => True :=
  .lift fun _ _ => trivial

theorem Left.Keeps.panic {P : S → Prop} {e : Panic} {Q : α → Prop} : Left.Keeps P (Left.panic e : Left S α) Q :=
  fun _ hs => ⟨hs, fun _ h => nomatch h⟩

theorem Left.Keeps.get {P : S → Prop} : Left.Keeps P Left.get P := by
  intro s hs
  refine ⟨hs, fun a ha => ?_⟩
  cases ha
  exact hs

theorem Left.Keeps.set {P : S → Prop} {s : S} (h : P s) : Left.Keeps P (Left.set s) fun _ => True :=
  fun _ _ => ⟨h, fun _ _ => trivial⟩

theorem Left.Keeps.weaken {P : S → Prop} {x : Left S α} {Q R : α → Prop} (h : x.Keeps P Q) (hq : ∀ a, Q a → R a) :
    x.Keeps P R := fun s hs => ⟨(h s hs).1, fun a ha => hq a ((h s hs).2 a ha)⟩

namespace BasicConsumer

/-! ## The two models agree -/

theorem find_left (s : String) (c : BasicConsumer E) : findSourceIndexL s c =
    match c.findSourceIndex s with
    | .ok (r, c') => (.ok r, c')
    | .error e => (.error e, c) := by
  simp only [findSourceIndexL, findSourceIndex, Left.bind_apply, Left.get]
  cases c.cache.get? s with
  | some i => rfl
  | none =>
    simp only [Left.bind_apply, Left.lift]
    cases sourceUrl E none s c.sourceMapUrl with
    | error e => rfl
    | ok rel =>
      simp only [Res.ok_bind]
      cases c.absoluteSources.indexOf rel with
      | some i => rfl
      | none =>
        simp only [Left.bind_apply, Left.lift]
        cases sourceUrl E c.sourceMap.sourceRoot s c.sourceMapUrl with
        | error e => rfl
        | ok rooted =>
          simp only [Res.ok_bind]
          cases c.absoluteSources.indexOf rooted <;> rfl

/-- Parsing the mappings leaves the consumer as it was but for the field. -/
theorem ensure_left (c : BasicConsumer E) : (∃ e q, c.ensureMappings = .error e ∧
      ensureMappingsL c = (.error e, q)) ∨
    ∃ m, c.ensureMappings = .ok m ∧ ensureMappingsL c = (.ok m, { c with mappings := some m }) := by
  simp only [ensureMappingsL, ensureMappings, Left.bind_apply, Left.get]
  cases hm : c.mappings with
  | some m =>
    refine .inr ⟨m, rfl, ?_⟩
    simp only [Left.pure_apply, ← hm]
  | none =>
    simp only [Left.bind_apply, Left.lift, Left.set]
    cases c.parseMappings with
    | error e => exact .inl ⟨e, _, rfl, rfl⟩
    | ok p =>
      simp only [Res.ok_bind]
      cases p with
      | none => exact .inl ⟨_, _, rfl, rfl⟩
      | some m => exact .inr ⟨m, rfl, rfl⟩

theorem onMappings_left {α : Type} (m : E.maps.M) (f : E.maps.M → Res (α × E.maps.M)) (c : BasicConsumer E) :
    onMappings m f c = match f m with
      | .ok (a, m') => (.ok a, { c with mappings := some m' })
      | .error e => (.error e, c) := by
  simp only [onMappings, Left.bind_apply, Left.lift, Left.get, Left.set]
  cases f m <;> rfl

theorem content_agrees (s : String) (p : Option Bool) :
    (sourceContentForL (E := E) s p).Agrees fun c => c.sourceContentFor s p := by
  intro c
  simp only [sourceContentForL, sourceContentFor, Left.bind_apply, Left.get]
  cases c.sourceMap.sourcesContent with
  | none => exact ⟨fun a c' h => by cases h; rfl, fun e h => nomatch h⟩
  | some contents =>
    simp only [Left.bind_apply, find_left]
    cases c.findSourceIndex s with
    | error e => exact ⟨(fun a c' h => nomatch h), fun e h => by cases h; rfl⟩
    | ok r =>
      obtain ⟨i, c1⟩ := r
      simp only [Res.ok_bind]
      cases i with
      | some i =>
        simp only [Left.bind_apply, Left.lift]
        cases index contents (E.cfg.asUsize i) with
        | error e => exact ⟨(fun a c' h => nomatch h), fun e h => by cases h; rfl⟩
        | ok t => exact ⟨fun a c' h => by cases h; rfl, fun e h => nomatch h⟩
      | none =>
        simp only
        by_cases hp : p.getD true = true
        · rw [if_pos hp, if_pos hp]
          exact ⟨(fun a c' h => nomatch h), fun e h => by cases h; rfl⟩
        · rw [if_neg hp, if_neg hp]
          exact ⟨fun a c' h => by cases h; rfl, fun e h => nomatch h⟩

theorem report_same {c : BasicConsumer E} {m m' : E.maps.M} (line : Int) (r : Option LibMapping) :
    ({ c with mappings := some m } : BasicConsumer E).reportOriginal line r =
      ({ c with mappings := some m' } : BasicConsumer E).reportOriginal line r := by
  cases r with
  | none => rfl
  | some x => rfl

theorem original_agrees (p : Position) (b : Option Bias) :
    (originalPositionForL (E := E) p b).Agrees fun c => c.originalPositionFor p b := by
  intro c
  simp only [originalPositionForL, originalPositionFor, Left.bind_apply, Left.lift]
  cases checkPosition p.line p.column with
  | error e => exact ⟨(fun a c' h => nomatch h), fun e h => by cases h; rfl⟩
  | ok u =>
    simp only [Res.ok_bind]
    rcases ensure_left c with ⟨e, q, h1, h2⟩ | ⟨m, h1, h2⟩ <;> simp only [h1, h2, Res.error_bind, Res.ok_bind]
    · exact ⟨(fun a c' h => nomatch h), fun e h => by cases h; rfl⟩
    · cases E.cfg.arith (p.line - 1) with
      | error e => exact ⟨(fun a c' h => nomatch h), fun e h => by cases h; rfl⟩
      | ok line =>
        simp only [Res.ok_bind, onMappings_left]
        cases E.maps.originalLocationFor m (asU32 line) (asU32 p.column) (b.getD .glb) with
        | error e => exact ⟨(fun a c' h => nomatch h), fun e h => by cases h; rfl⟩
        | ok r =>
          obtain ⟨x, m'⟩ := r
          simp only [Res.ok_bind, Left.get]
          have e : ({ c with mappings := some m' } : BasicConsumer E).reportOriginal p.line x =
              c.reportOriginal p.line x := by cases x <;> rfl
          rw [e]
          cases c.reportOriginal p.line x with
          | error e => exact ⟨(fun a c' h => nomatch h), fun e h => by cases h; rfl⟩
          | ok t => exact ⟨fun a c' h => by cases h; rfl, fun e h => nomatch h⟩

theorem generated_agrees (s : String) (l k : Int) (b : Option Bias) :
    (generatedPositionForL (E := E) s l k b).Agrees fun c => c.generatedPositionFor s l k b := by
  intro c
  simp only [generatedPositionForL, generatedPositionFor, Left.bind_apply, find_left]
  cases c.findSourceIndex s with
  | error e => exact ⟨(fun a c' h => nomatch h), fun e h => by cases h; rfl⟩
  | ok r =>
    obtain ⟨i, c⟩ := r
    simp only [Res.ok_bind]
    cases i with
    | none => exact ⟨fun a c' h => by cases h; rfl, fun e h => nomatch h⟩
    | some i =>
      simp only [Left.bind_apply, Left.lift]
      cases checkPosition l k with
      | error e => exact ⟨(fun a c' h => nomatch h), fun e h => by cases h; rfl⟩
      | ok u =>
        simp only [Res.ok_bind]
        rcases ensure_left c with ⟨e, q, h1, h2⟩ | ⟨m, h1, h2⟩ <;> simp only [h1, h2, Res.error_bind, Res.ok_bind]
        · exact ⟨(fun a c' h => nomatch h), fun e h => by cases h; rfl⟩
        · cases E.cfg.arith (l - 1) with
          | error e => exact ⟨(fun a c' h => nomatch h), fun e h => by cases h; rfl⟩
          | ok line =>
            simp only [Res.ok_bind, onMappings_left]
            cases E.maps.generatedLocationFor m (asU32 i) (asU32 line) (asU32 k) (b.getD .glb) with
            | error e => exact ⟨(fun a c' h => nomatch h), fun e h => by cases h; rfl⟩
            | ok r =>
              obtain ⟨x, m'⟩ := r
              simp only [Res.ok_bind, Left.get]
              have e : ({ c with mappings := some m' } : BasicConsumer E).reportGenerated i x =
                  c.reportGenerated i x := by cases x <;> rfl
              rw [e]
              cases c.reportGenerated i x with
              | error e => exact ⟨(fun a c' h => nomatch h), fun e h => by cases h; rfl⟩
              | ok t => exact ⟨fun a c' h => by cases h; rfl, fun e h => nomatch h⟩

theorem all_agrees (s : String) (l : Int) (k : Option Int) :
    (allGeneratedPositionForL (E := E) s l k).Agrees fun c => c.allGeneratedPositionFor s l k := by
  intro c
  simp only [allGeneratedPositionForL, allGeneratedPositionFor, Left.bind_apply, find_left]
  cases c.findSourceIndex s with
  | error e => exact ⟨(fun a c' h => nomatch h), fun e h => by cases h; rfl⟩
  | ok r =>
    obtain ⟨i, c⟩ := r
    simp only [Res.ok_bind]
    cases i with
    | none => exact ⟨fun a c' h => by cases h; rfl, fun e h => nomatch h⟩
    | some i =>
      simp only
      by_cases hi : i < 0
      · rw [if_pos hi, if_pos hi]
        exact ⟨fun a c' h => by cases h; rfl, fun e h => nomatch h⟩
      · rw [if_neg hi, if_neg hi]
        simp only [Left.bind_apply, Left.lift]
        cases checkPosition l (k.getD 0) with
        | error e => exact ⟨(fun a c' h => nomatch h), fun e h => by cases h; rfl⟩
        | ok u =>
          simp only [Res.ok_bind]
          rcases ensure_left c with ⟨e, q, h1, h2⟩ | ⟨m, h1, h2⟩ <;> simp only [h1, h2, Res.error_bind, Res.ok_bind]
          · exact ⟨(fun a c' h => nomatch h), fun e h => by cases h; rfl⟩
          · simp only [onMappings_left]
            cases E.maps.allGeneratedLocationsFor m (asU32 i) (asU32 l) (some (asU32 (k.getD 0))) with
            | error e => exact ⟨(fun a c' h => nomatch h), fun e h => by cases h; rfl⟩
            | ok r => exact ⟨fun a c' h => by cases h; rfl, fun e h => nomatch h⟩

theorem spans_agrees : (computeColumnSpansL (E := E)).Agrees fun c =>
    c.computeColumnSpans >>= fun c' => pure ((), c') := by
  intro c
  simp only [computeColumnSpansL, computeColumnSpans, Left.bind_apply, Left.get]
  by_cases hs : c.computedColumnSpans = true
  · rw [if_pos hs, if_pos hs]
    exact ⟨fun a c' h => by cases h; rfl, fun e h => nomatch h⟩
  · rw [if_neg hs, if_neg hs]
    simp only [Left.bind_apply]
    rcases ensure_left c with ⟨e, q, h1, h2⟩ | ⟨m, h1, h2⟩ <;> simp only [h1, h2, Res.error_bind, Res.ok_bind]
    · exact ⟨(fun a c' h => nomatch h), fun e h => by cases h; rfl⟩
    · simp only [onMappings_left]
      cases E.maps.computeColumnSpans m with
      | error e => exact ⟨(fun a c' h => nomatch h), fun e h => by cases h; rfl⟩
      | ok m' => exact ⟨fun a c' h => by cases h; rfl, fun e h => nomatch h⟩

/-! ## Only caches change -/

theorem find_keeps {c₀ : BasicConsumer E} (s : String) :
    (findSourceIndexL s).Keeps (Rel c₀) fun _ => True := by
  intro c hc
  refine ⟨?_, fun _ _ => trivial⟩
  rw [find_left]
  rcases hc.find s with ⟨e, _, h2⟩ | ⟨r, q, _, h2, h3⟩ <;> rw [h2]
  · exact hc
  · exact h3

/-- The mappings held are those of the map. -/
def IsMappings (c₀ : BasicConsumer E) (m : E.maps.M) : Prop := ∃ M₀, c₀.parsed = .ok M₀ ∧ E.maps.core m = E.maps.core M₀

theorem Rel.setNone {c₀ c : BasicConsumer E} (h : Rel c₀ c) (hm : c.mappings = none) :
    Rel c₀ { c with mappings := none } := by
  have : ({ c with mappings := none } : BasicConsumer E) = c := by rw [← hm]
  rw [this]
  exact h

theorem ensure_keeps {c₀ : BasicConsumer E} : ensureMappingsL.Keeps (Rel c₀) (IsMappings c₀) := by
  intro c hc
  have h4 : ∀ m, c.ensureMappings = .ok m → IsMappings c₀ m := fun m hm => hc.ensure_ok hm
  rcases ensure_left c with ⟨e, q, h1, h2⟩ | ⟨m, h1, h2⟩
  · refine ⟨?_, by rw [h2]; exact fun a h => nomatch h⟩
    rw [h2]
    simp only [ensureMappingsL, Left.bind_apply, Left.get] at h2
    cases hm : c.mappings with
    | some m => rw [hm] at h2; cases h2
    | none =>
      rw [hm] at h2
      simp only [Left.bind_apply, Left.lift, Left.set] at h2
      cases hp : c.parseMappings with
      | error e => rw [hp] at h2; cases h2; exact hc
      | ok p =>
        rw [hp] at h2
        cases p with
        | none => cases h2; exact hc.setNone hm
        | some m => cases h2
  · rw [h2]
    obtain ⟨M₀, h5, h6⟩ := h4 m h1
    refine ⟨hc.setMappings h5 h6, fun a ha => ?_⟩
    cases ha
    exact h4 m h1

theorem onMappings_keeps {c₀ : BasicConsumer E} {α : Type} {m : E.maps.M} (hm : IsMappings c₀ m)
    {f : E.maps.M → Res (α × E.maps.M)} (hf : ∀ m a m', f m = .ok (a, m') → E.maps.core m' = E.maps.core m) :
    (onMappings m f).Keeps (Rel c₀) fun _ => True := by
  intro c hc
  refine ⟨?_, fun _ _ => trivial⟩
  rw [onMappings_left]
  cases h : f m with
  | error e => exact hc
  | ok r =>
    obtain ⟨M₀, h5, h6⟩ := hm
    exact hc.setMappings h5 ((hf _ _ _ h).trans h6)

theorem content_keeps {c₀ : BasicConsumer E} (s : String) (p : Option Bool) :
    (sourceContentForL s p).Keeps (Rel c₀) fun _ => True := by
  refine .bind .get fun c _ => ?_
  cases c.sourceMap.sourcesContent with
  | none => exact .pure trivial
  | some contents =>
    refine .bind (find_keeps s) fun i _ => ?_
    cases i with
    | some i => exact .bind (.lift' _) fun _ _ => .pure trivial
    | none =>
      simp only
      split
      · exact .panic
      · exact .pure trivial

theorem original_keeps (hL : E.maps.Laws) {c₀ : BasicConsumer E} (p : Position) (b : Option Bias) :
    (originalPositionForL p b).Keeps (Rel c₀) fun _ => True := by
  refine .bind (.lift' _) fun _ _ => .bind ensure_keeps fun m hm => .bind (.lift' _) fun _ _ =>
    .bind (onMappings_keeps hm fun _ _ _ h => hL.orig_core _ _ _ _ _ _ h) fun _ _ => .bind .get fun _ _ => .lift' _

theorem generated_keeps (hL : E.maps.Laws) {c₀ : BasicConsumer E} (s : String) (l k : Int) (b : Option Bias) :
    (generatedPositionForL s l k b).Keeps (Rel c₀) fun _ => True := by
  refine .bind (find_keeps s) fun i _ => ?_
  cases i with
  | none => exact .pure trivial
  | some i =>
    exact .bind (.lift' _) fun _ _ => .bind ensure_keeps fun m hm => .bind (.lift' _) fun _ _ =>
      .bind (onMappings_keeps hm fun _ _ _ h => hL.gen_core _ _ _ _ _ _ _ h) fun _ _ => .bind .get fun _ _ => .lift' _

theorem all_keeps (hL : E.maps.Laws) {c₀ : BasicConsumer E} (s : String) (l : Int) (k : Option Int) :
    (allGeneratedPositionForL s l k).Keeps (Rel c₀) fun _ => True := by
  refine .bind (find_keeps s) fun i _ => ?_
  cases i with
  | none => exact .pure trivial
  | some i =>
    simp only
    split
    · exact .pure trivial
    · exact .bind (.lift' _) fun _ _ => .bind ensure_keeps fun m hm =>
        onMappings_keeps hm fun _ _ _ h => hL.all_core _ _ _ _ _ _ h

theorem spans_keeps (hL : E.maps.Laws) {c₀ : BasicConsumer E} :
    computeColumnSpansL.Keeps (Rel c₀) fun _ => True := by
  intro c hc
  refine ⟨?_, fun _ _ => trivial⟩
  simp only [computeColumnSpansL, Left.bind_apply, Left.get]
  split
  · exact hc
  · simp only [Left.bind_apply]
    have hk := ensure_keeps c hc
    rcases ensure_left c with ⟨e, q, h1, h2⟩ | ⟨m, h1, h2⟩ <;> rw [h2] at hk ⊢
    · exact hk.1
    · simp only [onMappings_left]
      cases hs : E.maps.computeColumnSpans m with
      | error e => exact hk.1
      | ok m' =>
        obtain ⟨M₀, h5, h6⟩ := hk.2 m rfl
        have := hc.setMappings h5 ((hL.spans_core _ _ hs).trans h6)
        exact ⟨this.map, this.abs, this.url, this.cache, this.mappings, (fun _ h => nomatch h)⟩

/-! ## `each_mapping` -/

/-- The callback is called with the elements in turn until it panics. -/
theorem callAll_spec (f : Callback) : ∀ (l seen : List LibMapping),
    (callAll f seen l = (.ok (), seen ++ l) ∧ ∀ k, 0 < k → k ≤ l.length → f (seen ++ l.take k) = none) ∨
    ∃ k e, 0 < k ∧ k ≤ l.length ∧ callAll f seen l = (.error e, seen ++ l.take k) ∧ f (seen ++ l.take k) = some e ∧
      ∀ j, 0 < j → j < k → f (seen ++ l.take j) = none := by
  intro l
  induction l with
  | nil => intro seen; exact .inl ⟨by simp [callAll], fun k h1 h2 => by simp at h2; omega⟩
  | cons m ms ih =>
    intro seen
    simp only [callAll]
    cases hf : f (seen ++ [m]) with
    | some e => exact .inr ⟨1, e, by omega, by simp, by simp, by simpa using hf, fun j h1 h2 => by omega⟩
    | none =>
      rcases ih (seen ++ [m]) with ⟨h1, h2⟩ | ⟨k, e, h1, h2, h3, h4, h5⟩
      · refine .inl ⟨by simp [h1], fun k hk hl => ?_⟩
        cases k with
        | zero => omega
        | succ k =>
          cases k with
          | zero => simpa using hf
          | succ k =>
            have := h2 (k + 1) (by omega) (by simp at hl ⊢; omega)
            simpa using this
      · refine .inr ⟨k + 1, e, by omega, by simp; omega, by simp [h3], by simpa using h4, fun j hj hk => ?_⟩
        cases j with
        | zero => omega
        | succ j =>
          cases j with
          | zero => simpa using hf
          | succ j =>
            have := h5 (j + 1) (by omega) (by omega)
            simpa using this

/-- What `each_mapping` comes to, in terms of the list of mappings. -/
theorem each_left (f : Callback) (o : IterOrd) (c : BasicConsumer E) (seen : List LibMapping) :
    (∃ e q, c.eachMapping o = .error e ∧ eachMappingL f o (c, seen) = (.error e, (q, seen)) ∧
        (q = c ∨ ∃ m, c.mappings = none ∧ c.parseMappings = .ok (some m) ∧ q = { c with mappings := some m })) ∨
    ∃ l c', c.eachMapping o = .ok (l, c') ∧
      eachMappingL f o (c, seen) = ((callAll f seen l).1, (c', (callAll f seen l).2)) := by
  simp only [eachMappingL, eachMapping]
  cases hm : c.mappings with
  | some m =>
    simp only
    cases hi : iterate m o with
    | error e => exact .inl ⟨e, c, rfl, rfl, .inl rfl⟩
    | ok r => exact .inr ⟨r.1, _, rfl, rfl⟩
  | none =>
    simp only
    cases hp : c.parseMappings with
    | error e => exact .inl ⟨e, c, rfl, rfl, .inl rfl⟩
    | ok p =>
      simp only [Res.ok_bind]
      cases p with
      | none => exact .inr ⟨[], c, rfl, rfl⟩
      | some m =>
        simp only
        cases hi : iterate m o with
        | error e => exact .inl ⟨e, _, rfl, rfl, .inr ⟨m, by simp⟩⟩
        | ok r => exact .inr ⟨r.1, _, rfl, rfl⟩

theorem each_keeps (hL : E.maps.Laws) {c₀ c : BasicConsumer E} (hc : Rel c₀ c) (f : Callback) (o : IterOrd)
    (seen : List LibMapping) : Rel c₀ (eachMappingL f o (c, seen)).2.1 := by
  rcases each_left f o c seen with ⟨e, q, _, h2, h3⟩ | ⟨l, c', h1, h2⟩ <;> rw [h2]
  · rcases h3 with rfl | ⟨m, h4, h5, rfl⟩
    · exact hc
    · have : c.ensureMappings = .ok m := by simp [ensureMappings, h4, h5, unwrap]
      obtain ⟨M₀, h6, h7⟩ := hc.ensure_ok this
      exact hc.setMappings h6 h7
  · exact hc.step hL (op := .each o) (a := .mappings l) (by simp [BasicConsumer.step, h1])

end BasicConsumer

namespace IndexedConsumer

/-- A section of `s₀` with some things cached. -/
def SameSection (s₀ s : IdxSection E) : Prop :=
  s.generatedOffset = s₀.generatedOffset ∧ BasicConsumer.Rel s₀.consumer s.consumer

theorem inSection_keeps {s₀ : IdxSection E} {α : Type} {x : Left (BasicConsumer E) α} {Q : α → Prop}
    (h : x.Keeps (BasicConsumer.Rel s₀.consumer) Q) : (inSection x).Keeps (SameSection s₀) Q := by
  intro s hs
  obtain ⟨h1, h2⟩ := h s.consumer hs.2
  exact ⟨⟨hs.1, h1⟩, h2⟩

theorem overSections_keeps {α : Type} {x : Left (IdxSection E) (Option α)}
    (h : ∀ s₀, x.Keeps (SameSection s₀) fun _ => True) (l₀ : List (IdxSection E)) :
    (overSections x).Keeps (SecRel l₀) fun _ => True := by
  intro l hl
  refine ⟨?_, fun _ _ => trivial⟩
  induction hl with
  | nil => exact .nil
  | @cons s₀ s l₀ l h1 h2 h3 ih =>
    have hx := (h s₀ s ⟨h1, h2⟩).1
    simp only [overSections]
    revert hx
    rcases x s with ⟨r, s'⟩
    intro hx
    cases r with
    | error e => exact .cons hx.1 hx.2 h3
    | ok a =>
      cases a with
      | some a => exact .cons hx.1 hx.2 h3
      | none => exact .cons hx.1 hx.2 ih

/-- The sections are those of `l₀`, and the map is `m`. -/
def SameSections (m : SourceMapJson) (l₀ : List (IdxSection E)) (c : IndexedConsumer E) : Prop :=
  SecRel l₀ c.sections ∧ c.sourceMap = m

theorem onSections_keeps {m : SourceMapJson} {l₀ : List (IdxSection E)} {α : Type} {x : Left (List (IdxSection E)) α}
    {Q : α → Prop} (h : x.Keeps (SecRel l₀) Q) : (onSections x).Keeps (SameSections m l₀) Q := by
  intro c hc
  obtain ⟨h1, h2⟩ := h c.sections hc.1
  exact ⟨⟨h1, hc.2⟩, h2⟩

theorem original_keeps (hL : E.maps.Laws) {m : SourceMapJson} {l₀ : List (IdxSection E)} (p : Position)
    (b : Option Bias) : (originalPositionForL p b).Keeps (SameSections m l₀) fun _ => True := by
  intro c hc
  refine ⟨?_, fun _ _ => trivial⟩
  simp only [originalPositionForL, Left.bind_apply, Left.get, Left.lift]
  cases c.sectionIndex p with
  | error e => exact hc
  | ok i =>
    simp only
    cases hs : c.sections[E.cfg.asUsize i]? with
    | none => exact hc
    | some s =>
      simp only [atSection, Left.within]
      refine ⟨hc.1.set hs ?_ ?_, hc.2⟩
      · have hk : Left.Keeps (fun x : IdxSection E => x.generatedOffset = s.generatedOffset) (do
            let shift ← Left.lift (E.cfg.arith (s.generatedOffset.line - 1))
            let line ← Left.lift (E.cfg.arith (p.line - shift))
            let cshift ← Left.lift (sectionColumnShift s p)
            let column ← Left.lift (E.cfg.arith (p.column - cshift))
            inSection (BasicConsumer.originalPositionForL ⟨line, column⟩ b)) fun _ => True :=
          .bind (.lift' _) fun _ _ => .bind (.lift' _) fun _ _ => .bind (.lift' _) fun _ _ =>
            .bind (.lift' _) fun _ _ => fun x hx => ⟨hx, fun _ _ => trivial⟩
        exact (hk s rfl).1
      · intro c₀ hr
        have hk : Left.Keeps (fun x : IdxSection E => BasicConsumer.Rel c₀ x.consumer) (do
            let shift ← Left.lift (E.cfg.arith (s.generatedOffset.line - 1))
            let line ← Left.lift (E.cfg.arith (p.line - shift))
            let cshift ← Left.lift (sectionColumnShift s p)
            let column ← Left.lift (E.cfg.arith (p.column - cshift))
            inSection (BasicConsumer.originalPositionForL ⟨line, column⟩ b)) fun _ => True :=
          .bind (.lift' _) fun _ _ => .bind (.lift' _) fun _ _ => .bind (.lift' _) fun _ _ =>
            .bind (.lift' _) fun _ _ => fun x hx =>
              ⟨(BasicConsumer.original_keeps hL _ _ x.consumer hx).1, fun _ _ => trivial⟩
        exact (hk s hr).1

theorem content_keeps {m : SourceMapJson} {l₀ : List (IdxSection E)} (s : String) (p : Option Bool) :
    (sourceContentForL s p).Keeps (SameSections m l₀) fun _ => True := by
  refine .bind (onSections_keeps (overSections_keeps
    (fun _ => inSection_keeps (BasicConsumer.content_keeps s p)) l₀)) fun r _ => ?_
  cases r with
  | some t => exact .pure trivial
  | none =>
    simp only
    split
    · exact .panic
    · exact .pure trivial

theorem spans_keeps (hL : E.maps.Laws) {m : SourceMapJson} {l₀ : List (IdxSection E)} :
    computedColumnSpansL.Keeps (SameSections m l₀) fun _ => True :=
  .bind (onSections_keeps (overSections_keeps (fun _ =>
    .bind (inSection_keeps (BasicConsumer.spans_keeps hL)) fun _ _ => .pure trivial) l₀)) fun _ _ => .pure trivial

theorem find_left_empty {c : IndexedConsumer E} (h : c.sections = []) (s : String) :
    findSourceIndexL s c = (.ok none, c) := by
  simp only [findSourceIndexL, Left.bind_apply, Left.lift, BorrowFlag.borrow, onSections, Left.within, h, overSections]
  rw [← h]

theorem find_left_panics {c : IndexedConsumer E} (h : c.sections ≠ []) (s : String) :
    findSourceIndexL s c = (.error .borrow, c) := by
  cases hs : c.sections with
  | nil => exact absurd hs h
  | cons a l =>
    simp only [findSourceIndexL, Left.bind_apply, Left.lift, BorrowFlag.borrow, BorrowFlag.borrowMut, onSections,
      Left.within, hs, overSections]
    rw [← hs]

theorem generated_left (s : String) (l k : Int) (b : Option Bias) (c : IndexedConsumer E) :
    generatedPositionForL s l k b c = ((c.generatedPositionFor s l k b).map Prod.fst, c) := by
  by_cases h : c.sections = []
  · simp only [generatedPositionForL, generatedPositionFor, Left.bind_apply, find_left_empty h, find_empty h,
      Res.ok_bind]
    rfl
  · simp only [generatedPositionForL, generatedPositionFor, Left.bind_apply, find_left_panics h, find_panics h,
      Res.error_bind]
    rfl

theorem all_left (s : String) (l : Int) (k : Option Int) (c : IndexedConsumer E) :
    allGeneratedPositionForL s l k c = ((c.allGeneratedPositionFor s l k).map Prod.fst, c) := by
  by_cases h : c.sections = []
  · simp only [allGeneratedPositionForL, allGeneratedPositionFor, Left.bind_apply, find_left_empty h, find_empty h,
      Res.ok_bind]
    rfl
  · simp only [allGeneratedPositionForL, allGeneratedPositionFor, Left.bind_apply, find_left_panics h, find_panics h,
      Res.error_bind]
    rfl

/-- The callback is never called. -/
theorem each_left (f : BasicConsumer.Callback) (o : BasicConsumer.IterOrd) (c : IndexedConsumer E)
    (seen : List LibMapping) :
    eachMappingL f o (c, seen) = ((c.eachMapping o).map fun _ => (), (c, seen)) := by
  cases hs : c.sections with
  | nil =>
    simp only [eachMappingL, eachMapping, BorrowFlag.borrowMut, hs, eachLoopL, eachLoop, Res.ok_bind]
    rw [← hs]
    rfl
  | cons a l =>
    simp only [eachMappingL, eachMapping, BorrowFlag.borrowMut, hs, eachLoopL, eachLoop, Res.ok_bind,
      BorrowFlag.borrow]
    rw [← hs]
    cases E.cfg.arith (a.generatedOffset.line - 1) with
    | error e => rfl
    | ok x => cases E.cfg.arith (a.generatedOffset.column - 1) <;> rfl

/-! ## The two models agree -/

theorem contentLoop_agrees (s : String) (p : Option Bool) :
    (overSections (inSection (BasicConsumer.sourceContentForL (E := E) s p))).Agrees (contentLoop s p) := by
  intro l
  induction l with
  | nil => exact ⟨fun a c' h => by cases h; rfl, fun e h => nomatch h⟩
  | cons x xs ih =>
    have hx := BasicConsumer.content_agrees s p x.consumer
    simp only [contentLoop, overSections, inSection, Left.within]
    simp only at hx
    cases h1 : x.consumer.sourceContentFor s p with
    | error e =>
      have h2 := hx.2 e h1
      rw [h2]
      exact ⟨(fun a c' h => nomatch h), fun e h => by cases h; rfl⟩
    | ok r =>
      obtain ⟨t, k⟩ := r
      have h2 := hx.1 t k h1
      rw [h2]
      simp only [Res.ok_bind]
      cases t with
      | some t => exact ⟨fun a c' h => by cases h; rfl, fun e h => nomatch h⟩
      | none =>
        simp only
        cases h3 : contentLoop s p xs with
        | error e => exact ⟨(fun a c' h => nomatch h), fun e' h => by cases h; exact ih.2 e h3⟩
        | ok q =>
          have h4 := ih.1 q.1 q.2 h3
          refine ⟨fun a c' h => ?_, fun e h => nomatch h⟩
          cases h
          rw [show overSections (Left.within (·.consumer) (fun s c => { s with consumer := c })
            (BasicConsumer.sourceContentForL s p)) xs = (.ok q.1, q.2) from h4]

theorem content_agrees (s : String) (p : Option Bool) :
    (sourceContentForL (E := E) s p).Agrees fun c => c.sourceContentFor s p := by
  intro c
  have hl := contentLoop_agrees s p c.sections
  simp only [sourceContentForL, sourceContentFor, Left.bind_apply, onSections, Left.within]
  cases h1 : contentLoop s p c.sections with
  | error e =>
    rw [hl.2 e h1]
    exact ⟨(fun a c' h => nomatch h), fun e h => by cases h; rfl⟩
  | ok r =>
    rw [hl.1 r.1 r.2 h1]
    simp only [Res.ok_bind]
    cases r.1 with
    | some t => exact ⟨fun a c' h => by cases h; rfl, fun e h => nomatch h⟩
    | none =>
      simp only
      by_cases hp : p.getD true = true
      · rw [if_pos hp, if_pos hp]
        exact ⟨(fun a c' h => nomatch h), fun e h => by cases h; rfl⟩
      · rw [if_neg hp, if_neg hp]
        exact ⟨fun a c' h => by cases h; rfl, fun e h => nomatch h⟩

theorem original_agrees (p : Position) (b : Option Bias) :
    (originalPositionForL (E := E) p b).Agrees fun c => c.originalPositionFor p b := by
  intro c
  simp only [originalPositionForL, originalPositionFor, Left.bind_apply, Left.get, Left.lift]
  cases c.sectionIndex p with
  | error e => exact ⟨(fun a c' h => nomatch h), fun e h => by cases h; rfl⟩
  | ok i =>
    simp only [Res.ok_bind]
    cases hs : c.sections[E.cfg.asUsize i]? with
    | none => exact ⟨fun a c' h => by cases h; rfl, fun e h => nomatch h⟩
    | some s =>
      simp only [atSection, Left.within, originalInSection, Left.bind_apply, Left.lift]
      cases E.cfg.arith (s.generatedOffset.line - 1) with
      | error e => exact ⟨(fun a c' h => nomatch h), fun e h => by cases h; rfl⟩
      | ok shift =>
        simp only [Res.ok_bind]
        cases E.cfg.arith (p.line - shift) with
        | error e => exact ⟨(fun a c' h => nomatch h), fun e h => by cases h; rfl⟩
        | ok line =>
          simp only [Res.ok_bind]
          cases sectionColumnShift s p with
          | error e => exact ⟨(fun a c' h => nomatch h), fun e h => by cases h; rfl⟩
          | ok cs =>
            simp only [Res.ok_bind]
            cases E.cfg.arith (p.column - cs) with
            | error e => exact ⟨(fun a c' h => nomatch h), fun e h => by cases h; rfl⟩
            | ok column =>
              simp only [Res.ok_bind, inSection, Left.within]
              have hx := BasicConsumer.original_agrees ⟨line, column⟩ b s.consumer
              simp only at hx
              cases h1 : s.consumer.originalPositionFor ⟨line, column⟩ b with
              | error e =>
                rw [hx.2 e h1]
                exact ⟨(fun a c' h => nomatch h), fun e h => by cases h; rfl⟩
              | ok r =>
                rw [hx.1 r.1 r.2 h1]
                exact ⟨fun a c' h => by cases h; rfl, fun e h => nomatch h⟩

theorem spansLoop_agrees : ∀ l : List (IdxSection E),
    (∀ l', l.mapM (fun s => do let k ← s.consumer.computeColumnSpans; pure { s with consumer := k }) = .ok l' →
      overSections (α := Unit) (inSection BasicConsumer.computeColumnSpansL >>= fun _ => pure none) l =
        (.ok none, l')) ∧
    ∀ e, l.mapM (fun s => do let k ← s.consumer.computeColumnSpans; pure { s with consumer := k }) = .error e →
      (overSections (α := Unit) (inSection BasicConsumer.computeColumnSpansL >>= fun _ => pure none) l).1 =
        .error e := by
  intro l
  induction l with
  | nil => exact ⟨fun l' h => by cases h; rfl, fun e h => nomatch h⟩
  | cons x xs ih =>
    have hx := BasicConsumer.spans_agrees x.consumer
    simp only at hx
    simp only [List.mapM_cons, overSections, Left.bind_apply, inSection, Left.within]
    cases h1 : x.consumer.computeColumnSpans with
    | error e =>
      have h2 := hx.2 e (by rw [h1]; rfl)
      rw [h2]
      exact ⟨(fun a h => nomatch h), fun e h => by cases h; rfl⟩
    | ok k =>
      have h2 := hx.1 () k (by rw [h1]; rfl)
      rw [h2]
      simp only [Res.ok_bind, Res.pure_eq, Left.pure_apply]
      simp only [inSection, Res.pure_eq] at ih
      cases h3 : xs.mapM (fun s => do let k ← s.consumer.computeColumnSpans; Except.ok { s with consumer := k }) with
      | error e =>
        refine ⟨(fun a h => nomatch h), fun e' h => ?_⟩
        cases h
        exact ih.2 e h3
      | ok q =>
        refine ⟨fun a h => ?_, fun e h => nomatch h⟩
        cases h
        rw [ih.1 q h3]

theorem spans_agrees : (computedColumnSpansL (E := E)).Agrees fun c =>
    c.computedColumnSpans >>= fun c' => pure ((), c') := by
  intro c
  have hl := spansLoop_agrees c.sections
  simp only [computedColumnSpansL, computedColumnSpans, Left.bind_apply, onSections, Left.within]
  cases h1 : c.sections.mapM (fun s => do let k ← s.consumer.computeColumnSpans; pure { s with consumer := k }) with
  | error e =>
    rw [hl.2 e h1]
    exact ⟨(fun a c' h => nomatch h), fun e h => by cases h; rfl⟩
  | ok r =>
    rw [hl.1 r h1]
    exact ⟨fun a c' h => by cases h; rfl, fun e h => nomatch h⟩

end IndexedConsumer

end RSM
