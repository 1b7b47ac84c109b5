import Verif.Model.SearchCalls
import Verif.Props.BinarySearch
import Verif.Dep.Demo
/-! # Property C97: the calls that binary search makes of its comparators -/

namespace RSM

variable {S α β : Type}

/-- A call of a comparator. -/
inductive Compared (α β : Type) where
  | first (needle : α) (x : β)
  | second (a b : β)
deriving DecidableEq

/-- The caller's state records the calls of both comparators, in order. Nothing else is said of the comparators: what
they answer may depend on the state, and they may panic. -/
structure Records (log : S → List (Compared α β)) (cmp1 : α → β → Left S Int) (cmp2 : β → β → Left S Int) : Prop where
  first : ∀ a x s, log (cmp1 a x s).2 = log s ++ [.first a x]
  second : ∀ a b s, log (cmp2 a b s).2 = log s ++ [.second a b]

namespace SearchCalls

theorem bind_ok {x : Left S α} {f : α → Left S β} {s s' : S} {a : α} (h : x s = (.ok a, s')) :
    (x >>= f) s = f a s' := by
  show (match x s with | (.ok a, s') => f a s' | (.error e, s') => (.error e, s')) = _
  rw [h]

theorem bind_error {x : Left S α} {f : α → Left S β} {s s' : S} {e : Panic} (h : x s = (.error e, s')) :
    (x >>= f) s = (.error e, s') := by
  show (match x s with | (.ok a, s') => f a s' | (.error e, s') => (.error e, s')) = _
  rw [h]

theorem pure_eq (a : α) (s : S) : (pure a : Left S α) s = (.ok a, s) := rfl

theorem lift_bind_ok {r : Res α} {f : α → Left S β} {s : S} {a : α} (h : r = .ok a) :
    (Left.lift r >>= f) s = f a s := bind_ok (by rw [h]; rfl)

/-- One level of `recursive_search`. -/
theorem step (cfg : Cfg) (cmp : β → Left S Int) (hay : List β) (bias : Int) (fuel : Nat) (low high : Int)
    (hlen : hay.length < 2147483647) (h1 : -1 ≤ low) (h2 : low + 2 ≤ high) (h3 : high ≤ hay.length) (s : S) :
    ∃ (mid : Nat) (x : β), (mid : Int) = (high - low) / 2 + low ∧ hay[mid]? = some x ∧
      recursiveSearchL cfg cmp hay bias (fuel + 1) low high s =
        match cmp x s with
        | (.error e, s') => (.error e, s')
        | (.ok c, s') =>
          if c = 0 then (.ok (mid : Int), s')
          else if c > 0 then
            if high - mid > 1 then recursiveSearchL cfg cmp hay bias fuel mid high s'
            else if bias = leastUpperBound then (.ok (if high < hay.length then high else -1), s')
            else (.ok (mid : Int), s')
          else if mid - low > 1 then recursiveSearchL cfg cmp hay bias fuel low mid s'
          else if bias = leastUpperBound then (.ok (mid : Int), s')
          else (.ok (if low < 0 then -1 else low), s') := by
  have a1 : cfg.arith (high - low) = .ok (high - low) := cfg.arith_ok (by unfold IsI32; omega)
  have hdiv : (high - low).tdiv 2 = (high - low) / 2 := by rw [Int.tdiv_eq_ediv_of_nonneg (by omega)]
  obtain ⟨mid, hmid⟩ : ∃ mid : Nat, (mid : Int) = (high - low) / 2 + low := ⟨((high - low) / 2 + low).toNat, by omega⟩
  have a2 : cfg.arith ((high - low).tdiv 2 + low) = .ok (mid : Int) := by
    rw [hdiv, hmid]; exact cfg.arith_ok (by unfold IsI32; omega)
  have hu : cfg.asUsize mid = mid := by unfold Cfg.asUsize; split <;> omega
  obtain ⟨x, hx⟩ : ∃ x, hay[mid]? = some x := by
    rw [List.getElem?_eq_getElem (by omega)]; exact ⟨_, rfl⟩
  have hi : index hay (cfg.asUsize mid) = .ok x := by simp [index, hu, hx]
  have a3 : cfg.arith (high - mid) = .ok (high - mid) := cfg.arith_ok (by unfold IsI32; omega)
  have a4 : cfg.arith (mid - low) = .ok (mid - low) := cfg.arith_ok (by unfold IsI32; omega)
  have hw : wrap32 (hay.length : Int) = hay.length := wrap32_of_isI32 (by unfold IsI32; omega)
  refine ⟨mid, x, hmid, hx, ?_⟩
  rw [recursiveSearchL, lift_bind_ok a1, lift_bind_ok a2, lift_bind_ok hi]
  rcases hc : cmp x s with ⟨e | c, s'⟩
  · rw [bind_error hc]
  · rw [bind_ok hc]
    simp only
    by_cases h0 : c = 0
    · simp only [h0, if_true]; rfl
    · simp only [h0, if_false]
      by_cases hp : c > 0
      · simp only [hp, if_true]
        rw [lift_bind_ok a3]
        split
        · rfl
        · split
          · rw [hw]; rfl
          · rfl
      · simp only [hp, if_false]
        rw [lift_bind_ok a4]
        split
        · rfl
        · split <;> rfl

theorem log2_half (d d' : Nat) (h1 : 1 ≤ d') (h : d' ≤ d / 2) : Nat.log2 d' + 1 ≤ Nat.log2 d := by
  have h2 : 2 ^ (Nat.log2 d') ≤ d' := Nat.log2_self_le (by omega)
  apply (Nat.le_log2 (by omega)).2
  rw [Nat.pow_succ]; omega

/-- What is known of the calls of the first comparator between two bounds. -/
theorem rec_calls (cfg : Cfg) (needle : α) (log : S → List (Compared α β)) {cmp1 : α → β → Left S Int}
    (hlog : ∀ a x s, log (cmp1 a x s).2 = log s ++ [.first a x]) (hay : List β) (bias : Int)
    (hlen : hay.length < 2147483647) : ∀ (fuel : Nat) (low high : Int) (d : Nat) (s : S), -1 ≤ low → low + 2 ≤ high →
      high ≤ hay.length → high - low ≤ fuel → (d : Int) = high - low - 1 →
      ∃ (ps : List Nat) (xs : List β), ps.Nodup ∧ (∀ p ∈ ps, low < (p : Int) ∧ (p : Int) < high) ∧ ps ≠ [] ∧
        ps.length ≤ Nat.log2 d + 1 ∧ xs.map some = ps.map (fun p => hay[p]?) ∧
        log (recursiveSearchL cfg (cmp1 needle) hay bias fuel low high s).2 = log s ++ xs.map (.first needle) ∧
        (∀ r, (recursiveSearchL cfg (cmp1 needle) hay bias fuel low high s).1 = .ok r →
          -1 ≤ r ∧ r < hay.length) ∧
        (∀ e, (recursiveSearchL cfg (cmp1 needle) hay bias fuel low high s).1 = .error e →
          ∃ x ∈ hay, ∃ t, (cmp1 needle x t).1 = .error e) := by
  intro fuel
  induction fuel with
  | zero => intro low high d s h1 h2 h3 h4; exfalso; omega
  | succ fuel ih =>
    intro low high d s h1 h2 h3 h4 hd
    obtain ⟨mid, x, hmid, hx, hstep⟩ := step cfg (cmp1 needle) hay bias fuel low high hlen h1 h2 h3 s
    have hxm : x ∈ hay := List.mem_of_getElem? hx
    have hl := hlog needle x s
    -- ends after one call
    have one : ∀ (r : Int) (s' : S), log s' = log s ++ [.first needle x] → -1 ≤ r → r < hay.length →
        ∃ (ps : List Nat) (xs : List β), ps.Nodup ∧ (∀ p ∈ ps, low < (p : Int) ∧ (p : Int) < high) ∧ ps ≠ [] ∧
          ps.length ≤ Nat.log2 d + 1 ∧ xs.map some = ps.map (fun p => hay[p]?) ∧
          log ((.ok r : Res Int), s').2 = log s ++ xs.map (.first needle) ∧
          (∀ r', ((.ok r : Res Int), s').1 = .ok r' → -1 ≤ r' ∧ r' < hay.length) ∧
          (∀ e, ((.ok r : Res Int), s').1 = .error e → ∃ x ∈ hay, ∃ t, (cmp1 needle x t).1 = .error e) := by
      intro r s' hs hr1 hr2
      refine ⟨[mid], [x], by simp, ?_, by simp, by simp, by simp [hx], by simp [hs], ?_, ?_⟩
      · intro p hp; simp only [List.mem_singleton] at hp; subst hp; omega
      · intro r' hr; cases hr; exact ⟨hr1, hr2⟩
      · intro e he; cases he
    -- goes on
    have more : ∀ (low' high' : Int) (d' : Nat) (s' : S), log s' = log s ++ [.first needle x] → low ≤ low' →
        high' ≤ high → low' + 2 ≤ high' → high' - low' ≤ fuel → (d' : Int) = high' - low' - 1 → d' ≤ d / 2 →
        ((mid : Int) ≤ low' ∨ high' ≤ mid) →
        ∃ (ps : List Nat) (xs : List β), ps.Nodup ∧ (∀ p ∈ ps, low < (p : Int) ∧ (p : Int) < high) ∧ ps ≠ [] ∧
          ps.length ≤ Nat.log2 d + 1 ∧ xs.map some = ps.map (fun p => hay[p]?) ∧
          log (recursiveSearchL cfg (cmp1 needle) hay bias fuel low' high' s').2 = log s ++ xs.map (.first needle) ∧
          (∀ r, (recursiveSearchL cfg (cmp1 needle) hay bias fuel low' high' s').1 = .ok r →
            -1 ≤ r ∧ r < hay.length) ∧
          (∀ e, (recursiveSearchL cfg (cmp1 needle) hay bias fuel low' high' s').1 = .error e →
            ∃ x ∈ hay, ∃ t, (cmp1 needle x t).1 = .error e) := by
      intro low' high' d' s' hs hlo hhi hgap hf hd' hhalf hout
      obtain ⟨ps, xs, q1, q2, q3, q4, q5, q6, q7, q8⟩ :=
        ih low' high' d' s' (by omega) hgap (by omega) hf hd'
      have hlg := log2_half d d' (by omega) hhalf
      refine ⟨mid :: ps, x :: xs, ?_, ?_, by simp, ?_, by simp [hx, q5], by simp [q6, hs], q7, q8⟩
      · refine List.nodup_cons.2 ⟨?_, q1⟩
        intro hm; have := q2 mid hm; omega
      · intro p hp
        rcases List.mem_cons.1 hp with rfl | hp
        · omega
        · have := q2 p hp; omega
      · simp only [List.length_cons]; omega
    rw [hstep]
    rcases hc : cmp1 needle x s with ⟨e | c, s'⟩
    · rw [hc] at hl
      refine ⟨[mid], [x], by simp, ?_, by simp, by simp, by simp [hx], by simpa using hl, ?_, ?_⟩
      · intro p hp; simp only [List.mem_singleton] at hp; subst hp; omega
      · intro r hr; cases hr
      · intro e' he; cases he; exact ⟨x, hxm, s, by rw [hc]⟩
    · rw [hc] at hl
      simp only
      by_cases h0 : c = 0
      · simp only [h0, if_true]; exact one _ s' hl (by omega) (by omega)
      · simp only [h0, if_false]
        by_cases hp : c > 0
        · simp only [hp, if_true]
          by_cases hup : high - mid > 1
          · simp only [hup, if_true]
            exact more mid high (high - mid - 1).toNat s' hl (by omega) (by omega) (by omega) (by omega) (by omega)
              (by omega) (.inl (by omega))
          · simp only [hup, if_false]
            by_cases hb : bias = leastUpperBound
            · simp only [hb, if_true]
              apply one _ s' hl
              · split <;> omega
              · split <;> omega
            · simp only [hb, if_false]; exact one _ s' hl (by omega) (by omega)
        · simp only [hp, if_false]
          by_cases hdn : mid - low > 1
          · simp only [hdn, if_true]
            exact more low mid (mid - low - 1).toNat s' hl (by omega) (by omega) (by omega) (by omega) (by omega)
              (by omega) (.inr (by omega))
          · simp only [hdn, if_false]
            by_cases hb : bias = leastUpperBound
            · simp only [hb, if_true]; exact one _ s' hl (by omega) (by omega)
            · simp only [hb, if_false]
              apply one _ s' hl
              · split <;> omega
              · split <;> omega

/-- The calls of the second comparator from an index downwards. -/
theorem walk_calls (log : S → List (Compared α β)) {cmp2 : β → β → Left S Int}
    (hlog : ∀ a b s, log (cmp2 a b s).2 = log s ++ [.second a b]) (hay : List β) : ∀ (i : Nat) (s : S), i < hay.length →
      ∃ (k : Nat) (ys : List (β × β)), k ≤ i ∧
        ys.map (fun y => (some y.1, some y.2)) = (List.range k).map (fun j => (hay[i - j]?, hay[i - j - 1]?)) ∧
        log (walkBackL cmp2 hay i s).2 = log s ++ ys.map (fun y => .second y.1 y.2) ∧
        (∀ r, (walkBackL cmp2 hay i s).1 = .ok r → r ≤ i ∧ k = i - r + (if r = 0 then 0 else 1)) ∧
        (∀ e, (walkBackL cmp2 hay i s).1 = .error e → ∃ a ∈ hay, ∃ b ∈ hay, ∃ t, (cmp2 a b t).1 = .error e) ∧
        ((∀ a ∈ hay, ∀ b ∈ hay, ∀ t, (cmp2 a b t).1 ≠ .ok 0) → k ≤ 1) := by
  intro i
  induction i with
  | zero =>
    intro s _
    refine ⟨0, [], Nat.le_refl _, rfl, (List.append_nil _).symm, ?_, ?_, fun _ => by omega⟩
    · intro r hr; cases hr; simp
    · intro e he; cases he
  | succ i ih =>
    intro s h
    have h1 : hay[i + 1]? = some hay[i + 1] := List.getElem?_eq_getElem h
    have h2 : hay[i]? = some hay[i] := List.getElem?_eq_getElem (by omega)
    have i1 : index hay (i + 1) = .ok hay[i + 1] := by simp [index, h1]
    have i2 : index hay i = .ok hay[i] := by simp [index, h2]
    have m1 : hay[i + 1] ∈ hay := List.getElem_mem _
    have m2 : hay[i] ∈ hay := List.getElem_mem _
    have hl := hlog hay[i + 1] hay[i] s
    rw [walkBackL, lift_bind_ok i1, lift_bind_ok i2]
    rcases hc : cmp2 hay[i + 1] hay[i] s with ⟨e | c, s'⟩
    · rw [bind_error hc]
      rw [hc] at hl
      refine ⟨1, [(hay[i + 1], hay[i])], by omega, by simp, by simpa using hl, ?_, ?_, fun _ => by omega⟩
      · intro r hr; cases hr
      · intro e' he; cases he; exact ⟨_, m1, _, m2, s, by rw [hc]⟩
    · rw [bind_ok hc]
      rw [hc] at hl
      by_cases h0 : c = 0
      · subst h0
        simp only [ne_eq, not_true_eq_false, if_false]
        obtain ⟨k, ys, q1, q2, q3, q4, q5, q6⟩ := ih s' (by omega)
        refine ⟨k + 1, (hay[i + 1], hay[i]) :: ys, by omega, ?_, ?_, ?_, q5, ?_⟩
        · rw [List.range_succ_eq_map]
          simp only [List.map_cons, List.map_map, q2, Nat.sub_zero, Nat.add_sub_cancel, h1, h2]
          congr 1
          apply List.map_congr_left
          intro j hj
          simp only [Function.comp, Nat.succ_eq_add_one, Nat.add_sub_add_right]
        · rw [q3, hl]; simp
        · intro r hr
          obtain ⟨w1, w2⟩ := q4 r hr
          exact ⟨by omega, by omega⟩
        · intro hne
          exact absurd (by rw [hc]) (hne _ m1 _ m2 s)
      · simp only [ne_eq, h0, not_false_eq_true, if_true]
        refine ⟨1, [(hay[i + 1], hay[i])], by omega, by simp, ?_, ?_, ?_, fun _ => by omega⟩
        · show log s' = _
          simpa using hl
        · intro r hr
          cases hr
          simp
        · intro e he; cases he

theorem searchL_empty (cfg : Cfg) (needle : α) (cmp1 : α → β → Left S Int) (cmp2 : β → β → Left S Int)
    (bias : Option Int) (s : S) : searchL cfg needle [] cmp1 cmp2 bias s = (.ok (-1), s) := rfl

theorem searchL_eq (cfg : Cfg) (needle : α) (hay : List β) (cmp1 : α → β → Left S Int) (cmp2 : β → β → Left S Int)
    (bias : Option Int) (hne : hay ≠ []) (hlen : hay.length < 2147483647) (s : S) :
    searchL cfg needle hay cmp1 cmp2 bias s =
      match recursiveSearchL cfg (cmp1 needle) hay (bias.getD greatestLowerBound) (hay.length + 1) (-1) hay.length s with
      | (.error e, s') => (.error e, s')
      | (.ok i, s') =>
        if i < 0 then (.ok (-1), s')
        else
          match walkBackL cmp2 hay i.toNat s' with
          | (.error e, s'') => (.error e, s'')
          | (.ok j, s'') => (.ok (j : Int), s'') := by
  have hw : wrap32 (hay.length : Int) = hay.length := wrap32_of_isI32 (by unfold IsI32; omega)
  have he : hay.isEmpty = false := by cases hay <;> simp_all
  have hf : ((hay.length : Int) + 1).toNat = hay.length + 1 := by omega
  rw [searchL, he]
  simp only [Bool.false_eq_true, if_false, hw, hf]
  rcases hr : recursiveSearchL cfg (cmp1 needle) hay (bias.getD greatestLowerBound) (hay.length + 1) (-1) hay.length s
    with ⟨e | i, s'⟩
  · rw [bind_error hr]
  · rw [bind_ok hr]
    simp only
    split
    · rfl
    · rcases hb : walkBackL cmp2 hay i.toNat s' with ⟨e | j, s''⟩
      · rw [bind_error hb]
      · rw [bind_ok hb]; rfl

end SearchCalls

open SearchCalls

/-- C97. For comparators with any effects, however inconsistent, and every haystack of at most `2^31 - 2` elements:
`search` first calls the first comparator with the needle and elements at different positions, at most
`⌊log₂ n⌋ + 1` times (not at all if there are no elements); then it calls the second one with neighbours only, from one
position downwards without a gap, `k` times. It returns -1, having made no call of the second, or the position it
stopped at; or a comparator panicked. If no two elements compare equal, the second is called at most once. -/
theorem C97_calls (cfg : Cfg) (needle : α) (hay : List β) (log : S → List (Compared α β))
    (cmp1 : α → β → Left S Int) (cmp2 : β → β → Left S Int) (bias : Option Int) (h : Records log cmp1 cmp2)
    (hlen : hay.length < 2147483647) (s : S) :
    ∃ (ps : List Nat) (xs : List β) (i k : Nat) (ys : List (β × β)),
      log (searchL cfg needle hay cmp1 cmp2 bias s).2 =
        log s ++ xs.map (.first needle) ++ ys.map (fun y => .second y.1 y.2) ∧
      ps.Nodup ∧ xs.map some = ps.map (fun p => hay[p]?) ∧
      ps.length ≤ (if hay = [] then 0 else Nat.log2 hay.length + 1) ∧
      ys.map (fun y => (some y.1, some y.2)) = (List.range k).map (fun j => (hay[i - j]?, hay[i - j - 1]?)) ∧
      k ≤ i ∧ i ≤ hay.length - 1 ∧
      (∀ r, (searchL cfg needle hay cmp1 cmp2 bias s).1 = .ok r →
        (r = -1 ∧ k = 0) ∨
        ∃ j : Nat, r = j ∧ j < hay.length ∧ j ≤ i ∧ k = i - j + (if j = 0 then 0 else 1)) ∧
      (∀ e, (searchL cfg needle hay cmp1 cmp2 bias s).1 = .error e →
        (∃ x ∈ hay, ∃ t, (cmp1 needle x t).1 = .error e) ∨
        ∃ a ∈ hay, ∃ b ∈ hay, ∃ t, (cmp2 a b t).1 = .error e) ∧
      ((∀ a ∈ hay, ∀ b ∈ hay, ∀ t, (cmp2 a b t).1 ≠ .ok 0) → k ≤ 1) := by
  by_cases hne : hay = []
  · subst hne
    refine ⟨[], [], 0, 0, [], by simp [searchL_empty], by simp, rfl, by simp, rfl, Nat.le_refl _, by simp, ?_, ?_,
      fun _ => by omega⟩
    · intro r hr; rw [searchL_empty] at hr; cases hr; exact .inl ⟨rfl, rfl⟩
    · intro e he; rw [searchL_empty] at he; cases he
  · have hpos : 0 < hay.length := List.length_pos_iff.2 hne
    obtain ⟨ps, xs, q1, q2, q3, q4, q5, q6, q7, q8⟩ :=
      rec_calls cfg needle log h.first hay (bias.getD greatestLowerBound) hlen (hay.length + 1) (-1) hay.length
        hay.length s (by omega) (by omega) (by omega) (by omega) (by omega)
    rw [searchL_eq cfg needle hay cmp1 cmp2 bias hne hlen s]
    simp only [hne, if_false]
    rcases hr : recursiveSearchL cfg (cmp1 needle) hay (bias.getD greatestLowerBound) (hay.length + 1) (-1)
      hay.length s with ⟨e | i, s'⟩
    · rw [hr] at q6 q7 q8
      refine ⟨ps, xs, 0, 0, [], by simpa using q6, q1, q5, q4, rfl, Nat.le_refl _, by omega, ?_, ?_, fun _ => by omega⟩
      · intro r hr; cases hr
      · intro e' he; cases he; exact .inl (q8 e rfl)
    · rw [hr] at q6 q7 q8
      simp only
      by_cases hi : i < 0
      · simp only [hi, if_true]
        refine ⟨ps, xs, 0, 0, [], by simpa using q6, q1, q5, q4, rfl, Nat.le_refl _, by omega, ?_, ?_, fun _ => by omega⟩
        · intro r hr; cases hr; exact .inl ⟨rfl, rfl⟩
        · intro e he; cases he
      · simp only [hi, if_false]
        have hi2 := q7 i rfl
        obtain ⟨k, ys, w1, w2, w3, w4, w5, w6⟩ := walk_calls log h.second hay i.toNat s' (by omega)
        refine ⟨ps, xs, i.toNat, k, ys, ?_, q1, q5, q4, w2, w1, by omega, ?_, ?_, w6⟩
        · rw [← q6, ← w3]
          rcases walkBackL cmp2 hay i.toNat s' with ⟨e | j, s''⟩ <;> rfl
        · intro r hr
          rcases hb : walkBackL cmp2 hay i.toNat s' with ⟨e | j, s''⟩ <;> rw [hb] at hr
          · cases hr
          · cases hr
            rw [hb] at w4
            obtain ⟨z1, z2⟩ := w4 j rfl
            exact .inr ⟨j, rfl, by omega, z1, z2⟩
        · intro e he
          rcases hb : walkBackL cmp2 hay i.toNat s' with ⟨e' | j, s''⟩ <;> rw [hb] at he
          · cases he
            rw [hb] at w5
            exact .inr (w5 e rfl)
          · cases he

namespace SearchCalls

theorem log2_step (d : Nat) (h : 2 ≤ d) : Nat.log2 d = Nat.log2 (d / 2) + 1 := by
  rw [Nat.log2_def, if_pos h]

/-- A needle greater than everything between the bounds. -/
theorem rec_up (cfg : Cfg) (needle : α) (log : S → List (Compared α β)) {cmp1 : α → β → Left S Int}
    (hlog : ∀ a x s, log (cmp1 a x s).2 = log s ++ [.first a x]) (hay : List β) (bias : Int)
    (hlen : hay.length < 2147483647) (hup : ∀ x ∈ hay, ∀ t, ∃ c > 0, (cmp1 needle x t).1 = .ok c) :
    ∀ (fuel : Nat) (low : Int) (d : Nat) (s : S), -1 ≤ low → low + 2 ≤ hay.length →
      hay.length - low ≤ fuel → (d : Int) = hay.length - low - 1 →
      ∃ s', recursiveSearchL cfg (cmp1 needle) hay bias fuel low hay.length s =
          (.ok (if bias = leastUpperBound then -1 else hay.length - 1), s') ∧
        (log s').length = (log s).length + (Nat.log2 d + 1) := by
  intro fuel
  induction fuel with
  | zero => intro low d s h1 h2 h4; exfalso; omega
  | succ fuel ih =>
    intro low d s h1 h2 h4 hd
    obtain ⟨mid, x, hmid, hx, hstep⟩ :=
      step cfg (cmp1 needle) hay bias fuel low hay.length hlen h1 h2 (Int.le_refl _) s
    obtain ⟨c, hc, hca⟩ := hup x (List.mem_of_getElem? hx) s
    have hl := hlog needle x s
    rw [hstep]
    rcases hcs : cmp1 needle x s with ⟨r, s'⟩
    rw [hcs] at hca hl
    cases hca
    have hc0 : c ≠ 0 := by omega
    simp only [hc0, if_false, hc, if_true]
    have hl' : (log s').length = (log s).length + 1 := by
      rw [show log s' = _ from hl]; simp
    by_cases hgo : (hay.length : Int) - mid > 1
    · simp only [hgo, if_true]
      obtain ⟨s'', e1, e2⟩ := ih mid (d / 2) s' (by omega) (by omega) (by omega) (by omega)
      refine ⟨s'', e1, ?_⟩
      rw [e2, hl', log2_step d (by omega)]; omega
    · simp only [hgo, if_false, Int.lt_irrefl]
      have hd1 : d = 1 := by omega
      refine ⟨s', ?_, ?_⟩
      · split
        · rfl
        · rw [show (mid : Int) = hay.length - 1 by omega]
      · rw [hl', hd1, show Nat.log2 1 = 0 from by decide]

theorem walk_all (log : S → List (Compared α β)) {cmp2 : β → β → Left S Int}
    (hlog : ∀ a b s, log (cmp2 a b s).2 = log s ++ [.second a b]) (hay : List β)
    (heq : ∀ a ∈ hay, ∀ b ∈ hay, ∀ t, (cmp2 a b t).1 = .ok 0) : ∀ (i : Nat) (s : S), i < hay.length →
      ∃ s', walkBackL cmp2 hay i s = (.ok 0, s') ∧ (log s').length = (log s).length + i := by
  intro i
  induction i with
  | zero => intro s _; exact ⟨s, rfl, rfl⟩
  | succ i ih =>
    intro s h
    have h1 : hay[i + 1]? = some hay[i + 1] := List.getElem?_eq_getElem h
    have h2 : hay[i]? = some hay[i] := List.getElem?_eq_getElem (by omega)
    have i1 : index hay (i + 1) = .ok hay[i + 1] := by simp [index, h1]
    have i2 : index hay i = .ok hay[i] := by simp [index, h2]
    have hl := hlog hay[i + 1] hay[i] s
    have hz := heq hay[i + 1] (List.getElem_mem _) hay[i] (List.getElem_mem _) s
    rw [walkBackL, lift_bind_ok i1, lift_bind_ok i2]
    rcases hc : cmp2 hay[i + 1] hay[i] s with ⟨r, s'⟩
    rw [hc] at hl hz
    cases hz
    rw [bind_ok hc]
    simp only [ne_eq, not_true_eq_false, if_false]
    obtain ⟨s'', e1, e2⟩ := ih s' (by omega)
    refine ⟨s'', e1, ?_⟩
    rw [e2, show log s' = _ from hl]
    simp; omega

end SearchCalls

/-- C97, sharpness. If the needle is greater than every element, the first comparator is called exactly
`⌊log₂ n⌋ + 1` times. With `LEAST_UPPER_BOUND` that is all; otherwise, if moreover all elements compare equal, the second
comparator is called `n - 1` times: the search as a whole is not logarithmic. -/
theorem C97_sharp (cfg : Cfg) (needle : α) (hay : List β) (log : S → List (Compared α β))
    (cmp1 : α → β → Left S Int) (cmp2 : β → β → Left S Int) (bias : Option Int) (h : Records log cmp1 cmp2)
    (hlen : hay.length < 2147483647) (hne : hay ≠ []) (s : S)
    (hup : ∀ x ∈ hay, ∀ t, ∃ c > 0, (cmp1 needle x t).1 = .ok c) :
    (bias = some leastUpperBound →
      (searchL cfg needle hay cmp1 cmp2 bias s).1 = .ok (-1) ∧
      (log (searchL cfg needle hay cmp1 cmp2 bias s).2).length = (log s).length + (Nat.log2 hay.length + 1)) ∧
    (bias ≠ some leastUpperBound → (∀ a ∈ hay, ∀ b ∈ hay, ∀ t, (cmp2 a b t).1 = .ok 0) →
      (searchL cfg needle hay cmp1 cmp2 bias s).1 = .ok 0 ∧
      (log (searchL cfg needle hay cmp1 cmp2 bias s).2).length =
        (log s).length + (Nat.log2 hay.length + 1) + (hay.length - 1)) := by
  have hpos : 0 < hay.length := List.length_pos_iff.2 hne
  obtain ⟨s', e1, e2⟩ := rec_up cfg needle log h.first hay (bias.getD greatestLowerBound) hlen hup (hay.length + 1) (-1)
    hay.length s (by omega) (by omega) (by omega) (by omega)
  rw [searchL_eq cfg needle hay cmp1 cmp2 bias hne hlen s, e1]
  constructor
  · rintro rfl
    exact ⟨rfl, e2⟩
  · intro hb heq
    have hb' : bias.getD greatestLowerBound ≠ leastUpperBound := by
      cases bias with
      | none => decide
      | some b => intro hc; exact hb (by rw [← hc]; rfl)
    obtain ⟨s'', w1, w2⟩ := walk_all log h.second hay heq (hay.length - 1) s' (by omega)
    have hn : ¬ ((hay.length : Int) - 1 < 0) := by omega
    have ht : ((hay.length : Int) - 1).toNat = hay.length - 1 := by omega
    simp only [hb', if_false, hn, ht, w1]
    exact ⟨rfl, by rw [w2, e2]⟩

namespace SearchCalls

theorem lift_bind {γ δ : Type} (s : S) (r : Res γ) (f : γ → Left S δ) (g : γ → Res δ) (hf : ∀ a, f a s = (g a, s)) :
    (Left.lift r >>= f) s = ((r >>= g), s) := by
  cases r with
  | error e => rfl
  | ok a => exact hf a

theorem pure_bind {γ δ : Type} (s : S) (x : Left S γ) (r : Res γ) (f : γ → Left S δ) (g : γ → Res δ)
    (hx : x s = (r, s)) (hf : ∀ a, f a s = (g a, s)) : (x >>= f) s = ((r >>= g), s) := by
  cases r with
  | error e => rw [bind_error hx]; rfl
  | ok a => rw [bind_ok hx]; exact hf a

theorem rec_agree (cfg : Cfg) (hay : List β) (c : β → Res Int) (b : Int) (s : S) : ∀ (fuel : Nat) (low high : Int),
    recursiveSearchL cfg (fun x => Left.lift (c x)) hay b fuel low high s =
      (recursiveSearch cfg c hay b fuel low high, s) := by
  intro fuel
  induction fuel with
  | zero => intro low high; rfl
  | succ fuel ih =>
    intro low high
    rw [recursiveSearchL, recursiveSearch]
    refine lift_bind _ _ _ _ fun d => lift_bind _ _ _ _ fun mid => lift_bind _ _ _ _ fun x =>
      lift_bind _ _ _ _ fun c => ?_
    split
    · exact pure_eq _ _
    · split
      · refine lift_bind _ _ _ _ fun up => ?_
        split
        · exact ih _ _
        · split <;> exact pure_eq _ _
      · refine lift_bind _ _ _ _ fun down => ?_
        split
        · exact ih _ _
        · split <;> exact pure_eq _ _

theorem walk_agree (hay : List β) (c2 : β → β → Res Int) (s : S) : ∀ i,
    walkBackL (fun a b => Left.lift (c2 a b)) hay i s = (walkBack c2 hay i, s) := by
  intro i
  induction i with
  | zero => rfl
  | succ i ih =>
    rw [walkBackL, walkBack]
    refine lift_bind _ _ _ _ fun a => lift_bind _ _ _ _ fun b => lift_bind _ _ _ _ fun c => ?_
    split
    · rfl
    · exact ih

end SearchCalls

/-- C97. Comparators without effects: both models of `search` say the same, and C13-C15 apply. -/
theorem C97_models_agree (cfg : Cfg) (needle : α) (hay : List β) (c1 : α → β → Res Int) (c2 : β → β → Res Int)
    (bias : Option Int) (s : S) :
    searchL cfg needle hay (fun a b => Left.lift (c1 a b)) (fun a b => Left.lift (c2 a b)) bias s =
      (search cfg needle hay c1 c2 bias, s) := by
  unfold searchL search
  generalize wrap32 (hay.length : Int) = len
  split
  · exact pure_eq _ _
  · refine pure_bind s _ _ _ _ (rec_agree cfg hay (c1 needle) _ s _ _ _) fun i => ?_
    split
    · exact pure_eq _ _
    · exact pure_bind s _ _ _ _ (walk_agree hay c2 s _) fun j => pure_eq _ _

namespace SearchCalls

theorem answer_bind {γ δ : Type} (x : Left S γ) (r : Res γ) (f : γ → Left S δ) (g : γ → Res δ)
    (hx : ∀ t, (x t).1 = r) (hf : ∀ a t, (f a t).1 = g a) (t : S) : ((x >>= f) t).1 = (r >>= g) := by
  have h := hx t
  rcases hc : x t with ⟨e | a, t'⟩ <;> rw [hc] at h <;> cases h
  · rw [bind_error hc]; rfl
  · rw [bind_ok hc]; exact hf a t'

theorem lift_answer {γ : Type} (r : Res γ) (t : S) : (Left.lift r t).1 = r := rfl

theorem pure_answer {γ : Type} (a : γ) (t : S) : ((pure a : Left S γ) t).1 = .ok a := rfl

theorem rec_answer (cfg : Cfg) (hay : List β) (cmp : β → Left S Int) (c : β → Res Int) (h : ∀ x t, (cmp x t).1 = c x)
    (b : Int) : ∀ (fuel : Nat) (low high : Int) (t : S),
    (recursiveSearchL cfg cmp hay b fuel low high t).1 = recursiveSearch cfg c hay b fuel low high := by
  intro fuel
  induction fuel with
  | zero => intro low high t; rfl
  | succ fuel ih =>
    intro low high t
    rw [recursiveSearchL, recursiveSearch]
    refine answer_bind _ _ _ _ (lift_answer _) (fun d t => ?_) t
    refine answer_bind _ _ _ _ (lift_answer _) (fun mid t => ?_) t
    refine answer_bind _ _ _ _ (lift_answer _) (fun x t => ?_) t
    refine answer_bind _ _ _ _ (h x) (fun c t => ?_) t
    split
    · exact pure_answer _ _
    · split
      · refine answer_bind _ _ _ _ (lift_answer _) (fun up t => ?_) t
        split
        · exact ih _ _ _
        · split <;> exact pure_answer _ _
      · refine answer_bind _ _ _ _ (lift_answer _) (fun up t => ?_) t
        split
        · exact ih _ _ _
        · split <;> exact pure_answer _ _

theorem walk_answer (hay : List β) (cmp2 : β → β → Left S Int) (c2 : β → β → Res Int)
    (h : ∀ a b t, (cmp2 a b t).1 = c2 a b) : ∀ i t, (walkBackL cmp2 hay i t).1 = walkBack c2 hay i := by
  intro i
  induction i with
  | zero => intro t; rfl
  | succ i ih =>
    intro t
    rw [walkBackL, walkBack]
    refine answer_bind _ _ _ _ (lift_answer _) (fun a t => ?_) t
    refine answer_bind _ _ _ _ (lift_answer _) (fun b t => ?_) t
    refine answer_bind _ _ _ _ (h a b) (fun c t => ?_) t
    split
    · rfl
    · exact ih t

end SearchCalls

/-- C97. Effects of the comparators do not matter for the result: if what they answer depends on their arguments only,
the result is that of C13-C15, whatever else they do. -/
theorem C97_result (cfg : Cfg) (needle : α) (hay : List β) (cmp1 : α → β → Left S Int) (cmp2 : β → β → Left S Int)
    (c1 : α → β → Res Int) (c2 : β → β → Res Int) (h1 : ∀ x t, (cmp1 needle x t).1 = c1 needle x)
    (h2 : ∀ a b t, (cmp2 a b t).1 = c2 a b) (bias : Option Int) (s : S) :
    (searchL cfg needle hay cmp1 cmp2 bias s).1 = search cfg needle hay c1 c2 bias := by
  unfold searchL search
  generalize wrap32 (hay.length : Int) = len
  simp only
  split
  · exact pure_answer _ _
  · refine answer_bind _ _ _ _ (rec_answer cfg hay (cmp1 needle) (c1 needle) h1 _ _ _ _) (fun i t => ?_) s
    split
    · exact pure_answer _ _
    · refine answer_bind _ _ _ _ (walk_answer hay cmp2 c2 h2 _) (fun j t => ?_) t
      exact pure_answer _ _

/-! Concrete cases: comparators of numbers that write down their calls. -/

/-- The first comparator of the crate's own tests (`number_cmp`), recording its calls. -/
private def cmpA (a b : Int) : Left (List (Compared Int Int)) Int := fun s => (.ok (a - b), s ++ [.first a b])
private def cmpB (a b : Int) : Left (List (Compared Int Int)) Int := fun s => (.ok (a - b), s ++ [.second a b])

example : Records id cmpA cmpB := ⟨fun _ _ _ => rfl, fun _ _ _ => rfl⟩

/-- Ten elements, four calls of the first comparator, one of the second. -/
example : searchL ⟨true, true⟩ 30 [2, 4, 6, 8, 10, 12, 14, 16, 18, 20] cmpA cmpB none [] =
    (.ok 9, [.first 30 10, .first 30 16, .first 30 18, .first 30 20, .second 20 18]) := by decide +kernel

example : Nat.log2 10 + 1 = 4 := by decide

/-- Equal elements: the second comparator is called for each of them. -/
example : searchL ⟨true, true⟩ 30 [7, 7, 7, 7] cmpA cmpB none [] =
    (.ok 0, [.first 30 7, .first 30 7, .first 30 7, .second 7 7, .second 7 7, .second 7 7]) := by decide +kernel

/-- A comparator that changes its mind, and panics when called for the third time. -/
private def fickle (_ _ : Int) : Left Nat Int := fun n =>
  (if n = 2 then .error (.explicit "third call") else .ok (if n % 2 = 0 then 1 else -1), n + 1)

example : searchL ⟨true, true⟩ 0 [1, 2, 3, 4, 5, 6, 7, 8] fickle fickle none 0 =
    (.error (.explicit "third call"), 3) := by decide +kernel

end RSM
