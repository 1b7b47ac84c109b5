import Verif.Model.BinarySearch
import Verif.Lemmas.Compare
/-! # Properties C13-C15: binary search -/

namespace RSM

/-- The two comparators agree with each other and with the order of the haystack: `c2` is a total
preorder the haystack is sorted by, `c1 needle` is monotone along it, and elements that compare
equal to the needle compare equal to each other. -/
structure Consistent {α β : Type} (c1 : α → β → Int) (c2 : β → β → Int) (needle : α)
    (hay : List β) : Prop where
  lawful : LawfulCmp c2
  sorted : hay.Pairwise (fun a b => c2 a b ≤ 0)
  mono : ∀ a b, c2 a b ≤ 0 → 0 ≤ c1 needle b → 0 ≤ c1 needle a
  monoStrict : ∀ a b, c2 a b ≤ 0 → 0 < c1 needle b → 0 < c1 needle a
  tight : ∀ a b, c1 needle a = 0 → c1 needle b = 0 → c2 a b = 0

/-- What `recursive_search` guarantees, for arbitrary comparators: the answer is a position where
the comparison changes sign, or a hit. -/
def Cut {β : Type} (cmp : β → Int) (hay : List β) (bias : Int) (r : Int) : Prop :=
  (∃ (i : Nat) (x : β), r = i ∧ hay[i]? = some x ∧ cmp x = 0) ∨
  ∃ k : Nat, k ≤ hay.length ∧ (∀ x, k ≠ 0 → hay[k - 1]? = some x → 0 < cmp x) ∧
    (∀ x, hay[k]? = some x → cmp x < 0) ∧
    ((bias = leastUpperBound ∧ r = if k < hay.length then (k : Int) else -1) ∨
     (bias ≠ leastUpperBound ∧ r = (k : Int) - 1))

theorem recursiveSearch_spec {β : Type} (cfg : Cfg) (cmp : β → Int) (hay : List β) (bias : Int)
    (hlen : hay.length < 2147483647) : ∀ (fuel : Nat) (low high : Int), -1 ≤ low → low + 2 ≤ high →
      high ≤ hay.length → high - low ≤ fuel →
      (∀ x, 0 ≤ low → hay[low.toNat]? = some x → 0 < cmp x) →
      (∀ x, hay[high.toNat]? = some x → cmp x < 0) →
      ∃ r, recursiveSearch cfg (fun x => .ok (cmp x)) hay bias fuel low high = .ok r ∧
        Cut cmp hay bias r := by
  intro fuel
  induction fuel with
  | zero => intro low high h1 h2 h3 h4; exfalso; omega
  | succ fuel ih =>
    intro low high h1 h2 h3 h4 hl hh
    have a1 : cfg.arith (high - low) = .ok (high - low) := cfg.arith_ok (by unfold IsI32; omega)
    have hdiv : (high - low).tdiv 2 = (high - low) / 2 := by
      rw [Int.tdiv_eq_ediv_of_nonneg (by omega)]
    have a2 : cfg.arith ((high - low) / 2 + low) = .ok ((high - low) / 2 + low) :=
      cfg.arith_ok (by unfold IsI32; omega)
    obtain ⟨mid, hmid⟩ : ∃ mid, mid = (high - low) / 2 + low := ⟨_, rfl⟩
    rw [← hmid] at a2
    have hm1 : low < mid := by omega
    have hm2 : mid < high := by omega
    have hu : cfg.asUsize mid = mid.toNat := by unfold Cfg.asUsize; split <;> omega
    obtain ⟨x, hx⟩ : ∃ x, hay[mid.toNat]? = some x := by
      rw [List.getElem?_eq_getElem (by omega)]; exact ⟨_, rfl⟩
    have hi : index hay mid.toNat = .ok x := by simp [index, hx]
    simp only [recursiveSearch, a1, Res.ok_bind, hdiv, ← hmid, a2, hu, hi]
    clear a1 a2 hu hi hdiv
    by_cases hc0 : cmp x = 0
    · simp only [hc0, if_true]
      exact ⟨_, rfl, .inl ⟨mid.toNat, x, by omega, hx, hc0⟩⟩
    · by_cases hcp : cmp x > 0
      · have a3 : cfg.arith (high - mid) = .ok (high - mid) := cfg.arith_ok (by unfold IsI32; omega)
        simp only [hc0, if_false, hcp, if_true, a3, Res.ok_bind]
        by_cases hup : high - mid > 1
        · simp only [hup, if_true]
          apply ih mid high (by omega) (by omega) h3 (by omega)
          · intro y _ hy; rw [hx] at hy; cases hy; exact hcp
          · exact hh
        · simp only [hup, if_false]
          have hhm : high = mid + 1 := by omega
          have hcut1 : ∀ y, high.toNat ≠ 0 → hay[high.toNat - 1]? = some y → 0 < cmp y := by
            intro y _ hy
            rw [show high.toNat - 1 = mid.toNat by omega, hx] at hy
            cases hy; exact hcp
          by_cases hb : bias = leastUpperBound
          · simp only [hb, if_true]
            have hw : wrap32 (hay.length : Int) = hay.length := wrap32_of_isI32 (by unfold IsI32; omega)
            rw [hw]
            refine ⟨_, rfl, .inr ⟨high.toNat, by omega, hcut1, hh, .inl ⟨rfl, ?_⟩⟩⟩
            split <;> split <;> omega
          · simp only [hb, if_false]
            exact ⟨_, rfl, .inr ⟨high.toNat, by omega, hcut1, hh, .inr ⟨hb, by omega⟩⟩⟩
      · have a3 : cfg.arith (mid - low) = .ok (mid - low) := cfg.arith_ok (by unfold IsI32; omega)
        simp only [hc0, if_false, hcp, a3, Res.ok_bind]
        have hneg : cmp x < 0 := by omega
        by_cases hdn : mid - low > 1
        · simp only [hdn, if_true]
          apply ih low mid h1 (by omega) (by omega) (by omega) hl
          intro y hy; rw [hx] at hy; cases hy; exact hneg
        · simp only [hdn, if_false]
          have hcut1 : ∀ y, mid.toNat ≠ 0 → hay[mid.toNat - 1]? = some y → 0 < cmp y := by
            intro y hne hy
            rw [show mid.toNat - 1 = low.toNat by omega] at hy
            exact hl y (by omega) hy
          have hcut2 : ∀ y, hay[mid.toNat]? = some y → cmp y < 0 := by
            intro y hy; rw [hx] at hy; cases hy; exact hneg
          by_cases hb : bias = leastUpperBound
          · simp only [hb, if_true]
            refine ⟨_, rfl, .inr ⟨mid.toNat, by omega, hcut1, hcut2, .inl ⟨rfl, ?_⟩⟩⟩
            split <;> omega
          · simp only [hb, if_false]
            refine ⟨_, rfl, .inr ⟨mid.toNat, by omega, hcut1, hcut2, .inr ⟨hb, ?_⟩⟩⟩
            split <;> omega

theorem walkBack_ok {β : Type} (c2 : β → β → Int) (hay : List β) : ∀ i, i < hay.length →
    ∃ j, walkBack (fun a b => .ok (c2 a b)) hay i = .ok j ∧ j ≤ i ∧
      (∀ k x y, j ≤ k → k < i → hay[k + 1]? = some x → hay[k]? = some y → c2 x y = 0) ∧
      (∀ x y, j ≠ 0 → hay[j]? = some x → hay[j - 1]? = some y → c2 x y ≠ 0) := by
  intro i
  induction i with
  | zero => intro _; exact ⟨0, rfl, Nat.le_refl _, by omega, by simp⟩
  | succ i ih =>
    intro h
    have h1 : hay[i + 1]? = some hay[i + 1] := List.getElem?_eq_getElem h
    have h2 : hay[i]? = some hay[i] := List.getElem?_eq_getElem (by omega)
    simp only [walkBack, index, h1, h2, Res.ok_bind]
    by_cases hc : c2 hay[i + 1] hay[i] = 0
    · obtain ⟨j, e1, e2, e3, e4⟩ := ih (by omega)
      simp only [hc, ne_eq, not_true_eq_false, if_false]
      refine ⟨j, e1, by omega, ?_, e4⟩
      intro k x y hk1 hk2 hx hy
      by_cases hki : k = i
      · subst hki; rw [h1] at hx; rw [h2] at hy; cases hx; cases hy; exact hc
      · exact e3 k x y hk1 (by omega) hx hy
    · simp only [ne_eq, hc, not_false_eq_true, if_true]
      refine ⟨i + 1, rfl, Nat.le_refl _, by omega, ?_⟩
      intro x y _ hx hy
      rw [h1] at hx
      simp only [Nat.add_sub_cancel] at hy
      rw [h2] at hy
      cases hx; cases hy; exact hc

/-- The result of `search`, in terms of where `recursive_search` landed. -/
theorem search_spec {α β : Type} (cfg : Cfg) (needle : α) (hay : List β) (c1 : α → β → Int)
    (c2 : β → β → Int) (bias : Option Int) (hlen : hay.length < 2147483647) (hne : hay ≠ []) :
    ∃ r, Cut (c1 needle) hay (bias.getD greatestLowerBound) r ∧
      ((r < 0 ∧ search cfg needle hay (fun a b => .ok (c1 a b)) (fun a b => .ok (c2 a b)) bias
          = .ok (-1)) ∨
       ∃ i j : Nat, r = i ∧ i < hay.length ∧ j ≤ i ∧
        search cfg needle hay (fun a b => .ok (c1 a b)) (fun a b => .ok (c2 a b)) bias = .ok (j : Int) ∧
        (∀ k x y, j ≤ k → k < i → hay[k + 1]? = some x → hay[k]? = some y → c2 x y = 0) ∧
        (∀ x y, j ≠ 0 → hay[j]? = some x → hay[j - 1]? = some y → c2 x y ≠ 0)) := by
  have hpos : 0 < hay.length := List.length_pos_iff.2 hne
  have hw : wrap32 (hay.length : Int) = hay.length := wrap32_of_isI32 (by unfold IsI32; omega)
  have he : hay.isEmpty = false := by simpa using hne
  obtain ⟨r, hr, hcut⟩ := recursiveSearch_spec cfg (c1 needle) hay (bias.getD greatestLowerBound)
    hlen (hay.length + 1) (-1) hay.length (by omega) (by omega) (by omega) (by omega)
    (by omega) (by simp)
  refine ⟨r, hcut, ?_⟩
  by_cases hneg : r < 0
  · left
    refine ⟨hneg, ?_⟩
    simp [search, he, hw, hr, hneg]
  · right
    have hi : r.toNat < hay.length := by
      rcases hcut with ⟨i, x, e, hx, _⟩ | ⟨k, hk, _, _, ⟨_, e⟩ | ⟨_, e⟩⟩
      · have := (List.getElem?_eq_some_iff.1 hx).1; omega
      · split at e <;> omega
      · omega
    obtain ⟨j, e1, e2, e3, e4⟩ := walkBack_ok c2 hay r.toNat hi
    refine ⟨r.toNat, j, by omega, hi, e2, ?_, e3, e4⟩
    simp [search, he, hw, hr, hneg, e1]

section
variable {α β : Type} {c1 : α → β → Int} {c2 : β → β → Int} {needle : α} {hay : List β}

theorem Consistent.le_of_le (h : Consistent c1 c2 needle hay) {i j : Nat} {x y : β} (hij : i ≤ j)
    (hx : hay[i]? = some x) (hy : hay[j]? = some y) : c2 x y ≤ 0 := by
  obtain ⟨hi, rfl⟩ := List.getElem?_eq_some_iff.1 hx
  obtain ⟨hj, rfl⟩ := List.getElem?_eq_some_iff.1 hy
  rcases Nat.lt_or_ge i j with hlt | hge
  · exact List.pairwise_iff_getElem.1 h.sorted i j hi hj hlt
  · have : i = j := by omega
    subst this
    have := h.lawful.refl hay[i]
    omega

/-- The run of equal neighbours found by the walk is an equivalence class start: `j` is the least
index equivalent to `i`. -/
theorem Consistent.walk (h : Consistent c1 c2 needle hay) {i j : Nat} (hji : j ≤ i)
    (e3 : ∀ k x y, j ≤ k → k < i → hay[k + 1]? = some x → hay[k]? = some y → c2 x y = 0)
    (e4 : ∀ x y, j ≠ 0 → hay[j]? = some x → hay[j - 1]? = some y → c2 x y ≠ 0) (hi : i < hay.length)
    {k : Nat} {x y : β} (hx : hay[i]? = some x) (hy : hay[k]? = some y) :
    (j ≤ k → k ≤ i → c2 y x = 0) ∧ (c2 y x = 0 → j ≤ k) := by
  have hkey : ∀ d k y, k + d = i → j ≤ k → hay[k]? = some y → c2 y x = 0 := by
    intro d
    induction d with
    | zero => intro k y hk _ hy; subst hk; simp only [Nat.add_zero] at hx; rw [hx] at hy; cases hy; exact h.lawful.refl x
    | succ d ih =>
      intro k y hk hjk hy
      have hk1 : hay[k + 1]? = some hay[k + 1] := List.getElem?_eq_getElem (by omega)
      have h1 := ih (k + 1) hay[k + 1] (by omega) (by omega) hk1
      have h2 := e3 k _ _ hjk (by omega) hk1 hy
      have h3 := h.lawful.trans y hay[k + 1] x (by have := (h.lawful.zero _ _).1 h2; omega) (by omega)
      have h4 := h.lawful.trans x hay[k + 1] y (by have := (h.lawful.zero _ _).1 h1; omega) (by omega)
      have h5 := h.lawful.anti y x
      omega
  refine ⟨fun h1 h2 => hkey (i - k) k y (by omega) h1 hy, ?_⟩
  intro hz
  apply Classical.byContradiction
  intro hkj
  have hj1 : hay[j]? = some hay[j] := List.getElem?_eq_getElem (by omega)
  have hj2 : hay[j - 1]? = some hay[j - 1] := List.getElem?_eq_getElem (by omega)
  apply e4 _ _ (by omega) hj1 hj2
  have h1 := hkey (i - j) j _ (by omega) (Nat.le_refl _) hj1
  have h2 : c2 y hay[j - 1] ≤ 0 := h.le_of_le (by omega) hy hj2
  have h3 : c2 hay[j - 1] hay[j] ≤ 0 := h.le_of_le (by omega) hj2 hj1
  have h4 := h.lawful.trans hay[j] x y (by omega) (by have := (h.lawful.zero _ _).1 hz; omega)
  have h5 := h.lawful.trans hay[j] y hay[j - 1] h4 h2
  have h6 := h.lawful.anti hay[j] hay[j - 1]
  omega

end

/-- C13. With the default bias (or any bias that is not `LEAST_UPPER_BOUND`, which is 2): `-1` exactly when
every element is greater than the needle; otherwise the answer is the first of the elements
equivalent to the greatest element that is not greater than the needle. -/
theorem C13_search_glb {α β : Type} (cfg : Cfg) (needle : α) (hay : List β) (c1 : α → β → Int)
    (c2 : β → β → Int) (bias : Option Int) (hlen : hay.length < 2147483647)
    (hbias : bias ≠ some 2) (h : Consistent c1 c2 needle hay) :
    ∃ r, search cfg needle hay (fun a b => .ok (c1 a b)) (fun a b => .ok (c2 a b)) bias = .ok r ∧
      (r = -1 ↔ ∀ x ∈ hay, c1 needle x < 0) ∧
      (r ≠ -1 → ∃ (i : Nat) (x : β), r = i ∧ hay[i]? = some x ∧ 0 ≤ c1 needle x ∧
        (∀ y ∈ hay, 0 ≤ c1 needle y → c2 y x ≤ 0) ∧
        ∀ (k : Nat) (y : β), hay[k]? = some y → c2 y x = 0 → i ≤ k) := by
  have hb : bias.getD greatestLowerBound ≠ leastUpperBound := by
    cases bias with
    | none => decide
    | some b => exact fun e => hbias (congrArg some e)
  by_cases hne : hay = []
  · subst hne; exact ⟨-1, rfl, by simp, by simp⟩
  obtain ⟨r, hcut, hcase⟩ := search_spec cfg needle hay c1 c2 bias hlen hne
  -- the elements not greater than the needle are those up to `r`
  have hle : ∀ (k : Nat) y, hay[k]? = some y → (k : Int) ≤ r → 0 ≤ c1 needle y := by
    intro k y hy hk
    rcases hcut with ⟨i, x, e, hx, hx0⟩ | ⟨m, hm, hlo, hhi, ⟨hb', e⟩ | ⟨_, e⟩⟩
    · exact h.mono y x (h.le_of_le (by omega) hy hx) (by omega)
    · exact absurd hb' hb
    · have hm1 : hay[m - 1]? = some hay[m - 1] := List.getElem?_eq_getElem (by omega)
      have := hlo _ (by omega) hm1
      exact h.mono y _ (h.le_of_le (by omega) hy hm1) (by omega)
  have hgt : ∀ (k : Nat) y, hay[k]? = some y → r < (k : Int) → c1 needle y < 0 ∨
      ∃ x, hay[r.toNat]? = some x ∧ 0 ≤ r ∧ c2 y x = 0 := by
    intro k y hy hk
    rcases hcut with ⟨i, x, e, hx, hx0⟩ | ⟨m, hm, hlo, hhi, ⟨hb', e⟩ | ⟨_, e⟩⟩
    · have h1 := h.le_of_le (by omega) hx hy
      by_cases hneg : c1 needle y < 0
      · exact .inl hneg
      · right
        refine ⟨x, by rw [e]; simpa using hx, by omega, ?_⟩
        by_cases h0 : c1 needle y = 0
        · exact h.tight y x h0 hx0
        · have := h.monoStrict x y h1 (by omega); omega
    · exact absurd hb' hb
    · left
      have hklt := (List.getElem?_eq_some_iff.1 hy).1
      have hm1 : hay[m]? = some hay[m] := List.getElem?_eq_getElem (by omega)
      have h1 := hhi _ hm1
      have h2 : c2 hay[m] y ≤ 0 := h.le_of_le (by omega) hm1 hy
      apply Classical.byContradiction
      intro hn
      have := h.mono _ _ h2 (by omega)
      omega
  rcases hcase with ⟨hneg, hs⟩ | ⟨i, j, hri, hi, hji, hs, e3, e4⟩
  · refine ⟨-1, hs, ⟨fun _ x hx => ?_, fun _ => rfl⟩, by simp⟩
    obtain ⟨k, hk⟩ := List.getElem?_of_mem hx
    rcases hgt k x hk (by omega) with h1 | ⟨_, _, h1, _⟩
    · exact h1
    · omega
  · refine ⟨(j : Int), hs, ⟨by omega, fun hall => ?_⟩, fun _ => ?_⟩
    · have hj1 : hay[j]? = some hay[j] := List.getElem?_eq_getElem (by omega)
      have h1 := hle j _ hj1 (by omega)
      have h2 := hall _ (List.mem_of_getElem? hj1)
      omega
    · have hj1 : hay[j]? = some hay[j] := List.getElem?_eq_getElem (by omega)
      have hi1 : hay[i]? = some hay[i] := List.getElem?_eq_getElem hi
      have hji0 : c2 hay[j] hay[i] = 0 :=
        (h.walk hji e3 e4 hi hi1 hj1).1 (Nat.le_refl _) hji
      refine ⟨j, hay[j], rfl, hj1, hle j _ hj1 (by omega), ?_, ?_⟩
      · intro y hy h0
        obtain ⟨k, hk⟩ := List.getElem?_of_mem hy
        have hyi : c2 y hay[i] ≤ 0 := by
          rcases Nat.lt_or_ge i k with hlt | hge
          · rcases hgt k y hk (by omega) with h1 | ⟨x, hx, _, h1⟩
            · omega
            · rw [hri] at hx
              simp only [Int.toNat_natCast] at hx
              rw [hi1] at hx; cases hx; omega
          · exact h.le_of_le hge hk hi1
        exact h.lawful.trans y hay[i] hay[j] hyi (by have := (h.lawful.zero _ _).1 hji0; omega)
      · intro k y hy h0
        apply (h.walk hji e3 e4 hi hi1 hy).2
        have h1 := h.lawful.trans y hay[j] hay[i] (by omega) (by omega)
        have h2 := h.lawful.trans hay[i] hay[j] y (by have := (h.lawful.zero _ _).1 hji0; omega)
          (by have := (h.lawful.zero _ _).1 h0; omega)
        have h3 := h.lawful.anti y hay[i]
        omega

/-- C14. With `LEAST_UPPER_BOUND`, which is 2: `-1` exactly when every element is smaller than the needle;
otherwise the smallest index whose element is not smaller than the needle. -/
theorem C14_search_lub {α β : Type} (cfg : Cfg) (needle : α) (hay : List β) (c1 : α → β → Int)
    (c2 : β → β → Int) (hlen : hay.length < 2147483647) (h : Consistent c1 c2 needle hay) :
    ∃ r, search cfg needle hay (fun a b => .ok (c1 a b)) (fun a b => .ok (c2 a b))
        (some 2) = .ok r ∧
      (r = -1 ↔ ∀ x ∈ hay, 0 < c1 needle x) ∧
      (r ≠ -1 → ∃ (i : Nat) (x : β), r = i ∧ hay[i]? = some x ∧ c1 needle x ≤ 0 ∧
        ∀ (k : Nat) (y : β), hay[k]? = some y → c1 needle y ≤ 0 → i ≤ k) := by
  change ∃ r, search cfg needle hay (fun a b => .ok (c1 a b)) (fun a b => .ok (c2 a b)) (some leastUpperBound) = .ok r ∧ _
  by_cases hne : hay = []
  · subst hne; exact ⟨-1, rfl, by simp, by simp⟩
  obtain ⟨r, hcut, hcase⟩ := search_spec cfg needle hay c1 c2 (some leastUpperBound) hlen hne
  simp only [Option.getD_some] at hcut
  rcases hcase with ⟨hneg, hs⟩ | ⟨i, j, hri, hi, hji, hs, e3, e4⟩
  · refine ⟨-1, hs, ⟨fun _ x hx => ?_, fun _ => rfl⟩, by simp⟩
    obtain ⟨k, hk⟩ := List.getElem?_of_mem hx
    have hklt := (List.getElem?_eq_some_iff.1 hk).1
    rcases hcut with ⟨i, x, e, _⟩ | ⟨m, hm, hlo, hhi, ⟨_, e⟩ | ⟨hb', _⟩⟩
    · omega
    · have hm1 : hay[m - 1]? = some hay[m - 1] := List.getElem?_eq_getElem (by split at e <;> omega)
      have hlast := hlo _ (by split at e <;> omega) hm1
      exact h.monoStrict x _ (h.le_of_le (by split at e <;> omega) hk hm1) hlast
    · exact absurd rfl hb'
  · have hi1 : hay[i]? = some hay[i] := List.getElem?_eq_getElem hi
    have hj1 : hay[j]? = some hay[j] := List.getElem?_eq_getElem (by omega)
    have hji0 : c2 hay[j] hay[i] = 0 := (h.walk hji e3 e4 hi hi1 hj1).1 (Nat.le_refl _) hji
    have hile : c1 needle hay[i] ≤ 0 := by
      rcases hcut with ⟨i', x, e, hx, h0⟩ | ⟨m, hm, hlo, hhi, ⟨_, e⟩ | ⟨hb', _⟩⟩
      · have : i' = i := by omega
        subst this; rw [hi1] at hx; cases hx; omega
      · have : m = i := by split at e <;> omega
        subst this; have := hhi _ hi1; omega
      · exact absurd rfl hb'
    have hjle : c1 needle hay[j] ≤ 0 := by
      apply Classical.byContradiction
      intro hn
      have := h.monoStrict hay[i] hay[j] (by have := (h.lawful.zero _ _).1 hji0; omega) (by omega)
      omega
    refine ⟨(j : Int), hs, ⟨by omega, fun hall => ?_⟩, fun _ => ?_⟩
    · have := hall _ (List.mem_of_getElem? hj1)
      omega
    · refine ⟨j, hay[j], rfl, hj1, hjle, ?_⟩
      intro k y hy hy0
      have hklt := (List.getElem?_eq_some_iff.1 hy).1
      rcases Nat.lt_or_ge k i with hlt | hge
      · apply (h.walk hji e3 e4 hi hi1 hy).2
        rcases hcut with ⟨i', x, e, hx, h0⟩ | ⟨m, hm, hlo, hhi, ⟨_, e⟩ | ⟨hb', _⟩⟩
        · have : i' = i := by omega
          subst this; rw [hi1] at hx; cases hx
          have := h.mono y hay[i'] (h.le_of_le (by omega) hy hi1) (by omega)
          exact h.tight y _ (by omega) h0
        · have : m = i := by split at e <;> omega
          subst this
          have hm1 : hay[m - 1]? = some hay[m - 1] := List.getElem?_eq_getElem (by omega)
          have := hlo _ (by omega) hm1
          have := h.monoStrict y _ (h.le_of_le (by omega) hy hm1) this
          omega
        · exact absurd rfl hb'
      · omega

/-- The hypothesis of C13 and C14 is met, for instance, by integers in a sorted list with
repetitions. -/
theorem consistent_example : Consistent (fun a b : Int => a - b) (fun a b : Int => a - b) 5
    [1, 1, 2, 5, 5, 5, 13, 21] :=
  ⟨⟨by intros; omega, by intros; omega⟩, by decide, by intros; omega, by intros; omega,
    by intros; omega⟩

example : search ⟨true, true⟩ (5 : Int) [1, 1, 2, 5, 5, 5, 13, 21] (fun a b => .ok (a - b))
    (fun a b => .ok (a - b)) none = .ok 3 := by rfl
example : search ⟨true, true⟩ (20 : Int) [1, 1, 2, 5, 5, 5, 13, 21] (fun a b => .ok (a - b))
    (fun a b => .ok (a - b)) (some 2) = .ok 7 := by rfl

/-- C15. For arbitrary (also inconsistent) comparators that return, any bias and any haystack of
at most `2^31 - 2` elements, `search` returns -1 or an index inside the haystack: it ends, and it
neither overflows nor indexes out of bounds. -/
theorem C15_search_total {α β : Type} (cfg : Cfg) (needle : α) (hay : List β) (c1 : α → β → Int)
    (c2 : β → β → Int) (bias : Option Int) (hlen : hay.length < 2147483647) :
    ∃ r, search cfg needle hay (fun a b => .ok (c1 a b)) (fun a b => .ok (c2 a b)) bias = .ok r ∧
      (r = -1 ∨ (0 ≤ r ∧ r < hay.length)) := by
  by_cases hne : hay = []
  · subst hne; exact ⟨-1, rfl, .inl rfl⟩
  obtain ⟨r, _, ⟨_, hs⟩ | ⟨i, j, _, hi, hji, hs, _⟩⟩ := search_spec cfg needle hay c1 c2 bias hlen hne
  · exact ⟨-1, hs, .inl rfl⟩
  · exact ⟨j, hs, .inr ⟨by omega, by omega⟩⟩

theorem recursiveSearch_panic {β : Type} (cfg : Cfg) (cmp : β → Res Int) (hay : List β) (bias : Int)
    (hlen : hay.length < 2147483647) : ∀ (fuel : Nat) (low high : Int), -1 ≤ low → low + 2 ≤ high →
      high ≤ hay.length → high - low ≤ fuel →
      (∃ r, recursiveSearch cfg cmp hay bias fuel low high = .ok r ∧ -1 ≤ r ∧ r < hay.length) ∨
      ∃ x ∈ hay, ∃ e, cmp x = .error e ∧ recursiveSearch cfg cmp hay bias fuel low high = .error e := by
  intro fuel
  induction fuel with
  | zero => intro low high h1 h2 h3 h4; exfalso; omega
  | succ fuel ih =>
    intro low high h1 h2 h3 h4
    have a1 : cfg.arith (high - low) = .ok (high - low) := cfg.arith_ok (by unfold IsI32; omega)
    have hdiv : (high - low).tdiv 2 = (high - low) / 2 := by
      rw [Int.tdiv_eq_ediv_of_nonneg (by omega)]
    have a2 : cfg.arith ((high - low) / 2 + low) = .ok ((high - low) / 2 + low) :=
      cfg.arith_ok (by unfold IsI32; omega)
    obtain ⟨mid, hmid⟩ : ∃ mid, mid = (high - low) / 2 + low := ⟨_, rfl⟩
    rw [← hmid] at a2
    have hm1 : low < mid := by omega
    have hm2 : mid < high := by omega
    have hu : cfg.asUsize mid = mid.toNat := by unfold Cfg.asUsize; split <;> omega
    obtain ⟨x, hx⟩ : ∃ x, hay[mid.toNat]? = some x := by
      rw [List.getElem?_eq_getElem (by omega)]; exact ⟨_, rfl⟩
    have hi : index hay mid.toNat = .ok x := by simp [index, hx]
    simp only [recursiveSearch, a1, Res.ok_bind, hdiv, ← hmid, a2, hu, hi]
    clear a1 a2 hu hi hdiv
    cases hc : cmp x with
    | error e => right; exact ⟨x, List.mem_of_getElem? hx, e, hc, rfl⟩
    | ok c =>
      simp only [Res.ok_bind]
      have hw : wrap32 (hay.length : Int) = hay.length := wrap32_of_isI32 (by unfold IsI32; omega)
      have a3 : cfg.arith (high - mid) = .ok (high - mid) := cfg.arith_ok (by unfold IsI32; omega)
      have a4 : cfg.arith (mid - low) = .ok (mid - low) := cfg.arith_ok (by unfold IsI32; omega)
      simp only [a3, a4, Res.ok_bind, hw]
      split
      · left; exact ⟨_, rfl, by omega, by omega⟩
      · split
        · split
          · exact ih mid high (by omega) (by omega) h3 (by omega)
          · left
            split
            · refine ⟨_, rfl, ?_⟩; split <;> omega
            · exact ⟨_, rfl, by omega, by omega⟩
        · split
          · exact ih low mid h1 (by omega) (by omega) (by omega)
          · left
            split
            · exact ⟨_, rfl, by omega, by omega⟩
            · refine ⟨_, rfl, ?_⟩; split <;> omega

theorem walkBack_panic {β : Type} (cmp2 : β → β → Res Int) (hay : List β) : ∀ i, i < hay.length →
    (∃ j, walkBack cmp2 hay i = .ok j ∧ j ≤ i) ∨
    ∃ a ∈ hay, ∃ b ∈ hay, ∃ e, cmp2 a b = .error e ∧ walkBack cmp2 hay i = .error e := by
  intro i
  induction i with
  | zero => intro _; exact .inl ⟨0, rfl, Nat.le_refl _⟩
  | succ i ih =>
    intro h
    have h1 : hay[i + 1]? = some hay[i + 1] := List.getElem?_eq_getElem h
    have h2 : hay[i]? = some hay[i] := List.getElem?_eq_getElem (by omega)
    simp only [walkBack, index, h1, h2, Res.ok_bind]
    cases hc : cmp2 hay[i + 1] hay[i] with
    | error e => right; exact ⟨_, List.mem_of_getElem? h1, _, List.mem_of_getElem? h2, e, hc, rfl⟩
    | ok c =>
      simp only [Res.ok_bind]
      split
      · left; exact ⟨_, rfl, Nat.le_refl _⟩
      · rcases ih (by omega) with ⟨j, h3, h4⟩ | h3
        · exact .inl ⟨j, h3, by omega⟩
        · exact .inr h3

/-- C15. The same for comparators that may themselves panic: the only panic `search` can raise is
one raised by a comparator on elements of the haystack. -/
theorem C15_search_only_comparator_panics {α β : Type} (cfg : Cfg) (needle : α) (hay : List β)
    (c1 : α → β → Res Int) (c2 : β → β → Res Int) (bias : Option Int)
    (hlen : hay.length < 2147483647) :
    (∃ r, search cfg needle hay c1 c2 bias = .ok r ∧ (r = -1 ∨ (0 ≤ r ∧ r < hay.length))) ∨
    ∃ e, search cfg needle hay c1 c2 bias = .error e ∧
      ((∃ x ∈ hay, c1 needle x = .error e) ∨ ∃ a ∈ hay, ∃ b ∈ hay, c2 a b = .error e) := by
  by_cases hne : hay = []
  · subst hne; exact .inl ⟨-1, rfl, .inl rfl⟩
  have hpos : 0 < hay.length := List.length_pos_iff.2 hne
  have hw : wrap32 (hay.length : Int) = hay.length := wrap32_of_isI32 (by unfold IsI32; omega)
  have he : hay.isEmpty = false := by simpa using hne
  rcases recursiveSearch_panic cfg (c1 needle) hay (bias.getD greatestLowerBound) hlen
    (hay.length + 1) (-1) hay.length (by omega) (by omega) (by omega) (by omega) with
    ⟨r, hr, h1, h2⟩ | ⟨x, hx, e, hc, hr⟩
  · by_cases hneg : r < 0
    · left; exact ⟨-1, by simp [search, he, hw, hr, hneg], .inl rfl⟩
    · rcases walkBack_panic c2 hay r.toNat (by omega) with ⟨j, e1, e2⟩ | ⟨a, ha, b, hb, e, hc, e1⟩
      · left; exact ⟨j, by simp [search, he, hw, hr, hneg, e1], .inr ⟨by omega, by omega⟩⟩
      · right; exact ⟨e, by simp [search, he, hw, hr, hneg, e1], .inr ⟨a, ha, b, hb, hc⟩⟩
  · right
    exact ⟨e, by simp [search, he, hw, hr], .inl ⟨x, hx, hc⟩⟩

theorem recursiveSearch_overflow {β : Type} (cfg : Cfg) (cmp : β → Res Int) (hay : List β)
    (bias : Int) (high : Int) (hh : high = 2147483647) (hlen : (hay.length : Int) ≤ high) (fuel : Nat) :
    ∃ e, recursiveSearch cfg cmp hay bias (fuel + 1) (-1) high = .error e := by
  have hnot : ¬ IsI32 (high - -1) := by unfold IsI32; omega
  rw [recursiveSearch]
  cases ho : cfg.overflowChecks with
  | true =>
    have : cfg.arith (high - -1) = .error .overflow := by simp only [Cfg.arith, hnot, ho, if_false, if_true]
    rw [this]; exact ⟨_, rfl⟩
  | false =>
    obtain ⟨d, hd⟩ : ∃ d : Int, d = -2147483648 := ⟨_, rfl⟩
    obtain ⟨m, hm⟩ : ∃ m : Int, m = -1073741825 := ⟨_, rfl⟩
    have h1 : cfg.arith (high - -1) = .ok d := by
      have : wrap32 (high - -1) = d := by unfold wrap32; omega
      simp only [Cfg.arith, hnot, if_false, ho, Bool.false_eq_true, this]
    have h2 : cfg.arith (d.tdiv 2 + -1) = .ok m := by
      have : d.tdiv 2 = -1073741824 := by rw [hd]; decide
      rw [this]
      have : (-1073741824 + -1 : Int) = m := by omega
      rw [this]
      exact cfg.arith_ok (by unfold IsI32; omega)
    have h3 : hay[cfg.asUsize m]? = none := by
      rw [List.getElem?_eq_none_iff]
      unfold Cfg.asUsize; split <;> omega
    simp only [h1, h2, Res.ok_bind, index, h3, Res.error_bind]
    exact ⟨_, rfl⟩

/-- C15 (sharpness of the bound). With exactly `2^31 - 1` elements every search panics, in both
build profiles: `high - low` overflows. -/
theorem C15_search_bound_sharp {α β : Type} (cfg : Cfg) (needle : α) (hay : List β)
    (c1 : α → β → Res Int) (c2 : β → β → Res Int) (bias : Option Int)
    (hlen : hay.length = 2147483647) :
    ∃ e, search cfg needle hay c1 c2 bias = .error e := by
  obtain ⟨w, hw⟩ : ∃ w, w = wrap32 (hay.length : Int) := ⟨_, rfl⟩
  have hw' : w = 2147483647 := by rw [hw]; unfold wrap32; omega
  have he : hay.isEmpty = false := by
    cases hay with
    | nil => simp at hlen
    | cons a l => rfl
  obtain ⟨n, hn⟩ := Nat.exists_eq_add_one_of_ne_zero (show (w + 1).toNat ≠ 0 by omega)
  obtain ⟨e, hrec⟩ := recursiveSearch_overflow cfg (c1 needle) hay (bias.getD greatestLowerBound) w
    hw' (by omega) n
  refine ⟨e, ?_⟩
  unfold search
  simp only [he, ← hw, hn, hrec, Bool.false_eq_true, if_false, Res.error_bind]

/-- Such haystacks exist. -/
theorem exists_haystack (n : Nat) : ∃ hay : List Unit, hay.length = n :=
  ⟨List.replicate n (), List.length_replicate⟩

end RSM
