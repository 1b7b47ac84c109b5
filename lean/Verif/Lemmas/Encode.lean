import Verif.Lemmas.Url
/-! # The functions of `src/util.rs` on texts with characters to be encoded -/

namespace RSM
open Spec MiniUrl

/-! ## Classification -/

theorem encode_raw_cons {c : Char} {t : Text} (h : rawChar c = true) :
    ∃ s, encode (c :: t) = '%' :: s := by
  obtain ⟨s, hs⟩ := encodeChar_raw h
  exact ⟨s ++ encode t, by rw [encode_cons, hs]; rfl⟩

theorem encode_clean_cons {c : Char} {t : Text} (h : rawChar c = false) : encode (c :: t) = c :: encode t := by
  rw [encode_cons, encodeChar_of h]
  rfl

theorem scheme_not_raw {c : Char} (h : isSchemeChar c = true) : rawChar c = false := by
  apply plain_not_raw
  simp only [isSchemeChar, Bool.or_eq_true, decide_eq_true_eq] at h
  simp only [plainChar, Bool.or_eq_true, decide_eq_true_eq]
  rcases h with ((((h | h) | h) | h) | h) | h <;> simp [h]

theorem schemeRest_cons {c : Char} {s : Text} (h : ¬ (c = ':' ∧ s.head? = some '/')) :
    schemeRest (c :: s) = (isSchemeChar c && schemeRest s) := by
  rw [schemeRest]
  rintro t rfl rfl
  exact h ⟨rfl, rfl⟩

theorem schemeRest_encode : ∀ t : Text, schemeRest (encode t) = schemeRest t := by
  intro t
  induction t with
  | nil => rfl
  | cons c t ih =>
    by_cases hr : rawChar c = true
    · obtain ⟨s, hs⟩ := encode_raw_cons (t := t) hr
      have h1 : isSchemeChar c = false := by
        cases h : isSchemeChar c with
        | false => rfl
        | true => rw [scheme_not_raw h] at hr; cases hr
      rw [hs, schemeRest_cons (by simp), schemeRest_cons (by rintro ⟨rfl, _⟩; revert hr; decide), h1]
      simp [isSchemeChar]
    · rw [Bool.not_eq_true] at hr
      rw [encode_clean_cons hr]
      by_cases hc : c = ':' ∧ t.head? = some '/'
      · obtain ⟨rfl, hh⟩ := hc
        cases t with
        | nil => cases hh
        | cons d t =>
          cases hh
          rw [encode_clean_cons (by decide)]
          rfl
      · have hc' : ¬ (c = ':' ∧ (encode t).head? = some '/') := by
          rintro ⟨rfl, hh⟩
          apply hc
          refine ⟨rfl, ?_⟩
          cases t with
          | nil => cases hh
          | cons d t =>
            by_cases hd : rawChar d = true
            · obtain ⟨s, hs⟩ := encode_raw_cons (t := t) hd
              rw [hs] at hh
              simp at hh
            · rw [Bool.not_eq_true] at hd
              rw [encode_clean_cons hd] at hh
              exact hh
        rw [schemeRest_cons hc, schemeRest_cons hc', ih]

theorem absoluteScheme_encode (t : Text) : absoluteScheme (encode t) = absoluteScheme t := by
  cases t with
  | nil => rfl
  | cons c t =>
    by_cases hr : rawChar c = true
    · obtain ⟨s, hs⟩ := encode_raw_cons (t := t) hr
      have h1 : isSchemeChar c = false := by
        cases h : isSchemeChar c with
        | false => rfl
        | true => rw [scheme_not_raw h] at hr; cases hr
      rw [hs, absoluteScheme, absoluteScheme, h1]
      simp [isSchemeChar]
    · rw [Bool.not_eq_true] at hr
      rw [encode_clean_cons hr, absoluteScheme, absoluteScheme, schemeRest_encode]

theorem encode_length (t : Text) : t.length ≤ (encode t).length := by
  induction t with
  | nil => exact Nat.le_refl _
  | cons c t ih =>
    by_cases hr : rawChar c = true
    · obtain ⟨s, hs⟩ := encodeChar_raw hr
      rw [encode_cons, hs]
      simp only [List.length_cons, List.length_append]
      omega
    · rw [Bool.not_eq_true] at hr
      rw [encode_clean_cons hr]
      simpa using ih

theorem encode_head {c : Char} {t : Text} (h : c ≠ '%') (hr : rawChar c = false) :
    (encode t).head? = some c ↔ t.head? = some c := by
  cases t with
  | nil => exact Iff.rfl
  | cons d t =>
    by_cases hd : rawChar d = true
    · obtain ⟨s, hs⟩ := encode_raw_cons (t := t) hd
      rw [hs]
      constructor
      · intro e; cases e; exact absurd rfl h
      · intro e; cases e; rw [hr] at hd; cases hd
    · rw [Bool.not_eq_true] at hd
      rw [encode_clean_cons hd]
      exact Iff.rfl

theorem urlType_eq {t : Text} (h : 2 ≤ t.length) : getUrlType t =
    .ok (if t.head? = some '/' then if t.tail.head? = some '/' then .schemeRelative else .pathAbsolute
      else if absoluteScheme t then .absolute else .pathRelative) := by
  match t, h with
  | a :: b :: t, _ =>
    unfold getUrlType
    by_cases ha : a = '/'
    · by_cases hb : b = '/' <;> simp [ha, hb]
    · cases absoluteScheme (a :: b :: t) <;> simp [ha]

theorem urlType_encode {t : Text} (h : 2 ≤ t.length) : getUrlType (encode t) = getUrlType t := by
  rw [urlType_eq h, urlType_eq (Nat.le_trans h (encode_length t)), absoluteScheme_encode]
  have h1 := encode_head (c := '/') (t := t) (by decide) (by decide)
  by_cases hh : t.head? = some '/'
  · rw [if_pos hh, if_pos (h1.2 hh)]
    cases t with
    | nil => cases hh
    | cons c t =>
      cases hh
      rw [encode_clean_cons (by decide)]
      have h2 := encode_head (c := '/') (t := t) (by decide) (by decide)
      by_cases hh : t.head? = some '/'
      · rw [if_pos (show (List.tail ('/' :: t)).head? = _ from hh),
          if_pos (show (List.tail ('/' :: encode t)).head? = _ from h2.2 hh)]
      · rw [if_neg (show ¬ (List.tail ('/' :: t)).head? = _ from hh),
          if_neg (show ¬ (List.tail ('/' :: encode t)).head? = _ from fun e => hh (h2.1 e))]
  · rw [if_neg hh, if_neg (fun e => hh (h1.1 e))]

/-! ## The safe base -/

theorem countDotDot_skip {c : Char} {s : Text} (h : ¬ (c = '.' ∧ s.head? = some '.')) :
    countDotDot (c :: s) = countDotDot s := by
  rw [countDotDot]
  rintro t rfl rfl
  exact h ⟨rfl, rfl⟩

theorem countDotDot_clean : ∀ {a : Text} (b : Text), '.' ∉ a → countDotDot (a ++ b) = countDotDot b := by
  intro a
  induction a with
  | nil => intro b _; rfl
  | cons c a ih =>
    intro b h
    rw [List.cons_append, countDotDot_skip (by rintro ⟨rfl, _⟩; simp at h), ih b (fun e => h (by simp [e]))]

theorem encodeChar_no {c d : Char} (hr : rawChar c = true) (hp : d ≠ '%') (hh : d ∉ "0123456789ABCDEF".toList) :
    d ∉ encodeChar c := fun hm => by
  rcases encodeChar_mem hr hm with h | h
  · exact hp h
  · exact hh h

theorem countDotDot_encode (t : Text) : countDotDot (encode t) = countDotDot t := by
  induction h : t.length using Nat.strongRecOn generalizing t with
  | ind n ih =>
    cases t with
    | nil => rfl
    | cons c t =>
      simp only [List.length_cons] at h
      by_cases hr : rawChar c = true
      · rw [encode_cons, countDotDot_clean _ (encodeChar_no hr (by decide) (by decide)), ih t.length (by omega) t rfl,
          countDotDot_skip (by rintro ⟨rfl, _⟩; revert hr; decide)]
      · rw [Bool.not_eq_true] at hr
        rw [encode_clean_cons hr]
        by_cases hc : c = '.' ∧ t.head? = some '.'
        · obtain ⟨rfl, hh⟩ := hc
          cases t with
          | nil => cases hh
          | cons d t =>
            cases hh
            simp only [List.length_cons] at h
            rw [encode_clean_cons (by decide), countDotDot, countDotDot, ih t.length (by omega) t rfl]
        · rw [countDotDot_skip hc, countDotDot_skip, ih t.length (by omega) t rfl]
          rintro ⟨h1, h2⟩
          exact hc ⟨h1, (encode_head (by decide) (by decide)).1 h2⟩

theorem prefix_encode {w : Text} (hw : ∀ c ∈ w, rawChar c = false ∧ c ≠ '%') : ∀ {t : Text},
    w <+: encode t → w <+: t := by
  induction w with
  | nil => intro t _; exact List.nil_prefix
  | cons c w ih =>
    intro t h
    obtain ⟨h1, h2⟩ := hw c (by simp)
    obtain ⟨r, hr⟩ := h
    have hh := (encode_head (c := c) (t := t) h2 h1).1 (by rw [← hr]; rfl)
    cases t with
    | nil => cases hh
    | cons d t =>
      cases hh
      rw [encode_clean_cons h1, List.cons_append] at hr
      injection hr with _ hr
      obtain ⟨r', hr'⟩ := ih (fun x hx => hw x (by simp [hx])) (t := t) ⟨r, hr⟩
      exact ⟨r', by rw [List.cons_append, hr']⟩

theorem infix_skip {c : Char} {w : Text} : ∀ {a b : Text}, c ∉ a → c :: w <:+: a ++ b → c :: w <:+: b := by
  intro a
  induction a with
  | nil => intro b _ h; exact h
  | cons d a ih =>
    intro b hn h
    rw [List.cons_append, List.infix_cons_iff] at h
    rcases h with h | h
    · obtain ⟨r, hr⟩ := h
      rw [List.cons_append] at hr
      injection hr with h1 _
      exact absurd (by simp [h1]) hn
    · exact ih (fun e => hn (by simp [e])) h

theorem infix_encode {c : Char} {w : Text} (hc : rawChar c = false ∧ c ≠ '%' ∧ c ∉ "0123456789ABCDEF".toList)
    (hw : ∀ d ∈ w, rawChar d = false ∧ d ≠ '%') (t : Text) : c :: w <:+: encode t ↔ c :: w <:+: t := by
  have hall : ∀ d ∈ c :: w, rawChar d = false ∧ d ≠ '%' := by
    intro d hd
    rcases List.mem_cons.1 hd with rfl | hd
    · exact ⟨hc.1, hc.2.1⟩
    · exact hw d hd
  constructor
  · induction t with
    | nil => exact id
    | cons d t ih =>
      intro h
      by_cases hd : rawChar d = true
      · rw [encode_cons] at h
        exact List.infix_cons_iff.2 (.inr (ih (infix_skip (encodeChar_no hd hc.2.1 hc.2.2) h)))
      · rw [Bool.not_eq_true] at hd
        rw [encode_clean_cons hd, List.infix_cons_iff] at h
        rcases h with h | h
        · refine List.infix_cons_iff.2 (.inl (prefix_encode hall ?_))
          rw [encode_clean_cons hd]
          exact h
        · exact List.infix_cons_iff.2 (.inr (ih h))
  · rintro ⟨a, b, rfl⟩
    rw [encode_append, encode_append, encode_of (t := c :: w) (fun d hd => (hall d hd).1)]
    exact ⟨_, _, rfl⟩

theorem uniqueSegment_encode (t : Text) : buildUniqueSegment ['p'] (encode t) = buildUniqueSegment ['p'] t := by
  have key : ∀ i, segmentName ['p'] i <:+: encode t ↔ segmentName ['p'] i <:+: t := by
    intro i
    refine infix_encode ⟨by decide, by decide, by decide⟩ (fun d hd => ?_) t
    have hdig : d.isDigit = true :=
      Nat.isDigit_of_mem_toDigits (b := 10) (n := i) (by decide) (by decide) (by simpa using hd)
    refine ⟨plain_not_raw (digit_plain hdig), ?_⟩
    rintro rfl
    revert hdig
    decide
  obtain ⟨i, h1, h2, h3⟩ := buildUniqueSegment_spec ['p'] (encode t)
  obtain ⟨j, g1, g2, g3⟩ := buildUniqueSegment_spec ['p'] t
  rw [h1, g1]
  rcases Nat.lt_trichotomy i j with h | h | h
  · exact absurd ((key i).2 (g3 i h)) h2
  · rw [h]
  · exact absurd ((key j).1 (h3 j h)) g2

theorem safeBase_encode (t : Text) : buildSafeBase (encode t) = buildSafeBase t := by
  unfold buildSafeBase
  rw [countDotDot_encode, uniqueSegment_encode]

/-- A path without its slash. -/
theorem raw_tail {t : Text} (h : Raw ('/' :: t)) (hp : getUrlType ('/' :: t) = .ok .pathAbsolute) : Raw t := by
  have hne : t.head? ≠ some '/' := by
    intro hh
    cases t with
    | nil => cases hh
    | cons d t => cases hh; simp [getUrlType] at hp
  have hlong : t ≠ [] := by rintro rfl; simp [getUrlType] at hp
  obtain ⟨h1, pre, rest, h2, h3, h4⟩ := h
  have hlast : t.getLast? ≠ some ' ' := by
    cases t with
    | nil => exact absurd rfl hlong
    | cons d t => simpa [List.getLast?_cons_cons] using h1
  rcases h3 with ⟨rfl, h3, _⟩ | ⟨rfl, h3, h5⟩ | ⟨o, ho, rfl⟩ | ⟨h, _, rfl⟩
  · rw [List.nil_append] at h2
    rw [← h2] at h3
    exact absurd rfl h3
  · simp only [List.cons_append, List.nil_append, List.cons.injEq, true_and] at h2
    subst h2
    exact ⟨hlast, [], t, rfl, .inl ⟨rfl, h3, h5⟩, h4⟩
  · exfalso
    have hs : o.scheme.head?.any (fun c => 'a' ≤ c ∧ c ≤ 'z') = true := by
      rcases ho.1 with (h | h) | h | h
      · rw [h]; decide
      · rw [h]; decide
      · rw [h]; decide
      · exact h.2.1
    cases hsc : o.scheme with
    | nil => rw [hsc] at hs; cases hs
    | cons c s =>
      simp only [Origin.text, hsc, List.cons_append, List.cons.injEq] at h2
      rw [hsc, ← h2.1] at hs
      simp at hs
  · simp only [List.cons_append, List.cons.injEq, true_and] at h2
    rw [h2] at hne
    exact absurd rfl hne

/-! ## The functions -/

variable {U : UrlLib} (hE : U.Encodes)
include hE

theorem safeHandler_encode (cb : U.Url → U.Url) {t : Text} (ht : Raw t) (hl : 2 ≤ t.length) :
    safeHandler U cb (encode t) = safeHandler U cb t := by
  unfold safeHandler joinUrl
  rw [urlType_encode hl, safeBase_encode]
  simp only [hE.join _ t ht]

theorem relative_encode {r t : Text} (hr : Raw r) (ht : Raw t) (hlr : 2 ≤ r.length) (hlt : 2 ≤ t.length) :
    relative U (encode r) (encode t) = relative U r t := by
  unfold relative replaceIfPossible normalize computeRelativeUrl joinUrl parseUrl
  rw [safeHandler_encode hE id ht hlt, urlType_encode hlr, urlType_encode hlt, ← encode_append, safeBase_encode]
  simp only [hE.join _ t ht, hE.join _ r hr, hE.parse t ht, hE.parse r hr]

theorem relative_encode_source {r t : Text} (ht : Raw t) (hlt : 2 ≤ t.length) :
    relative U r (encode t) = relative U r t := by
  unfold relative replaceIfPossible normalize computeRelativeUrl joinUrl parseUrl
  rw [safeHandler_encode hE id ht hlt, urlType_encode hlt, ← safeBase_encode (r ++ encode t), encode_append,
    encode_encode, ← encode_append, safeBase_encode]
  simp only [hE.join _ t ht, hE.parse t ht]

theorem joinPaths_encode_root {r p : Text} (hr : Raw r) (hlr : 2 ≤ r.length) :
    joinPaths U (encode r) p = joinPaths U r p := by
  unfold joinPaths ensureDirectory
  rw [safeHandler_encode hE _ hr hlr, urlType_encode hlr]

theorem sourceUrl_encode {root m : Option Text} {s : Text} (hs : Raw s) (hl : 2 ≤ s.length)
    (hl' : root.isSome → s.head? = some '/' → 3 ≤ s.length) :
    computeSourceUrl U root (encode s) m = computeSourceUrl U root s m := by
  cases root with
  | none =>
    simp only [computeSourceUrl, Res.pure_eq, Res.ok_bind, normalize, safeHandler_encode hE id hs hl]
  | some r =>
    simp only [computeSourceUrl, Res.pure_eq, urlType_encode hl]
    cases ht : getUrlType s with
    | error e => rfl
    | ok k =>
      have hn : normalize U (if k = .pathAbsolute then removeFirstSlash (encode s) else encode s) =
          normalize U (if k = .pathAbsolute then removeFirstSlash s else s) := by
        by_cases hk : k = .pathAbsolute
        · subst hk
          rw [if_pos rfl, if_pos rfl]
          have hh : s.head? = some '/' := by
            rw [urlType_eq hl] at ht
            by_cases hh : s.head? = some '/'
            · exact hh
            · rw [if_neg hh] at ht
              split at ht <;> cases ht
          cases s with
          | nil => cases hh
          | cons c s =>
            cases hh
            have := hl' rfl rfl
            rw [encode_clean_cons (by decide)]
            simp only [removeFirstSlash, if_true]
            exact safeHandler_encode hE id (raw_tail hs ht) (by simpa using this)
        · rw [if_neg hk, if_neg hk]
          exact safeHandler_encode hE id hs hl
      simp only [Res.ok_bind, hn]

theorem sourceUrl_encode_root {r s : Text} {m : Option Text} (hr : Raw r) (hl : 2 ≤ r.length) :
    computeSourceUrl U (some (encode r)) s m = computeSourceUrl U (some r) s m := by
  simp only [computeSourceUrl, joinPaths_encode_root hE hr hl]

theorem sourceUrl_encode_map {root : Option Text} {s m : Text} (hm : Raw m) (hl : 2 ≤ m.length) :
    computeSourceUrl U root s (some (encode m)) = computeSourceUrl U root s (some m) := by
  simp only [computeSourceUrl, trimFilename, safeHandler_encode hE _ hm hl]

end RSM
