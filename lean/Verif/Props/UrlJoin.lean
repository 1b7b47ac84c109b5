import Verif.Lemmas.UrlUtil
import Verif.Props.Url
/-! # C54-C57: normalisation, source roots, absolute sources, map URLs

For every URL library satisfying `Verif/Dep/Url.lean`. Texts are built from `Verif/Spec/Url.lean`; the
examples run on the instance `MiniUrl.lib`.
-/

namespace RSM
open Spec

section
variable {U : UrlLib}

theorem source_plain (s : Text) : computeSourceUrl U none s none = normalize U s := by
  simp only [computeSourceUrl, Res.pure_eq, Res.ok_bind]
  cases normalize U s <;> rfl

theorem source_root {root s s' y : Text} {t : UrlType} (ht : getUrlType s = .ok t)
    (hs : (if t = .pathAbsolute then removeFirstSlash s else s) = s') (hn : normalize U s' = .ok y) :
    computeSourceUrl U (some root) s none = joinPaths U root y := by
  simp only [computeSourceUrl, ht, Res.ok_bind, Res.pure_eq, hs, hn]
  cases joinPaths U root y <;> rfl

theorem source_map {s y m d : Text} (hn : normalize U s = .ok y) (hd : trimFilename U m = .ok d) :
    computeSourceUrl U none s (some m) = joinPaths U d y := by
  simp only [computeSourceUrl, Res.ok_bind, Res.pure_eq, hn, hd]

theorem normalize_short (s : Text) (h : s.length < 2) : normalize U s = .error .unwrap := by
  match s, h with
  | [], _ => rfl
  | [_], _ => rfl
  | _ :: _ :: _, h => simp at h; omega

theorem joinPaths_short_root {root p : Text} (h : root.length < 2) (y : Text) : joinPaths U root p ≠ .ok y := by
  have hr : getUrlType root = .error .unwrap := by
    match root, h with
    | [], _ => rfl
    | [_], _ => rfl
    | _ :: _ :: _, h => simp at h; omega
  rw [joinPaths, hr]
  cases getUrlType p <;> simp [Res.error_bind, Res.ok_bind]

theorem joinPaths_short_path {root p : Text} (h : p.length < 2) : joinPaths U root p = .error .unwrap := by
  have hr : getUrlType p = .error .unwrap := by
    match p, h with
    | [], _ => rfl
    | [_], _ => rfl
    | _ :: _ :: _, h => simp at h; omega
  rw [joinPaths, hr]
  rfl

theorem removeFirstSlash_path (t : Text) : removeFirstSlash ('/' :: t) = t := by simp [removeFirstSlash]

end

section
variable {U : UrlLib} (hU : U.Laws)
include hU

omit hU in
theorem asDir_length (R : Ref) : R.text.length ≤ R.asDir.text.length := by
  obtain ⟨ds, f⟩ := R
  by_cases e : f = []
  · simp [Ref.text, Ref.asDir, e]
  · simp [Ref.text, Ref.asDir, e, pathText]

omit hU in
theorem intercalate_path : ∀ (D : List Text) (d : Text), List.intercalate ['/'] (D ++ [d]) = pathText D d
  | [], d => by simp [pathText, List.intercalate]
  | a :: D, d => by
    have ih := intercalate_path D d
    obtain ⟨x, ys, h⟩ : ∃ x ys, D ++ [d] = x :: ys := List.exists_cons_of_ne_nil (by simp)
    rw [List.cons_append]
    rw [h] at ih ⊢
    rw [show List.intercalate ['/'] (a :: x :: ys) = a ++ ['/'] ++ List.intercalate ['/'] (x :: ys) by
      simp [List.intercalate], ih]
    simp [pathText]

/-! ## C54 -/

/-- C54: a reference without dot segments is its own normal form. -/
theorem C54_identity {l : Loc} (hl : l.Valid) (hlen : 2 ≤ (pathText l.dirs l.file).length) :
    normalize U (pathText l.dirs l.file) = .ok (pathText l.dirs l.file) := by
  have hr : Ref.Valid ⟨l.dirs, l.file⟩ := Loc.Valid.ref hl
  have hne : Ref.text ⟨l.dirs, l.file⟩ ≠ [] := by
    intro h
    have : (pathText l.dirs l.file).length = 0 := by rw [show pathText l.dirs l.file = [] from h]; rfl
    omega
  have h := normalize_ref hU (t := {}) hr noTail_valid hne (by rw [no_tail]; exact hlen)
  rw [no_tail, norm_names hl.1 hl.2] at h
  simpa [Ref.text] using h

/-- C54: normalising a reference a second time changes nothing, if the second call returns; it panics
exactly if the first result has fewer than two characters. -/
theorem C54_references {r : Ref} (hr : r.Valid) (hlen : 2 ≤ r.text.length) :
    ∃ y, normalize U r.text = .ok y ∧ (2 ≤ y.length → normalize U y = .ok y) ∧
      (y.length < 2 → normalize U y = .error .unwrap) := by
  have hne : r.text ≠ [] := by intro h; rw [h] at hlen; simp at hlen
  have h := normalize_ref hU (t := {}) hr noTail_valid hne (by rw [no_tail]; exact hlen)
  rw [no_tail] at h
  refine ⟨r.norm.text, by simpa using h, ?_, normalize_short _⟩
  intro h2
  have hne2 : r.norm.text ≠ [] := by intro h; rw [h] at h2; simp at h2
  have h3 := normalize_ref hU (t := {}) (norm_valid hr) noTail_valid hne2 (by rw [no_tail]; exact h2)
  rw [no_tail, norm_norm hr] at h3
  simpa using h3

/-- C54: the same for absolute paths, with query and fragment. -/
theorem C54_paths {r : Ref} {t : Tail} (hr : r.Valid) (ht : t.Valid) (hlen : 1 ≤ (r.text ++ t.text).length) :
    ∃ y, normalize U ('/' :: r.text ++ t.text) = .ok y ∧ (2 ≤ y.length → normalize U y = .ok y) ∧
      (y.length < 2 → normalize U y = .error .unwrap) := by
  refine ⟨_, normalize_path hU hr ht hlen, ?_, normalize_short _⟩
  intro h2
  have hv := resolve_valid (B := []) (by simp) hr
  have h3 := normalize_path hU (r := ⟨(resolve [] r).dirs, (resolve [] r).file⟩) (t := t) (Loc.Valid.ref hv) ht (by
    have : (resolve [] r).text = '/' :: Ref.text ⟨(resolve [] r).dirs, (resolve [] r).file⟩ := rfl
    rw [this] at h2
    simpa using h2)
  rw [resolve_loc hv] at h3
  exact h3

/-- C54: the same for `//host/path` and for absolute URLs, with query and fragment; always at least two
characters. -/
theorem C54_urls {r : Ref} {t : Tail} (hr : r.Valid) (ht : t.Valid) :
    (∀ h : Host, h.Valid →
      ∃ y, normalize U (['/', '/'] ++ h.text ++ '/' :: r.text ++ t.text) = .ok y ∧ normalize U y = .ok y) ∧
    ∀ o : Origin, o.Valid → ∃ y, normalize U (o.text ++ '/' :: r.text ++ t.text) = .ok y ∧ normalize U y = .ok y := by
  have hv := resolve_valid (B := []) (by simp) hr
  refine ⟨fun h ho => ⟨_, normalize_host hU ho hr ht, ?_⟩, fun o ho => ⟨_, normalize_url hU ho hr ht, ?_⟩⟩
  · have h3 := normalize_host hU ho (r := ⟨(resolve [] r).dirs, (resolve [] r).file⟩) (t := t) (Loc.Valid.ref hv) ht
    rw [resolve_loc hv] at h3
    exact h3
  · have h3 := normalize_url hU ho (r := ⟨(resolve [] r).dirs, (resolve [] r).file⟩) (t := t) (Loc.Valid.ref hv) ht
    rw [resolve_loc hv] at h3
    exact h3

/-! ## C55 -/

/-- C55: under a relative source root, with or without final slash, a source with or without leading
slash is the source below the root, in normal form. -/
theorem C55_relative_root {R p : Ref} (hR : R.Valid) (hp : p.Valid) (hRl : 2 ≤ R.text.length)
    (hpl : 2 ≤ p.text.length) (hnl : 2 ≤ p.norm.text.length) {root source : Text}
    (hroot : root = R.text ∨ root = R.asDir.text) (hsource : source = p.text ∨ source = '/' :: p.text) :
    computeSourceUrl U (some root) source none = .ok (R.below p).norm.text := by
  have hpn : p.text ≠ [] := by intro h; rw [h] at hpl; simp at hpl
  have hnn : p.norm.text ≠ [] := by intro h; rw [h] at hnl; simp at hnl
  have hn : normalize U p.text = .ok p.norm.text := by
    have h := normalize_ref hU (t := {}) hp noTail_valid hpn (by rw [no_tail]; exact hpl)
    rw [no_tail] at h
    simpa using h
  have hs : computeSourceUrl U (some root) source none = joinPaths U root p.norm.text := by
    rcases hsource with rfl | rfl
    · have ht := type_ref (t := {}) hp noTail_valid hpn (by rw [no_tail]; exact hpl)
      rw [no_tail] at ht
      exact source_root ht (if_neg (by decide)) hn
    · have ht := type_path (t := {}) hp (by rw [no_tail]; omega)
      rw [no_tail] at ht
      exact source_root ht ((if_pos rfl).trans (removeFirstSlash_path _)) hn
  rw [hs]
  have hj : ∀ Q : Ref, Q.Valid → 2 ≤ Q.text.length →
      joinPaths U Q.text p.norm.text = .ok (Q.below p).norm.text := by
    intro Q hQ hQl
    have h := joinPaths_ref_ref hU (t := {}) hQ (norm_valid hp) noTail_valid hQl hnn (by rw [no_tail]; exact hnl)
    rw [no_tail, below_norm hp] at h
    simpa using h
  rcases hroot with rfl | rfl
  · exact hj R hR hRl
  · rw [hj R.asDir (Ref.asDir_valid hR) (le_trans hRl (asDir_length R)), below_asDir]

/-- C55: the same under a root that is an absolute path. -/
theorem C55_absolute_root {R p : Ref} (hR : R.Valid) (hp : p.Valid) (hRl : R.text ≠ [])
    (hpl : 2 ≤ p.text.length) (hnl : 2 ≤ p.norm.text.length) {root source : Text}
    (hroot : root = '/' :: R.text ∨ root = '/' :: R.asDir.text) (hsource : source = p.text ∨ source = '/' :: p.text) :
    computeSourceUrl U (some root) source none = .ok (resolve [] (R.below p)).text := by
  have hpn : p.text ≠ [] := by intro h; rw [h] at hpl; simp at hpl
  have hnn : p.norm.text ≠ [] := by intro h; rw [h] at hnl; simp at hnl
  have hn : normalize U p.text = .ok p.norm.text := by
    have h := normalize_ref hU (t := {}) hp noTail_valid hpn (by rw [no_tail]; exact hpl)
    rw [no_tail] at h
    simpa using h
  have hs : computeSourceUrl U (some root) source none = joinPaths U root p.norm.text := by
    rcases hsource with rfl | rfl
    · have ht := type_ref (t := {}) hp noTail_valid hpn (by rw [no_tail]; exact hpl)
      rw [no_tail] at ht
      exact source_root ht (if_neg (by decide)) hn
    · have ht := type_path (t := {}) hp (by rw [no_tail]; omega)
      rw [no_tail] at ht
      exact source_root ht ((if_pos rfl).trans (removeFirstSlash_path _)) hn
  rw [hs]
  have hj : ∀ Q : Ref, Q.Valid → Q.text ≠ [] →
      joinPaths U ('/' :: Q.text) p.norm.text = .ok (resolve [] (Q.below p)).text := by
    intro Q hQ hQl
    have h := joinPaths_path_ref hU (t := {}) hQ (norm_valid hp) noTail_valid hQl hnn (by rw [no_tail]; exact hnl)
    rw [no_tail, resolve_below_norm hp, no_tail] at h
    exact h
  rcases hroot with rfl | rfl
  · exact hj R hR hRl
  · rw [hj R.asDir (Ref.asDir_valid hR) (by
      intro h
      have := asDir_length R
      rw [h] at this
      exact hRl (List.length_eq_zero_iff.1 (by simpa using this))), below_asDir]

/-- C55 for names without dot segments: literally the root, one slash, and the source. -/
theorem C55_one_slash {D : List Text} {l : Loc} (hD : ∀ s ∈ D, Name s) (hDn : D ≠ []) (hl : l.Valid)
    (hpl : 2 ≤ (pathText l.dirs l.file).length) {root rootSlash source : Text}
    (hroot : root = List.intercalate ['/'] D) (hslash : rootSlash = root ++ ['/'])
    (hsource : source = pathText l.dirs l.file) :
    (2 ≤ root.length → ∀ r ∈ [root, rootSlash], ∀ s ∈ [source, '/' :: source],
      computeSourceUrl U (some r) s none = .ok (root ++ '/' :: source)) ∧
    ∀ r ∈ ['/' :: root, '/' :: rootSlash], ∀ s ∈ [source, '/' :: source],
      computeSourceUrl U (some r) s none = .ok ('/' :: root ++ '/' :: source) := by
  obtain ⟨D', d, rfl⟩ : ∃ D' d, D = D' ++ [d] := ⟨_, _, (List.dropLast_append_getLast hDn).symm⟩
  have hd : Name d := hD d (by simp)
  have hD' : ∀ s ∈ D', Name s := fun s hs => hD s (by simp [hs])
  have hR : Ref.Valid ⟨D', d⟩ := ⟨fun s hs => ⟨(hD' s hs).1, (hD' s hs).2.1⟩, hd.1⟩
  have hr : root = Ref.text ⟨D', d⟩ := by rw [hroot, intercalate_path]; rfl
  have hrs : rootSlash = Ref.text (Ref.asDir ⟨D', d⟩) := by
    rw [hslash, hr]
    simp [Ref.text, Ref.asDir, pathText, hd.2.1]
  have hp : Ref.Valid ⟨l.dirs, l.file⟩ := Loc.Valid.ref hl
  have hn : Ref.norm ⟨l.dirs, l.file⟩ = ⟨l.dirs, l.file⟩ := norm_names hl.1 hl.2
  have hall : ∀ s ∈ (D' ++ [d]) ++ l.dirs, Name s := by
    intro s hs
    rcases List.mem_append.1 hs with h | h
    · exact hD s h
    · exact hl.1 s h
  have hb : Ref.below ⟨D', d⟩ ⟨l.dirs, l.file⟩ = ⟨(D' ++ [d]) ++ l.dirs, l.file⟩ := by
    simp [Ref.below, Ref.asDir, hd.2.1]
  have ht : pathText ((D' ++ [d]) ++ l.dirs) l.file = root ++ '/' :: source := by
    rw [hr, hsource]; simp [Ref.text, pathText]
  subst hsource
  constructor
  · intro hl2 r hr' s hs
    rw [C55_relative_root hU (R := ⟨D', d⟩) (p := ⟨l.dirs, l.file⟩) hR hp (hr ▸ hl2) hpl (by rw [hn]; exact hpl)
      (by simp only [List.mem_cons, List.not_mem_nil, or_false] at hr'; rcases hr' with rfl | rfl
          · exact .inl hr
          · exact .inr hrs)
      (by simp only [List.mem_cons, List.not_mem_nil, or_false] at hs; exact hs), hb,
      norm_names hall hl.2]
    exact congrArg _ ht
  · intro r hr' s hs
    rw [C55_absolute_root hU (R := ⟨D', d⟩) (p := ⟨l.dirs, l.file⟩) hR hp
      (by simp [Ref.text, pathText, hd.2.1]) hpl (by rw [hn]; exact hpl)
      (by simp only [List.mem_cons, List.not_mem_nil, or_false] at hr'; rcases hr' with rfl | rfl
          · exact .inl (by rw [hr])
          · exact .inr (by rw [hrs]))
      (by simp only [List.mem_cons, List.not_mem_nil, or_false] at hs; exact hs), hb]
    have h1 : resolve [] ⟨(D' ++ [d]) ++ l.dirs, l.file⟩ = ⟨(D' ++ [d]) ++ l.dirs, l.file⟩ :=
      resolve_loc (l := ⟨(D' ++ [d]) ++ l.dirs, l.file⟩) ⟨hall, hl.2⟩
    rw [h1]
    show Except.ok ('/' :: pathText ((D' ++ [d]) ++ l.dirs) l.file) = _
    rw [ht]; rfl

omit hU in
/-- C55, the limits: a source root or a source of fewer than two characters panics, among them the empty
source root. -/
theorem C55_short (root source : Text) (m : Option Text) (h : root.length < 2 ∨ source.length < 2) (y : Text) :
    computeSourceUrl U (some root) source m ≠ .ok y := by
  intro e
  simp only [computeSourceUrl, Res.bind_eq_ok] at e
  obtain ⟨t, ht, e⟩ := e
  rcases h with h | h
  · obtain ⟨_, _, _, _, j, hj, _⟩ := e
    exact joinPaths_short_root h j hj
  · have := getUrlType_ok ht
    omega

example : computeSourceUrl MiniUrl.lib (some "src".toList) "a.js".toList none = .ok "src/a.js".toList ∧
    computeSourceUrl MiniUrl.lib (some "src/".toList) "/a.js".toList none = .ok "src/a.js".toList ∧
    computeSourceUrl MiniUrl.lib (some "/s/t".toList) "../a.js".toList none = .ok "/s/a.js".toList ∧
    computeSourceUrl MiniUrl.lib (some []) "a.js".toList none = .error .unwrap :=
  ⟨by decide +kernel, by decide +kernel, by decide +kernel, by decide +kernel⟩

example : Plain "@scope".toList ∧ computeSourceUrl MiniUrl.lib (some "node_modules".toList)
    "@scope/a+b(1).js".toList none = .ok "node_modules/@scope/a+b(1).js".toList :=
  ⟨by decide +kernel, by decide +kernel⟩

/-! ## C56 -/

omit hU in
/-- A text that begins with a scheme is classified as absolute. -/
theorem type_scheme {t : Text} (h : HasScheme t) : getUrlType t = .ok .absolute := by
  have hlen : 2 ≤ t.length := by
    obtain ⟨s, rest, rfl, _, _⟩ := h
    simp
    omega
  have hno : ¬ ['/'] <+: t := by
    obtain ⟨s, rest, rfl, hne, hs⟩ := h
    cases s with
    | nil => exact absurd rfl hne
    | cons c s =>
      rintro ⟨r, hr⟩
      simp only [List.cons_append, List.cons.injEq, List.nil_append] at hr
      have := hs c (by simp)
      rw [← hr.1] at this
      unfold SchemeChar at this
      exact absurd this (by decide)
  rcases C48_classification t hlen with h1 | h1 | h1 | h1
  · exact absurd (List.IsPrefix.trans ⟨['/'], rfl⟩ h1.1) hno
  · exact absurd h1.1 hno
  · exact h1.2.2
  · exact absurd h h1.2.1

omit hU in
theorem scheme_of_type {t : Text} (h : getUrlType t = .ok .absolute) : HasScheme t := by
  have hlen : 2 ≤ t.length := by
    by_contra hlt
    rw [C48_short t (by omega)] at h
    cases h
  rcases C48_classification t hlen with h1 | h1 | h1 | h1
  · rw [h1.2] at h; cases h
  · rw [h1.2.2] at h; cases h
  · exact h1.2.1
  · rw [h1.2.2] at h; cases h

omit hU in
/-- C56: whatever the root, if `join` returns for a path argument that begins with a scheme, it returns it unchanged. -/
theorem C56_unchanged {root path y : Text} (hs : HasScheme path)
    (h : joinPaths U root path = .ok y) : y = path := by
  have hp := type_scheme hs
  simp only [joinPaths, hp, Res.ok_bind, Res.bind_eq_ok] at h
  obtain ⟨_, _, _, _, h⟩ := h
  rw [if_pos trivial] at h
  cases h
  rfl

/-- C56: it returns for every plain root of each kind. -/
theorem C56_returns {R : Ref} (hR : R.Valid) {path : Text} (hs : HasScheme path) :
    (2 ≤ R.text.length → joinPaths U R.text path = .ok path) ∧
    (R.text ≠ [] → joinPaths U ('/' :: R.text) path = .ok path) ∧
    (∀ h : Host, h.Valid → joinPaths U (['/', '/'] ++ h.text ++ '/' :: R.text) path = .ok path) ∧
    (∀ o : Origin, o.Valid → joinPaths U (o.text ++ '/' :: R.text) path = .ok path) := by
  have hp := type_scheme hs
  have key : ∀ (root d : Text) (t : UrlType), getUrlType root = .ok t → ensureDirectory U root = .ok d →
      joinPaths U root path = .ok path := by
    intro root d t ht hd
    rw [joinPaths, hp, Res.ok_bind, ht, Res.ok_bind, hd, Res.ok_bind, if_pos rfl]
    rfl
  refine ⟨fun h => ?_, fun h => ?_, fun h ho => ?_, fun o ho => ?_⟩
  · have hne : R.text ≠ [] := by intro e; rw [e] at h; simp at h
    have ht := type_ref (t := {}) hR noTail_valid hne (by rw [no_tail]; exact h)
    rw [no_tail] at ht
    exact key _ _ _ ht (ensureDirectory_ref hU hR h)
  · have ht := type_path (t := {}) hR (by rw [no_tail]; exact List.length_pos_iff.2 h)
    rw [no_tail] at ht
    exact key _ _ _ ht (ensureDirectory_path hU hR h)
  · exact key _ _ _ (type_host _) (ensureDirectory_host hU ho hR)
  · exact key _ _ _ (type_url ho _) (ensureDirectory_url hU ho hR)

/-- C56 for sources: under a plain root, an absolute source resolves as without the root. -/
theorem C56_source {R r : Ref} {t : Tail} {o : Origin} (hR : R.Valid) (ho : o.Valid) (hr : r.Valid) (ht : t.Valid)
    {root : Text} (hroot : (root = R.text ∧ 2 ≤ R.text.length) ∨ (root = '/' :: R.text ∧ R.text ≠ []) ∨
      (∃ h : Host, h.Valid ∧ root = ['/', '/'] ++ h.text ++ '/' :: R.text) ∨
      ∃ o' : Origin, o'.Valid ∧ root = o'.text ++ '/' :: R.text) :
    computeSourceUrl U (some root) (o.text ++ '/' :: r.text ++ t.text) none =
      computeSourceUrl U none (o.text ++ '/' :: r.text ++ t.text) none := by
  have h0 : getUrlType (o.text ++ '/' :: r.text ++ t.text) = .ok .absolute := by
    rw [List.append_assoc]; exact type_url ho _
  have hn := normalize_url hU ho hr ht
  rw [source_root h0 (if_neg (by decide)) hn, source_plain, hn]
  have h1 : getUrlType (o.text ++ (resolve [] r).text ++ t.text) = .ok .absolute := by
    rw [List.append_assoc]; exact type_url ho _
  obtain ⟨k1, k2, k3, k4⟩ := C56_returns hU hR (scheme_of_type h1)
  rcases hroot with ⟨rfl, h⟩ | ⟨rfl, h⟩ | ⟨h, hh, rfl⟩ | ⟨o', ho', rfl⟩
  · exact k1 h
  · exact k2 h
  · exact k3 h hh
  · exact k4 o' ho'

example : joinPaths MiniUrl.lib "/root".toList "http://host/a/../b".toList = .ok "http://host/a/../b".toList ∧
    computeSourceUrl MiniUrl.lib (some "lib".toList) "webpack:/x".toList none =
      computeSourceUrl MiniUrl.lib none "webpack:/x".toList none :=
  ⟨by decide +kernel, by decide +kernel⟩

/-! ## C57 -/

omit hU in
theorem loc_text_inj {l m : Loc} (hl : l.Valid) (hm : m.Valid) (h : l.text = m.text) : l = m := by
  have key : ∀ {k : Loc}, k.Valid → splitChar '/' (pathText k.dirs k.file) = k.dirs ++ [k.file] := fun hk =>
    splitChar_pathText _ _ (fun s hs => Plain.no_slash (hk.1 s hs).1) (Plain.no_slash (Loc.Valid.ref hk).2)
  have h1 : pathText l.dirs l.file = pathText m.dirs m.file := (List.cons.inj h).2
  have h2 := key hl
  rw [h1, key hm] at h2
  obtain ⟨ld, lf⟩ := l
  obtain ⟨md, mf⟩ := m
  have h3 := List.append_inj_left' h2 rfl
  have h4 := List.append_inj_right' h2 rfl
  simp at h3 h4
  rw [h3, h4]

/-- `TRIM_FILENAME` of a relative reference without two dots in a row. -/
theorem trimFilename_ref {l : Loc} (hl : l.Valid) (hlen : 2 ≤ (pathText l.dirs l.file).length)
    (hdots : countDotDot (pathText l.dirs l.file) = 0) :
    trimFilename U (pathText l.dirs l.file) = .ok l.dirs.flatten := by
  have hr := Loc.Valid.ref hl
  have hsafe : safeDirs (pathText l.dirs l.file) = [] := by rw [safeDirs, hdots]; rfl
  obtain ⟨u, h1, h2⟩ := parse_base hU (pathText l.dirs l.file)
  rw [hsafe] at h2
  obtain ⟨v, h3, h4⟩ := join_dir hU h2 hostOrigin_valid (by simp) hr
  have h0 : Ref.text ⟨l.dirs, l.file⟩ = pathText l.dirs l.file := rfl
  rw [resolve_loc hl] at h4
  rw [h0] at h3
  have hne : pathText l.dirs l.file ≠ [] := by intro h; rw [h] at hlen; simp at hlen
  have ht := type_ref (t := {}) hr noTail_valid hne (by rw [no_tail]; exact hlen)
  rw [no_tail, h0] at ht
  have h6 := trim_at hU h4 ⟨hostOrigin_valid, hl, noTail_valid⟩ (.inl hostOrigin_web)
  have hf := flatten_name hl.1
  have hv : Loc.Valid ⟨[], l.dirs.flatten⟩ := ⟨by simp, hf⟩
  have h7 := relUrl hU (B := []) (o := hostOrigin) (o' := hostOrigin) (l := ⟨[], l.dirs.flatten⟩) (t := {})
    hostOrigin_valid (by simp) ⟨hostOrigin_valid, hv, noTail_valid⟩
  have h8 : Addr.text ⟨hostOrigin, ⟨[], []⟩, {}⟩ = buildSafeBase (pathText l.dirs l.file) := by
    rw [buildSafeBase_eq, hsafe]
  rw [h8] at h7
  simp only [trimFilename, safeHandler, ht, Res.ok_bind, h1, h3, h6.str, Res.pure_eq]
  rw [h7]
  have h9 : relativePath (Loc.text ⟨[], []⟩) (Loc.text ⟨[], l.dirs.flatten⟩) = l.dirs.flatten := by
    have h10 : splitChar '/' (Loc.text ⟨[], l.dirs.flatten⟩) = [[], l.dirs.flatten] := by
      have := splitChar_pathText [[]] l.dirs.flatten (by simp) (Plain.no_slash (Loc.Valid.ref hv).2)
      simpa [Loc.text, pathText] using this
    have h11 : splitChar '/' (Loc.text ⟨[], []⟩) = [[], []] := by decide
    simp [relativePath, h10, h11, dropCommon, joinSep]
  rw [h9]
  simp

/-- What the code does with a map URL: the names of the map's directories are concatenated to the name of
a single directory, against which the source is resolved. -/
theorem C57_actual {o : Origin} {l : Loc} {p : Ref} (ho : o.Valid) (hl : l.Valid) (hp : p.Valid)
    (hpl : 2 ≤ p.text.length) (hnl : 2 ≤ p.norm.text.length) :
    computeSourceUrl U none p.text (some (o.text ++ l.text)) =
      .ok (o.text ++ (resolve (if l.dirs = [] then [] else [l.dirs.flatten]) p).text) := by
  have hpn : p.text ≠ [] := by intro h; rw [h] at hpl; simp at hpl
  have hnn : p.norm.text ≠ [] := by intro h; rw [h] at hnl; simp at hnl
  have hn : normalize U p.text = .ok p.norm.text := by
    have h := normalize_ref hU (t := {}) hp noTail_valid hpn (by rw [no_tail]; exact hpl)
    rw [no_tail] at h
    simpa using h
  obtain ⟨d, hd, hdj⟩ := trimFilename_url hU ho hl
  have hf := flatten_name hl.1
  have hR : Ref.Valid ⟨[], l.dirs.flatten⟩ := by
    refine ⟨by simp, ?_⟩
    rcases hf with h | h
    · show Plain l.dirs.flatten
      rw [h]; exact plain_nil
    · exact h.1
  rw [source_map hn hd, hdj]
  have hj := joinPaths_url_ref hU (R := ⟨[], l.dirs.flatten⟩) (t := {}) ho hR (norm_valid hp) noTail_valid hnn
    (by rw [no_tail]; exact hnl)
  rw [no_tail, no_tail, resolve_below_norm hp] at hj
  have h1 : Loc.text ⟨[], l.dirs.flatten⟩ = '/' :: Ref.text ⟨[], l.dirs.flatten⟩ := rfl
  rw [h1, hj]
  have h2 : resolve [] (Ref.below ⟨[], l.dirs.flatten⟩ p) =
      resolve (if l.dirs = [] then [] else [l.dirs.flatten]) p := by
    have h4 : ∀ ds, Ref.below ⟨[], ds⟩ p = ⟨(Ref.asDir ⟨[], ds⟩).dirs ++ p.dirs, p.file⟩ := fun _ => rfl
    rw [h4, ← resolve_below]
    congr 1
    by_cases e : l.dirs = []
    · simp [e, Ref.asDir, resolve, dot, dotdot]
    · have hne : l.dirs.flatten ≠ [] := by
        intro h
        obtain ⟨a, ds, hh⟩ := List.exists_cons_of_ne_nil e
        rw [hh] at h
        exact (hl.1 a (by rw [hh]; simp)).2.1 (List.append_eq_nil_iff.1 h).1
      have hN : Name l.dirs.flatten := hf.resolve_left hne
      have h5 : ¬ dot = [] := by decide
      have h6 : ¬ dotdot = [] := by decide
      simp [e, Ref.asDir, hne, resolve, enter, hN.2.2.1, hN.2.2.2, h5, h6]
  rw [h2]

/-- C57 when the map is at most one directory deep (`_partial`): the source is resolved against the
directory of the map. Missing: deeper maps, for which this is false. -/
theorem C57_shallow_partial {o : Origin} {l : Loc} {p : Ref} (ho : o.Valid) (hl : l.Valid) (hp : p.Valid)
    (hpl : 2 ≤ p.text.length) (hnl : 2 ≤ p.norm.text.length) (hdepth : l.dirs.length ≤ 1) :
    computeSourceUrl U none p.text (some (o.text ++ l.text)) = .ok (o.text ++ (resolve l.dirs p).text) := by
  rw [C57_actual hU ho hl hp hpl hnl]
  have : (if l.dirs = [] then [] else [l.dirs.flatten]) = l.dirs := by
    match hd : l.dirs, hdepth with
    | [], _ => rfl
    | [d], _ => simp
  rw [this]

/-- C57 is false of the code for every map two or more directories deep, for every source that does not
climb out of them. -/
theorem C57_deep_refuted {o : Origin} {l : Loc} {p : Ref} (ho : o.Valid) (hl : l.Valid) (hp : p.Valid)
    (hpl : 2 ≤ p.text.length) (hnl : 2 ≤ p.norm.text.length) (hdepth : 2 ≤ l.dirs.length)
    (hup : p.climb.ups < l.dirs.length) :
    computeSourceUrl U none p.text (some (o.text ++ l.text)) ≠ .ok (o.text ++ (resolve l.dirs p).text) := by
  rw [C57_actual hU ho hl hp hpl hnl]
  intro h
  have h1 := List.append_cancel_left (Except.ok.inj h)
  have hne : l.dirs ≠ [] := by intro e; rw [e] at hdepth; simp at hdepth
  rw [if_neg hne] at h1
  have hf : ∀ s ∈ [l.dirs.flatten], Name s := by
    intro s hs
    rw [List.mem_singleton] at hs
    subst hs
    refine (flatten_name hl.1).resolve_left ?_
    intro h
    obtain ⟨a, ds, hh⟩ := List.exists_cons_of_ne_nil hne
    rw [hh] at h
    exact (hl.1 a (by rw [hh]; simp)).2.1 (List.append_eq_nil_iff.1 h).1
  have h2 := loc_text_inj (resolve_valid hf hp) (resolve_valid hl.1 hp) h1
  rw [resolve_climb, resolve_climb] at h2
  have h3 := congrArg (fun x => x.dirs.length) h2
  simp [Climb.from_] at h3
  omega

omit hU in
theorem source_map_fails {s y m d : Text} (hn : normalize U s = .ok y) (hd : trimFilename U m = .ok d)
    (hl : d.length < 2) (z : Text) : computeSourceUrl U none s (some m) ≠ .ok z := by
  rw [source_map hn hd]
  exact joinPaths_short_root hl z

/-- C57 is false of the code for a map URL that is an absolute path of one segment: it panics. -/
theorem C57_root_path_refuted {f s : Text} (hf : Name f) (z : Text) :
    computeSourceUrl U none s (some ('/' :: f)) ≠ .ok z := by
  have h := trimFilename_path hU (l := ⟨[], f⟩) ⟨by simp, .inr hf⟩ (by
    intro e
    exact hf.2.1 (congrArg Loc.file e))
  cases hn : normalize U s with
  | ok y => exact source_map_fails hn h (by simp) z
  | error e =>
    simp only [computeSourceUrl, Res.pure_eq, Res.ok_bind, hn, Res.error_bind]
    intro h; cases h

omit hU in
theorem countDotDot_zero {t : Text} (h : ¬ dotdot <:+: t) : countDotDot t = 0 := by
  obtain ⟨p, ps, h1, h2⟩ := countDotDot_pieces t
  rw [← h2]
  cases ps with
  | nil => rfl
  | cons q qs =>
    exfalso
    apply h
    rw [h1]
    exact ⟨p, dotted (q :: qs), by simp [dotted]⟩

/-- C57 is false of the code for a map URL that is a bare file name: it panics. -/
theorem C57_bare_name_refuted {f s : Text} (hf : Name f) (hlen : 2 ≤ f.length) (hdots : ¬ dotdot <:+: f) (z : Text) :
    computeSourceUrl U none s (some f) ≠ .ok z := by
  have h := trimFilename_ref hU (l := ⟨[], f⟩) ⟨by simp, .inr hf⟩ (by simpa [pathText] using hlen)
    (by simpa [pathText] using countDotDot_zero hdots)
  have e : pathText [] f = f := by simp [pathText]
  dsimp only at h
  rw [e] at h
  cases hn : normalize U s with
  | ok y => exact source_map_fails hn h (by simp) z
  | error e =>
    simp only [computeSourceUrl, Res.pure_eq, Res.ok_bind, hn, Res.error_bind]
    intro h; cases h

/-- C57 for a map in one relative directory (`_partial`). -/
theorem C57_relative_partial {d f : Text} {p : Ref} (hd : Name d) (hf : f = [] ∨ Name f) (hdl : 2 ≤ d.length)
    (hdots : ¬ dotdot <:+: d ++ '/' :: f) (hp : p.Valid) (hpl : 2 ≤ p.text.length) (hnl : 2 ≤ p.norm.text.length) :
    computeSourceUrl U none p.text (some (d ++ '/' :: f)) = .ok (Ref.norm ⟨d :: p.dirs, p.file⟩).text := by
  have e : pathText [d] f = d ++ '/' :: f := by simp [pathText]
  have h := trimFilename_ref hU (l := ⟨[d], f⟩) ⟨by simpa using hd, hf⟩ (by
    dsimp only; rw [e, List.length_append]; omega) (by dsimp only; rw [e]; exact countDotDot_zero hdots)
  dsimp only at h
  rw [e] at h
  have hpn : p.text ≠ [] := by intro h; rw [h] at hpl; simp at hpl
  have hnn : p.norm.text ≠ [] := by intro h; rw [h] at hnl; simp at hnl
  have hn : normalize U p.text = .ok p.norm.text := by
    have h := normalize_ref hU (t := {}) hp noTail_valid hpn (by rw [no_tail]; exact hpl)
    rw [no_tail] at h
    simpa using h
  have e2 : [d].flatten = Ref.text ⟨[], d⟩ := by simp [Ref.text, pathText]
  have h3 := joinPaths_ref_ref hU (R := ⟨[], d⟩) (t := {}) ⟨by simp, hd.1⟩ (norm_valid hp) noTail_valid
    (by simpa [Ref.text, pathText] using hdl) hnn (by rw [no_tail]; exact hnl)
  rw [no_tail, below_norm hp] at h3
  have e3 : Ref.below ⟨[], d⟩ p = ⟨d :: p.dirs, p.file⟩ := by simp [Ref.below, Ref.asDir, hd.2.1]
  rw [source_map hn h, e2, h3, e3]
  simp

example : computeSourceUrl MiniUrl.lib none "a.js".toList (some "http://host/x/y/z.map".toList) =
      .ok "http://host/xy/a.js".toList ∧
    computeSourceUrl MiniUrl.lib none "a.js".toList (some "http://host/x/z.map".toList) =
      .ok "http://host/x/a.js".toList ∧
    computeSourceUrl MiniUrl.lib none "a.js".toList (some "app.js.map".toList) = .error .unwrap ∧
    computeSourceUrl MiniUrl.lib none "a.js".toList (some "/app.js.map".toList) = .error .unwrap :=
  ⟨by decide +kernel, by decide +kernel, by decide +kernel, by decide +kernel⟩

end

end RSM
