import Verif.Props.SourceUrl
import Verif.Props.RootContents
/-! # C83: the whole table of `relative`, for plain URLs

For every `url` library satisfying the contract. -/

namespace RSM
open Spec Written

namespace Spec.Written

/-- Which of the four ways. -/
def kind : Written → UrlType
  | ref _ => .pathRelative
  | path _ => .pathAbsolute
  | host _ _ => .schemeRelative
  | url _ _ => .absolute

/-- Query and fragment without their marks. -/
def bare (t : Tail) : Text := t.query.getD [] ++ t.fragment.getD []

/-- How query and fragment are kept when a URL is brought to normal form. -/
def keptTail (t : Tail) : Written → Text
  | ref _ => bare t
  | _ => t.text

end Spec.Written

theorem type_written {w : Written} {t : Tail} (hw : w.Valid) (ht : t.Valid) (hl : 2 ≤ (w.text ++ t.text).length) :
    getUrlType (w.text ++ t.text) = .ok w.kind := by
  cases w with
  | ref r => exact type_ref hw.1 ht hw.2 hl
  | path r =>
    refine type_path hw ?_
    simp only [Written.text, List.cons_append, List.length_cons] at hl
    omega
  | host h r => exact type_host _
  | url o r => rw [Written.text, List.append_assoc]; exact type_url hw.1 _

section
variable {U : UrlLib} (hU : U.Laws)
include hU

theorem normalize_any {w : Written} {t : Tail} (hw : w.Valid) (ht : t.Valid) (hl : 2 ≤ (w.text ++ t.text).length) :
    normalize U (w.text ++ t.text) = .ok (w.norm.text ++ w.keptTail t) := by
  cases w with
  | ref r =>
    rw [Written.text, normalize_ref hU hw.1 ht hw.2 hl, keptTail, bare, ← List.append_assoc]
    rfl
  | path r => exact normalize_written hU hw.wf ht (by simp [IsRef]) hl
  | host h r => exact normalize_written hU hw.wf ht (by simp [IsRef]) hl
  | url o r => exact normalize_written hU hw.wf ht (by simp [IsRef]) hl

/-- A URL on the page that is the safe base. -/
theorem join_written {input : Text} {b : U.Url} (hb : U.At b ⟨hostOrigin, ⟨safeDirs input, []⟩, {}⟩) {w : Written}
    {t : Tail} (hw : w.Valid) (ht : t.Valid) :
    ∃ v, joinUrl U b (w.text ++ t.text) = .ok v ∧
      U.At v ⟨(w.target hostOrigin (safeDirs input)).1, (w.target hostOrigin (safeDirs input)).2, t⟩ ∧
      Addr.Valid ⟨(w.target hostOrigin (safeDirs input)).1, (w.target hostOrigin (safeDirs input)).2, t⟩ := by
  have hbv := base_valid input
  cases w with
  | ref r =>
    obtain ⟨v, h1, h2⟩ := hU.join_ref b _ r t hb hbv hw.1 ht hw.2
    exact ⟨v, by rw [joinUrl, Written.text, h1]; rfl, h2,
      hostOrigin_valid, resolve_valid (safeDirs_name _) hw.1, ht⟩
  | path r =>
    obtain ⟨v, h1, h2⟩ := hU.join_path b _ r t hb hbv hw ht
    exact ⟨v, by rw [joinUrl, Written.text, h1]; rfl, h2, hostOrigin_valid, resolve_valid (by simp) hw, ht⟩
  | host h r =>
    obtain ⟨v, h1, h2⟩ := hU.join_host b _ h r t hb hbv hostOrigin_not_local hw.1 hw.2 ht
    exact ⟨v, by rw [joinUrl, Written.text, h1]; rfl, h2, Host.Valid.http hw.1, resolve_valid (by simp) hw.2, ht⟩
  | url o r =>
    obtain ⟨v, h1, h2⟩ := hU.join_url b _ o r t hb hbv hw.1 hw.2 ht
    exact ⟨v, by rw [joinUrl, Written.text, h1]; rfl, h2, hw.1, resolve_valid (by simp) hw.2, ht⟩

theorem replace_written {R p : Written} {t : Tail} (hR : R.Valid) (hp : p.Valid) (ht : t.Valid)
    (hRl : 2 ≤ R.text.length) (hpl : 2 ≤ (p.text ++ t.text).length) :
    replaceIfPossible U R.text (p.text ++ t.text) =
      if R.kind = p.kind ∧ (p.target hostOrigin []).1 = (R.target hostOrigin []).1 then
        (computeRelativeUrl U R.text (p.text ++ t.text)).map some
      else .ok none := by
  have tR := type_written hR noTail_valid (by rw [no_tail]; exact hRl)
  rw [no_tail] at tR
  have tp := type_written hp ht hpl
  obtain ⟨b, h1, h2⟩ := parse_base hU (R.text ++ (p.text ++ t.text))
  obtain ⟨u, h3, h4, _⟩ := join_written hU h2 hR noTail_valid
  rw [no_tail] at h3
  obtain ⟨v, h5, h6, h6'⟩ := join_written hU h2 hp ht
  obtain ⟨w, h7, _⟩ := hU.join_empty v _ h6 h6'
  have ho : ∀ (w : Written) (B : List Text), (w.target hostOrigin B).1 = (w.target hostOrigin []).1 := by
    intro w B; cases w <;> rfl
  have e4 := h4.scheme; have e5 := h4.host; have e6 := h6.scheme; have e7 := h6.host
  have e8 := h4.port; have e9 := h6.port
  simp only [ho] at e4 e5 e6 e7 e8 e9
  by_cases hk : R.kind = p.kind
  · rw [← hk] at tp
    simp only [replaceIfPossible, tR, tp, Res.ok_bind, ne_eq, not_true_eq_false, if_false, h1, h3, h5, h7,
      e4, e5, e6, e7, e8, e9, h4.username, h6.username, h4.password, h6.password, false_or,
      hk, true_and]
    generalize (p.target hostOrigin []).1 = x
    generalize (R.target hostOrigin []).1 = y
    by_cases e : x = y
    · subst e
      rw [if_neg (by simp), if_pos rfl]
      cases computeRelativeUrl U R.text (p.text ++ t.text) <;> rfl
    · rw [if_neg e, if_pos]
      · rfl
      · by_contra hcon
        apply e
        obtain ⟨s, n, q⟩ := x
        obtain ⟨s', n', q'⟩ := y
        simp only [not_or, not_not] at hcon
        obtain ⟨h1, h2, h3⟩ := hcon
        have h4 : n = n' := MiniUrl.shown_inj h2
        rw [h1, h4, h3]
  · rw [if_neg (by simp [hk])]
    simp only [replaceIfPossible, tR, tp, Res.ok_bind, ne_eq, hk, not_false_eq_true, if_true]
    rfl

/-- C83: a target of another kind than the root, or on another host, is only brought to normal form. -/
theorem C83_apart {R p : Written} {t : Tail} (hR : R.Valid) (hp : p.Valid) (ht : t.Valid)
    (hRl : 2 ≤ R.text.length) (hpl : 2 ≤ (p.text ++ t.text).length)
    (h : R.kind ≠ p.kind ∨ ∀ o dirs, (p.target o dirs).1 ≠ (R.target o dirs).1) :
    relative U R.text (p.text ++ t.text) = .ok (p.norm.text ++ p.keptTail t) := by
  rw [relative, replace_written hU hR hp ht hRl hpl, if_neg, Res.ok_bind]
  · exact normalize_any hU hp ht hpl
  · rintro ⟨h1, h2⟩
    rcases h with h | h
    · exact h h1
    · exact h _ _ h2

/-- C83: of two URLs of the same kind on the same host, but not both absolute, it panics. -/
theorem C83_together_refuted {R p : Written} {t : Tail} (hR : R.Valid) (hp : p.Valid) (ht : t.Valid)
    (hRl : 2 ≤ R.text.length) (hpl : 2 ≤ (p.text ++ t.text).length) (hk : R.kind = p.kind) (hu : R.kind ≠ .absolute)
    {o : Origin} {dirs : List Text} (h : (p.target o dirs).1 = (R.target o dirs).1) :
    relative U R.text (p.text ++ t.text) = .error .unwrap := by
  have hh : (p.target hostOrigin []).1 = (R.target hostOrigin []).1 := by
    cases R <;> cases p <;> simp_all [kind, Written.target]
  have hparse : parseUrl U R.text = .error .unwrap := by
    cases R with
    | ref r =>
      have hc := ref_no_colon hR.1 noTail_valid
      rw [no_tail] at hc
      rw [parseUrl, Written.text, hU.parse_no_colon _ hc]; rfl
    | path r => rw [parseUrl, Written.text, hU.parse_slash]; rfl
    | host g r =>
      rw [parseUrl]
      show unwrap (U.parse ('/' :: ('/' :: g.text ++ '/' :: r.text))) = _
      rw [hU.parse_slash]; rfl
    | url o r => exact absurd rfl hu
  rw [relative, replace_written hU hR hp ht hRl hpl, if_pos ⟨hk, hh⟩, computeRelativeUrl, hparse]
  rfl

omit hU in
theorem asDir_relative {r : Ref} (hr : r.Valid) (l : Text) :
    relativePath (resolve [] r).text l = relativePath (resolve [] r.asDir).text l := by
  have hv := resolve_valid (B := []) (by simp) hr
  rw [← resolve_asDir]
  generalize resolve [] r = L at hv
  obtain ⟨D, f⟩ := L
  rcases hv.2 with h | h
  · obtain rfl : f = [] := h
    simp [Loc.asDir]
  · rw [C51_root_file h l hv.1]
    have h0 : ¬ f = [] := h.2.1
    simp [Loc.asDir, h0]

omit hU in
theorem url_long {o : Origin} {r : Ref} : 2 ≤ (Written.url o r).text.length := by
  simp only [Written.text, Origin.text, List.length_append, List.length_cons]
  omega

theorem relative_url {o : Origin} {R p : Ref} {t : Tail} (ho : o.Valid) (hR : R.Valid) (hp : p.Valid) (ht : t.Valid) :
    relative U (o.text ++ '/' :: R.text) (o.text ++ '/' :: p.text ++ t.text) =
      .ok (relativePath (resolve [] R.asDir).text (resolve [] p).text ++ bare t) := by
  obtain ⟨u, h1, h2⟩ := hU.parse_path o R {} ho hR noTail_valid
  obtain ⟨v, h3, h4⟩ := hU.parse_path o p t ho hp ht
  rw [no_tail] at h1
  have hc : computeRelativeUrl U (o.text ++ '/' :: R.text) (o.text ++ '/' :: p.text ++ t.text) =
      .ok (relativePath (resolve [] R.asDir).text (resolve [] p).text ++ bare t) := by
    have j1 : parseUrl U (o.text ++ '/' :: R.text) = .ok u := by rw [parseUrl, h1]; rfl
    have j2 : parseUrl U (o.text ++ '/' :: p.text ++ t.text) = .ok v := by rw [parseUrl, h3]; rfl
    rw [← asDir_relative hR]
    simp only [computeRelativeUrl, j1, j2, Res.ok_bind, h2.path, h4.path, h4.query, h4.fragment, Res.pure_eq, bare]
    obtain ⟨q, f⟩ := t
    cases q <;> cases f <;> simp
  have hr := replace_written hU (R := .url o R) (p := .url o p) (t := t) ⟨ho, hR⟩ ⟨ho, hp⟩ ht
    url_long (Nat.le_trans (url_long (o := o) (r := p)) (by simp))
  rw [if_pos ⟨rfl, rfl⟩] at hr
  simp only [Written.text] at hr
  rw [hc] at hr
  rw [relative, hr]; rfl

/-- C83: of two absolute URLs on the same host it gives a reference that leads from the root, seen as a directory, to the
target, followed by query and fragment without their marks. If the target is the root or a directory above it, and was
written without a final slash, then it leads to it with one. -/
theorem C83_url {o : Origin} {R p : Ref} {t : Tail} (ho : o.Valid) (hR : R.Valid) (hp : p.Valid) (ht : t.Valid) :
    ∃ q : Ref, q.Valid ∧
      relative U (o.text ++ '/' :: R.text) (o.text ++ '/' :: p.text ++ t.text) = .ok (q.text ++ bare t) ∧
      (resolve (resolve [] R.asDir).dirs q = resolve [] p ∨
        (resolve [] p).asDir.dirs <+: (resolve [] R.asDir).dirs ∧
          resolve (resolve [] R.asDir).dirs q = (resolve [] p).asDir) := by
  have hpv := resolve_valid (B := []) (by simp) hp
  have hRv := resolve_valid (B := []) (by simp) (Ref.asDir_valid hR)
  have hRf : (resolve [] R.asDir).file = [] := by
    simp [resolve, Ref.asDir, dot, dotdot]
  have hRe : resolve [] R.asDir = ⟨(resolve [] R.asDir).dirs, []⟩ := by
    rw [← hRf]
  have hrel := relative_url hU (t := t) ho hR hp ht
  rw [hrel]
  by_cases hpre : (resolve [] p).file = [] ∨ ¬ (resolve [] p).dirs ++ [(resolve [] p).file] <+: (resolve [] R.asDir).dirs
  · obtain ⟨q, q1, q2, q3⟩ := C51_relative_path hRv.1 hpv hpre
    refine ⟨q, q1, ?_, .inl q3⟩
    rw [hRe, q2]
  · simp only [not_or, not_not] at hpre
    have hf : Name (resolve [] p).file := by
      rcases hpv.2 with h | h
      · exact absurd h hpre.1
      · exact h
    obtain ⟨q, q1, q2, q3⟩ := C51_ancestor hRv.1 hf hpre.2
    refine ⟨q, q1, ?_, .inr ⟨?_, ?_⟩⟩
    · rw [hRe, ← q2]
    · simpa [Loc.asDir, hpre.1] using hpre.2
    · rw [q3]; simp [Loc.asDir, hpre.1]

omit hU in
/-- C83: texts of fewer than two characters panic. -/
theorem C83_short {R p : Text} (h : R.length < 2 ∨ p.length < 2) : relative U R p = .error .unwrap := by
  rcases h with h | h
  · simp only [relative, replaceIfPossible, C48_short _ h, Res.error_bind]
  · cases hR : getUrlType R with
    | error e =>
      have : R.length < 2 := by
        rcases Nat.lt_or_ge R.length 2 with h | h
        · exact h
        · obtain ⟨a, b, r, rfl⟩ : ∃ a b r, R = a :: b :: r := by
            match R, h with
            | a :: b :: r, _ => exact ⟨a, b, r, rfl⟩
          simp only [getUrlType] at hR
          split at hR <;> first | cases hR | (split at hR <;> cases hR)
      simp only [relative, replaceIfPossible, C48_short _ this, Res.error_bind]
    | ok ty => simp only [relative, replaceIfPossible, hR, C48_short _ h, Res.ok_bind, Res.error_bind]

end

/-- All sixteen cases, with the target on the host of the root. -/
example :
    ["lib/src", "/lib/src", "//h/lib/src", "http://h/lib/src"].map (fun R =>
        ["lib/../a.js?q#f", "/lib/../a.js?q#f", "//h/lib/../a.js?q#f", "http://h/lib/../a.js?q#f"].map
        fun p => (relative MiniUrl.lib R.toList p.toList).toOption.map String.ofList) =
      [[none, some "/a.js?q#f", some "//h/a.js?q#f", some "http://h/a.js?q#f"],
       [some "a.jsqf", none, some "//h/a.js?q#f", some "http://h/a.js?q#f"],
       [some "a.jsqf", some "/a.js?q#f", none, some "http://h/a.js?q#f"],
       [some "a.jsqf", some "/a.js?q#f", some "//h/a.js?q#f", some "../../a.jsqf"]] := by
  decide +kernel

/-- On another host, and a target that is above the root. -/
example : relative MiniUrl.lib "//h/lib".toList "//g/a.js".toList = .ok "//g/a.js".toList ∧
    relative MiniUrl.lib "http://h/lib".toList "https://h/a.js".toList = .ok "https://h/a.js".toList ∧
    relative MiniUrl.lib "http://h/lib/src".toList "http://h/lib".toList = .ok "..".toList ∧
    resolve ["lib".toList, "src".toList] ⟨[], dotdot⟩ = ⟨["lib".toList], []⟩ := by
  decide +kernel

/-- The hypotheses of C83_apart, C83_together_refuted and C83_url. -/
example : relative MiniUrl.lib "//h/lib".toList "//g/a.js".toList = .ok "//g/a.js".toList :=
  C83_apart MiniUrl.laws (R := .host ⟨"h".toList, none⟩ ⟨[], "lib".toList⟩) (p := .host ⟨"g".toList, none⟩ ⟨[], "a.js".toList⟩) (t := {})
    ⟨by decide, by decide⟩ ⟨by decide, by decide⟩ noTail_valid (by decide)
    (by decide) (.inr (by simp [Written.target]))

example : relative MiniUrl.lib "//h/lib".toList "//h/a.js".toList = .error .unwrap :=
  C83_together_refuted MiniUrl.laws (R := .host ⟨"h".toList, none⟩ ⟨[], "lib".toList⟩)
    (p := .host ⟨"h".toList, none⟩ ⟨[], "a.js".toList⟩) (t := {})
    ⟨by decide, by decide⟩ ⟨by decide, by decide⟩ noTail_valid (by decide)
    (by decide) rfl (by decide) (o := hostOrigin) (dirs := []) rfl

example : ∃ q : Ref, q.Valid ∧ relative MiniUrl.lib "http://h/lib/src".toList "http://h/lib/../a.js".toList =
      .ok (q.text ++ bare {}) ∧
    (resolve ["lib".toList, "src".toList] q = ⟨[], "a.js".toList⟩ ∨
      ["a.js".toList] <+: ["lib".toList, "src".toList] ∧ resolve ["lib".toList, "src".toList] q = ⟨["a.js".toList], []⟩) :=
  C83_url MiniUrl.laws (o := ⟨"http".toList, ⟨"h".toList, none⟩⟩) (R := ⟨["lib".toList], "src".toList⟩)
    (p := ⟨["lib".toList, "..".toList], "a.js".toList⟩) (t := {}) (by decide) (by decide) (by decide)
    noTail_valid

/-- Two ports are two hosts. -/
example : relative MiniUrl.lib "http://h:8080/lib".toList "http://h:9090/lib/./a.js".toList =
    .ok "http://h:9090/lib/a.js".toList :=
  C83_apart MiniUrl.laws (R := .url ⟨"http".toList, ⟨"h".toList, some 8080⟩⟩ ⟨[], "lib".toList⟩)
    (p := .url ⟨"http".toList, ⟨"h".toList, some 9090⟩⟩ ⟨["lib".toList, ".".toList], "a.js".toList⟩) (t := {})
    ⟨by decide +kernel, by decide⟩ ⟨by decide +kernel, by decide⟩ noTail_valid url_long (by decide +kernel)
    (.inr (by simp [Written.target]))

example : relative MiniUrl.lib "webpack:///lib".toList "webpack:///lib/a.js".toList = .ok "a.js".toList ∧
    relative MiniUrl.lib "http://h:8080/lib".toList "http://h:8080/lib/a.js".toList = .ok "a.js".toList := by
  decide +kernel

end RSM
