import Verif.Lemmas.Url
/-! # The functions of `src/util.rs` on plain URLs and references -/

namespace RSM
open Spec

/-! ## Types -/

theorem schemeRest_false : ∀ {t : Text}, ':' ∉ t → schemeRest t = false
  | [], _ => rfl
  | c :: s, h => by
    have h1 : c ≠ ':' := fun e => h (by simp [e])
    have h2 : ':' ∉ s := fun e => h (by simp [e])
    rw [schemeRest]
    · rw [schemeRest_false h2, Bool.and_false]
    · intro rest h3 _
      exact h1 h3

theorem absoluteScheme_false {t : Text} (h : ':' ∉ t) : absoluteScheme t = false := by
  cases t with
  | nil => rfl
  | cons c s =>
    have h2 : ':' ∉ s := fun e => h (by simp [e])
    rw [absoluteScheme, schemeRest_false h2, Bool.and_false]

theorem ref_no_colon {r : Ref} {t : Tail} (hr : r.Valid) (ht : t.Valid) : ':' ∉ r.text ++ t.text := by
  simp [MiniUrl.Ref.Valid.not_mem hr (d := ':') rfl (by decide), MiniUrl.tail_no_colon ht]

theorem type_ref {r : Ref} {t : Tail} (hr : r.Valid) (ht : t.Valid) (hne : r.text ≠ [])
    (hlen : 2 ≤ (r.text ++ t.text).length) : getUrlType (r.text ++ t.text) = .ok .pathRelative := by
  obtain ⟨c, s, hcs, hc⟩ := MiniUrl.head_ref hr hne
  have habs := absoluteScheme_false (ref_no_colon hr ht)
  have hc' : c ≠ '/' := MiniUrl.plain_ne hc rfl
  generalize r.text ++ t.text = x, hx : r.text ++ t.text = x at *
  rw [hcs, List.cons_append] at hx
  match x, hlen with
  | a :: b :: l, _ =>
    have : a = c := by injection hx with h1 _; exact h1.symm
    subst this
    simp only [getUrlType, hc', if_false, habs, Bool.false_eq_true]

theorem type_path {r : Ref} {t : Tail} (hr : r.Valid) (hlen : 1 ≤ (r.text ++ t.text).length) :
    getUrlType ('/' :: r.text ++ t.text) = .ok .pathAbsolute := by
  have hh : ∀ b l, r.text ++ t.text = b :: l → b ≠ '/' := by
    intro b l h
    by_cases hne : r.text = []
    · rw [hne, List.nil_append] at h
      rcases MiniUrl.tail_head (c := b) (t := t) (by rw [h]; rfl) with e | e <;> (subst e; decide)
    · obtain ⟨c, s, hcs, hc⟩ := MiniUrl.head_ref hr hne
      rw [hcs, List.cons_append] at h
      injection h with h1 _
      subst h1
      exact MiniUrl.plain_ne hc rfl
  rw [List.cons_append]
  match h : r.text ++ t.text, hlen with
  | b :: l, _ => simp only [getUrlType, if_true, hh b l h, if_false]

theorem type_host (t : Text) : getUrlType ('/' :: '/' :: t) = .ok .schemeRelative := by
  simp [getUrlType]

theorem type_url {o : Origin} (ho : o.Valid) (t : Text) : getUrlType (o.text ++ t) = .ok .absolute := by
  obtain ⟨s, h⟩ := o
  rcases ho.1 with (e | e) | e | e
  · dsimp only at e; subst e; rfl
  · dsimp only at e; subst e; rfl
  · dsimp only at e; subst e; rfl
  · obtain ⟨e1, e2, _⟩ := e
    dsimp only at e1 e2
    have hc : ∀ c, schemeChar c = true → isSchemeChar c = true := by
      intro c
      simp only [schemeChar, isSchemeChar, Bool.or_eq_true, decide_eq_true_eq]
      tauto
    have hr : ∀ (s : Text) (t : Text), (∀ c ∈ s, schemeChar c = true) → schemeRest (s ++ ':' :: '/' :: t) = true := by
      intro s
      induction s with
      | nil => intro t _; rfl
      | cons c s ih =>
        intro t hs
        rw [List.cons_append, schemeRest]
        · simp only [hc c (hs c (by simp)), ih t (fun c h => hs c (by simp [h])), Bool.and_self]
        · rintro rest rfl _
          exact absurd (hs ':' (by simp)) (by decide)
    match s, e1, e2 with
    | c :: s, e1, e2 =>
      have h1 : c ≠ '/' := fun e => absurd (e1 c (by simp)) (by rw [e]; decide)
      have h2 : absoluteScheme (c :: (s ++ ':' :: '/' :: '/' :: (h.text ++ t))) = true := by
        rw [absoluteScheme, hc c (e1 c (by simp)), hr s _ (fun c h => e1 c (by simp [h]))]
        rfl
      have h3 : Origin.text ⟨c :: s, h⟩ ++ t = c :: (s ++ ':' :: '/' :: '/' :: (h.text ++ t)) := by simp [Origin.text]
      rw [h3]
      match hd : s ++ ':' :: '/' :: '/' :: (h.text ++ t) with
      | [] => simp at hd
      | d :: l =>
        rw [hd] at h2
        simp only [getUrlType, h1, if_false, h2, if_true]

theorem Host.Valid.http {h : Host} (hh : h.Valid) : Origin.Valid ⟨hostOrigin.scheme, h⟩ :=
  ⟨.inl (.inl rfl), .inl ⟨hh, hostOrigin_not_local⟩⟩

theorem getUrlType_ok {t : Text} {x : UrlType} (h : getUrlType t = .ok x) : 2 ≤ t.length := by
  match t, h with
  | [], h => cases h
  | [_], h => cases h
  | _ :: _ :: _, _ => simp

/-! ## URLs of the library -/

section
variable {U : UrlLib} (hU : U.Laws)
include hU

theorem parse_addr {a : Addr} (ha : a.Valid) : ∃ u, parseUrl U a.text = .ok u ∧ U.At u a := by
  obtain ⟨u, h1, h2⟩ := hU.parse_path a.origin ⟨a.loc.dirs, a.loc.file⟩ a.tail ha.1 (Loc.Valid.ref ha.2.1) ha.2.2
  rw [resolve_loc ha.2.1] at h2
  refine ⟨u, ?_, h2⟩
  have : a.text = a.origin.text ++ '/' :: Ref.text ⟨a.loc.dirs, a.loc.file⟩ ++ a.tail.text := rfl
  rw [parseUrl, this, h1]
  rfl

theorem parse_base (input : Text) :
    ∃ u, parseUrl U (buildSafeBase input) = .ok u ∧ U.At u ⟨hostOrigin, ⟨safeDirs input, []⟩, {}⟩ := by
  rw [buildSafeBase_eq]
  exact parse_addr hU ⟨hostOrigin_valid, ⟨safeDirs_name input, .inl rfl⟩, ⟨by simp, by simp⟩⟩

omit hU in
theorem base_valid (input : Text) : Addr.Valid ⟨hostOrigin, ⟨safeDirs input, []⟩, {}⟩ :=
  ⟨hostOrigin_valid, ⟨safeDirs_name input, .inl rfl⟩, ⟨by simp, by simp⟩⟩

theorem relUrl {B : List Text} {o o' : Origin} {l : Loc} {t : Tail} (ho : o.Valid) (hB : ∀ s ∈ B, Name s)
    (ha : Addr.Valid ⟨o', l, t⟩) :
    computeRelativeUrl U (Addr.text ⟨o, ⟨B, []⟩, {}⟩) (Addr.text ⟨o', l, t⟩) =
      .ok (relativePath (Loc.text ⟨B, []⟩) l.text ++ t.query.getD [] ++ t.fragment.getD []) := by
  obtain ⟨u, h1, h2⟩ := parse_addr hU (a := ⟨o, ⟨B, []⟩, {}⟩) ⟨ho, ⟨hB, .inl rfl⟩, ⟨by simp, by simp⟩⟩
  obtain ⟨v, h3, h4⟩ := parse_addr hU ha
  simp only [computeRelativeUrl, h1, h3, Res.ok_bind, h2.path, h4.path, h4.query, h4.fragment, Res.pure_eq]
  obtain ⟨q, f⟩ := t
  cases q <;> cases f <;> simp

omit hU in
theorem fresh_infix {input s : Text} (h : s <:+: input) : ∀ b ∈ safeDirs input, b ≠ s := by
  intro b hb he
  subst he
  rw [List.eq_of_mem_replicate hb] at h
  exact uniqueSegment_fresh input h

omit hU in
theorem fresh_ref {input : Text} {r : Ref} (h : ∀ s, s ∈ r.dirs ∨ s = r.file → s ≠ [] → s <:+: input) :
    ∀ b ∈ safeDirs input, b ∉ r.dirs ∧ b ≠ r.file := by
  intro b hb
  have hne := (safeDirs_name input b hb).2.1
  constructor
  · intro hm
    exact fresh_infix (h b (.inl hm) hne) b hb rfl
  · intro he
    exact fresh_infix (h b (.inr he) hne) b hb rfl

/-- The relative path from the safe base to what a reference means there is its normal form. -/
theorem relUrl_safe {input : Text} {r : Ref} {t : Tail} (hr : r.Valid) (ht : t.Valid)
    (hin : ∀ s, s ∈ r.dirs ∨ s = r.file → s ≠ [] → s <:+: input)
    (hup : r.climb.ups ≤ countDotDot input) :
    computeRelativeUrl U (buildSafeBase input) (Addr.text ⟨hostOrigin, resolve (safeDirs input) r, t⟩) =
      .ok (r.norm.text ++ t.query.getD [] ++ t.fragment.getD []) := by
  rw [buildSafeBase_eq, relUrl hU (o' := hostOrigin) (l := resolve (safeDirs input) r) hostOrigin_valid (safeDirs_name input)
    ⟨hostOrigin_valid, resolve_valid (safeDirs_name input) hr, ht⟩,
    relativePath_resolve (safeDirs_name input) hr (by simpa [safeDirs] using hup) (fresh_ref hin)]

/-- A reference joined to a directory; the empty one means the directory. -/
theorem join_dir {u : U.Url} {o : Origin} {B : List Text} {r : Ref} (hu : U.At u ⟨o, ⟨B, []⟩, {}⟩)
    (ho : o.Valid) (hB : ∀ s ∈ B, Name s) (hr : r.Valid) :
    ∃ v, joinUrl U u r.text = .ok v ∧ U.At v ⟨o, resolve B r, {}⟩ := by
  have ha : Addr.Valid ⟨o, ⟨B, []⟩, {}⟩ := ⟨ho, ⟨hB, .inl rfl⟩, ⟨by simp, by simp⟩⟩
  by_cases hne : r.text = []
  · obtain ⟨v, h1, h2⟩ := hU.join_empty u _ hu ha
    have h3 : r = ⟨[], []⟩ := by
      obtain ⟨ds, f⟩ := r
      cases ds with
      | nil => have : f = [] := hne; rw [this]
      | cons d ds => simp [Ref.text, pathText_cons] at hne
    refine ⟨v, by rw [hne, joinUrl, h1]; rfl, ?_⟩
    subst h3
    exact h2
  · obtain ⟨v, h1, h2⟩ := hU.join_ref u _ r {} hu ha hr ⟨by simp, by simp⟩ hne
    refine ⟨v, ?_, h2⟩
    have h3 : r.text ++ Tail.text {} = r.text := by simp [Tail.text, Tail.queryText, Tail.fragmentText]
    rw [h3] at h1
    rw [joinUrl, h1]; rfl

end

/-! ## Normalisation -/

section
variable {U : UrlLib} (hU : U.Laws)
include hU

omit hU in
theorem ref_infix {r : Ref} {t : Text} {s : Text} (h : s ∈ r.dirs ∨ s = r.file) : s <:+: r.text ++ t := by
  obtain ⟨a, b, hab⟩ := mem_infix (ds := r.dirs) (f := r.file) h
  exact ⟨a, b ++ t, by rw [← List.append_assoc, hab]; rfl⟩

omit hU in
theorem climb_le_append (r : Ref) (t : Text) : r.climb.ups ≤ countDotDot (r.text ++ t) :=
  le_trans (climb_le r) (countDotDot_infix ⟨[], t, by simp⟩)

theorem normalize_ref {r : Ref} {t : Tail} (hr : r.Valid) (ht : t.Valid) (hne : r.text ≠ [])
    (hlen : 2 ≤ (r.text ++ t.text).length) :
    normalize U (r.text ++ t.text) = .ok (r.norm.text ++ t.query.getD [] ++ t.fragment.getD []) := by
  obtain ⟨u, h1, h2⟩ := parse_base hU (r.text ++ t.text)
  obtain ⟨v, h3, h4⟩ := hU.join_ref u _ r t h2 (base_valid _) hr ht hne
  have h5 : joinUrl U u (r.text ++ t.text) = .ok v := by rw [joinUrl, h3]; rfl
  simp only [normalize, safeHandler, type_ref hr ht hne hlen, Res.ok_bind, h1, h5, id, h4.str]
  exact relUrl_safe hU hr ht (fun s hs _ => ref_infix hs) (climb_le_append r _)

theorem normalize_path {r : Ref} {t : Tail} (hr : r.Valid) (ht : t.Valid)
    (hlen : 1 ≤ (r.text ++ t.text).length) :
    normalize U ('/' :: r.text ++ t.text) = .ok ((resolve [] r).text ++ t.text) := by
  obtain ⟨u, h1, h2⟩ := parse_base hU ('/' :: r.text ++ t.text)
  obtain ⟨v, h3, h4⟩ := hU.join_path u _ r t h2 (base_valid _) hr ht
  have h5 : joinUrl U u ('/' :: r.text ++ t.text) = .ok v := by rw [joinUrl, h3]; rfl
  simp only [normalize, safeHandler, type_path hr hlen, Res.ok_bind, h1, h5, id, h4.str, Res.pure_eq]
  congr 1

theorem normalize_host {h : Host} {r : Ref} {t : Tail} (ho : h.Valid)
    (hr : r.Valid) (ht : t.Valid) :
    normalize U (['/', '/'] ++ h.text ++ '/' :: r.text ++ t.text) =
      .ok (['/', '/'] ++ h.text ++ (resolve [] r).text ++ t.text) := by
  obtain ⟨u, h1, h2⟩ := parse_base hU (['/', '/'] ++ h.text ++ '/' :: r.text ++ t.text)
  obtain ⟨v, h3, h4⟩ := hU.join_host u _ h r t h2 (base_valid _) hostOrigin_not_local ho hr ht
  have h5 : joinUrl U u (['/', '/'] ++ h.text ++ '/' :: r.text ++ t.text) = .ok v := by rw [joinUrl, h3]; rfl
  have h6 : getUrlType (['/', '/'] ++ h.text ++ '/' :: r.text ++ t.text) = .ok .schemeRelative := type_host _
  simp only [normalize, safeHandler, h6, Res.ok_bind, h1, h5, id, h4.str, Res.pure_eq]
  congr 1

theorem normalize_url {o : Origin} {r : Ref} {t : Tail} (ho : o.Valid) (hr : r.Valid) (ht : t.Valid) :
    normalize U (o.text ++ '/' :: r.text ++ t.text) = .ok (o.text ++ (resolve [] r).text ++ t.text) := by
  obtain ⟨u, h1, h2⟩ := parse_base hU (o.text ++ '/' :: r.text ++ t.text)
  obtain ⟨v, h3, h4⟩ := hU.join_url u _ o r t h2 (base_valid _) ho hr ht
  have h5 : joinUrl U u (o.text ++ '/' :: r.text ++ t.text) = .ok v := by rw [joinUrl, h3]; rfl
  have h6 : getUrlType (o.text ++ '/' :: r.text ++ t.text) = .ok .absolute := by
    rw [List.append_assoc]; exact type_url ho _
  simp only [normalize, safeHandler, h6, Res.ok_bind, h1, h5, id, h4.str, Res.pure_eq]
  congr 1

/-! ## `ENSURE_DIRECTORY` -/

end

namespace Spec

/-- The location as a directory. -/
def Loc.asDir (l : Loc) : Loc := ⟨l.dirs ++ (if l.file = [] then [] else [l.file]), []⟩

theorem Loc.asDir_valid {l : Loc} (h : l.Valid) : l.asDir.Valid := by
  refine ⟨?_, .inl rfl⟩
  intro s hs
  rcases List.mem_append.1 hs with h' | h'
  · exact h.1 s h'
  · split at h'
    · cases h'
    · next hne =>
      rw [List.mem_singleton.1 h']
      exact h.2.resolve_left hne

theorem Ref.asDir_valid {r : Ref} (h : r.Valid) : r.asDir.Valid := by
  refine ⟨?_, plain_nil⟩
  intro s hs
  rcases List.mem_append.1 hs with h' | h'
  · exact h.1 s h'
  · split at h'
    · cases h'
    · next hne =>
      rw [List.mem_singleton.1 h']
      exact ⟨h.2, hne⟩

theorem resolve_asDir (B : List Text) (r : Ref) : (resolve B r).asDir = resolve B r.asDir := by
  obtain ⟨ds, f⟩ := r
  have h0 : ¬ ([] : Text) = dot := by decide
  have h1 : ¬ ([] : Text) = dotdot := by decide
  have h2 : ¬ dotdot = ([] : Text) := by decide
  have h3 : ¬ dot = ([] : Text) := by decide
  have h4 : ¬ dotdot = dot := by decide
  by_cases e : f = []
  · subst e; simp [resolve, Ref.asDir, Loc.asDir, h0, h1]
  · by_cases e1 : f = dot
    · subst e1; simp [resolve, Ref.asDir, Loc.asDir, h0, h1, h3, Spec.enter]
    · by_cases e2 : f = dotdot
      · subst e2; simp [resolve, Ref.asDir, Loc.asDir, h0, h1, h2, h4, Spec.enter]
      · simp [resolve, Ref.asDir, Loc.asDir, h0, h1, e, e1, e2, Spec.enter]

theorem asDir_count (r : Ref) : r.asDir.climb.ups ≤ countDotDot r.text := by
  refine le_trans (climb_count r.asDir) (le_trans ?_ (dotdots_text r.dirs r.file))
  obtain ⟨ds, f⟩ := r
  by_cases e : f = []
  · subst e; simp [dotdots, Ref.asDir]
  · have h1 : ¬ ([] : Text) = dotdot := by decide
    have h2 : Ref.asDir ⟨ds, f⟩ = ⟨ds ++ [f], []⟩ := by simp [Ref.asDir, e]
    rw [h2]
    simp only [dotdots, List.countP_append, List.countP_cons, List.countP_nil, h1, decide_false]
    simp

theorem asDir_mem {r : Ref} {s : Text} (h : s ∈ r.asDir.dirs ∨ s = r.asDir.file) (hne : s ≠ []) :
    s ∈ r.dirs ∨ s = r.file := by
  rcases h with h | h
  · rcases List.mem_append.1 h with h' | h'
    · exact .inl h'
    · split at h'
      · cases h'
      · exact .inr (List.mem_singleton.1 h')
  · exact absurd h hne

end Spec

theorem withFinalSlash_loc {l : Loc} (hl : l.Valid) :
    withFinalSlash l.text = '/' :: Ref.text ⟨l.asDir.dirs, l.asDir.file⟩ := by
  obtain ⟨ds, f⟩ := l
  by_cases e : f = []
  · subst e
    have h1 : (Loc.text ⟨ds, []⟩).getLast? = some '/' := by
      rcases List.eq_nil_or_concat ds with h | ⟨d', x, h⟩
      · subst h; rfl
      · subst h
        simp [Loc.text, pathText, List.getLast?_cons]
    simp only [withFinalSlash, h1, if_true]
    simp [Loc.text, Loc.asDir, Ref.text]
  · have hn : Name f := hl.2.resolve_left e
    have h1 : (Loc.text ⟨ds, f⟩).getLast? ≠ some '/' := by
      intro h
      have h2 : (Loc.text ⟨ds, f⟩).getLast? = f.getLast? := by
        have : Loc.text ⟨ds, f⟩ = ('/' :: pathText ds []) ++ f := by simp [Loc.text, pathText]
        rw [this, List.getLast?_append]
        cases h : f.getLast? with
        | none => exact absurd (List.getLast?_eq_none_iff.1 h) e
        | some x => rfl
      rw [h2] at h
      exact Plain.no_slash hn.1 (List.mem_of_getLast? h)
    simp only [withFinalSlash, h1, if_false]
    simp [Loc.text, Loc.asDir, Ref.text, e, pathText]

section
variable {U : UrlLib} (hU : U.Laws)
include hU

theorem setDir_at {u : U.Url} {a : Addr} (hu : U.At u a) (ha : a.Valid) :
    U.At (U.setPath u (withFinalSlash (U.path u))) ⟨a.origin, a.loc.asDir, a.tail⟩ := by
  rw [hu.path, withFinalSlash_loc ha.2.1]
  have hv := Loc.asDir_valid ha.2.1
  have := hU.setPath_slash u a ⟨a.loc.asDir.dirs, a.loc.asDir.file⟩ hu ha (Loc.Valid.ref hv)
  rwa [resolve_loc hv] at this

omit hU in
theorem no_tail (t : Text) : t ++ Tail.text {} = t := by simp [Tail.text, Tail.queryText, Tail.fragmentText]

omit hU in
theorem noTail_valid : Tail.Valid {} := ⟨by simp, by simp⟩

theorem ensureDirectory_ref {r : Ref} (hr : r.Valid) (hlen : 2 ≤ r.text.length) :
    ensureDirectory U r.text = .ok r.asDir.norm.text := by
  obtain ⟨u, h1, h2⟩ := parse_base hU r.text
  obtain ⟨v, h3, h4⟩ := join_dir hU h2 hostOrigin_valid (safeDirs_name _) hr
  have hne : r.text ≠ [] := by intro h; rw [h] at hlen; simp at hlen
  have ht := type_ref hr noTail_valid hne (by rw [no_tail]; exact hlen)
  rw [no_tail] at ht
  have h5 := setDir_at hU h4 ⟨hostOrigin_valid, resolve_valid (safeDirs_name _) hr, noTail_valid⟩
  dsimp only at h5
  rw [resolve_asDir] at h5
  simp only [ensureDirectory, safeHandler, ht, Res.ok_bind, h1, h3, h5.str]
  have h6 := relUrl_safe hU (input := r.text) (t := {}) (Ref.asDir_valid hr) noTail_valid
    (fun s hs hne => mem_infix (asDir_mem hs hne)) (asDir_count r)
  rw [h6]
  simp

theorem ensureDirectory_path {r : Ref} (hr : r.Valid) (hne : r.text ≠ []) :
    ensureDirectory U ('/' :: r.text) = .ok (resolve [] r.asDir).text := by
  obtain ⟨u, h1, h2⟩ := parse_base hU ('/' :: r.text)
  obtain ⟨v, h3, h4⟩ := hU.join_path u _ r {} h2 (base_valid _) hr noTail_valid
  rw [no_tail] at h3
  have h5 : joinUrl U u ('/' :: r.text) = .ok v := by rw [joinUrl, h3]; rfl
  have ht := type_path (t := {}) hr (by rw [no_tail]; exact List.length_pos_iff.2 hne)
  rw [no_tail] at ht
  have h6 := setDir_at hU h4 ⟨hostOrigin_valid, resolve_valid (by simp) hr, noTail_valid⟩
  dsimp only at h6
  rw [resolve_asDir] at h6
  simp only [ensureDirectory, safeHandler, ht, Res.ok_bind, h1, h5, h6.str, Res.pure_eq]
  congr 1
  simp only [Addr.text, no_tail]
  rfl

theorem ensureDirectory_host {h : Host} {r : Ref} (ho : h.Valid) (hr : r.Valid) :
    ensureDirectory U (['/', '/'] ++ h.text ++ '/' :: r.text) = .ok (['/', '/'] ++ h.text ++ (resolve [] r.asDir).text) := by
  obtain ⟨u, h1, h2⟩ := parse_base hU (['/', '/'] ++ h.text ++ '/' :: r.text)
  obtain ⟨v, h3, h4⟩ := hU.join_host u _ h r {} h2 (base_valid _) hostOrigin_not_local ho hr noTail_valid
  rw [no_tail] at h3
  have h5 : joinUrl U u (['/', '/'] ++ h.text ++ '/' :: r.text) = .ok v := by rw [joinUrl, h3]; rfl
  have ht : getUrlType (['/', '/'] ++ h.text ++ '/' :: r.text) = .ok .schemeRelative := type_host _
  have h6 := setDir_at hU h4 ⟨Host.Valid.http ho, resolve_valid (by simp) hr, noTail_valid⟩
  dsimp only at h6
  rw [resolve_asDir] at h6
  simp only [ensureDirectory, safeHandler, ht, Res.ok_bind, h1, h5, h6.str, Res.pure_eq]
  congr 1
  simp only [Addr.text, no_tail]
  rfl

theorem ensureDirectory_url {o : Origin} {r : Ref} (ho : o.Valid) (hr : r.Valid) :
    ensureDirectory U (o.text ++ '/' :: r.text) = .ok (o.text ++ (resolve [] r.asDir).text) := by
  obtain ⟨u, h1, h2⟩ := parse_base hU (o.text ++ '/' :: r.text)
  obtain ⟨v, h3, h4⟩ := hU.join_url u _ o r {} h2 (base_valid _) ho hr noTail_valid
  rw [no_tail] at h3
  have h5 : joinUrl U u (o.text ++ '/' :: r.text) = .ok v := by rw [joinUrl, h3]; rfl
  have ht : getUrlType (o.text ++ '/' :: r.text) = .ok .absolute := type_url ho _
  have h6 := setDir_at hU h4 ⟨ho, resolve_valid (by simp) hr, noTail_valid⟩
  dsimp only at h6
  rw [resolve_asDir] at h6
  simp only [ensureDirectory, safeHandler, ht, Res.ok_bind, h1, h5, h6.str, Res.pure_eq]
  congr 1
  simp only [Addr.text, no_tail]

/-! ## `join` -/

omit hU in
theorem withBase_at {t base : Text} {u v : U.Url} {a : Addr} (h1 : parseUrl U base = .ok u)
    (h2 : joinUrl U u t = .ok v) (h3 : U.At v a) : withBase U t (some base) = .ok a.text := by
  simp only [withBase, h1, h2, Res.ok_bind, h3.str, Res.pure_eq]

/-- A reference joined to the text of a directory. -/
theorem withBase_ref {o : Origin} {B : List Text} {r : Ref} {t : Tail} (ho : o.Valid) (hB : ∀ s ∈ B, Name s)
    (hr : r.Valid) (ht : t.Valid) (hne : r.text ≠ []) :
    withBase U (r.text ++ t.text) (some (Addr.text ⟨o, ⟨B, []⟩, {}⟩)) = .ok (Addr.text ⟨o, resolve B r, t⟩) := by
  have ha : Addr.Valid ⟨o, ⟨B, []⟩, {}⟩ := ⟨ho, ⟨hB, .inl rfl⟩, noTail_valid⟩
  obtain ⟨u, h1, h2⟩ := parse_addr hU ha
  obtain ⟨v, h3, h4⟩ := hU.join_ref u _ r t h2 ha hr ht hne
  exact withBase_at h1 (by rw [joinUrl, h3]; rfl) h4

theorem withBase_dir {o : Origin} {B : List Text} {r : Ref} (ho : o.Valid) (hB : ∀ s ∈ B, Name s)
    (hr : r.Valid) :
    withBase U r.text (some (Addr.text ⟨o, ⟨B, []⟩, {}⟩)) = .ok (Addr.text ⟨o, resolve B r, {}⟩) := by
  obtain ⟨u, h1, h2⟩ := parse_addr hU (a := ⟨o, ⟨B, []⟩, {}⟩) ⟨ho, ⟨hB, .inl rfl⟩, noTail_valid⟩
  obtain ⟨v, h3, h4⟩ := join_dir hU h2 ho hB hr
  exact withBase_at h1 h3 h4

theorem withBase_path {a : Addr} {r : Ref} {t : Tail} (ha : a.Valid) (hr : r.Valid) (ht : t.Valid) :
    withBase U ('/' :: r.text ++ t.text) (some a.text) = .ok (Addr.text ⟨a.origin, resolve [] r, t⟩) := by
  obtain ⟨u, h1, h2⟩ := parse_addr hU ha
  obtain ⟨v, h3, h4⟩ := hU.join_path u _ r t h2 ha hr ht
  exact withBase_at h1 (by rw [joinUrl, h3]; rfl) h4

theorem withBase_root {r : Ref} (hr : r.Valid) :
    withBase U ('/' :: r.text) (some protocolAndHost) = .ok (Addr.text ⟨hostOrigin, resolve [] r, {}⟩) := by
  obtain ⟨u, h1, h2⟩ := hU.parse_origin hostOrigin hostOrigin_valid hostOrigin_web
  obtain ⟨v, h3, h4⟩ := hU.join_path u _ r {} h2 ⟨hostOrigin_valid, ⟨by simp, .inl rfl⟩, noTail_valid⟩ hr noTail_valid
  rw [no_tail] at h3
  rw [hostOrigin_text] at h1
  exact withBase_at (by rw [parseUrl, h1]; rfl) (by rw [joinUrl, h3]; rfl) h4

theorem withBase_host {h : Host} {r : Ref} (ho : h.Valid) (hr : r.Valid) :
    withBase U (['/', '/'] ++ h.text ++ '/' :: r.text) (some protocolAndHost) =
      .ok (Addr.text ⟨⟨hostOrigin.scheme, h⟩, resolve [] r, {}⟩) := by
  obtain ⟨u, h1, h2⟩ := hU.parse_origin hostOrigin hostOrigin_valid hostOrigin_web
  obtain ⟨v, h3, h4⟩ := hU.join_host u _ h r {} h2 ⟨hostOrigin_valid, ⟨by simp, .inl rfl⟩, noTail_valid⟩ hostOrigin_not_local ho hr noTail_valid
  rw [no_tail] at h3
  rw [hostOrigin_text] at h1
  exact withBase_at (by rw [parseUrl, h1]; rfl) (by rw [joinUrl, h3]; rfl) h4

end

namespace Spec

theorem resolve_file_nil (B ds : List Text) : (resolve B ⟨ds, []⟩).file = [] := rfl

theorem resolve_below (B ds : List Text) (p : Ref) :
    resolve (resolve B ⟨ds, []⟩).dirs p = resolve B ⟨ds ++ p.dirs, p.file⟩ := by
  have h0 : ¬ ([] : Text) = dot := by decide
  have h1 : ¬ ([] : Text) = dotdot := by decide
  simp [resolve, List.foldl_append, h0, h1]

theorem foldl_replicate_up : ∀ (u : Nat) (k : Nat),
    (List.replicate u dotdot).foldl Climb.enter ⟨k, []⟩ = ⟨k + u, []⟩
  | 0, _ => rfl
  | u + 1, k => by
    have h : (Climb.mk k []).enter dotdot = ⟨k + 1, []⟩ := by
      simp [Climb.enter, show ¬ dotdot = dot by decide]
    rw [List.replicate_succ, List.foldl_cons, h, foldl_replicate_up u (k + 1)]
    congr 1; omega

theorem foldl_climb_id : ∀ (ns : List Text) (c : Climb), (∀ s ∈ ns, s ≠ dot ∧ s ≠ dotdot) →
    ns.foldl Climb.enter c = ⟨c.ups, c.names ++ ns⟩
  | [], c, _ => by simp
  | n :: ns, c, h => by
    obtain ⟨h1, h2⟩ := h n (by simp)
    rw [List.foldl_cons, foldl_climb_id ns _ (fun s hs => h s (by simp [hs]))]
    simp [Climb.enter, h1, h2]

/-- Climbing along the normal form is climbing along the reference. -/
theorem climb_norm_dirs {r : Ref} (hr : r.Valid) :
    r.norm.dirs.foldl Climb.enter ⟨0, []⟩ = r.climb := by
  rw [Ref.norm, List.foldl_append, foldl_replicate_up,
    foldl_climb_id _ _ (fun s hs => Name.ne_dot (climb_names_name hr s hs))]
  simp

theorem asDir_climb_eq (r : Ref) : r.asDir.climb = r.asDir.dirs.foldl Climb.enter ⟨0, []⟩ := by
  simp [Ref.climb, Ref.asDir, show ¬ ([] : Text) = dotdot by decide]

/-- The normal form of a reference below a directory, from the normal form of the directory. -/
theorem norm_below {R p : Ref} (hR : R.Valid) :
    Ref.norm ⟨R.asDir.norm.dirs ++ p.dirs, p.file⟩ = (R.below p).norm := by
  have h : (R.asDir.norm.dirs ++ p.dirs).foldl Climb.enter ⟨0, []⟩ =
      (R.asDir.dirs ++ p.dirs).foldl Climb.enter ⟨0, []⟩ := by
    rw [List.foldl_append, List.foldl_append, climb_norm_dirs (Ref.asDir_valid hR), asDir_climb_eq]
  have h2 : Ref.climb ⟨R.asDir.norm.dirs ++ p.dirs, p.file⟩ = (R.below p).climb := by
    simp only [Ref.climb, Ref.below, h]
    by_cases e : p.file = dotdot <;> simp [e]
  simp only [Ref.norm] at h2 ⊢
  rw [h2]
  rfl

theorem below_valid {R p : Ref} (hR : R.Valid) (hp : p.Valid) : (R.below p).Valid := by
  refine ⟨?_, hp.2⟩
  intro s hs
  rcases List.mem_append.1 hs with h | h
  · exact (Ref.asDir_valid hR).1 s h
  · exact hp.1 s h

/-- One climb after another. -/
def Climb.andThen (c d : Climb) : Climb :=
  if d.ups ≤ c.names.length then ⟨c.ups, c.names.take (c.names.length - d.ups) ++ d.names⟩
  else ⟨c.ups + (d.ups - c.names.length), d.names⟩

theorem Climb.andThen_enter (c d : Climb) (s : Text) : (c.andThen d).enter s = c.andThen (d.enter s) := by
  obtain ⟨u, ns⟩ := c
  obtain ⟨v, ms⟩ := d
  by_cases h1 : s = dot
  · simp [Climb.enter, h1]
  · by_cases h2 : s = dotdot
    · subst h2
      by_cases h3 : ms = []
      · subst h3
        by_cases h4 : v + 1 ≤ ns.length
        · have h5 : ns.take (ns.length - v) ≠ [] := by
            intro h
            rcases List.take_eq_nil_iff.1 h with h | h
            · omega
            · subst h; simp at h4
          have h6 : v ≤ ns.length := by omega
          simp only [Climb.enter, Climb.andThen, h1, if_false, if_true, h4, h6, List.append_nil, h5]
          rw [List.dropLast_eq_take, List.take_take, List.length_take]
          congr 2
          omega
        · by_cases h6 : v ≤ ns.length
          · have h7 : ns.length - v = 0 := by omega
            simp only [Climb.enter, Climb.andThen, h1, if_false, if_true, h4, h6, h7, List.take_zero,
              List.append_nil]
            congr 1
            omega
          · simp only [Climb.enter, Climb.andThen, h1, if_false, if_true, h4, h6]
            congr 1
            omega
      · by_cases h6 : v ≤ ns.length
        · have h7 : ns.take (ns.length - v) ++ ms ≠ [] := by simp [h3]
          simp only [Climb.enter, Climb.andThen, h1, if_false, if_true, h3, h6, h7]
          rw [List.dropLast_append_of_ne_nil h3]
        · simp only [Climb.enter, Climb.andThen, h1, if_false, if_true, h3, h6]
    · by_cases h6 : v ≤ ns.length
      · simp [Climb.enter, Climb.andThen, h1, h2, h6]
      · simp [Climb.enter, Climb.andThen, h1, h2, h6]

theorem Climb.andThen_foldl (c : Climb) : ∀ (ds : List Text) (d : Climb),
    ds.foldl Climb.enter (c.andThen d) = c.andThen (ds.foldl Climb.enter d)
  | [], _ => rfl
  | s :: ds, d => by
    rw [List.foldl_cons, List.foldl_cons, Climb.andThen_enter, Climb.andThen_foldl c ds]

theorem Climb.foldl_andThen (c : Climb) (ds : List Text) :
    ds.foldl Climb.enter c = c.andThen (ds.foldl Climb.enter ⟨0, []⟩) := by
  rw [← Climb.andThen_foldl]
  congr 1
  simp [Climb.andThen]

/-- The climb of a reference below a directory. -/
theorem climb_below (R p : Ref) : (R.below p).climb = R.asDir.climb.andThen p.climb := by
  have h1 : (R.below p).climb = (if p.file = dotdot then
      ((R.asDir.dirs ++ p.dirs).foldl Climb.enter ⟨0, []⟩).enter dotdot
      else (R.asDir.dirs ++ p.dirs).foldl Climb.enter ⟨0, []⟩) := rfl
  have h2 : p.climb = (if p.file = dotdot then
      (p.dirs.foldl Climb.enter ⟨0, []⟩).enter dotdot else p.dirs.foldl Climb.enter ⟨0, []⟩) := rfl
  rw [h1, h2, List.foldl_append, Climb.foldl_andThen, asDir_climb_eq]
  split
  · rw [Climb.andThen_enter]
  · rfl

theorem norm_file_ne {r : Ref} (hr : r.Valid) : r.norm.file ≠ dot ∧ r.norm.file ≠ dotdot := by
  show r.lastName ≠ dot ∧ r.lastName ≠ dotdot
  rcases lastName_valid hr with h | h
  · rw [h]; exact ⟨by decide, by decide⟩
  · exact Name.ne_dot h

theorem climb_norm {r : Ref} (hr : r.Valid) : r.norm.climb = r.climb := by
  rw [← climb_norm_dirs hr]
  simp [Ref.climb, (norm_file_ne hr).2]

theorem lastName_norm {r : Ref} (hr : r.Valid) : r.norm.lastName = r.lastName := by
  show (if r.norm.file = dot ∨ r.norm.file = dotdot then [] else r.norm.file) = r.lastName
  rw [if_neg (by simp [(norm_file_ne hr).1, (norm_file_ne hr).2])]
  rfl

/-- Normalising the reference first does not change where it leads. -/
theorem resolve_norm {r : Ref} (hr : r.Valid) (B : List Text) : resolve B r.norm = resolve B r := by
  rw [resolve_climb, resolve_climb, climb_norm hr, lastName_norm hr]

theorem below_norm {R p : Ref} (hp : p.Valid) : (R.below p.norm).norm = (R.below p).norm := by
  have h1 : (R.below p.norm).climb = (R.below p).climb := by
    rw [climb_below, climb_below, climb_norm hp]
  have h2 : (R.below p.norm).lastName = (R.below p).lastName := lastName_norm hp
  simp only [Ref.norm] at h1 h2 ⊢
  rw [h1, h2]

theorem resolve_below_norm {R p : Ref} (hp : p.Valid) (B : List Text) :
    resolve B (R.below p.norm) = resolve B (R.below p) := by
  have h4 : R.asDir = ⟨R.asDir.dirs, []⟩ := rfl
  have h6 : ∀ q : Ref, resolve B (R.below q) = resolve (resolve B R.asDir).dirs q := by
    intro q; rw [h4, resolve_below]; rfl
  rw [h6, h6, resolve_norm hp]

theorem asDir_asDir (R : Ref) : R.asDir.asDir = R.asDir := by simp [Ref.asDir]

theorem below_asDir (R p : Ref) : R.asDir.below p = R.below p := by
  simp only [Ref.below, asDir_asDir]

theorem norm_norm {r : Ref} (hr : r.Valid) : r.norm.norm = r.norm := by
  have h3 : r.norm.norm = ⟨List.replicate r.norm.climb.ups dotdot ++ r.norm.climb.names, r.norm.lastName⟩ := rfl
  rw [h3, climb_norm hr, lastName_norm hr]
  rfl

theorem norm_names {ns : List Text} {f : Text} (h : ∀ s ∈ ns, Name s) (hf : f = [] ∨ Name f) :
    Ref.norm ⟨ns, f⟩ = ⟨ns, f⟩ := by
  have hl : f ≠ dot ∧ f ≠ dotdot := by
    rcases hf with h | h
    · rw [h]; exact ⟨by decide, by decide⟩
    · exact Name.ne_dot h
  simp [Ref.norm, Ref.climb, Ref.lastName, hl.1, hl.2,
    foldl_climb_id ns ⟨0, []⟩ (fun s hs => Name.ne_dot (h s hs))]

end Spec

section
variable {U : UrlLib} (hU : U.Laws)
include hU

/-- `join` of two relative references. -/
theorem joinPaths_ref_ref {R p : Ref} {t : Tail} (hR : R.Valid) (hp : p.Valid) (ht : t.Valid)
    (hRl : 2 ≤ R.text.length) (hpn : p.text ≠ []) (hpl : 2 ≤ (p.text ++ t.text).length) :
    joinPaths U R.text (p.text ++ t.text) =
      .ok ((R.below p).norm.text ++ t.query.getD [] ++ t.fragment.getD []) := by
  have hRn : R.text ≠ [] := by intro h; rw [h] at hRl; simp at hRl
  have tR := type_ref hR noTail_valid hRn (by rw [no_tail]; exact hRl)
  rw [no_tail] at tR
  have hN := norm_valid (Ref.asDir_valid hR)
  have hNf : R.asDir.norm = ⟨R.asDir.norm.dirs, []⟩ := rfl
  simp only [joinPaths, type_ref hp ht hpn hpl, tR, Res.ok_bind, ensureDirectory_ref hU hR hRl]
  rw [if_neg (by decide), if_neg (by decide), if_neg (by decide), if_neg (by decide), if_neg (by decide),
    if_neg (by decide)]
  generalize hin : p.text ++ t.text ++ R.asDir.norm.text = input
  have h1 : withBase U R.asDir.norm.text (some (buildSafeBase input)) =
      .ok (Addr.text ⟨hostOrigin, resolve (safeDirs input) R.asDir.norm, {}⟩) := by
    rw [buildSafeBase_eq]
    exact withBase_dir hU hostOrigin_valid (safeDirs_name _) hN
  have h2 : (⟨hostOrigin, resolve (safeDirs input) R.asDir.norm, {}⟩ : Addr) =
      ⟨hostOrigin, ⟨(resolve (safeDirs input) R.asDir.norm).dirs, []⟩, {}⟩ := rfl
  rw [h1, Res.ok_bind, h2, withBase_ref hU hostOrigin_valid (resolve_valid (safeDirs_name _) hN).1 hp ht hpn,
    Res.ok_bind, hNf, resolve_below]
  have hv : Ref.Valid ⟨R.asDir.norm.dirs ++ p.dirs, p.file⟩ := by
    refine ⟨?_, hp.2⟩
    intro s hs
    rcases List.mem_append.1 hs with h | h
    · exact hN.1 s h
    · exact hp.1 s h
  rw [relUrl_safe hU hv ht, norm_below hR]
  · intro s hs _
    have : (s ∈ p.dirs ∨ s = p.file) ∨ s ∈ R.asDir.norm.dirs := by
      rcases hs with h | h
      · rcases List.mem_append.1 h with h | h
        · exact .inr h
        · exact .inl (.inl h)
      · exact .inl (.inr h)
    rw [← hin]
    rcases this with h | h
    · obtain ⟨a, b, hab⟩ := mem_infix h
      exact ⟨a, b ++ (t.text ++ R.asDir.norm.text), by
        rw [← List.append_assoc, hab]; simp [Ref.text]⟩
    · obtain ⟨a, b, hab⟩ := mem_infix (f := R.asDir.norm.file) (.inl h)
      exact ⟨p.text ++ t.text ++ a, b, by
        have : R.asDir.norm.text = a ++ s ++ b := hab.symm
        rw [this]; simp⟩
  · have h3 := climb_count ⟨R.asDir.norm.dirs ++ p.dirs, p.file⟩
    have h4 := dotdots_text p.dirs p.file
    have h5 := dotdots_text R.asDir.norm.dirs []
    have h6 := countDotDot_append (p.text ++ t.text) R.asDir.norm.text
    have h7 := countDotDot_append p.text t.text
    have h8 : dotdots (R.asDir.norm.dirs ++ p.dirs ++ [p.file]) =
        dotdots R.asDir.norm.dirs + dotdots (p.dirs ++ [p.file]) := by
      simp [dotdots, List.countP_append]
    have h9 : dotdots R.asDir.norm.dirs ≤ dotdots (R.asDir.norm.dirs ++ [[]]) := by
      simp [dotdots, List.countP_append]
    have h10 : R.asDir.norm.text = pathText R.asDir.norm.dirs [] := rfl
    have h11 : p.text = pathText p.dirs p.file := rfl
    rw [h10] at h6
    rw [← h11] at h4
    rw [← hin, h10]
    dsimp only at h3
    rw [h8] at h3
    omega

/-- `join` of an absolute path and a relative reference. -/
theorem joinPaths_path_ref {R p : Ref} {t : Tail} (hR : R.Valid) (hp : p.Valid) (ht : t.Valid)
    (hRn : R.text ≠ []) (hpn : p.text ≠ []) (hpl : 2 ≤ (p.text ++ t.text).length) :
    joinPaths U ('/' :: R.text) (p.text ++ t.text) = .ok ((resolve [] (R.below p)).text ++ t.text) := by
  have tR := type_path (t := {}) hR (by rw [no_tail]; exact List.length_pos_iff.2 hRn)
  rw [no_tail] at tR
  have hl := resolve_valid (B := []) (by simp) (Ref.asDir_valid hR)
  have h1 := withBase_root hU (Loc.Valid.ref hl)
  rw [resolve_loc hl] at h1
  have h3 : withBase U (resolve [] R.asDir).text (some protocolAndHost) =
      .ok (Addr.text ⟨hostOrigin, ⟨(resolve [] R.asDir).dirs, []⟩, {}⟩) := h1
  have h5 := withBase_ref hU hostOrigin_valid hl.1 hp ht hpn
  have h4 : R.asDir = ⟨R.asDir.dirs, []⟩ := rfl
  have h6 : resolve (resolve [] R.asDir).dirs p = resolve [] (R.below p) := by
    rw [h4, resolve_below]; rfl
  rw [h6] at h5
  have hif : ∀ (a b c d e f g : Res Text), (if UrlType.pathRelative = .absolute then a
      else if UrlType.pathAbsolute = .absolute then b else if UrlType.pathRelative = .schemeRelative then c
      else if UrlType.pathAbsolute = .schemeRelative then d else if UrlType.pathRelative = .pathAbsolute then e
      else if UrlType.pathAbsolute = .pathAbsolute then f else g) = f := fun _ _ _ _ _ _ _ => rfl
  rw [joinPaths, type_ref hp ht hpn hpl, Res.ok_bind, tR, Res.ok_bind, ensureDirectory_path hU hR hRn,
    Res.ok_bind, hif, h3, Res.ok_bind, h5, Res.ok_bind]
  rfl

/-- `join` of an absolute URL and a relative reference. -/
theorem joinPaths_url_ref {o : Origin} {R p : Ref} {t : Tail} (ho : o.Valid) (hR : R.Valid) (hp : p.Valid)
    (ht : t.Valid) (hpn : p.text ≠ []) (hpl : 2 ≤ (p.text ++ t.text).length) :
    joinPaths U (o.text ++ '/' :: R.text) (p.text ++ t.text) =
      .ok (o.text ++ (resolve [] (R.below p)).text ++ t.text) := by
  have tR : getUrlType (o.text ++ '/' :: R.text) = .ok .absolute := type_url ho _
  have hl := resolve_valid (B := []) (by simp) (Ref.asDir_valid hR)
  have h5 := withBase_ref hU ho hl.1 hp ht hpn
  have h4 : R.asDir = ⟨R.asDir.dirs, []⟩ := rfl
  have h6 : resolve (resolve [] R.asDir).dirs p = resolve [] (R.below p) := by
    rw [h4, resolve_below]; rfl
  rw [h6] at h5
  have h7 : o.text ++ (resolve [] R.asDir).text = Addr.text ⟨o, ⟨(resolve [] R.asDir).dirs, []⟩, {}⟩ := by
    simp only [Addr.text, no_tail]; rfl
  have hif : ∀ (a b c : Res Text), (if UrlType.pathRelative = .absolute then a
      else if UrlType.absolute = .absolute then b else c) = b := fun _ _ _ => rfl
  rw [joinPaths, type_ref hp ht hpn hpl, Res.ok_bind, tR, Res.ok_bind, ensureDirectory_url hU ho hR,
    Res.ok_bind, hif, h7, h5]
  rfl

/-- `join` of a host and path and a relative reference. -/
theorem joinPaths_host_ref {h : Host} {R p : Ref} {t : Tail} (ho : h.Valid)
    (hR : R.Valid) (hp : p.Valid) (ht : t.Valid) (hpn : p.text ≠ [])
    (hpl : 2 ≤ (p.text ++ t.text).length) :
    joinPaths U (['/', '/'] ++ h.text ++ '/' :: R.text) (p.text ++ t.text) =
      .ok (['/', '/'] ++ h.text ++ (resolve [] (R.below p)).text ++ t.text) := by
  have tR : getUrlType (['/', '/'] ++ h.text ++ '/' :: R.text) = .ok .schemeRelative := type_host _
  have hl := resolve_valid (B := []) (by simp) (Ref.asDir_valid hR)
  have h1 := withBase_host hU ho (Loc.Valid.ref hl)
  rw [resolve_loc hl] at h1
  have h3 : withBase U (['/', '/'] ++ h.text ++ (resolve [] R.asDir).text) (some protocolAndHost) =
      .ok (Addr.text ⟨⟨hostOrigin.scheme, h⟩, ⟨(resolve [] R.asDir).dirs, []⟩, {}⟩) := h1
  have h5 := withBase_ref hU (Host.Valid.http ho) hl.1 hp ht hpn
  have h4 : R.asDir = ⟨R.asDir.dirs, []⟩ := rfl
  have h6 : resolve (resolve [] R.asDir).dirs p = resolve [] (R.below p) := by
    rw [h4, resolve_below]; rfl
  rw [h6] at h5
  have hif : ∀ (a b c d e : Res Text), (if UrlType.pathRelative = .absolute then a
      else if UrlType.schemeRelative = .absolute then b else if UrlType.pathRelative = .schemeRelative then c
      else if UrlType.schemeRelative = .schemeRelative then d else e) = d := fun _ _ _ _ _ => rfl
  rw [joinPaths, type_ref hp ht hpn hpl, Res.ok_bind, tR, Res.ok_bind, ensureDirectory_host hU ho hR,
    Res.ok_bind, hif, h3, Res.ok_bind, h5, Res.ok_bind]
  rfl

/-! ## `TRIM_FILENAME` -/

omit hU in
theorem flatten_name : ∀ {d : List Text}, (∀ s ∈ d, Name s) → d.flatten = [] ∨ Name d.flatten := by
  intro d hd
  cases d with
  | nil => exact .inl rfl
  | cons a d =>
    right
    have hp : Plain (a :: d).flatten := Plain.flatten fun s hs => (hd s hs).1
    cases d with
    | nil => simpa using hd a (by simp)
    | cons b d =>
      have ha := hd a (by simp)
      have hb := hd b (by simp)
      obtain ⟨x, a', rfl⟩ := List.exists_cons_of_ne_nil ha.2.1
      obtain ⟨y, b', rfl⟩ := List.exists_cons_of_ne_nil hb.2.1
      refine ⟨hp, by simp, ?_, ?_⟩
      · intro h
        have := congrArg List.length h
        simp [dot] at this
      · intro h
        have hlen := congrArg List.length h
        simp [dotdot] at hlen
        have h1 : a' = [] := List.length_eq_zero_iff.1 (by omega)
        have h2 : b' = [] := List.length_eq_zero_iff.1 (by omega)
        subst h1 h2
        simp only [List.flatten_cons, List.singleton_append, dotdot, List.cons.injEq] at h
        exact ha.2.2.1 (by simp [dot, h.1])

theorem trim_at {u : U.Url} {a : Addr} (hu : U.At u a) (ha : a.Valid)
    (hw : ¬ Custom a.origin.scheme ∨ a.loc.dirs ≠ []) :
    U.At (U.setPath u (trimmedPath (U.path u))) ⟨a.origin, ⟨[], a.loc.dirs.flatten⟩, a.tail⟩ := by
  obtain ⟨o, ⟨ds, f⟩, t⟩ := a
  have hv := ha.2.1
  have h1 : trimmedPath (Loc.text ⟨ds, f⟩) = ds.flatten := by
    have h2 : splitChar '/' (Loc.text ⟨ds, f⟩) = [] :: (ds ++ [f]) := by
      have := splitChar_pathText ([] :: ds) f (by
        intro s hs
        rcases List.mem_cons.1 hs with h | h
        · subst h; simp
        · exact Plain.no_slash (hv.1 s h).1) (Plain.no_slash (Loc.Valid.ref hv).2)
      simpa [Loc.text, pathText_cons] using this
    have h3 : ([] :: (ds ++ [f]) : List Text) = ([] :: ds) ++ [f] := rfl
    have h4 : ([] :: (ds ++ [f]) : List Text).getLast? = some f := by
      rw [h3, List.getLast?_append]; rfl
    simp only [trimmedPath, h2, h4]
    by_cases e : f = []
    · subst e
      rw [if_neg (by simp), joinSep_nil]; simp
    · rw [if_pos (by simpa using e), h3, List.dropLast_concat, joinSep_nil]; simp
  rw [hu.path]
  dsimp only
  rw [h1]
  have hn := flatten_name hv.1
  have hloc : Loc.Valid ⟨[], ds.flatten⟩ := ⟨by simp, hn⟩
  have h5 := hU.setPath_ref u _ ⟨[], ds.flatten⟩ hu ha (Loc.Valid.ref hloc) (by
    rcases hw with h | h
    · exact .inr h
    · left
      dsimp only at h hv
      match ds, h with
      | d :: ds, _ =>
        have := (hv.1 d (by simp)).2.1
        simp [Ref.text, pathText, this])
  have h6 : resolve [] ⟨[], ds.flatten⟩ = ⟨[], ds.flatten⟩ := resolve_loc hloc
  rw [h6] at h5
  exact h5

/-- An origin with an empty path is the same as a root. -/
theorem joinPaths_bare {o : Origin} (ho : o.Valid) (hc : Custom o.scheme) (p : Text) :
    joinPaths U o.text p = joinPaths U (o.text ++ ['/']) p := by
  have t1 : getUrlType o.text = .ok .absolute := by have := type_url ho []; rwa [List.append_nil] at this
  have t2 : getUrlType (o.text ++ ['/']) = .ok .absolute := type_url ho _
  have e1 : ensureDirectory U (o.text ++ ['/']) = .ok (o.text ++ ['/']) :=
    ensureDirectory_url hU (r := ⟨[], []⟩) ho (by decide)
  have e2 : ensureDirectory U o.text = .ok (o.text ++ ['/']) := by
    obtain ⟨u, h1, h2⟩ := parse_base hU o.text
    obtain ⟨v, h3, h4, h5⟩ := hU.join_bare u _ o h2 (base_valid _) ho hc
    have h6 : joinUrl U u o.text = .ok v := by rw [joinUrl, h3]; rfl
    have h7 : U.At (U.setPath v (withFinalSlash (U.path v))) ⟨o, ⟨[], []⟩, {}⟩ := by
      rw [h4]; exact h5 ⟨[], []⟩ (by decide)
    simp only [ensureDirectory, safeHandler, t1, Res.ok_bind, h1, h6, h7.str, Res.pure_eq, Addr.text, no_tail]
    rfl
  simp only [joinPaths, t1, t2, e1, e2]

/-- What the directory of a URL is good for. -/
theorem trimFilename_url_ref {o : Origin} {r : Ref} (ho : o.Valid) (hr : r.Valid) :
    ∃ d, trimFilename U (o.text ++ '/' :: r.text) = .ok d ∧
      ∀ p, joinPaths U d p = joinPaths U (o.text ++ Loc.text ⟨[], (resolve [] r).dirs.flatten⟩) p := by
  obtain ⟨u, h1, h2⟩ := parse_base hU (o.text ++ '/' :: r.text)
  obtain ⟨v, h3, h4⟩ := hU.join_url u _ o r {} h2 (base_valid _) ho hr noTail_valid
  rw [no_tail] at h3
  have h5 : joinUrl U u (o.text ++ '/' :: r.text) = .ok v := by rw [joinUrl, h3]; rfl
  have hl : (resolve [] r).Valid := resolve_valid (by simp) hr
  generalize resolve [] r = l at h4 hl
  by_cases hw : ¬ Custom o.scheme ∨ l.dirs ≠ []
  · have h6 := trim_at hU h4 ⟨ho, hl, noTail_valid⟩ hw
    refine ⟨_, ?_, fun p => rfl⟩
    simp only [trimFilename, safeHandler, type_url ho, Res.ok_bind, h1, h5, h6.str, Res.pure_eq, Addr.text, no_tail]
  · rw [not_or, not_not, not_not] at hw
    have hc : Custom o.scheme := hw.1
    refine ⟨o.text, ?_, fun p => ?_⟩
    · have h6 : trimmedPath (U.path v) = [] := by
        rw [h4.path]
        obtain ⟨ds, f⟩ := l
        have hd : ds = [] := hw.2
        subst hd
        have hs : splitChar '/' (Loc.text ⟨[], f⟩) = [[], f] := by
          have := splitChar_pathText [[]] f (by simp) (Plain.no_slash (Loc.Valid.ref hl).2)
          simpa [Loc.text, pathText_cons] using this
        simp only [trimmedPath, hs]
        by_cases e : f = []
        · subst e; rfl
        · rw [if_pos (by simpa using e)]; rfl
      have h7 := hU.setPath_bare v o l h4 ho hl hc
      rw [← h6] at h7
      simp only [trimFilename, safeHandler, type_url ho, Res.ok_bind, h1, h5, h7, Res.pure_eq]
    · rw [joinPaths_bare hU ho hc, hw.2]
      rfl

theorem trimFilename_url {o : Origin} {l : Loc} (ho : o.Valid) (hl : l.Valid) :
    ∃ d, trimFilename U (o.text ++ l.text) = .ok d ∧
      ∀ p, joinPaths U d p = joinPaths U (o.text ++ Loc.text ⟨[], l.dirs.flatten⟩) p := by
  have h := trimFilename_url_ref hU ho (Loc.Valid.ref hl)
  rw [resolve_loc hl] at h
  exact h

theorem trimFilename_path {l : Loc} (hl : l.Valid) (hne : l ≠ ⟨[], []⟩) :
    trimFilename U l.text = .ok ('/' :: l.dirs.flatten) := by
  obtain ⟨u, h1, h2⟩ := parse_base hU l.text
  have hr := Loc.Valid.ref hl
  obtain ⟨v, h3, h4⟩ := hU.join_path u _ ⟨l.dirs, l.file⟩ {} h2 (base_valid _) hr noTail_valid
  rw [resolve_loc hl] at h4
  rw [no_tail] at h3
  have h0 : l.text = '/' :: Ref.text ⟨l.dirs, l.file⟩ := rfl
  have h5 : joinUrl U u l.text = .ok v := by rw [joinUrl, h0, h3]; rfl
  have hne' : Ref.text ⟨l.dirs, l.file⟩ ≠ [] := by
    intro h
    obtain ⟨ds, f⟩ := l
    cases ds with
    | nil => apply hne; have : f = [] := h; rw [this]
    | cons d ds => simp [Ref.text, pathText_cons] at h
  have ht := type_path (t := {}) hr (by rw [no_tail]; exact List.length_pos_iff.2 hne')
  rw [no_tail, ← h0] at ht
  have h6 := trim_at hU h4 ⟨hostOrigin_valid, hl, noTail_valid⟩ (.inl hostOrigin_web)
  simp only [trimFilename, safeHandler, ht, Res.ok_bind, h1, h5, h6.str, Res.pure_eq]
  rw [Addr.text, no_tail]
  rfl

end

end RSM
