import Verif.Lemmas.UrlUtil
/-! # URL utilities: C48–C57

`U` is any library satisfying the contract of `Verif/Dep/Url.lean`, `MiniUrl.lib` a concrete one.
-/

namespace RSM
open Spec

/-! ## C48 -/

/-- The characters of a scheme as the code has them: letters, digits, `+`, `-`, `.`. -/
def SchemeChar (c : Char) : Prop := c.isAlphanum = true ∨ c = '+' ∨ c = '-' ∨ c = '.'

/-- Scheme characters, at least one, followed by `:/`. -/
def HasScheme (t : Text) : Prop := ∃ s rest, t = s ++ ':' :: '/' :: rest ∧ s ≠ [] ∧ ∀ c ∈ s, SchemeChar c

theorem isSchemeChar_iff (c : Char) : isSchemeChar c = true ↔ SchemeChar c := by
  simp only [isSchemeChar, SchemeChar, Char.isAlphanum, Char.isAlpha, Char.isUpper, Char.isLower, Char.isDigit,
    Bool.or_eq_true, Bool.and_eq_true, decide_eq_true_eq, ge_iff_le]
  constructor
  · rintro (((((h | h) | h) | h) | h) | h)
    · exact .inl (.inl (.inl h))
    · exact .inl (.inl (.inr h))
    · exact .inl (.inr h)
    · exact .inr (.inl h)
    · exact .inr (.inr (.inl h))
    · exact .inr (.inr (.inr h))
  · rintro (((h | h) | h) | h | h | h)
    · exact .inl (.inl (.inl (.inl (.inl h))))
    · exact .inl (.inl (.inl (.inl (.inr h))))
    · exact .inl (.inl (.inl (.inr h)))
    · exact .inl (.inl (.inr h))
    · exact .inl (.inr h)
    · exact .inr h

theorem schemeRest_iff : ∀ t : Text, schemeRest t = true ↔
    ∃ s rest, t = s ++ ':' :: '/' :: rest ∧ ∀ c ∈ s, SchemeChar c
  | [] => by simp [schemeRest]
  | c :: t => by
    have ih := schemeRest_iff t
    by_cases hc : ∃ rest, c = ':' ∧ t = '/' :: rest
    · obtain ⟨rest, rfl, rfl⟩ := hc
      simp only [schemeRest, true_iff]
      exact ⟨[], rest, rfl, by simp⟩
    · have h1 : schemeRest (c :: t) = (isSchemeChar c && schemeRest t) := by
        rw [schemeRest]
        intro rest h1 h2
        exact hc ⟨rest, h1, h2⟩
      rw [h1, Bool.and_eq_true, isSchemeChar_iff, ih]
      constructor
      · rintro ⟨h2, s, rest, rfl, h3⟩
        exact ⟨c :: s, rest, rfl, by simpa using ⟨h2, h3⟩⟩
      · rintro ⟨s, rest, h2, h3⟩
        cases s with
        | nil =>
          simp only [List.nil_append, List.cons.injEq] at h2
          exact absurd ⟨rest, h2.1, h2.2⟩ hc
        | cons d s =>
          simp only [List.cons_append, List.cons.injEq] at h2
          obtain ⟨rfl, rfl⟩ := h2
          exact ⟨h3 c (by simp), s, rest, rfl, fun x hx => h3 x (by simp [hx])⟩

theorem absoluteScheme_iff (t : Text) : absoluteScheme t = true ↔ HasScheme t := by
  cases t with
  | nil => simp [absoluteScheme, HasScheme]
  | cons c t =>
    rw [absoluteScheme, Bool.and_eq_true, isSchemeChar_iff, schemeRest_iff]
    constructor
    · rintro ⟨h2, s, rest, rfl, h3⟩
      exact ⟨c :: s, rest, rfl, by simp, by simpa using ⟨h2, h3⟩⟩
    · rintro ⟨s, rest, h2, h3, h4⟩
      obtain ⟨d, s, rfl⟩ := List.exists_cons_of_ne_nil h3
      simp only [List.cons_append, List.cons.injEq] at h2
      obtain ⟨rfl, rfl⟩ := h2
      exact ⟨h4 c (by simp), s, rest, rfl, fun x hx => h4 x (by simp [hx])⟩

/-- C48: the type of a text of at least two characters; the four cases exclude each other. -/
theorem C48_classification (t : Text) (h : 2 ≤ t.length) :
    (['/', '/'] <+: t ∧ getUrlType t = .ok .schemeRelative) ∨
    (['/'] <+: t ∧ ¬ ['/', '/'] <+: t ∧ getUrlType t = .ok .pathAbsolute) ∨
    (¬ ['/'] <+: t ∧ HasScheme t ∧ getUrlType t = .ok .absolute) ∨
    (¬ ['/'] <+: t ∧ ¬ HasScheme t ∧ getUrlType t = .ok .pathRelative) := by
  match t, h with
  | a :: b :: t, _ =>
    by_cases h1 : a = '/'
    · subst h1
      by_cases h2 : b = '/'
      · subst h2
        exact .inl ⟨⟨t, rfl⟩, rfl⟩
      · refine .inr (.inl ⟨⟨b :: t, rfl⟩, ?_, ?_⟩)
        · rintro ⟨r, hr⟩
          simp only [List.cons_append, List.cons.injEq, true_and] at hr
          exact h2 hr.1.symm
        · simp [getUrlType, h2]
    · have h3 : ¬ ['/'] <+: a :: b :: t := by
        rintro ⟨r, hr⟩
        simp only [List.cons_append, List.cons.injEq] at hr
        exact h1 hr.1.symm
      by_cases h4 : HasScheme (a :: b :: t)
      · refine .inr (.inr (.inl ⟨h3, h4, ?_⟩))
        simp [getUrlType, h1, (absoluteScheme_iff _).2 h4]
      · refine .inr (.inr (.inr ⟨h3, h4, ?_⟩))
        have : absoluteScheme (a :: b :: t) = false := by
          cases h5 : absoluteScheme (a :: b :: t)
          · rfl
          · exact absurd ((absoluteScheme_iff _).1 h5) h4
        simp [getUrlType, h1, this]

/-- C48: shorter texts panic. -/
theorem C48_short (t : Text) (h : t.length < 2) : getUrlType t = .error .unwrap := by
  match t, h with
  | [], _ => rfl
  | [_], _ => rfl

example : HasScheme "webpack:/x".toList :=
  ⟨"webpack".toList, "x".toList, rfl, by decide, by unfold SchemeChar; decide⟩
example : getUrlType "//host/a".toList = .ok .schemeRelative ∧ getUrlType "/a".toList = .ok .pathAbsolute ∧
    getUrlType "webpack:/x".toList = .ok .absolute ∧ getUrlType "a/b".toList = .ok .pathRelative ∧
    getUrlType "c:x".toList = .ok .pathRelative := ⟨rfl, rfl, rfl, rfl, rfl⟩

/-! ## C49 -/

/-- C49: the segment is the prefix with the smallest number that does not occur in the input. In
particular the loop ends. -/
theorem C49_unique_segment (pfx input : Text) :
    ∃ i : Nat, buildUniqueSegment pfx input = pfx ++ (toString i).toList ∧
      ¬ (pfx ++ (toString i).toList) <:+: input ∧
      ∀ j < i, (pfx ++ (toString j).toList) <:+: input := by
  have h0 : ∀ i : Nat, pfx ++ (toString i).toList = segmentName pfx i := by
    intro i
    show pfx ++ i.repr.toList = _
    rw [Nat.toList_repr]
    rfl
  obtain ⟨i, h1, h2, h3⟩ := buildUniqueSegment_spec pfx input
  refine ⟨i, ?_, ?_, ?_⟩
  · rw [h0]; exact h1
  · rw [h0]; exact h2
  · intro j hj; rw [h0]; exact h3 j hj

example : buildUniqueSegment ['p'] "lib/p0/p1.js".toList = "p2".toList := by decide +kernel

/-! ## C50 -/

theorem dotted_eq : ∀ ps : List Text, dotted ps = dotdot.intercalate ps
  | [] => rfl
  | [p] => by simp [dotted, List.intercalate]
  | p :: q :: ps => by
    have := dotted_eq (q :: ps)
    rw [dotted, this]
    · simp [List.intercalate]
    · simp

/-- The reference never leaves the root: whenever it says `..` there is a directory to leave. -/
def Inside (from_ : List Text) (r : Ref) : Prop :=
  ∀ pre post, r.dirs ++ [r.file] = pre ++ dotdot :: post → pre.foldl enter from_ ≠ []

/-- C50: the safe base is `http://host/` with one copy of the unique segment for each `..` of the
input, where the count is the largest possible number of occurrences side by side. -/
theorem C50_safe_base (input : Text) :
    ∃ (seg : Text) (k : Nat), seg = buildUniqueSegment ['p'] input ∧
      buildSafeBase input = "http://host/".toList ++ (List.replicate k (seg ++ ['/'])).flatten ∧
      (∃ ps : List Text, ps.length = k + 1 ∧ input = dotdot.intercalate ps) ∧
      ∀ ps : List Text, input = dotdot.intercalate ps → ps.length ≤ k + 1 := by
  refine ⟨_, countDotDot input, rfl, rfl, ?_, ?_⟩
  · obtain ⟨p, ps, h1, h2⟩ := countDotDot_pieces input
    exact ⟨p :: ps, by simp [h2], by rw [← dotted_eq]; exact h1⟩
  · intro ps h
    rw [← dotted_eq] at h
    have := countDotDot_le ps
    rw [← h] at this
    exact this

theorem inside_safeDirs (r : Ref) (input : Text) (h : r.text <:+: input) : Inside (safeDirs input) r := by
  intro pre post hpre hnil
  have h0 : safeDirs input = (Climb.mk 0 []).from_ (safeDirs input) := by simp [Climb.from_]
  rw [h0, Climb.from_foldl] at hnil
  generalize hc : pre.foldl Climb.enter ⟨0, []⟩ = c at hnil
  have hn := List.append_eq_nil_iff.1 hnil
  have hlen : (safeDirs input).length - c.ups = 0 := by
    rcases List.take_eq_nil_iff.1 hn.1 with h' | h'
    · exact h'
    · rw [h']; simp
  have h1 := Climb.foldl_count pre ⟨0, []⟩
  rw [hc] at h1
  have h2 : dotdots (r.dirs ++ [r.file]) = dotdots pre + 1 + dotdots post := by
    rw [hpre]
    simp only [dotdots, List.countP_append, List.countP_cons, decide_true, if_true]
    omega
  have h3 := dotdots_text r.dirs r.file
  have h4 := countDotDot_infix h
  have h5 : r.text = pathText r.dirs r.file := rfl
  have h6 : (safeDirs input).length = countDotDot input := by simp [safeDirs]
  rw [h5] at h4
  dsimp only at h1
  omega

/-- C50: a plain reference does not leave the root of the safe base made for any text containing it, from the
directory of the base. -/
theorem C50_never_above (r : Ref) (input : Text) (h : r.text <:+: input) :
    ∃ dirs : List Text, (∀ d ∈ dirs, Name d) ∧ buildSafeBase input = "http://host".toList ++ Loc.text ⟨dirs, []⟩ ∧
      Inside dirs r :=
  ⟨safeDirs input, safeDirs_name input,
    by rw [buildSafeBase_eq, Addr.text, show Tail.text {} = [] from rfl, List.append_nil]; rfl,
    inside_safeDirs r input h⟩

example : (⟨[dotdot, "a".toList, dotdot], "x".toList⟩ : Ref).text <:+: "see ../a/../x".toList ∧
    buildSafeBase "see ../a/../x".toList = "http://host".toList ++ Loc.text ⟨["p0".toList, "p0".toList], []⟩ :=
  ⟨⟨"see ".toList, [], by decide⟩, by decide +kernel⟩

example : buildSafeBase "../p0/../x".toList = "http://host/p1/p1/".toList := by decide +kernel
example : buildSafeBase "....a..".toList = "http://host/p0/p0/p0/".toList := by decide +kernel

/-! ## C51 -/

theorem foldl_enter_up (q c : List Text) : (q.map (fun _ => dotdot)).foldl enter (c ++ q) = c := by
  induction q using List.reverseRecOn generalizing c with
  | nil => simp
  | append_singleton q x ih =>
    have h4 : (q ++ [x]).map (fun _ => dotdot) = dotdot :: q.map (fun _ => dotdot) := by
      simp only [List.map_const', List.length_append, List.length_cons, List.length_nil]
      rfl
    rw [h4, List.foldl_cons]
    have h5 : enter (c ++ (q ++ [x])) dotdot = c ++ q := by
      rw [← List.append_assoc]
      simp [enter, show ¬ dotdot = dot by decide]
    rw [h5]
    exact ih c

/-- C51: the relative path from a directory to a location, resolved in the directory, gives the
location, unless the location is a file named as an ancestor of the directory or the directory. -/
theorem C51_relative_path {R : List Text} (hR : ∀ s ∈ R, Name s) {l : Loc} (hl : l.Valid)
    (h : l.file = [] ∨ ¬ l.dirs ++ [l.file] <+: R) :
    ∃ r : Ref, r.Valid ∧ relativePath (Loc.text ⟨R, []⟩) l.text = r.text ∧ resolve R r = l := by
  obtain ⟨d, f⟩ := l
  have hns := Loc.Valid.ref hl
  rw [relativePath_eq hR (fun s hs => Plain.no_slash (hns.1 s hs).1) (Plain.no_slash hns.2)]
  obtain ⟨c, h1, h2, _⟩ := dropCommon_spec (d ++ [f]) R
  generalize (dropCommon (d ++ [f]) R).1 = t at h1 ⊢
  generalize (dropCommon (d ++ [f]) R).2 = q at h2 ⊢
  have ht : t ≠ [] := by
    rintro rfl
    rw [List.append_nil] at h1
    rcases h with h | h
    · dsimp only at h
      subst h
      have : ([] : Text) ∈ R := by rw [h2, ← h1]; simp
      exact (hR _ this).2.1 rfl
    · exact h ⟨q, by rw [h1]; exact h2.symm⟩
  obtain ⟨d', f', rfl⟩ := List.eq_nil_or_concat t |>.resolve_left ht
  rw [List.concat_eq_append] at *
  rw [← List.append_assoc] at h1
  obtain ⟨rfl, h3⟩ := List.append_inj' h1 rfl
  cases h3
  refine ⟨⟨q.map (fun _ => dotdot) ++ d', f⟩, ?_, ?_, ?_⟩
  · refine ⟨?_, hns.2⟩
    intro s hs
    rcases List.mem_append.1 hs with h' | h'
    · obtain ⟨_, _, rfl⟩ := List.mem_map.1 h'
      exact ⟨by decide, by decide⟩
    · exact hns.1 s (List.mem_append_right _ h')
  · rw [← List.append_assoc, joinSep_pathText]; rfl
  · have hup := foldl_enter_up
    have hf := Loc.Valid.file_ne hl
    simp only [resolve, List.foldl_append]
    rw [h2, hup, foldl_enter_names d' c (fun s hs => Name.ne_dot (hl.1 s (List.mem_append_right _ hs)))]
    simp [hf.1, hf.2]

/-- C51: otherwise the relative path leads to the directory of that name instead of the file. -/
theorem C51_ancestor {R : List Text} (hR : ∀ s ∈ R, Name s) {d : List Text} {f : Text} (hf : Name f)
    (h : d ++ [f] <+: R) : ∃ r : Ref, r.Valid ∧
      relativePath (Loc.text ⟨R, []⟩) (Loc.text ⟨d, f⟩) = r.text ∧ resolve R r = ⟨d ++ [f], []⟩ := by
  have hd : ∀ s ∈ d, Name s := by
    obtain ⟨q, rfl⟩ := h
    intro s hs
    exact hR s (by simp [hs])
  rw [relativePath_eq hR (fun s hs => Plain.no_slash (hd s hs).1) (Plain.no_slash hf.1)]
  obtain ⟨q, rfl⟩ := h
  have h1 := dropCommon_append (d ++ [f]) [] q
  rw [List.append_nil] at h1
  rw [h1]
  rcases List.eq_nil_or_concat q with h2 | ⟨q', x, h2⟩
  · subst h2
    refine ⟨⟨[], []⟩, ⟨by simp, by decide⟩, rfl, ?_⟩
    simp [resolve, show ¬ ([] : Text) = dot by decide, show ¬ ([] : Text) = dotdot by decide]
  · subst h2
    have h3 : dropCommon [] (q'.concat x) = ([], q'.concat x) := by
      unfold dropCommon; rfl
    rw [h3]
    refine ⟨⟨q'.map (fun _ => dotdot), dotdot⟩, ⟨?_, by show Plain dotdot; decide⟩, ?_, ?_⟩
    · intro s hs
      obtain ⟨_, _, rfl⟩ := List.mem_map.1 hs
      exact ⟨by decide, by decide⟩
    · simp only [List.concat_eq_append, List.append_nil, List.map_append, List.map_cons, List.map_nil]
      rw [joinSep_pathText]; rfl
    · have h4 := foldl_enter_up (q'.concat x) (d ++ [f])
      have h5 : (q'.concat x).map (fun _ => dotdot) = q'.map (fun _ => dotdot) ++ [dotdot] := by simp
      rw [h5, List.foldl_append] at h4
      simp only [List.foldl_cons, List.foldl_nil, enter, show ¬ dotdot = dot by decide, if_false, if_true] at h4
      simp only [resolve, show ¬ dotdot = dot by decide, if_false, if_true]
      rw [h4]

/-- C51: a root without a final slash counts as a directory. -/
theorem C51_root_file {R : List Text} {f : Text} (hf : Name f) (t : Text) (hR : ∀ s ∈ R, Name s) :
    relativePath (Loc.text ⟨R, f⟩) t = relativePath (Loc.text ⟨R ++ [f], []⟩) t := by
  have hs : ∀ (ds : List Text) (x : Text), (∀ s ∈ ds, '/' ∉ s) → '/' ∉ x →
      splitChar '/' (Loc.text ⟨ds, x⟩) = [] :: (ds ++ [x]) := by
    intro ds x h1 h2
    have := splitChar_pathText ([] :: ds) x (by
      intro s hs
      rcases List.mem_cons.1 hs with h | h
      · subst h; simp
      · exact h1 s h) h2
    simpa [Loc.text, pathText_cons] using this
  have h1 := hs R f (fun s h => Plain.no_slash (hR s h).1) (Plain.no_slash hf.1)
  have h2 := hs (R ++ [f]) [] (by
    intro s h
    rcases List.mem_append.1 h with h | h
    · exact Plain.no_slash (hR s h).1
    · rw [List.mem_singleton.1 h]; exact Plain.no_slash hf.1) (by simp)
  have g1 : ([] :: (R ++ [f]) : List Text).getLast? = some f := by
    have : ([] :: (R ++ [f]) : List Text) = ([] :: R) ++ [f] := rfl
    rw [this, List.getLast?_append]; rfl
  have g2 : ([] :: (R ++ [f] ++ [[]]) : List Text).getLast? = some [] := by
    have : ([] :: (R ++ [f] ++ [[]]) : List Text) = ([] :: (R ++ [f])) ++ [[]] := rfl
    rw [this, List.getLast?_append]; rfl
  have g3 : ([] :: (R ++ [f] ++ [[]]) : List Text).dropLast = [] :: (R ++ [f]) := by
    have : ([] :: (R ++ [f] ++ [[]]) : List Text) = ([] :: (R ++ [f])) ++ [[]] := rfl
    rw [this, List.dropLast_concat]
  simp only [relativePath, h1, h2, g1, g2, g3, if_true]
  rw [if_neg (by simpa using hf.2.1)]

section
variable {U : UrlLib} (hU : U.Laws)
include hU

/-- `replace_if_possible` on two absolute URLs. -/
theorem replace_url {o o' : Origin} {R : List Text} {l : Loc} {t : Tail} (ho : o.Valid)
    (hR : ∀ s ∈ R, Name s) (ha : Addr.Valid ⟨o', l, t⟩) :
    replaceIfPossible U (Addr.text ⟨o, ⟨R, []⟩, {}⟩) (Addr.text ⟨o', l, t⟩) =
      if o' = o then .ok (some (relativePath (Loc.text ⟨R, []⟩) l.text ++ t.query.getD [] ++ t.fragment.getD []))
      else .ok none := by
  have hroot : Addr.Valid ⟨o, ⟨R, []⟩, {}⟩ := ⟨ho, ⟨hR, .inl rfl⟩, noTail_valid⟩
  generalize hx : Addr.text ⟨o, ⟨R, []⟩, {}⟩ = x
  generalize hy : Addr.text ⟨o', l, t⟩ = y
  obtain ⟨b, h1, h2⟩ := parse_base hU (x ++ y)
  obtain ⟨u, h3, h4⟩ := hU.join_url b _ o ⟨R, []⟩ {} h2 (base_valid _) ho (Loc.Valid.ref hroot.2.1) noTail_valid
  obtain ⟨v, h5, h6⟩ := hU.join_url b _ o' ⟨l.dirs, l.file⟩ t h2 (base_valid _) ha.1 (Loc.Valid.ref ha.2.1) ha.2.2
  rw [resolve_loc ha.2.1] at h6
  obtain ⟨w, h7, _⟩ := hU.join_empty v _ h6 ha
  have tx : getUrlType x = .ok .absolute := by
    rw [← hx, Addr.text, List.append_assoc]; exact type_url ho _
  have ty : getUrlType y = .ok .absolute := by
    rw [← hy, Addr.text, List.append_assoc]; exact type_url ha.1 _
  have jx : joinUrl U b x = .ok u := by
    rw [joinUrl, ← hx]
    have : Addr.text ⟨o, ⟨R, []⟩, {}⟩ = o.text ++ '/' :: Ref.text ⟨R, []⟩ ++ Tail.text {} := rfl
    rw [this, h3]; rfl
  have jy : joinUrl U b y = .ok v := by
    rw [joinUrl, ← hy]
    have : Addr.text ⟨o', l, t⟩ = o'.text ++ '/' :: Ref.text ⟨l.dirs, l.file⟩ ++ t.text := rfl
    rw [this, h5]; rfl
  simp only [replaceIfPossible, tx, ty, Res.ok_bind, ne_eq, not_true_eq_false, if_false, h1, jx, jy, h7,
    h4.scheme, h6.scheme, h4.host, h6.host, h4.username, h6.username, h4.password, h6.password, h4.port, h6.port,
    false_or]
  by_cases e : o' = o
  · subst e
    rw [if_neg (by simp), if_pos rfl, ← hx, ← hy, relUrl hU ha.1 hR ha]
    rfl
  · rw [if_neg e, if_pos]
    · rfl
    · by_contra hcon
      apply e
      obtain ⟨s, h⟩ := o
      obtain ⟨s', h'⟩ := o'
      obtain ⟨n, q⟩ := h
      obtain ⟨n', q'⟩ := h'
      simp only [not_or, not_not] at hcon
      obtain ⟨c1, c2, c3⟩ := hcon
      have c4 : n' = n := MiniUrl.shown_inj c2
      rw [c1, c3, c4]

/-- C51 for `relative` with absolute URLs: on one host the result is a relative reference that leads from
the root directory to the target; on another host the result is the target. -/
theorem C51_relative {o o' : Origin} {R : List Text} {l : Loc} (ho : o.Valid) (hR : ∀ s ∈ R, Name s)
    (ho' : o'.Valid) (hl : l.Valid) :
    (o' = o → (l.file = [] ∨ ¬ l.dirs ++ [l.file] <+: R) → ∃ r : Ref, r.Valid ∧ resolve R r = l ∧
      relative U (o.text ++ Loc.text ⟨R, []⟩) (o'.text ++ l.text) = .ok r.text) ∧
    (o' ≠ o → relative U (o.text ++ Loc.text ⟨R, []⟩) (o'.text ++ l.text) = .ok (o'.text ++ l.text)) := by
  have h := replace_url hU (t := {}) ho hR (o' := o') (l := l) ⟨ho', hl, noTail_valid⟩
  simp only [Addr.text, no_tail] at h
  constructor
  · intro e hne
    obtain ⟨r, h1, h2, h3⟩ := C51_relative_path hR hl hne
    refine ⟨r, h1, h3, ?_⟩
    rw [if_pos e, h2] at h
    rw [relative, h]
    simp
  · intro e
    rw [if_neg e] at h
    rw [relative, h]
    have h2 := normalize_url hU (t := {}) ho' (Loc.Valid.ref hl) noTail_valid
    rw [resolve_loc hl, no_tail, no_tail] at h2
    exact h2

end

example : relativePath "/a/b/".toList "/a/c/d.js".toList = "../c/d.js".toList ∧
    relativePath "/a/b/".toList "/a".toList = "..".toList ∧
    relative MiniUrl.lib "http://h/a/b".toList "http://h/a/c.js".toList = .ok "../c.js".toList :=
  ⟨by decide +kernel, by decide +kernel, by decide +kernel⟩

/-! ## C52 -/

section
variable {U : UrlLib} (hU : U.Laws)
include hU

/-- C52 is false of the code: query and fragment of a relative source are kept without `?` and `#`, so
they become part of the file name. -/
theorem C52_source_refuted {r : Ref} {t : Tail} (hr : r.Valid) (ht : t.Valid) (hne : r.text ≠ [])
    (hlen : 2 ≤ (r.text ++ t.text).length) :
    computeSourceUrl U none (r.text ++ t.text) none =
      .ok (r.norm.text ++ t.query.getD [] ++ t.fragment.getD []) := by
  simp [computeSourceUrl, normalize_ref hU hr ht hne hlen]

/-- C52 is false of the code: so different sources get the same URL. -/
theorem C52_collision_refuted {d : List Text} {f q : Text} (hd : ∀ s ∈ d, Name s) (hf : Name f)
    (hfq : Name (f ++ q)) (hq : Plain q) (hlen : 2 ≤ (pathText d f).length) :
    computeSourceUrl U none (pathText d f ++ '?' :: q) none = computeSourceUrl U none (pathText d (f ++ q)) none := by
  have hr : Ref.Valid ⟨d, f⟩ := ⟨fun s hs => ⟨(hd s hs).1, (hd s hs).2.1⟩, hf.1⟩
  have hr2 : Ref.Valid ⟨d, f ++ q⟩ := ⟨fun s hs => ⟨(hd s hs).1, (hd s hs).2.1⟩, hfq.1⟩
  have e1 : pathText d f ≠ [] := by intro h; rw [h] at hlen; simp at hlen
  have e2 : pathText d (f ++ q) = pathText d f ++ q := by simp [pathText]
  have h1 := C52_source_refuted hU (r := ⟨d, f⟩) (t := ⟨some q, none⟩) hr ⟨by simpa using hq, by simp⟩ e1
    (by simp only [Ref.text, List.length_append]; omega)
  have h2 := C52_source_refuted hU (r := ⟨d, f ++ q⟩) (t := {}) hr2 noTail_valid
    (by simp only [Ref.text]; rw [e2]; simp [e1])
    (by simp only [Ref.text, e2, List.length_append]; omega)
  rw [norm_names hd (.inr hf)] at h1
  rw [norm_names hd (.inr hfq), no_tail] at h2
  have h3 : Ref.text ⟨d, f⟩ ++ Tail.text ⟨some q, none⟩ = pathText d f ++ '?' :: q := by
    simp [Ref.text, Tail.text, Tail.queryText, Tail.fragmentText]
  rw [h3] at h1
  have h4 : Ref.text ⟨d, f ++ q⟩ = pathText d (f ++ q) := rfl
  rw [h4] at h2
  rw [h1, h2, e2]
  simp [Ref.text]

/-- C52 is false of the code for `relative` on absolute URLs of one host as well. -/
theorem C52_relative_refuted {o : Origin} {R : List Text} {l : Loc} {t : Tail} (ho : o.Valid)
    (hR : ∀ s ∈ R, Name s) (hl : l.Valid) (ht : t.Valid) :
    ∃ rel, relative U (o.text ++ Loc.text ⟨R, []⟩) (o.text ++ l.text) = .ok rel ∧
      relative U (o.text ++ Loc.text ⟨R, []⟩) (o.text ++ l.text ++ t.text) =
        .ok (rel ++ t.query.getD [] ++ t.fragment.getD []) := by
  have h1 := replace_url hU (t := {}) ho hR (o' := o) (l := l) ⟨ho, hl, noTail_valid⟩
  have h2 := replace_url hU (t := t) ho hR (o' := o) (l := l) ⟨ho, hl, ht⟩
  rw [if_pos rfl] at h1 h2
  simp only [Addr.text, no_tail] at h1 h2
  refine ⟨relativePath (Loc.text ⟨R, []⟩) l.text, ?_, ?_⟩
  · rw [relative, h1]; simp
  · rw [relative, h2]; simp

/-- C52 for the other kinds of sources (`_partial`): query and fragment are kept. -/
theorem C52_kept_partial {r : Ref} {t : Tail} (hr : r.Valid) (ht : t.Valid) :
    (1 ≤ (r.text ++ t.text).length →
      computeSourceUrl U none ('/' :: r.text ++ t.text) none = .ok ((resolve [] r).text ++ t.text)) ∧
    (∀ h : Host, h.Valid →
      computeSourceUrl U none (['/', '/'] ++ h.text ++ '/' :: r.text ++ t.text) none =
        .ok (['/', '/'] ++ h.text ++ (resolve [] r).text ++ t.text)) ∧
    (∀ o : Origin, o.Valid → computeSourceUrl U none (o.text ++ '/' :: r.text ++ t.text) none =
        .ok (o.text ++ (resolve [] r).text ++ t.text)) := by
  refine ⟨?_, ?_, ?_⟩
  · intro h
    have := normalize_path hU hr ht h
    simp only [computeSourceUrl, Res.pure_eq, Res.ok_bind] at this ⊢
    rw [this]; rfl
  · intro h ho
    have := normalize_host hU ho hr ht
    simp only [computeSourceUrl, Res.pure_eq, Res.ok_bind] at this ⊢
    rw [this]; rfl
  · intro o ho
    have := normalize_url hU ho hr ht
    simp only [computeSourceUrl, Res.pure_eq, Res.ok_bind] at this ⊢
    rw [this]; rfl

example : computeSourceUrl MiniUrl.lib none "a.js?v=1".toList none = .ok "a.jsv=1".toList := by decide +kernel
example : computeSourceUrl MiniUrl.lib none "ab?c".toList none = computeSourceUrl MiniUrl.lib none "abc".toList none := by
  decide +kernel

/-! ## C53 -/

/-- C53 is false of the code: `relative` of two plain references panics. -/
theorem C53_references_refuted {R p : Ref} (hR : R.Valid) (hp : p.Valid) (hRl : 2 ≤ R.text.length)
    (hpl : 2 ≤ p.text.length) : relative U R.text p.text = .error .unwrap := by
  have hRn : R.text ≠ [] := by intro h; rw [h] at hRl; simp at hRl
  have hpn : p.text ≠ [] := by intro h; rw [h] at hpl; simp at hpl
  have tR := type_ref hR noTail_valid hRn (by rw [no_tail]; exact hRl)
  have tp := type_ref hp noTail_valid hpn (by rw [no_tail]; exact hpl)
  rw [no_tail] at tR tp
  obtain ⟨b, h1, h2⟩ := parse_base hU (R.text ++ p.text)
  obtain ⟨u, h3, h4⟩ := join_dir hU h2 hostOrigin_valid (safeDirs_name _) hR
  obtain ⟨v, h5, h6⟩ := join_dir hU h2 hostOrigin_valid (safeDirs_name _) hp
  obtain ⟨w, h7, _⟩ := hU.join_empty v _ h6 ⟨hostOrigin_valid, resolve_valid (safeDirs_name _) hp, noTail_valid⟩
  have hc := ref_no_colon hR noTail_valid
  rw [no_tail] at hc
  have h8 : parseUrl U R.text = .error .unwrap := by rw [parseUrl, hU.parse_no_colon _ hc]; rfl
  simp [relative, replaceIfPossible, tR, tp, h1, h3, h5, h7, h4.scheme, h6.scheme, h4.host, h6.host,
    h4.username, h6.username, h4.password, h6.password, h4.port, h6.port, computeRelativeUrl, h8]

/-- C53 is false of the code: `relative` of two plain absolute paths panics. -/
theorem C53_paths_refuted {R p : Ref} (hR : R.Valid) (hp : p.Valid) (hRn : R.text ≠ []) (hpn : p.text ≠ []) :
    relative U ('/' :: R.text) ('/' :: p.text) = .error .unwrap := by
  have tR := type_path (t := {}) hR (by rw [no_tail]; exact List.length_pos_iff.2 hRn)
  have tp := type_path (t := {}) hp (by rw [no_tail]; exact List.length_pos_iff.2 hpn)
  rw [no_tail] at tR tp
  obtain ⟨b, h1, h2⟩ := parse_base hU ('/' :: R.text ++ '/' :: p.text)
  obtain ⟨u, h3, h4⟩ := hU.join_path b _ R {} h2 (base_valid _) hR noTail_valid
  obtain ⟨v, h5, h6⟩ := hU.join_path b _ p {} h2 (base_valid _) hp noTail_valid
  obtain ⟨w, h7, _⟩ := hU.join_empty v _ h6 ⟨hostOrigin_valid, resolve_valid (by simp) hp, noTail_valid⟩
  rw [no_tail] at h3 h5
  have j1 : joinUrl U b ('/' :: R.text) = .ok u := by rw [joinUrl, h3]; rfl
  have j2 : joinUrl U b ('/' :: p.text) = .ok v := by rw [joinUrl, h5]; rfl
  simp only [List.cons_append] at h1
  have h8 : parseUrl U ('/' :: R.text) = .error .unwrap := by rw [parseUrl, hU.parse_slash]; rfl
  simp [relative, replaceIfPossible, tR, tp, h1, j1, j2, h7, h4.scheme, h6.scheme, h4.host, h6.host,
    h4.username, h6.username, h4.password, h6.password, h4.port, h6.port, computeRelativeUrl, h8]

/-- C53, in general: if `relative` returns for a root that is no absolute URL, it has only normalised the
target. The root is any text without a colon, or starting with a slash. -/
theorem C53_only_normalises {root target r : Text} (hroot : ':' ∉ root ∨ ['/'] <+: root)
    (h : relative U root target = .ok r) : normalize U target = .ok r := by
  have hp : parseUrl U root = .error .unwrap := by
    rcases hroot with hc | ⟨t, rfl⟩
    · rw [parseUrl, hU.parse_no_colon _ hc]; rfl
    · rw [parseUrl]
      show unwrap (U.parse ('/' :: t)) = _
      rw [hU.parse_slash]; rfl
  simp only [relative, Res.bind_eq_ok] at h
  obtain ⟨x, hx, h⟩ := h
  cases x with
  | none => exact h
  | some y =>
    exfalso
    simp only [replaceIfPossible, Res.bind_eq_ok] at hx
    obtain ⟨a, _, b, _, hx⟩ := hx
    split at hx
    · cases hx
    · simp only [Res.bind_eq_ok] at hx
      obtain ⟨_, _, _, _, _, _, hx⟩ := hx
      split at hx
      · cases hx
      · split at hx
        · cases hx
        · simp only [computeRelativeUrl, hp, Res.error_bind] at hx
          cases hx

end

example : relative MiniUrl.lib "lib".toList "lib/a.js".toList = .error .unwrap ∧
    relative MiniUrl.lib "/the/root".toList "/the/root/a.js".toList = .error .unwrap ∧
    relative MiniUrl.lib "/the/root".toList "a/./b.js".toList = .ok "a/b.js".toList :=
  ⟨by decide +kernel, by decide +kernel, by decide +kernel⟩

end RSM
