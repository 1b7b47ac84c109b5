import Verif.Props.RelativeTable
/-! # C63: contents under a source root, for all kinds of root and source

For every `url` library satisfying the contract. -/

namespace RSM
open Spec Written

/-! ## The relative path tells the targets apart -/

/-- Segments without slashes can be read off the text. -/
theorem joinSep_inj {a b : List Text} (ha : a ≠ []) (hb : b ≠ []) (sa : ∀ s ∈ a, '/' ∉ s) (sb : ∀ s ∈ b, '/' ∉ s)
    (h : joinSep ['/'] a = joinSep ['/'] b) : a = b := by
  obtain ⟨a, x, rfl⟩ := List.eq_nil_or_concat a |>.resolve_left ha
  obtain ⟨b, y, rfl⟩ := List.eq_nil_or_concat b |>.resolve_left hb
  simp only [List.concat_eq_append] at *
  rw [joinSep_pathText, joinSep_pathText] at h
  have h1 := splitChar_pathText a x (fun s hs => sa s (by simp [hs])) (sa x (by simp))
  have h2 := splitChar_pathText b y (fun s hs => sb s (by simp [hs])) (sb y (by simp))
  rw [← h1, h, h2]

theorem ups_inj {t t' : List Text} (ht : dotdot ∉ t) (ht' : dotdot ∉ t') : ∀ {n m : Nat},
    List.replicate n dotdot ++ t = List.replicate m dotdot ++ t' → n = m ∧ t = t'
  | 0, 0, h => ⟨rfl, by simpa using h⟩
  | n + 1, 0, h => by
    simp only [List.replicate_succ, List.cons_append, List.replicate_zero, List.nil_append] at h
    exact absurd (by rw [← h]; simp) ht'
  | 0, m + 1, h => by
    simp only [List.replicate_succ, List.cons_append, List.replicate_zero, List.nil_append] at h
    exact absurd (by rw [h]; simp) ht
  | n + 1, m + 1, h => by
    simp only [List.replicate_succ, List.cons_append, List.cons.injEq, true_and] at h
    obtain ⟨h1, h2⟩ := ups_inj ht ht' h
    exact ⟨by omega, h2⟩

/-- From one directory, the relative paths of different locations differ, the directory written as a file excepted. -/
theorem relativePath_inj {B : List Text} (hB : ∀ s ∈ B, Name s) {l l' : Loc} (hl : l.Valid) (hl' : l'.Valid)
    (h1 : l.dirs ++ [l.file] ≠ B) (h1' : l'.dirs ++ [l'.file] ≠ B)
    (h : relativePath (Loc.text ⟨B, []⟩) l.text = relativePath (Loc.text ⟨B, []⟩) l'.text) : l = l' := by
  have seg : ∀ {l : Loc}, l.Valid → l.dirs ++ [l.file] ≠ B → ∃ c q t, l.dirs ++ [l.file] = c ++ t ∧ B = c ++ q ∧
      dotdot ∉ t ∧ List.replicate q.length dotdot ++ t ≠ [] ∧
      (∀ s ∈ List.replicate q.length dotdot ++ t, '/' ∉ s) ∧
      relativePath (Loc.text ⟨B, []⟩) l.text = joinSep ['/'] (List.replicate q.length dotdot ++ t) := by
    intro l hl h1
    have hns := Loc.Valid.ref hl
    have hmem : ∀ s ∈ l.dirs ++ [l.file], s ≠ dotdot ∧ '/' ∉ s := by
      intro s hs
      rcases List.mem_append.1 hs with h | h
      · exact ⟨(hl.1 s h).2.2.2, Plain.no_slash (hl.1 s h).1⟩
      · rw [List.mem_singleton.1 h]
        exact ⟨(Loc.Valid.file_ne hl).2, Plain.no_slash hns.2⟩
    obtain ⟨c, e1, e2, _⟩ := dropCommon_spec (l.dirs ++ [l.file]) B
    have he := relativePath_eq hB (fun s hs => Plain.no_slash (hns.1 s hs).1) (Plain.no_slash hns.2)
    generalize (dropCommon (l.dirs ++ [l.file]) B).1 = t at e1 he
    generalize (dropCommon (l.dirs ++ [l.file]) B).2 = q at e2 he
    refine ⟨c, q, t, e1, e2, ?_, ?_, ?_, ?_⟩
    · intro hd
      exact (hmem dotdot (by rw [e1]; simp [hd])).1 rfl
    · intro hn
      rw [List.append_eq_nil_iff] at hn
      obtain ⟨n1, rfl⟩ := hn
      have : q = [] := by cases q with
        | nil => rfl
        | cons => simp [List.replicate_succ] at n1
      subst this
      exact h1 (by rw [e1, e2])
    · intro s hs
      rcases List.mem_append.1 hs with h | h
      · rw [(List.mem_replicate.1 h).2]; decide
      · exact (hmem s (by rw [e1]; simp [h])).2
    · rw [← List.map_const']
      exact he
  obtain ⟨c, q, t, a1, a2, a3, a4, a5, a6⟩ := seg hl h1
  obtain ⟨c', q', t', b1, b2, b3, b4, b5, b6⟩ := seg hl' h1'
  rw [a6, b6] at h
  obtain ⟨e1, rfl⟩ := ups_inj a3 b3 (joinSep_inj a4 b4 a5 b5 h)
  obtain ⟨rfl, _⟩ := List.append_inj' (a2.symm.trans b2) e1
  rw [← b1] at a1
  obtain ⟨d1, d2⟩ := List.append_inj' a1 rfl
  cases l; cases l'; simp_all

/-! ## When recording content returns -/

namespace Spec.Written

/-- Root and source are of the same kind, no full URLs, and on the same host. -/
def Together : Written → Written → Prop
  | ref _, ref _ => True
  | path _, path _ => True
  | host h _, host g _ => g = h
  | _, _ => False

/-- The source is named by its normal form: it is not of the kind that makes `relative` panic and, under a URL, it is
no relative reference and not the root itself written as a file. -/
def Clear : Written → Written → Prop
  | url _ _, ref _ => False
  | url o R, url o' p => o' = o → (resolve [] p).dirs ++ [(resolve [] p).file] ≠ (resolve [] R.asDir).dirs
  | R, p => ¬ R.Together p

end Spec.Written

theorem not_together {R p : Written} :
    ¬ R.Together p → R.kind ≠ p.kind ∨ (∀ o dirs, (p.target o dirs).1 ≠ (R.target o dirs).1) ∨
      ∃ o r p', R = .url o r ∧ p = .url o p' := by
  intro hn
  cases R with
  | url o r =>
    cases p with
    | url o' p' =>
      by_cases e : o' = o
      · subst e; exact .inr (.inr ⟨_, _, _, rfl, rfl⟩)
      · exact .inr (.inl fun _ _ => e)
    | _ => simp [kind]
  | _ => cases p <;> simp_all [Together, kind, Written.target]

section
variable {U : UrlLib} (hU : U.Laws)
include hU

/-- The key under a root, for a source that is not together with it. -/
theorem key_written {R p : Written} {t : Tail} (hR : R.Valid) (hp : p.Valid) (ht : t.Valid)
    (hRl : 2 ≤ R.text.length) (hpl : 2 ≤ (p.text ++ t.text).length) (hn : ¬ R.Together p) :
    relative U R.text (p.text ++ t.text) = .ok (p.norm.text ++ p.keptTail t) ∨
    ∃ o r p', R = .url o r ∧ p = .url o p' ∧ relative U R.text (p.text ++ t.text) =
      .ok (relativePath (resolve [] r.asDir).text (resolve [] p').text ++ bare t) := by
  rcases not_together hn with h | h | ⟨o, r, p', rfl, rfl⟩
  · exact .inl (C83_apart hU hR hp ht hRl hpl (.inl h))
  · exact .inl (C83_apart hU hR hp ht hRl hpl (.inr h))
  · exact .inr ⟨o, r, p', rfl, rfl, relative_url hU hR.1 hR.2 hp.2 ht⟩

/-- C63: recording content for a plain source under a plain root returns exactly if the two are not of the same kind
on the same host, or are both full URLs. -/
theorem C63_returns_iff {R p : Written} {t : Tail} (hR : R.Valid) (hp : p.Valid) (ht : t.Valid)
    (hRl : 2 ≤ R.text.length) (hpl : 2 ≤ (p.text ++ t.text).length) {g : Generator}
    (hg : g.sourceRoot = some (String.ofList R.text)) (content : Option String) :
    (∃ g', g.setSourceContent U (String.ofList (p.text ++ t.text)) content = .ok g') ↔ ¬ R.Together p := by
  constructor
  · rintro ⟨g', h⟩ hT
    have hk : R.kind = p.kind ∧ R.kind ≠ .absolute ∧ (p.target hostOrigin []).1 = (R.target hostOrigin []).1 := by
      cases R <;> cases p <;> simp_all [Together, kind, Written.target]
    have := C83_together_refuted hU hR hp ht hRl hpl hk.1 hk.2.1 hk.2.2
    simp only [Generator.setSourceContent, hg, Generator.contentKey, relativeString, String.toList_ofList, this,
      Res.error_bind, reduceCtorEq] at h
  · intro hn
    have : ∃ k, relative U R.text (p.text ++ t.text) = .ok k := by
      rcases key_written hU hR hp ht hRl hpl hn with h | ⟨_, _, _, _, _, h⟩
      · exact ⟨_, h⟩
      · exact ⟨_, h⟩
    obtain ⟨k, hk⟩ := this
    simp only [Generator.setSourceContent, hg, Generator.contentKey, relativeString, String.toList_ofList, hk,
      Res.ok_bind, Res.pure_eq]
    cases content <;> exact ⟨_, rfl⟩

omit hU in
theorem Clear.not_together {R p : Written} (h : R.Clear p) : ¬ R.Together p := by
  cases R <;> cases p <;> simp_all [Clear, Together]

omit hU in
/-- The normal form of a source that is no relative reference is no relative reference. -/
theorem norm_not_ref {p : Written} (hp : p.Valid) (h : ∀ r, p ≠ .ref r) {q : Ref} (hq : q.Valid) :
    p.norm.text ≠ q.text := by
  intro e
  have slash : q.text.head? ≠ some '/' := by
    by_cases hn : q.text = []
    · rw [hn]; simp
    · obtain ⟨c, s, hcs, hc⟩ := MiniUrl.head_ref hq hn
      rw [hcs]
      have : c ≠ '/' := MiniUrl.plain_ne hc rfl
      simpa using this
  cases p with
  | ref r => exact h r rfl
  | path r => exact slash (by rw [← e]; rfl)
  | host g r => exact slash (by rw [← e]; rfl)
  | url o r =>
    have := ref_no_colon hq noTail_valid
    rw [no_tail, ← e] at this
    exact this (List.mem_append.2 (.inl (origin_colon hp.1)))

/-- The text of a full URL tells host and place. -/
theorem url_text_inj {o o' : Origin} {l l' : Loc} (ho : o.Valid) (ho' : o'.Valid) (hl : l.Valid) (hl' : l'.Valid)
    (h : o.text ++ l.text = o'.text ++ l'.text) : o = o' ∧ l = l' := by
  obtain ⟨u, h1, h2⟩ := parse_addr hU (a := ⟨o, l, {}⟩) ⟨ho, hl, noTail_valid⟩
  obtain ⟨v, h3, h4⟩ := parse_addr hU (a := ⟨o', l', {}⟩) ⟨ho', hl', noTail_valid⟩
  simp only [Addr.text, no_tail] at h1 h3
  rw [h] at h1
  have e := Res.ok_inj h1 h3
  subst e
  constructor
  · have a1 := h2.scheme.symm.trans h4.scheme
    have a2 := h2.host.symm.trans h4.host
    have a3 := h2.port.symm.trans h4.port
    obtain ⟨s, n, q⟩ := o
    obtain ⟨s', n', q'⟩ := o'
    have a4 : n = n' := MiniUrl.shown_inj a2
    simp only at a1 a3
    rw [a1, a3, a4]
  · have a1 : l.text = l'.text := h2.path.symm.trans h4.path
    have a2 := ref_text_inj (Loc.Valid.ref hl) (Loc.Valid.ref hl') (List.cons_inj_right _ |>.1 a1)
    cases l; cases l'; simp_all

theorem norm_url_iff {o : Origin} {q : Ref} {p : Written} (ho : o.Valid) (hq : q.Valid) (hp : p.Valid)
    (hr : ∀ r, p ≠ .ref r) (h : p.norm.text = (Written.url o q).norm.text) :
    ∃ r, p = .url o r ∧ resolve [] r = resolve [] q := by
  have head : (Written.url o q).norm.text.head? ≠ some '/' := by
    intro e
    have e1 : (o.text ++ (resolve [] q).text).head? = some '/' := e
    match o, ho.1, e1 with
    | ⟨[], g⟩, _, e1 => cases e1
    | ⟨c :: s, g⟩, hs, e1 =>
      have e2 : c = '/' := by simpa [Origin.text] using e1
      subst e2
      rcases hs with (hs | hs) | hs | hs
      · cases hs
      · cases hs
      · cases hs
      · exact absurd (hs.1 '/' (by simp)) (by decide)
  cases p with
  | ref r => exact absurd rfl (hr r)
  | path r => exact absurd (by rw [← h]; rfl) head
  | host g r => exact absurd (by rw [← h]; rfl) head
  | url o' r =>
    obtain ⟨rfl, e⟩ := url_text_inj hU hp.1 ho (resolve_valid (B := []) (by simp) hp.2)
      (resolve_valid (B := []) (by simp) hq) h
    exact ⟨r, rfl, e⟩

/-- Two sources have the same key exactly if they have the same normal form. -/
theorem key_iff {R p q : Written} (hR : R.Valid) (hp : p.Valid) (hq : q.Valid) (hRl : 2 ≤ R.text.length)
    (hpl : 2 ≤ p.text.length) (hql : 2 ≤ q.text.length) (cp : R.Clear p) (cq : R.Clear q) :
    ∃ k k', relative U R.text p.text = .ok k ∧ relative U R.text q.text = .ok k' ∧
      (k = k' ↔ p.norm.text = q.norm.text) := by
  have hkey : ∀ {p : Written}, p.Valid → 2 ≤ p.text.length → R.Clear p →
      (relative U R.text p.text = .ok p.norm.text ∧ ∀ o r, R = .url o r → (∀ x, p ≠ .ref x) ∧ ∀ x, p ≠ .url o x) ∨
      ∃ o r p', R = .url o r ∧ p = .url o p' ∧
        (resolve [] p').dirs ++ [(resolve [] p').file] ≠ (resolve [] r.asDir).dirs ∧ relative U R.text p.text =
        .ok (relativePath (resolve [] r.asDir).text (resolve [] p').text) := by
    intro p hp hpl cp
    have hpl' : 2 ≤ (p.text ++ Tail.text {}).length := by rw [no_tail]; exact hpl
    have hk : p.keptTail {} = [] := by cases p <;> rfl
    by_cases hs : ∃ o r p', R = .url o r ∧ p = .url o p'
    · obtain ⟨o, r, p', rfl, rfl⟩ := hs
      right
      have := relative_url hU (t := {}) hR.1 hR.2 hp.2 noTail_valid
      rw [no_tail] at this
      refine ⟨o, r, p', rfl, rfl, cp rfl, ?_⟩
      show relative U (o.text ++ '/' :: r.text) (o.text ++ '/' :: p'.text) = _
      rw [this]; simp [bare]
    · left
      have h : relative U R.text p.text = .ok p.norm.text := by
        rcases not_together (Clear.not_together cp) with h | h | h
        · have := C83_apart hU hR hp noTail_valid hRl hpl' (.inl h)
          rw [no_tail, hk, List.append_nil] at this
          exact this
        · have := C83_apart hU hR hp noTail_valid hRl hpl' (.inr h)
          rw [no_tail, hk, List.append_nil] at this
          exact this
        · exact absurd h hs
      refine ⟨h, ?_⟩
      rintro o r rfl
      refine ⟨?_, ?_⟩
      · rintro x rfl; exact cp
      · rintro x rfl; exact hs ⟨_, _, _, rfl, rfl⟩
  have hRd : ∀ {o r}, R = .url o r → (∀ s ∈ (resolve [] r.asDir).dirs, Name s) ∧
      (resolve [] r.asDir).text = Loc.text ⟨(resolve [] r.asDir).dirs, []⟩ := by
    rintro o r rfl
    refine ⟨(resolve_valid (B := []) (by simp) (Ref.asDir_valid hR.2)).1, ?_⟩
    have : (resolve [] r.asDir).file = [] := by simp [resolve, Ref.asDir, dot, dotdot]
    rw [← this]
  have href : ∀ {o r p'}, R = .url o r → Ref.Valid p' →
      ∃ z : Ref, z.Valid ∧ relativePath (resolve [] r.asDir).text (resolve [] p').text = z.text := by
    rintro o r p' rfl hv
    obtain ⟨z, z1, z2, _⟩ := C83_url hU (t := {}) hR.1 hR.2 hv noTail_valid
    have := Res.ok_inj (relative_url hU (t := {}) hR.1 hR.2 hv noTail_valid) z2
    exact ⟨z, z1, by simpa [bare] using this⟩
  have mixed : ∀ {p : Written} {o r q'}, p.Valid → R = .url o r → Ref.Valid q' →
      ((∀ x, p ≠ .ref x) ∧ ∀ x, p ≠ .url o x) →
      p.norm.text ≠ relativePath (resolve [] r.asDir).text (resolve [] q').text ∧
      p.norm.text ≠ (Written.url o q').norm.text := by
    rintro p o r q' hp rfl hq n
    refine ⟨?_, ?_⟩
    · obtain ⟨z, z1, z2⟩ := href rfl hq
      rw [z2]
      exact norm_not_ref hp n.1 z1
    · intro e
      obtain ⟨x, hx, _⟩ := norm_url_iff hU hR.1 hq hp n.1 e
      exact n.2 x hx
  rcases hkey hp hpl cp with ⟨k1, n1⟩ | ⟨o, r, p', e1, rfl, a1, k1⟩ <;>
    rcases hkey hq hql cq with ⟨k2, n2⟩ | ⟨o', r', q', e2, rfl, a2, k2⟩
  · exact ⟨_, _, k1, k2, Iff.rfl⟩
  · obtain ⟨m1, m2⟩ := mixed hp e2 hq.2 (n1 _ _ e2)
    exact ⟨_, _, k1, k2, fun h => absurd h m1, fun h => absurd h m2⟩
  · obtain ⟨m1, m2⟩ := mixed hq e1 hp.2 (n2 _ _ e1)
    exact ⟨_, _, k1, k2, fun h => absurd h.symm m1, fun h => absurd h.symm m2⟩
  · refine ⟨_, _, k1, k2, ?_⟩
    subst e1
    cases e2
    obtain ⟨d1, d2⟩ := hRd rfl
    have vp := resolve_valid (B := []) (by simp) hp.2
    have vq := resolve_valid (B := []) (by simp) hq.2
    rw [d2]
    constructor
    · intro h
      have := relativePath_inj d1 vp vq a1 a2 h
      simp only [Written.norm, this]
    · intro h
      rw [(url_text_inj hU hR.1 hR.1 vp vq h).2]

end

/-! ## Histories -/

/-- A source as it may be under the root, and how it is written. -/
def NamedBy (R : Written) (w : String → Written) (s : String) : Prop :=
  (w s).Valid ∧ 2 ≤ (w s).text.length ∧ s = String.ofList (w s).text ∧ R.Clear (w s)

theorem latestContent_key {k k' : String → String} {s : String} : ∀ {ops : List GOp},
    (∀ t v, GOp.setContent t v ∈ ops → (k t = k s ↔ k' t = k' s)) → latestContent k s ops = latestContent k' s ops := by
  intro ops h
  unfold latestContent
  generalize (none : Option String) = acc
  induction ops generalizing acc with
  | nil => rfl
  | cons op ops ih =>
    have ih := ih (fun t v hv => h t v (by simp [hv]))
    cases op with
    | add m => exact ih acc
    | asJson => exact ih acc
    | setContent t c =>
      simp only [List.foldl_cons, h t c (by simp)]
      exact ih _

/-- C63 for every kind of root: if no source is of the kind for which `relative` panics and, under a full URL, none is a
relative reference or the root itself written as a file, then all calls return and the contents emitted are those of the
latest call for each source, whichever way it was written in that call.
Missing: the excluded sources, see the refutations. -/
theorem C63_any_root_partial {U : UrlLib} (hU : U.Laws) (cfg : Cfg) {R : Written} (hR : R.Valid)
    (hRl : 2 ≤ R.text.length) (file : Option String) (skip : Bool) (ops : List GOp) (w : String → Written)
    (hc : ∀ t v, GOp.setContent t v ∈ ops → NamedBy R w t)
    (hs : ∀ m ∈ gAdded ops, ∀ s, m.source = some s → NamedBy R w s)
    (hval : ∀ m ∈ gAdded ops, m.Valid ∧ 1 ≤ m.generated.line) (hlen : (gAdded ops).length < 2147483648) :
    ∃ g j g', (Generator.new file (some (String.ofList R.text)) skip).run U cfg ops = .ok g ∧
      g.asJson U cfg = .ok (j, g') ∧
      ((∃ t v, GOp.setContent t v ∈ ops ∧ latestContent (fun s => String.ofList (w s).norm.text) t ops ≠ none) →
        j.sourcesContent = some ((firstOccurrences ((gAdded ops).filterMap Mapping.source)).filterMap
          fun s => latestContent (fun s => String.ofList (w s).norm.text) s ops)) ∧
      ((∀ t v, GOp.setContent t v ∈ ops → latestContent (fun s => String.ofList (w s).norm.text) t ops = none) →
        j.sourcesContent = none) := by
  obtain ⟨root, hroot⟩ : ∃ root, root = String.ofList R.text := ⟨_, rfl⟩
  rw [← hroot]
  have hkey : ∀ {s}, NamedBy R w s → Generator.contentKey U (some root) s = .ok (keyOf U root s) := by
    rintro s ⟨h1, h2, h3, h4⟩
    obtain ⟨k, _, hk, _⟩ := key_iff hU hR h1 h1 hRl h2 h2 h4 h4
    have : Generator.contentKey U (some root) s = .ok (String.ofList k) := by
      rw [h3, hroot]
      simp only [Generator.contentKey, relativeString, String.toList_ofList, hk, Res.ok_bind, Res.pure_eq]
    rw [keyOf, this]
  have hsame : ∀ {s t}, NamedBy R w s → NamedBy R w t →
      (keyOf U root t = keyOf U root s ↔ String.ofList (w t).norm.text = String.ofList (w s).norm.text) := by
    intro s t hs ht
    have e1 := hkey hs
    have e2 := hkey ht
    obtain ⟨h1, h2, h3, h4⟩ := hs
    obtain ⟨g1, g2, g3, g4⟩ := ht
    obtain ⟨k, k', hk, hk', h⟩ := key_iff hU hR g1 h1 hRl g2 h2 g4 h4
    rw [hroot] at e1 e2 ⊢
    generalize keyOf U (String.ofList R.text) s = x at *
    generalize keyOf U (String.ofList R.text) t = y at *
    rw [h3] at e1
    rw [g3] at e2
    simp only [Generator.contentKey, relativeString, String.toList_ofList, hk, hk', Res.ok_bind, Res.pure_eq,
      Except.ok.injEq] at e1 e2
    rw [← e1, ← e2]
    exact ⟨fun e => congrArg _ (h.1 (String.ofList_injective e)), fun e => congrArg _ (h.2 (String.ofList_injective e))⟩
  have k1 : ∀ t v, GOp.setContent t v ∈ ops → Generator.contentKey U (some root) t = .ok (keyOf U root t) :=
    fun t v ht => hkey (hc t v ht)
  have k2 : ∀ m ∈ gAdded ops, ∀ s, m.source = some s →
      Generator.contentKey U (some root) s = .ok (keyOf U root s) := fun m hm s hm' => hkey (hs m hm s hm')
  obtain ⟨hS, hN⟩ := tables_limit hlen
  obtain ⟨g, hg⟩ := gRun_total (U := U) (cfg := cfg) (file := file) (root := some root) (skip := skip)
    (keyOf U root) ops [] _ k1 k2 hval hS hN rfl
  obtain ⟨j, g', hj⟩ := asJson_total (keyOf U root) k2 hval hS hN hg
  obtain ⟨c1, c2⟩ := content_output (keyOf U root) k1 k2 hg hj
  have same : ∀ s, NamedBy R w s →
      latestContent (keyOf U root) s ops = latestContent (fun s => String.ofList (w s).norm.text) s ops :=
    fun s hn => latestContent_key fun t v ht => hsame hn (hc t v ht)
  refine ⟨g, j, g', hg, hj, ?_, ?_⟩
  · rintro ⟨t, v, ht, hne⟩
    rw [c1 ⟨t, by rw [same t (hc t v ht)]; exact hne⟩]
    congr 1
    apply List.filterMap_congr
    intro x hx
    rw [mem_firstOccurrences, List.mem_filterMap] at hx
    obtain ⟨m, hm, hx⟩ := hx
    exact same x (hs m hm x hx)
  · intro hnone
    apply c2
    intro s
    by_contra hne
    obtain ⟨t, v, ht, e⟩ := latestContent_mem hne
    have : latestContent (keyOf U root) s ops = latestContent (keyOf U root) t ops := by
      unfold latestContent; rw [e]
    rw [this, same t (hc t v ht)] at hne
    exact hne (hnone t v ht)

/-- C63 is false of the code: a history panics if it records content for a source of the same kind as the root, on the
same host and not both full URLs. -/
theorem C63_together_refuted {U : UrlLib} (hU : U.Laws) (cfg : Cfg) {R p : Written} {t : Tail} (hR : R.Valid)
    (hp : p.Valid) (ht : t.Valid) (hRl : 2 ≤ R.text.length) (hpl : 2 ≤ (p.text ++ t.text).length)
    (hT : R.Together p) (file : Option String) (skip : Bool) (ops : List GOp) (v : Option String)
    (h : GOp.setContent (String.ofList (p.text ++ t.text)) v ∈ ops) :
    ∃ e, (Generator.new file (some (String.ofList R.text)) skip).run U cfg ops = .error e := by
  have key : ∀ (ops : List GOp) (g : Generator), g.sourceRoot = some (String.ofList R.text) →
      GOp.setContent (String.ofList (p.text ++ t.text)) v ∈ ops → ∃ e, g.run U cfg ops = .error e := by
    intro ops
    induction ops with
    | nil => intro g _ h; simp at h
    | cons op ops ih =>
      intro g hg h
      rw [Generator.run]
      cases hs : g.step U cfg op with
      | error e => exact ⟨e, rfl⟩
      | ok g1 =>
        rcases List.mem_cons.1 h with h | h
        · subst h
          exact absurd hT ((C63_returns_iff hU hR hp ht hRl hpl hg v).1 ⟨g1, hs⟩)
        · refine ih g1 ?_ h
          rw [← hg]
          have h1 : g.run U cfg [op] = .ok g1 := by rw [Generator.run, hs]; rfl
          exact (gRun_ok _ _ _ h1).2.1
  exact key ops _ rfl h

/-- Under a full URL, a relative reference and the URL it would lead to get the same key. -/
theorem key_mixed {U : UrlLib} (hU : U.Laws) {o : Origin} {R : List Text} {f : Text} (ho : o.Valid)
    (hR : ∀ s ∈ R, Name s) (hf : Name f) (hl : 2 ≤ f.length) :
    Generator.contentKey U (some (String.ofList (o.text ++ Loc.text ⟨R, []⟩))) (String.ofList f) = .ok (String.ofList f) ∧
    Generator.contentKey U (some (String.ofList (o.text ++ Loc.text ⟨R, []⟩)))
      (String.ofList (o.text ++ Loc.text ⟨R, f⟩)) = .ok (String.ofList f) := by
  have hRv : Ref.Valid ⟨R, []⟩ := Loc.Valid.ref (l := ⟨R, []⟩) ⟨hR, .inl rfl⟩
  have hfv : Ref.Valid ⟨[], f⟩ := ⟨by simp, hf.1⟩
  have hnf : Ref.norm ⟨[], f⟩ = ⟨[], f⟩ := by
    simp [Ref.norm, Ref.climb, Ref.lastName, hf.2.2.1, hf.2.2.2]
  have h1 := C83_apart hU (R := .url o ⟨R, []⟩) (p := .ref ⟨[], f⟩) (t := {}) ⟨ho, hRv⟩
    ⟨hfv, hf.2.1⟩ noTail_valid url_long (by rw [no_tail]; exact hl) (.inl (by simp [kind]))
  have h2 := relative_url hU (o := o) (R := ⟨R, []⟩) (p := ⟨R, f⟩) (t := {}) ho hRv
    (Loc.Valid.ref (l := ⟨R, f⟩) ⟨hR, .inr hf⟩) noTail_valid
  rw [no_tail] at h1 h2
  have e1 : Ref.text ⟨[], f⟩ = f := rfl
  have e2 : resolve [] (Ref.asDir ⟨R, []⟩) = ⟨R, []⟩ := by
    simp [resolve, Ref.asDir, foldl_enter_names R [] (fun s hs => Name.ne_dot (hR s hs)), dot, dotdot]
  have e3 : resolve [] ⟨R, f⟩ = ⟨R, f⟩ := by
    simp [resolve, foldl_enter_names R [] (fun s hs => Name.ne_dot (hR s hs)), hf.2.2.1, hf.2.2.2]
  have e4 : relativePath (Loc.text ⟨R, []⟩) (Loc.text ⟨R, f⟩) = f := by
    rw [relativePath_eq hR (fun s hs => Plain.no_slash (hR s hs).1) (Plain.no_slash hf.1)]
    have := dropCommon_append R [f] []
    rw [List.append_nil] at this
    rw [this, dropCommon_nil]
    rfl
  rw [e2, e3, e4] at h2
  simp only [bare, Option.getD_none, List.append_nil] at h2
  have h1' : relative U (o.text ++ Loc.text ⟨R, []⟩) f = .ok f := by
    have : (Written.ref ⟨[], f⟩).norm.text ++ keptTail {} (.ref ⟨[], f⟩) = f := by
      simp only [Written.norm, hnf, keptTail, bare, Option.getD_none, List.append_nil]; rfl
    rw [this] at h1
    exact h1
  have h2' : relative U (o.text ++ Loc.text ⟨R, []⟩) (o.text ++ Loc.text ⟨R, f⟩) = .ok f := h2
  constructor <;> simp only [Generator.contentKey, relativeString, String.toList_ofList, h1', h2', Res.ok_bind,
    Res.pure_eq]

/-- C63 is false of the code: under a full URL, the content recorded for a relative reference is emitted as the content
of the URL it would lead to, for which none was recorded. -/
theorem C63_mixed_refuted {U : UrlLib} (hU : U.Laws) (cfg : Cfg) {o : Origin} {R : List Text} {f : Text} (ho : o.Valid)
    (hR : ∀ s ∈ R, Name s) (hf : Name f) (hl : 2 ≤ f.length) (file : Option String) (skip : Bool) (m : Mapping)
    (hm : m.Valid ∧ 1 ≤ m.generated.line) (hs : m.source = some (String.ofList (o.text ++ Loc.text ⟨R, f⟩))) (c : String) :
    ∃ g j g', (Generator.new file (some (String.ofList (o.text ++ Loc.text ⟨R, []⟩))) skip).run U cfg
        [.setContent (String.ofList f) (some c), .add m] = .ok g ∧ g.asJson U cfg = .ok (j, g') ∧
      j.sources = some [String.ofList (o.text ++ Loc.text ⟨R, f⟩)] ∧ j.sourcesContent = some [c] ∧
      latestContent id (String.ofList (o.text ++ Loc.text ⟨R, f⟩)) [.setContent (String.ofList f) (some c), .add m] =
        none := by
  obtain ⟨h1, h2⟩ := key_mixed hU ho hR hf hl
  generalize hroot : String.ofList (o.text ++ Loc.text ⟨R, []⟩) = root at *
  have hadd : gAdded [.setContent (String.ofList f) (some c), .add m] = [m] := rfl
  have k1 : ∀ t v, GOp.setContent t v ∈ [GOp.setContent (String.ofList f) (some c), .add m] →
      Generator.contentKey U (some root) t = .ok ((fun _ => String.ofList f) t) := by
    intro t v ht
    simp only [List.mem_cons, GOp.setContent.injEq, reduceCtorEq, List.not_mem_nil, or_false] at ht
    rw [ht.1]; exact h1
  have k2 : ∀ m' ∈ gAdded [GOp.setContent (String.ofList f) (some c), .add m], ∀ s, m'.source = some s →
      Generator.contentKey U (some root) s = .ok ((fun _ => String.ofList f) s) := by
    rw [hadd]
    intro m' hm' s hs'
    rw [List.mem_singleton.1 hm', hs] at hs'
    cases hs'
    exact h2
  have hval : ∀ m' ∈ gAdded [GOp.setContent (String.ofList f) (some c), .add m], m'.Valid ∧ 1 ≤ m'.generated.line := by
    rw [hadd]; intro m' hm'; rw [List.mem_singleton.1 hm']; exact hm
  obtain ⟨hS, hN⟩ := tables_limit (B := 2147483648) (ops := [GOp.setContent (String.ofList f) (some c), .add m])
    (by rw [hadd]; simp)
  obtain ⟨g, hg⟩ := gRun_total (U := U) (cfg := cfg) (file := file) (root := some root) (skip := skip)
    (fun _ => String.ofList f) _ [] _ k1 k2 hval hS hN rfl
  obtain ⟨j, g', hj⟩ := asJson_total (fun _ => String.ofList f) k2 hval hS hN hg
  obtain ⟨c1, _⟩ := content_output (fun _ => String.ofList f) k1 k2 hg hj
  refine ⟨g, j, g', hg, hj, ?_, ?_, ?_⟩
  · rw [(C16_generator_tables U cfg file _ skip _ g g' j hg hj).1, hadd]
    simp [hs, firstOccurrences]
  · rw [c1 ⟨"", by simp [latestContent]⟩, hadd]
    simp [hs, firstOccurrences, latestContent]
  · have : f ≠ o.text ++ Loc.text ⟨R, f⟩ := by
      intro e
      have := congrArg List.length e
      simp only [List.length_append, Loc.text, pathText, List.length_cons] at this
      omega
    have : ¬ String.ofList f = String.ofList (o.text ++ Loc.text ⟨R, f⟩) := fun e => this (String.ofList_injective e)
    exact if_neg this

example : ∃ g j g', (Generator.new none (some "http://h/lib/") false).run MiniUrl.lib ⟨true, true⟩
    [.setContent "one.js" (some "1"), .add { gxP with source := some "http://h/lib/one.js" }] = .ok g ∧
    g.asJson MiniUrl.lib ⟨true, true⟩ = .ok (j, g') ∧ j.sources = some ["http://h/lib/one.js"] ∧
    j.sourcesContent = some ["1"] := by
  obtain ⟨g, j, g', h1, h2, h3, h4, _⟩ := C63_mixed_refuted MiniUrl.laws ⟨true, true⟩
    (o := ⟨"http".toList, ⟨"h".toList, none⟩⟩) (R := ["lib".toList]) (f := "one.js".toList) xOrigin_valid.1 (by decide) (by decide)
    (by decide) none false { gxP with source := some "http://h/lib/one.js" }
    ⟨⟨by decide, by decide, rfl, by intro p hp; cases hp; decide⟩, by decide⟩ rfl "1"
  exact ⟨g, j, g', h1, h2, h3, h4⟩

/-- Query and fragment are run into the name, so that different sources share a place. -/
theorem C63_query_refuted :
    Generator.contentKey MiniUrl.lib (some "/lib") "a?b" = .ok "ab" ∧
    Generator.contentKey MiniUrl.lib (some "/lib") "ab" = .ok "ab" ∧
    Generator.contentKey MiniUrl.lib (some "http://h/lib") "http://h/lib/a?b" = .ok "ab" ∧
    Generator.contentKey MiniUrl.lib (some "http://h/lib") "http://h/lib/ab" = .ok "ab" := by
  decide +kernel

/-- The root itself, as a file and as a directory, also. -/
theorem C63_root_file_refuted :
    Generator.contentKey MiniUrl.lib (some "http://h/lib") "http://h/lib" = .ok "" ∧
    Generator.contentKey MiniUrl.lib (some "http://h/lib") "http://h/lib/" = .ok "" := by
  decide +kernel

/-- How the sources of the next example are written. -/
def keyExample (s : String) : Written :=
  if s = "src/../one.js" then .ref ⟨["src".toList, "..".toList], "one.js".toList⟩
  else if s = "./one.js" then .ref ⟨[".".toList], "one.js".toList⟩
  else .host ⟨"h".toList, none⟩ ⟨["lib".toList], "two.js".toList⟩

/-- Under a root that is a path: a source written in two ways, and one on another host. -/
example : ∃ g j g', (Generator.new none (some "/lib") false).run MiniUrl.lib ⟨true, true⟩
    [.add { gxP with source := some "src/../one.js" }, .setContent "./one.js" (some "1"),
      .add { gxR with source := some "//h/lib/two.js" }, .setContent "//h/lib/two.js" (some "2")] = .ok g ∧
    g.asJson MiniUrl.lib ⟨true, true⟩ = .ok (j, g') ∧ j.sourcesContent = some ["1", "2"] := by
  have u1 : NamedBy (.path ⟨[], "lib".toList⟩) keyExample "src/../one.js" :=
    ⟨⟨by decide, by decide⟩, by decide, by decide, by simp [keyExample, Clear, Together]⟩
  have u2 : NamedBy (.path ⟨[], "lib".toList⟩) keyExample "./one.js" :=
    ⟨⟨by decide, by decide⟩, by decide, by decide, by simp [keyExample, Clear, Together]⟩
  have u3 : NamedBy (.path ⟨[], "lib".toList⟩) keyExample "//h/lib/two.js" :=
    ⟨⟨by decide, by decide⟩, by decide, by decide, by simp [keyExample, Clear, Together]⟩
  obtain ⟨g, j, g', h1, h2, h3, _⟩ := C63_any_root_partial MiniUrl.laws ⟨true, true⟩ (R := .path ⟨[], "lib".toList⟩)
    (by show Ref.Valid _; decide) (by decide) none false
    [.add { gxP with source := some "src/../one.js" }, .setContent "./one.js" (some "1"),
      .add { gxR with source := some "//h/lib/two.js" }, .setContent "//h/lib/two.js" (some "2")] keyExample
    (by
      intro t v ht
      simp only [List.mem_cons, reduceCtorEq, List.not_mem_nil, or_false, false_or, GOp.setContent.injEq] at ht
      rcases ht with ⟨rfl, _⟩ | ⟨rfl, _⟩
      · exact u2
      · exact u3)
    (by
      intro m hm s hs
      simp only [gAdded, List.mem_cons, List.not_mem_nil, or_false] at hm
      rcases hm with rfl | rfl
      · cases hs; exact u1
      · cases hs; exact u3)
    (by
      intro m hm
      simp only [gAdded, List.mem_cons, List.not_mem_nil, or_false] at hm
      rcases hm with rfl | rfl
      · exact ⟨⟨by decide, by decide, rfl, by intro p hp; cases hp; decide⟩, by decide⟩
      · exact ⟨⟨by decide, by decide, rfl, by intro p hp; cases hp; decide⟩, by decide⟩)
    (by decide)
  refine ⟨g, j, g', h1, h2, ?_⟩
  rw [h3 ⟨"./one.js", some "1", by simp, by decide +kernel⟩]
  decide +kernel

example (c : Option String) : (∃ g, (Generator.new none (some "//h/lib") false).setSourceContent MiniUrl.lib
    "//h/lib/a.js" c = .ok g) ↔ ¬ Together (.host ⟨"h".toList, none⟩ ⟨[], "lib".toList⟩)
      (.host ⟨"h".toList, none⟩ ⟨["lib".toList], "a.js".toList⟩) :=
  C63_returns_iff MiniUrl.laws (R := .host ⟨"h".toList, none⟩ ⟨[], "lib".toList⟩)
    (p := .host ⟨"h".toList, none⟩ ⟨["lib".toList], "a.js".toList⟩) (t := {})
    ⟨by decide, by decide⟩ ⟨by decide, by decide⟩ noTail_valid (by decide)
    (by decide) rfl c

example (v : Option String) : ∃ e, (Generator.new none (some "//h/lib") false).run MiniUrl.lib ⟨true, true⟩
    [.add gxP, .setContent "//h/a.js" v] = .error e :=
  C63_together_refuted MiniUrl.laws ⟨true, true⟩ (R := .host ⟨"h".toList, none⟩ ⟨[], "lib".toList⟩)
    (p := .host ⟨"h".toList, none⟩ ⟨[], "a.js".toList⟩) (t := {})
    ⟨by decide, by decide⟩ ⟨by decide, by decide⟩ noTail_valid (by decide)
    (by decide) rfl none false _ v (by simp; decide)

end RSM
