import Mathlib.Data.List.Infix
import Mathlib.Data.List.Nodup
import Mathlib.Data.List.Perm.Subperm
import Verif.Model.Util
import Verif.Spec.Url
import Verif.Dep.Url
/-! # Lemmas about `src/util.rs` -/

namespace RSM
open Spec

/-! ## Texts -/

theorem splitChar_plain {c : Char} : ∀ {s : Text}, c ∉ s → splitChar c s = [s]
  | [], _ => rfl
  | a :: s, h => by
    have h1 : ¬ a = c := fun e => h (by simp [e])
    have h2 : c ∉ s := fun e => h (by simp [e])
    simp [splitChar, splitChar_plain h2, h1]

theorem splitChar_ne_nil (c : Char) : ∀ t : Text, splitChar c t ≠ []
  | [] => by simp [splitChar]
  | a :: s => by
    unfold splitChar
    split
    · simp
    · split <;> simp

theorem splitChar_cons {c : Char} : ∀ {s t : Text}, c ∉ s →
    splitChar c (s ++ c :: t) = s :: splitChar c t
  | [], t, _ => by
    have := splitChar_ne_nil c t
    simp only [List.nil_append, splitChar]
    cases h : splitChar c t with
    | nil => exact absurd h this
    | cons p ps => simp
  | a :: s, t, h => by
    have h1 : ¬ a = c := fun e => h (by simp [e])
    have h2 : c ∉ s := fun e => h (by simp [e])
    simp [splitChar, splitChar_cons h2, h1]

theorem pathText_cons (d : Text) (ds : List Text) (f : Text) :
    pathText (d :: ds) f = d ++ '/' :: pathText ds f := by simp [pathText]

theorem pathText_append (a b : List Text) (f : Text) :
    pathText (a ++ b) f = pathText a [] ++ pathText b f := by simp [pathText]

theorem splitChar_pathText : ∀ (dirs : List Text) (file : Text), (∀ s ∈ dirs, '/' ∉ s) → '/' ∉ file →
    splitChar '/' (pathText dirs file) = dirs ++ [file]
  | [], file, _, h => by simpa [pathText] using splitChar_plain h
  | d :: ds, file, hd, h => by
    rw [pathText_cons, splitChar_cons (hd d (by simp)),
      splitChar_pathText ds file (fun s hs => hd s (by simp [hs])) h]
    rfl

theorem joinSep_pathText : ∀ (dirs : List Text) (file : Text),
    joinSep ['/'] (dirs ++ [file]) = pathText dirs file
  | [], file => rfl
  | d :: ds, file => by
    have := joinSep_pathText ds file
    rw [pathText_cons, ← this]
    cases ds with
    | nil => simp [joinSep]
    | cons e es => simp [joinSep]

theorem joinSep_nil : ∀ ps : List Text, joinSep [] ps = ps.flatten
  | [] => rfl
  | [p] => by simp [joinSep]
  | p :: q :: ps => by
    have := joinSep_nil (q :: ps)
    simp only [joinSep, this]
    simp

theorem containsText_iff : ∀ (t s : Text), containsText t s = true ↔ s <:+: t
  | [], s => by simp [containsText, List.isPrefixOf_iff_prefix]
  | c :: t, s => by
    rw [containsText, Bool.or_eq_true, List.isPrefixOf_iff_prefix, containsText_iff t s, List.infix_cons_iff]

/-! ## The unique segment -/

theorem segmentName_inj {p : Text} {i j : Nat} (h : segmentName p i = segmentName p j) : i = j := by
  have h1 : Nat.toDigits 10 i = Nat.toDigits 10 j := List.append_cancel_left h
  have h2 := congrArg (fun l => Nat.ofDigitChars 10 l 0) h1
  simpa [Nat.ofDigitChars_ten_toDigits] using h2

/-- All infixes of a text. -/
def infixes (t : Text) : List Text := t.tails.flatMap List.inits

theorem mem_infixes {s t : Text} (h : s <:+: t) : s ∈ infixes t := by
  obtain ⟨a, b, rfl⟩ := h
  simp only [infixes, List.mem_flatMap, List.mem_tails, List.mem_inits]
  exact ⟨s ++ b, ⟨a, by simp⟩, ⟨b, rfl⟩⟩

theorem length_infixes (t : Text) : (infixes t).length ≤ (t.length + 1) * (t.length + 1) := by
  have : ∀ l : List Text, (∀ s ∈ l, s.length ≤ t.length) →
      (l.flatMap List.inits).length ≤ l.length * (t.length + 1) := by
    intro l
    induction l with
    | nil => simp
    | cons a l ih =>
      intro h
      have h1 := ih (fun s hs => h s (by simp [hs]))
      have h2 := h a (by simp)
      simp only [List.flatMap_cons, List.length_append, List.length_inits, List.length_cons]
      rw [Nat.add_mul]
      omega
  have h := this t.tails (by
    intro s hs
    exact ((List.mem_tails s t).1 hs).length_le)
  rwa [List.length_tails] at h

theorem exists_fresh (p t : Text) :
    ∃ i, i ≤ (t.length + 1) * (t.length + 1) ∧ ¬ segmentName p i <:+: t := by
  by_contra hcon
  have hall : ∀ i, i ≤ (t.length + 1) * (t.length + 1) → segmentName p i <:+: t := by
    intro i hi
    by_contra h
    exact hcon ⟨i, hi, h⟩
  have hnd : ((List.range ((t.length + 1) * (t.length + 1) + 1)).map (segmentName p)).Nodup :=
    (List.nodup_map_iff_inj_on List.nodup_range).2 (fun i _ j _ h => segmentName_inj h)
  have hsub : (List.range ((t.length + 1) * (t.length + 1) + 1)).map (segmentName p) ⊆ infixes t := by
    intro s hs
    obtain ⟨i, hi, rfl⟩ := List.mem_map.1 hs
    exact mem_infixes (hall i (by have := List.mem_range.1 hi; omega))
  have := (hnd.subperm hsub).length_le
  have h2 := length_infixes t
  simp at this
  omega

theorem uniqueLoop_spec (p t : Text) : ∀ fuel id,
    (∃ i, id ≤ i ∧ i ≤ id + fuel ∧ ¬ segmentName p i <:+: t) →
    ∃ i, id ≤ i ∧ uniqueLoop p t fuel id = segmentName p i ∧ ¬ segmentName p i <:+: t ∧
      ∀ j, id ≤ j → j < i → segmentName p j <:+: t
  | 0, id, ⟨i, h1, h2, h3⟩ => by
    have : i = id := by omega
    subst this
    exact ⟨i, h1, rfl, h3, fun j _ _ => by omega⟩
  | fuel + 1, id, ⟨i, h1, h2, h3⟩ => by
    by_cases h : segmentName p id <:+: t
    · have hne : i ≠ id := by rintro rfl; exact h3 h
      obtain ⟨i', a, b, c, d⟩ := uniqueLoop_spec p t fuel (id + 1) ⟨i, by omega, by omega, h3⟩
      refine ⟨i', by omega, ?_, c, ?_⟩
      · rw [uniqueLoop, (containsText_iff _ _).2 h]; simpa using b
      · intro j hj1 hj2
        by_cases e : j = id
        · subst e; exact h
        · exact d j (by omega) hj2
    · refine ⟨id, le_refl _, ?_, h, fun j _ _ => by omega⟩
      have : containsText t (segmentName p id) = false := by
        cases hc : containsText t (segmentName p id)
        · rfl
        · exact absurd ((containsText_iff _ _).1 hc) h
      rw [uniqueLoop, this]; simp

theorem buildUniqueSegment_spec (p t : Text) :
    ∃ i, buildUniqueSegment p t = segmentName p i ∧ ¬ segmentName p i <:+: t ∧
      ∀ j < i, segmentName p j <:+: t := by
  obtain ⟨i, h1, h2⟩ := exists_fresh p t
  obtain ⟨i', _, b, c, d⟩ := uniqueLoop_spec p t ((t.length + 1) * (t.length + 1)) 0 ⟨i, by omega, by omega, h2⟩
  exact ⟨i', b, c, fun j hj => d j (by omega) hj⟩

theorem plain_nil : Plain [] := by decide

theorem encodedWell_append : ∀ {s t : Text}, encodedWell s = true → encodedWell t = true → encodedWell (s ++ t) = true := by
  intro s
  induction s using encodedWell.induct with
  | case1 a b s ih =>
    intro t hs ht
    simp only [encodedWell, Bool.and_eq_true] at hs
    simp only [List.cons_append, encodedWell, Bool.and_eq_true]
    exact ⟨hs.1, ih hs.2 ht⟩
  | case2 c s hno ih =>
    intro t hs ht
    rw [encodedWell] at hs
    · simp only [Bool.and_eq_true, ne_eq, decide_not, Bool.not_eq_true', decide_eq_false_iff_not] at hs
      rw [List.cons_append, encodedWell]
      · simp [hs.1, ih hs.2 ht]
      · rintro a b u rfl _
        exact hs.1 rfl
    · exact hno
  | case3 => intro t _ ht; exact ht

theorem Plain.append {s t : Text} (hs : Plain s) (ht : Plain t) : Plain (s ++ t) :=
  ⟨fun c hc => (List.mem_append.1 hc).elim (hs.1 c) (ht.1 c), encodedWell_append hs.2 ht.2⟩

theorem Plain.flatten : ∀ {l : List Text}, (∀ s ∈ l, Plain s) → Plain l.flatten
  | [], _ => plain_nil
  | s :: l, h => by
    rw [List.flatten_cons]
    exact Plain.append (h s (by simp)) (Plain.flatten fun x hx => h x (by simp [hx]))

theorem encodedWell_of : ∀ {t : Text}, '%' ∉ t → encodedWell t = true := by
  intro t
  induction t with
  | nil => intro _; rfl
  | cons c t ih =>
    intro h
    have hc : c ≠ '%' := fun e => h (by simp [e])
    rw [encodedWell]
    · simp [hc, ih (fun e => h (by simp [e]))]
    · rintro a b u rfl _
      exact hc rfl

theorem plain_digit {c : Char} (h : c.isDigit = true) : plainChar c = true := by
  simp only [Char.isDigit, Bool.and_eq_true, decide_eq_true_eq] at h
  simp only [plainChar, Bool.or_eq_true, decide_eq_true_eq]
  refine .inl (.inl (.inl (.inl (.inl (.inr ⟨?_, ?_⟩)))))
  · exact h.1
  · exact h.2

theorem uniqueSegment_name (t : Text) : Name (buildUniqueSegment ['p'] t) := by
  obtain ⟨i, h, _⟩ := buildUniqueSegment_spec ['p'] t
  rw [h]
  refine ⟨?_, by simp [segmentName], by simp [segmentName, dot], by simp [segmentName, dotdot]⟩
  have hd : ∀ c ∈ segmentName ['p'] i, c = 'p' ∨ c.isDigit = true := by
    intro c hc
    simp only [segmentName, List.singleton_append, List.mem_cons] at hc
    exact hc.imp id fun hc => Nat.isDigit_of_mem_toDigits (by decide) (by decide) hc
  refine ⟨fun c hc => ?_, encodedWell_of fun hc => ?_⟩
  · rcases hd c hc with rfl | h
    · rfl
    · exact plain_digit h
  · rcases hd _ hc with h | h <;> revert h <;> decide

theorem uniqueSegment_fresh (t : Text) : ¬ buildUniqueSegment ['p'] t <:+: t := by
  obtain ⟨i, h, h2, _⟩ := buildUniqueSegment_spec ['p'] t
  rw [h]; exact h2

/-! ## Counting `..` -/

theorem countDotDot_cons (c : Char) : ∀ t : Text,
    countDotDot t ≤ countDotDot (c :: t) ∧ countDotDot (c :: t) ≤ countDotDot t + 1 := by
  intro t
  induction h : t.length using Nat.strong_induction_on generalizing c t with
  | _ n ih =>
    subst h
    match t with
    | [] =>
      by_cases hc : c = '.'
      · subst hc; decide
      · simp [countDotDot]
    | d :: s =>
      by_cases hc : c = '.' ∧ d = '.'
      · obtain ⟨rfl, rfl⟩ := hc
        have h1 := ih s.length (by simp) '.' s rfl
        have h2 : countDotDot ('.' :: '.' :: s) = countDotDot s + 1 := rfl
        omega
      · have : countDotDot (c :: d :: s) = countDotDot (d :: s) := by
          rw [countDotDot]
          intro s' h1 h2
          simp only [List.cons.injEq] at h2
          exact hc ⟨h1, h2.1⟩
        omega

theorem countDotDot_split (x y : Text) : countDotDot y + 1 ≤ countDotDot (x ++ dotdot ++ y) := by
  induction x with
  | nil => show _ ≤ countDotDot y + 1; exact le_refl _
  | cons c x ih => exact le_trans ih (countDotDot_cons c _).1

/-- Texts with `..` between them. -/
def dotted : List Text → Text
  | [] => []
  | [p] => p
  | p :: ps => p ++ dotdot ++ dotted ps

theorem countDotDot_le : ∀ ps : List Text, ps.length ≤ countDotDot (dotted ps) + 1
  | [] => by simp
  | [p] => by simp
  | p :: q :: ps => by
    have := countDotDot_le (q :: ps)
    have h2 := countDotDot_split p (dotted (q :: ps))
    simp only [dotted, List.length_cons] at *
    omega

theorem countDotDot_pieces : ∀ t : Text, ∃ p ps, t = dotted (p :: ps) ∧ ps.length = countDotDot t
  | [] => ⟨[], [], rfl, rfl⟩
  | ['.'] => ⟨['.'], [], rfl, rfl⟩
  | '.' :: '.' :: s => by
    obtain ⟨p, ps, h1, h2⟩ := countDotDot_pieces s
    refine ⟨[], p :: ps, ?_, ?_⟩
    · simp only [dotted, List.nil_append, ← h1]; rfl
    · simp [countDotDot, h2]
  | c :: s => by
    by_cases hd : ∃ s', c = '.' ∧ s = '.' :: s'
    · obtain ⟨s', rfl, rfl⟩ := hd
      obtain ⟨p, ps, h1, h2⟩ := countDotDot_pieces s'
      refine ⟨[], p :: ps, ?_, ?_⟩
      · simp only [dotted, List.nil_append, ← h1]; rfl
      · simp [countDotDot, h2]
    · obtain ⟨p, ps, h1, h2⟩ := countDotDot_pieces s
      refine ⟨c :: p, ps, ?_, ?_⟩
      · cases ps with
        | nil => rw [h1]; rfl
        | cons q qs => rw [h1]; rfl
      · rw [h2, countDotDot]
        intro s' h1 h2
        exact hd ⟨s', h1, h2⟩

theorem dotted_append : ∀ (ps qs : List Text) (p q : Text),
    ∃ rs, dotted (p :: ps) ++ dotted (q :: qs) = dotted rs ∧ rs.length = ps.length + qs.length + 1
  | [], [], p, q => ⟨[p ++ q], rfl, rfl⟩
  | [], r :: qs, p, q => ⟨(p ++ q) :: r :: qs, by simp [dotted], by simp⟩
  | r :: ps, qs, p, q => by
    obtain ⟨rs, h1, h2⟩ := dotted_append ps qs r q
    refine ⟨p :: rs, ?_, by simp; omega⟩
    cases rs with
    | nil => simp at h2
    | cons x xs =>
      have : dotted (p :: r :: ps) = p ++ dotdot ++ dotted (r :: ps) := rfl
      rw [this, List.append_assoc, h1]
      rfl

theorem countDotDot_append (x y : Text) : countDotDot x + countDotDot y ≤ countDotDot (x ++ y) := by
  obtain ⟨p, ps, h1, h2⟩ := countDotDot_pieces x
  obtain ⟨q, qs, h3, h4⟩ := countDotDot_pieces y
  obtain ⟨rs, h5, h6⟩ := dotted_append ps qs p q
  have := countDotDot_le rs
  rw [← h5, ← h1, ← h3] at this
  omega

theorem countDotDot_infix {x t : Text} (h : x <:+: t) : countDotDot x ≤ countDotDot t := by
  obtain ⟨a, b, rfl⟩ := h
  have h1 := countDotDot_append (a ++ x) b
  have h2 := countDotDot_append a x
  omega

/-! ## The safe base -/

/-- `http://host`. -/
def hostOrigin : Origin := ⟨['h', 't', 't', 'p'], ['h', 'o', 's', 't'], none⟩

theorem hostOrigin_valid : hostOrigin.Valid := by
  decide

theorem hostOrigin_web : ¬ Custom hostOrigin.scheme := by decide

theorem hostOrigin_not_local : ¬ Local hostOrigin.scheme := by decide

theorem hostOrigin_text : hostOrigin.text = protocolAndHost := rfl

/-- The directories of the safe base. -/
def safeDirs (input : Text) : List Text :=
  List.replicate (countDotDot input) (buildUniqueSegment ['p'] input)

theorem buildSafeBase_eq (input : Text) :
    buildSafeBase input = Addr.text ⟨hostOrigin, ⟨safeDirs input, []⟩, {}⟩ := by
  simp only [buildSafeBase, Addr.text, hostOrigin_text, Loc.text, pathText, safeDirs, Tail.text,
    Tail.queryText, Tail.fragmentText, List.append_nil, List.append_assoc]
  rw [List.flatMap, List.map_replicate]
  rfl

theorem safeDirs_name (input : Text) : ∀ s ∈ safeDirs input, Name s := by
  intro s hs
  rw [List.eq_of_mem_replicate hs]
  exact uniqueSegment_name input

/-! ## References and locations -/

namespace Spec

theorem Name.valid {s : Text} (h : Name s) : Plain s ∧ s ≠ [] := ⟨h.1, h.2.1⟩

theorem Plain.no_slash {t : Text} (h : Plain t) : '/' ∉ t := MiniUrl.Plain.not_mem h rfl

theorem Loc.Valid.ref {l : Loc} (h : l.Valid) : Ref.Valid ⟨l.dirs, l.file⟩ := MiniUrl.valid_ref h

theorem Ref.Valid.noSlash {r : Ref} (h : r.Valid) : (∀ s ∈ r.dirs, '/' ∉ s) ∧ '/' ∉ r.file :=
  ⟨fun s hs => Plain.no_slash (h.1 s hs).1, Plain.no_slash h.2⟩

theorem Name.ne_dot {s : Text} (h : Name s) : s ≠ dot ∧ s ≠ dotdot := ⟨h.2.2.1, h.2.2.2⟩

theorem foldl_enter_names : ∀ (ns d : List Text), (∀ s ∈ ns, s ≠ dot ∧ s ≠ dotdot) →
    ns.foldl enter d = d ++ ns
  | [], d, _ => by simp
  | n :: ns, d, h => by
    obtain ⟨h1, h2⟩ := h n (by simp)
    rw [List.foldl_cons, foldl_enter_names ns _ (fun s hs => h s (by simp [hs]))]
    simp [enter, h1, h2]

theorem resolve_names {d ns : List Text} {f : Text} (h : ∀ s ∈ ns, s ≠ dot ∧ s ≠ dotdot)
    (hf : f ≠ dot ∧ f ≠ dotdot) : resolve d ⟨ns, f⟩ = ⟨d ++ ns, f⟩ := by
  simp [resolve, foldl_enter_names ns d h, hf.1, hf.2]

theorem Loc.Valid.file_ne {l : Loc} (h : l.Valid) : l.file ≠ dot ∧ l.file ≠ dotdot := by
  rcases h.2 with h | h
  · rw [h]; exact ⟨by decide, by decide⟩
  · exact Name.ne_dot h

theorem resolve_loc {l : Loc} (h : l.Valid) : resolve [] ⟨l.dirs, l.file⟩ = l := by
  rw [resolve_names (fun s hs => Name.ne_dot (h.1 s hs)) (Loc.Valid.file_ne h)]
  rfl

/-- The segments of a reference that are names. -/
theorem Climb.enter_names {P : Text → Prop} {c : Climb} {s : Text} (hc : ∀ n ∈ c.names, P n)
    (hs : s ≠ dot → s ≠ dotdot → P s) : ∀ n ∈ (c.enter s).names, P n := by
  unfold Climb.enter
  split
  · exact hc
  · split
    · split
      · simp
      · intro n hn
        exact hc n (List.dropLast_subset _ hn)
    · next h1 h2 =>
      intro n hn
      rcases List.mem_append.1 hn with h | h
      · exact hc n h
      · rw [List.mem_singleton.1 h]; exact hs h1 h2

theorem foldl_climb_names {P : Text → Prop} : ∀ (ds : List Text) (c : Climb), (∀ n ∈ c.names, P n) →
    (∀ s ∈ ds, s ≠ dot → s ≠ dotdot → P s) → ∀ n ∈ (ds.foldl Climb.enter c).names, P n
  | [], _, hc, _ => hc
  | d :: ds, c, hc, h => foldl_climb_names ds (c.enter d) (Climb.enter_names hc (h d (by simp)))
      (fun s hs => h s (by simp [hs]))

theorem climb_names {P : Text → Prop} {r : Ref} (h : ∀ s ∈ r.dirs, s ≠ dot → s ≠ dotdot → P s) :
    ∀ n ∈ r.climb.names, P n := by
  have h1 := foldl_climb_names r.dirs ⟨0, []⟩ (by simp) h
  unfold Ref.climb
  dsimp only
  split
  · exact Climb.enter_names h1 (fun _ h => absurd rfl h)
  · exact h1

theorem climb_names_name {r : Ref} (hr : r.Valid) : ∀ n ∈ r.climb.names, Name n :=
  climb_names (fun s hs h1 h2 => ⟨(hr.1 s hs).1, (hr.1 s hs).2, h1, h2⟩)

theorem lastName_valid {r : Ref} (hr : r.Valid) : r.lastName = [] ∨ Name r.lastName := by
  unfold Ref.lastName
  split
  · exact .inl rfl
  · next h =>
    by_cases h0 : r.file = []
    · exact .inl h0
    · exact .inr ⟨hr.2, h0, fun e => h (.inl e), fun e => h (.inr e)⟩

/-- The directory reached from `B` by a climb. -/
def Climb.from_ (c : Climb) (B : List Text) : List Text := B.take (B.length - c.ups) ++ c.names

theorem Climb.enter_ups (c : Climb) (s : Text) : c.ups ≤ (c.enter s).ups := by
  unfold Climb.enter
  split
  · exact le_refl _
  · split
    · split
      · exact Nat.le_succ _
      · exact le_refl _
    · exact le_refl _

theorem Climb.foldl_ups : ∀ (ds : List Text) (c : Climb), c.ups ≤ (ds.foldl Climb.enter c).ups
  | [], _ => le_refl _
  | d :: ds, c => le_trans (c.enter_ups d) (Climb.foldl_ups ds (c.enter d))

/-- Following a segment. Above the root nothing more happens, so no bound is needed. -/
theorem Climb.from_enter (c : Climb) (B : List Text) (s : Text) :
    Spec.enter (c.from_ B) s = (c.enter s).from_ B := by
  unfold Climb.enter Spec.enter
  by_cases h1 : s = dot
  · simp [h1]
  · simp only [h1, if_false]
    by_cases h2 : s = dotdot
    · simp only [h2, if_true]
      by_cases h3 : c.names = []
      · simp only [h3, if_true, Climb.from_, List.append_nil]
        rw [List.dropLast_eq_take, List.take_take, List.length_take]
        congr 1
        omega
      · simp only [h3, if_false, Climb.from_]
        rw [List.dropLast_append_of_ne_nil h3]
    · simp [h2, Climb.from_]


theorem Climb.from_foldl (B : List Text) : ∀ (ds : List Text) (c : Climb),
    ds.foldl Spec.enter (c.from_ B) = (ds.foldl Climb.enter c).from_ B
  | [], _ => rfl
  | d :: ds, c => by
    rw [List.foldl_cons, List.foldl_cons, Climb.from_enter, Climb.from_foldl B ds]

/-- Resolution in terms of the climb. -/
theorem resolve_climb (B : List Text) (r : Ref) : resolve B r = ⟨r.climb.from_ B, r.lastName⟩ := by
  have h0 : B = (Climb.mk 0 []).from_ B := by simp [Climb.from_]
  have h1 := Climb.from_foldl B r.dirs ⟨0, []⟩
  rw [← h0] at h1
  unfold resolve Ref.climb Ref.lastName
  dsimp only
  by_cases h2 : r.file = dot
  · have h3 : ¬ dot = dotdot := by decide
    simp [h2, h3, h1]
  · by_cases h3 : r.file = dotdot
    · have h4 : ¬ dotdot = dot := by decide
      have h5 := Climb.from_enter (r.dirs.foldl Climb.enter ⟨0, []⟩) B dotdot
      simp only [Spec.enter, h4, if_false, if_true] at h5
      simp [h3, h4, h1, h5]
    · simp [h2, h3, h1]

theorem from_valid {B : List Text} (hB : ∀ s ∈ B, Name s) {r : Ref} (hr : r.Valid) :
    ∀ s ∈ r.climb.from_ B, Name s := by
  intro s hs
  rcases List.mem_append.1 hs with h | h
  · exact hB s (List.mem_of_mem_take h)
  · exact climb_names_name hr s h

theorem resolve_valid {B : List Text} (hB : ∀ s ∈ B, Name s) {r : Ref} (hr : r.Valid) :
    (resolve B r).Valid := by
  rw [resolve_climb]
  exact ⟨from_valid hB hr, lastName_valid hr⟩

theorem norm_valid {r : Ref} (hr : r.Valid) : r.norm.Valid := by
  constructor
  · intro s hs
    rcases List.mem_append.1 hs with h | h
    · rw [List.eq_of_mem_replicate h]; exact ⟨by decide, by decide⟩
    · exact (climb_names_name hr s h).valid
  · show Plain r.lastName
    rcases lastName_valid hr with h | h
    · rw [h]; exact plain_nil
    · exact h.1

/-- The steps up of a reference are `..` segments of it. -/
def dotdots (l : List Text) : Nat := l.countP (· = dotdot)

theorem Climb.enter_count (c : Climb) (s : Text) :
    (c.enter s).ups ≤ c.ups + dotdots [s] := by
  unfold Climb.enter
  by_cases h1 : s = dot
  · simp [h1]
  · by_cases h2 : s = dotdot
    · subst h2
      have : dotdots [dotdot] = 1 := by decide
      rw [this]
      simp only [h1, if_false, if_true]
      split <;> simp
    · simp [h1, h2]

theorem Climb.foldl_count : ∀ (ds : List Text) (c : Climb),
    (ds.foldl Climb.enter c).ups ≤ c.ups + dotdots ds
  | [], _ => by simp
  | d :: ds, c => by
    have h1 := Climb.foldl_count ds (c.enter d)
    have h2 := c.enter_count d
    have h3 : dotdots (d :: ds) = dotdots [d] + dotdots ds := by
      simp only [dotdots, List.countP_cons, List.countP_nil]; omega
    rw [List.foldl_cons]
    omega

theorem climb_count (r : Ref) : r.climb.ups ≤ dotdots (r.dirs ++ [r.file]) := by
  have h1 := Climb.foldl_count r.dirs ⟨0, []⟩
  have h2 := Climb.enter_count (r.dirs.foldl Climb.enter ⟨0, []⟩) dotdot
  have h3 : dotdots (r.dirs ++ [r.file]) = dotdots r.dirs + dotdots [r.file] := by
    simp [dotdots, List.countP_append]
  unfold Ref.climb
  dsimp only at *
  split
  · next h => rw [h3, h]; omega
  · rw [h3]; omega

theorem dotdots_text : ∀ (ds : List Text) (f : Text),
    dotdots (ds ++ [f]) ≤ countDotDot (pathText ds f)
  | [], f => by
    by_cases h : f = dotdot
    · subst h; decide
    · simp [dotdots, h]
  | d :: ds, f => by
    have h1 := dotdots_text ds f
    have h2 : dotdots (d :: ds ++ [f]) = dotdots [d] + dotdots (ds ++ [f]) := by
      simp only [dotdots, List.cons_append, List.countP_cons, List.countP_nil]; omega
    have h3 : dotdots [d] ≤ countDotDot d := by
      by_cases h : d = dotdot
      · subst h; decide
      · simp [dotdots, h]
    rw [h2, pathText_cons]
    have h4 := countDotDot_append d ('/' :: pathText ds f)
    have h5 := (countDotDot_cons '/' (pathText ds f)).1
    omega

/-- There are at least as many `..` in the text as steps up. -/
theorem climb_le (r : Ref) : r.climb.ups ≤ countDotDot r.text :=
  le_trans (climb_count r) (dotdots_text r.dirs r.file)

theorem mem_infix {ds : List Text} {f s : Text} (h : s ∈ ds ∨ s = f) : s <:+: pathText ds f := by
  induction ds with
  | nil =>
    rcases h with h | h
    · cases h
    · subst h; exact ⟨[], [], by simp [pathText]⟩
  | cons d ds ih =>
    rw [pathText_cons]
    have : s = d ∨ s <:+: pathText ds f := by
      rcases h with h | h
      · rcases List.mem_cons.1 h with h | h
        · exact .inl h
        · exact .inr (ih (.inl h))
      · exact .inr (ih (.inr h))
    rcases this with h | ⟨a, b, h⟩
    · subst h; exact ⟨[], '/' :: pathText ds f, by simp⟩
    · exact ⟨d ++ '/' :: a, b, by simp [← h]⟩

end Spec

/-! ## The relative path -/

theorem dropCommon_append (c t r : List Text) : dropCommon (c ++ t) (c ++ r) = dropCommon t r := by
  induction c with
  | nil => rfl
  | cons a c ih => simp [dropCommon, ih]

theorem dropCommon_nil (t : List Text) : dropCommon t [] = (t, []) := by
  cases t <;> simp [dropCommon]

theorem dropCommon_ne {t r : List Text} (h : t.head? ≠ r.head?) : dropCommon t r = (t, r) := by
  cases t with
  | nil => simp [dropCommon]
  | cons a t =>
    cases r with
    | nil => simp [dropCommon]
    | cons b r =>
      have : ¬ a = b := by rintro rfl; exact h rfl
      simp [dropCommon, this]

/-- The common parts dropped are a common prefix, and the rests start differently or one is empty. -/
theorem dropCommon_spec : ∀ t r : List Text, ∃ c, t = c ++ (dropCommon t r).1 ∧ r = c ++ (dropCommon t r).2 ∧
    ((dropCommon t r).1 = [] ∨ (dropCommon t r).2 = [] ∨
      (dropCommon t r).1.head? ≠ (dropCommon t r).2.head?)
  | [], r => ⟨[], by simp [dropCommon]⟩
  | a :: t, [] => ⟨[], by simp [dropCommon]⟩
  | a :: t, b :: r => by
    by_cases h : a = b
    · subst h
      obtain ⟨c, h1, h2, h3⟩ := dropCommon_spec t r
      refine ⟨a :: c, ?_⟩
      simp only [dropCommon, if_true, List.cons_append]
      exact ⟨congrArg _ h1, congrArg _ h2, h3⟩
    · refine ⟨[], ?_⟩
      simp [dropCommon, h]

/-- The relative path from a directory, in terms of segments. -/
theorem relativePath_eq {B d : List Text} {f : Text} (hB : ∀ s ∈ B, Name s) (hd : ∀ s ∈ d, '/' ∉ s)
    (hf : '/' ∉ f) :
    relativePath (Loc.text ⟨B, []⟩) (Loc.text ⟨d, f⟩) =
      joinSep ['/'] ((dropCommon (d ++ [f]) B).2.map (fun _ => dotdot) ++ (dropCommon (d ++ [f]) B).1) := by
  have h1 : splitChar '/' (Loc.text ⟨B, []⟩) = [] :: (B ++ [[]]) := by
    have := splitChar_pathText ([] :: B) [] (by
      intro s hs
      rcases List.mem_cons.1 hs with h | h
      · subst h; simp
      · exact Plain.no_slash (hB s h).1) (by simp)
    simpa [Loc.text, pathText_cons] using this
  have h2 : splitChar '/' (Loc.text ⟨d, f⟩) = [] :: (d ++ [f]) := by
    have := splitChar_pathText ([] :: d) f (by
      intro s hs
      rcases List.mem_cons.1 hs with h | h
      · subst h; simp
      · exact hd s h) hf
    simpa [Loc.text, pathText_cons] using this
  simp only [relativePath, h1, h2]
  have h3 : ([] :: (B ++ [[]]) : List Text).getLast? = some [] := by
    have : ([] :: (B ++ [[]]) : List Text) = ([] :: B) ++ [[]] := rfl
    rw [this, List.getLast?_append]; rfl
  have h4 : ([] :: (B ++ [[]]) : List Text).dropLast = [] :: B := by
    have : ([] :: (B ++ [[]]) : List Text) = ([] :: B) ++ [[]] := rfl
    rw [this, List.dropLast_concat]
  rw [if_pos h3, h4]
  simp only [dropCommon, if_true]
  rfl

/-- The relative path from the directory a reference was resolved in gives its normal form, if the
first name is not the segment left last. -/
theorem relativePath_resolve {B : List Text} {r : Ref} (hB : ∀ s ∈ B, Name s) (hr : r.Valid)
    (hup : r.climb.ups ≤ B.length) (hfresh : ∀ s ∈ B, s ∉ r.dirs ∧ s ≠ r.file) :
    relativePath (Loc.text ⟨B, []⟩) (resolve B r).text = r.norm.text := by
  have hv := resolve_valid hB hr
  rw [resolve_climb] at hv ⊢
  rw [relativePath_eq hB (fun s hs => Plain.no_slash (hv.1 s hs).1)
    (by rcases hv.2 with h | h
        · dsimp only at h; rw [h]; simp
        · exact Plain.no_slash h.1)]
  have h1 : dropCommon (r.climb.from_ B ++ [r.lastName]) B =
      (r.climb.names ++ [r.lastName], B.drop (B.length - r.climb.ups)) := by
    have h2 : dropCommon (r.climb.from_ B ++ [r.lastName]) B =
        dropCommon (B.take (B.length - r.climb.ups) ++ (r.climb.names ++ [r.lastName]))
          (B.take (B.length - r.climb.ups) ++ B.drop (B.length - r.climb.ups)) := by
      rw [List.take_append_drop]
      simp [Climb.from_]
    rw [h2, dropCommon_append]
    cases h3 : B.drop (B.length - r.climb.ups) with
    | nil => exact dropCommon_nil _
    | cons b bs =>
      apply dropCommon_ne
      have hb : b ∈ B := List.mem_of_mem_drop (by rw [h3]; simp : b ∈ B.drop (B.length - r.climb.ups))
      have hf := hfresh b hb
      cases h4 : r.climb.names with
      | nil =>
        simp only [List.nil_append, List.head?_cons]
        intro h5
        have h6 : r.lastName = b := Option.some.inj h5
        unfold Ref.lastName at h6
        split at h6
        · exact (hB b hb).2.1 h6.symm
        · exact hf.2 h6.symm
      | cons n ns =>
        simp only [List.cons_append, List.head?_cons]
        intro h5
        have h6 : n = b := Option.some.inj h5
        have h7 : n ∈ r.dirs := climb_names (P := fun n => n ∈ r.dirs) (fun s hs _ _ => hs) n (by rw [h4]; simp)
        exact hf.1 (h6 ▸ h7)
  rw [h1]
  have h5 : (B.drop (B.length - r.climb.ups)).map (fun _ => dotdot) = List.replicate r.climb.ups dotdot := by
    rw [List.map_const', List.length_drop]
    congr 1
    omega
  rw [h5, ← List.append_assoc, joinSep_pathText]
  rfl

end RSM
