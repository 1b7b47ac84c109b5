import Verif.Model.Url
import Verif.Spec.Url
/-! # Contract of the `url` crate

What the proofs assume about `url` 2.2.2: how `Url::parse`, `Url::join` and `Url::set_path` act on plain
`http` and `https` URLs, plain `file` URLs without host, plain URLs with a scheme that the URL standard does not know
(`webpack:///a.js`), and plain references. Nothing is assumed about other URLs, except that text without a colon, or starting with a slash, is no URL by
itself.
-/

namespace RSM
open Spec

/-- The URL value stands for this address. -/
structure UrlLib.At (U : UrlLib) (u : U.Url) (a : Addr) : Prop where
  str : U.asStr u = a.text
  scheme : U.scheme u = a.origin.scheme
  host : U.host u = a.origin.host.shown
  username : U.username u = []
  password : U.password u = none
  port : U.port u = a.origin.host.port
  path : U.path u = a.loc.text
  query : U.query u = a.tail.query
  fragment : U.fragment u = a.tail.fragment

structure UrlLib.Laws (U : UrlLib) : Prop where
  /-- An origin followed by a path, in which dot segments are removed. -/
  parse_path : ∀ (o : Origin) (r : Ref) (t : Tail), o.Valid → r.Valid → t.Valid →
    ∃ u, U.parse (o.text ++ '/' :: r.text ++ t.text) = some u ∧ U.At u ⟨o, resolve [] r, t⟩
  /-- An `http` origin alone has the path `/`. -/
  parse_origin : ∀ o : Origin, o.Valid → ¬ Custom o.scheme → ∃ u, U.parse o.text = some u ∧ U.At u ⟨o, ⟨[], []⟩, {}⟩
  /-- `RelativeUrlWithoutBase`. -/
  parse_no_colon : ∀ t : Text, ':' ∉ t → U.parse t = none
  /-- `RelativeUrlWithoutBase`. -/
  parse_slash : ∀ t : Text, U.parse ('/' :: t) = none
  /-- A relative reference. -/
  join_ref : ∀ (u : U.Url) (a : Addr) (r : Ref) (t : Tail), U.At u a → a.Valid → r.Valid → t.Valid →
    r.text ≠ [] → ∃ v, U.join u (r.text ++ t.text) = some v ∧ U.At v ⟨a.origin, resolve a.loc.dirs r, t⟩
  /-- The empty reference: the same document, without fragment. -/
  join_empty : ∀ (u : U.Url) (a : Addr), U.At u a → a.Valid →
    ∃ v, U.join u [] = some v ∧ U.At v ⟨a.origin, a.loc, ⟨a.tail.query, none⟩⟩
  /-- An absolute path. -/
  join_path : ∀ (u : U.Url) (a : Addr) (r : Ref) (t : Tail), U.At u a → a.Valid → r.Valid → t.Valid →
    ∃ v, U.join u ('/' :: r.text ++ t.text) = some v ∧ U.At v ⟨a.origin, resolve [] r, t⟩
  /-- Host and path. With `file`, `localhost` would be dropped and a port rejected. -/
  join_host : ∀ (u : U.Url) (a : Addr) (h : Host) (r : Ref) (t : Tail), U.At u a → a.Valid →
    ¬ Local a.origin.scheme → h.Valid → r.Valid → t.Valid →
    ∃ v, U.join u (['/', '/'] ++ h.text ++ '/' :: r.text ++ t.text) = some v ∧
      U.At v ⟨⟨a.origin.scheme, h⟩, resolve [] r, t⟩
  /-- A whole URL. -/
  join_url : ∀ (u : U.Url) (a : Addr) (o : Origin) (r : Ref) (t : Tail), U.At u a → a.Valid → o.Valid →
    r.Valid → t.Valid →
    ∃ v, U.join u (o.text ++ '/' :: r.text ++ t.text) = some v ∧ U.At v ⟨o, resolve [] r, t⟩
  /-- `set_path`, with or without the leading slash. -/
  setPath_slash : ∀ (u : U.Url) (a : Addr) (r : Ref), U.At u a → a.Valid → r.Valid →
    U.At (U.setPath u ('/' :: r.text)) ⟨a.origin, resolve [] r, a.tail⟩
  setPath_ref : ∀ (u : U.Url) (a : Addr) (r : Ref), U.At u a → a.Valid → r.Valid →
    (r.text ≠ [] ∨ ¬ Custom a.origin.scheme) →
    U.At (U.setPath u r.text) ⟨a.origin, resolve [] r, a.tail⟩
  /-- With other schemes than `http` and `file` an empty path stays empty. -/
  setPath_bare : ∀ (u : U.Url) (o : Origin) (l : Loc), U.At u ⟨o, l, {}⟩ → o.Valid → l.Valid → Custom o.scheme →
    U.asStr (U.setPath u []) = o.text
  join_bare : ∀ (u : U.Url) (a : Addr) (o : Origin), U.At u a → a.Valid → o.Valid → Custom o.scheme →
    ∃ v, U.join u o.text = some v ∧ U.path v = [] ∧
      ∀ r : Ref, r.Valid → U.At (U.setPath v ('/' :: r.text)) ⟨o, resolve [] r, {}⟩

/-- Characters that URLs contain only in encoded form are encoded. -/
structure UrlLib.Encodes (U : UrlLib) : Prop where
  parse : ∀ t : Text, Raw t → U.parse t = U.parse (encode t)
  join : ∀ (u : U.Url) (t : Text), Raw t → U.join u t = U.join u (encode t)

/-! ## An instance

A small URL parser, to show that the contract can be met, and to run examples. -/

namespace MiniUrl

/-- Split at the first `c`: what is before, and what is after it if there is one. -/
def cut (c : Char) : Text → Text × Option Text
  | [] => ([], none)
  | a :: s => if a = c then ([], some s) else ((a :: (cut c s).1), (cut c s).2)

/-- The segments of a path. -/
def segments : Text → List Text × Text
  | [] => ([], [])
  | a :: s =>
    if a = '/' then ([] :: (segments s).1, (segments s).2)
    else match segments s with
      | ([], f) => ([], a :: f)
      | (d :: ds, f) => ((a :: d) :: ds, f)

def readRef (t : Text) : Ref := ⟨(segments t).1, (segments t).2⟩

/-- Path, query and fragment. -/
def readTail (t : Text) : Text × Tail :=
  let (t, f) := cut '#' t
  let (t, q) := cut '?' t
  (t, ⟨q, f⟩)

def dropSlash : Text → Text
  | '/' :: t => t
  | t => t

def authChar (c : Char) : Bool := hostChar c || c = ':'

/-- Host and port. -/
def readAuthority (t : Text) : Host := ⟨(cut ':' t).1, (cut ':' t).2.map fun d => Nat.ofDigitChars 10 d 0⟩

/-- What follows the scheme and two slashes. -/
def readHost (scheme t : Text) : Addr :=
  let h := t.takeWhile authChar
  let (p, tail) := readTail (t.dropWhile authChar)
  ⟨⟨scheme, readAuthority h⟩, resolve [] (readRef (dropSlash p)), tail⟩

def parse (t : Text) : Option Addr :=
  match cut ':' t with
  | (scheme, some ('/' :: '/' :: rest)) =>
    if Web scheme ∨ Local scheme ∨ Custom scheme then some (readHost scheme rest)
    else none
  | _ => none

def join (u : Addr) (t : Text) : Option Addr :=
  match parse t with
  | some v => some v
  | none =>
    match t with
    | [] => some ⟨u.origin, u.loc, ⟨u.tail.query, none⟩⟩
    | '/' :: '/' :: rest => some (readHost u.origin.scheme rest)
    | '/' :: rest =>
      let (p, tail) := readTail rest
      some ⟨u.origin, resolve [] (readRef p), tail⟩
    | t =>
      let (p, tail) := readTail t
      some ⟨u.origin, resolve (readRef (dropSlash u.loc.text)).dirs (readRef p), tail⟩

/-- An origin with a scheme of its own, and nothing after it. -/
def bareOf (t : Text) : Option Origin :=
  match cut ':' t with
  | (scheme, some ('/' :: '/' :: rest)) =>
    if Custom scheme ∧ rest.all authChar then some ⟨scheme, readAuthority rest⟩ else none
  | _ => none

def whole : Addr ⊕ Origin → Addr
  | .inl a => a
  | .inr o => ⟨o, ⟨[], []⟩, {}⟩

def setPath (u : Addr ⊕ Origin) (p : Text) : Addr ⊕ Origin :=
  if p = [] ∧ Custom (whole u).origin.scheme then .inr (whole u).origin
  else .inl ⟨(whole u).origin, resolve [] (readRef (dropSlash p)), (whole u).tail⟩

/-- Addresses, and origins with an empty path; without encoding. -/
abbrev lib₀ : UrlLib where
  Url := Addr ⊕ Origin
  parse t := match bareOf t with
    | some o => some (.inr o)
    | none => (parse t).map .inl
  join u t := match bareOf t with
    | some o => some (.inr o)
    | none => (join (whole u) t).map .inl
  scheme u := (whole u).origin.scheme
  username _ := []
  password _ := none
  host u := (whole u).origin.host.shown
  port u := (whole u).origin.host.port
  path u := match u with | .inl a => a.loc.text | .inr _ => []
  query u := (whole u).tail.query
  fragment u := (whole u).tail.fragment
  setPath := setPath
  asStr u := match u with | .inl a => a.text | .inr o => o.text

theorem plain_ne {c d : Char} (h : plainChar c = true) (hd : plainChar d = false) : c ≠ d := by
  rintro rfl; rw [h] at hd; cases hd

theorem host_ne {c d : Char} (h : hostChar c = true) (hd : hostChar d = false) : c ≠ d := by
  rintro rfl; rw [h] at hd; cases hd

theorem cut_none {c : Char} : ∀ {t : Text}, c ∉ t → cut c t = (t, none)
  | [], _ => rfl
  | a :: s, h => by
    have h1 : ¬ a = c := fun e => h (by simp [e])
    have h2 : c ∉ s := fun e => h (by simp [e])
    simp [cut, h1, cut_none h2]

theorem cut_some {c : Char} : ∀ {t s : Text}, c ∉ t → cut c (t ++ c :: s) = (t, some s)
  | [], _, _ => by simp [cut]
  | a :: t, s, h => by
    have h1 : ¬ a = c := fun e => h (by simp [e])
    have h2 : c ∉ t := fun e => h (by simp [e])
    simp [cut, h1, cut_some h2]

theorem Plain.not_mem {t : Text} (h : Plain t) {d : Char} (hd : plainChar d = false) : d ∉ t :=
  fun hm => by rw [h.1 d hm] at hd; cases hd

theorem segments_plain : ∀ {s : Text}, '/' ∉ s → segments s = ([], s)
  | [], _ => rfl
  | a :: s, h => by
    have h1 : ¬ a = '/' := fun e => h (by simp [e])
    have h2 : '/' ∉ s := fun e => h (by simp [e])
    simp [segments, h1, segments_plain h2]

theorem segments_cons : ∀ {s t : Text}, '/' ∉ s →
    segments (s ++ '/' :: t) = (s :: (segments t).1, (segments t).2)
  | [], _, _ => by simp [segments]
  | a :: s, t, h => by
    have h1 : ¬ a = '/' := fun e => h (by simp [e])
    have h2 : '/' ∉ s := fun e => h (by simp [e])
    simp [segments, h1, segments_cons h2]

theorem segments_text : ∀ (dirs : List Text) (file : Text), (∀ s ∈ dirs, '/' ∉ s) → '/' ∉ file →
    segments (pathText dirs file) = (dirs, file)
  | [], file, _, h => by simpa [pathText] using segments_plain h
  | d :: ds, file, hd, h => by
    have := segments_text ds file (fun s hs => hd s (by simp [hs])) h
    have h2 := segments_cons (t := pathText ds file) (hd d (by simp))
    have h3 : pathText (d :: ds) file = d ++ '/' :: pathText ds file := by simp [pathText]
    rw [h3, h2, this]

theorem readRef_text {r : Ref} (h : r.Valid) : readRef r.text = r := by
  have := segments_text r.dirs r.file (fun s hs => Plain.not_mem (h.1 s hs).1 rfl) (Plain.not_mem h.2 rfl)
  simp only [readRef, Ref.text, this]

theorem mem_pathText {c : Char} {dirs : List Text} {file : Text} (h : c ∈ pathText dirs file) :
    c = '/' ∨ (∃ s ∈ dirs, c ∈ s) ∨ c ∈ file := by
  simp only [pathText, List.mem_append, List.mem_flatMap, List.mem_singleton] at h
  rcases h with ⟨s, hs, h | h⟩ | h
  · exact .inr (.inl ⟨s, hs, h⟩)
  · exact .inl h
  · exact .inr (.inr h)

theorem Ref.Valid.not_mem {r : Ref} (h : r.Valid) {d : Char} (hd : plainChar d = false) (hs : d ≠ '/') :
    d ∉ r.text := by
  intro hm
  rcases mem_pathText hm with h' | ⟨s, hs', h'⟩ | h'
  · exact hs h'
  · exact Plain.not_mem (h.1 s hs').1 hd h'
  · exact Plain.not_mem h.2 hd h'

theorem readTail_eq {p : Text} {t : Tail} (h1 : '#' ∉ p) (h2 : '?' ∉ p) (ht : t.Valid) :
    readTail (p ++ t.text) = (p, t) := by
  obtain ⟨q, f⟩ := t
  have hq : ∀ x, q = some x → '#' ∉ x := fun x hx => Plain.not_mem (ht.1 x (by simp [hx])) rfl
  have a1 : cut '#' (p ++ Tail.text ⟨q, f⟩) = (p ++ Tail.queryText ⟨q, f⟩, f) := by
    have hn : '#' ∉ p ++ Tail.queryText ⟨q, f⟩ := by
      cases q with
      | none => simpa [Tail.queryText] using h1
      | some x => simp [Tail.queryText, h1, hq x rfl]
    cases f with
    | none => simpa [Tail.text, Tail.fragmentText] using cut_none hn
    | some y =>
      have := cut_some (s := y) hn
      simpa [Tail.text, Tail.fragmentText, List.append_assoc] using this
  have a2 : cut '?' (p ++ Tail.queryText ⟨q, f⟩) = (p, q) := by
    cases q with
    | none => simpa [Tail.queryText] using cut_none h2
    | some x => simpa [Tail.queryText] using cut_some h2
  simp only [readTail, a1, a2]

theorem takeWhile_host {h s : Text} (hh : ∀ c ∈ h, authChar c = true)
    (hs : ∀ c ∈ s.head?, authChar c = false) :
    (h ++ s).takeWhile authChar = h ∧ (h ++ s).dropWhile authChar = s := by
  induction h with
  | nil =>
    cases s with
    | nil => simp
    | cons a s => simp [hs a (by simp)]
  | cons a h ih =>
    have := ih (fun c hc => hh c (by simp [hc]))
    simp [hh a (by simp), this.1, this.2]

theorem digit_host {c : Char} (h : c.isDigit = true) : hostChar c = true := by
  simp only [Char.isDigit, Bool.and_eq_true, decide_eq_true_eq] at h
  unfold hostChar
  simp only [Bool.or_eq_true, decide_eq_true_eq]
  exact .inl (.inl (.inr ⟨h.1, h.2⟩))

theorem host_chars {h : Host} (hh : ∀ c ∈ h.name, hostChar c = true) : ∀ c ∈ h.text, authChar c = true := by
  obtain ⟨n, p⟩ := h
  intro c hc
  simp only [Host.text, Host.portText, List.mem_append] at hc
  rcases hc with hc | hc
  · simp [authChar, hh c hc]
  · cases p with
    | none => cases hc
    | some p =>
      rcases List.mem_cons.1 hc with rfl | hc
      · rfl
      · simp [authChar, digit_host (Nat.isDigit_of_mem_toDigits (by decide) (by decide) hc)]

theorem readAuthority_text {h : Host} (hh : ∀ c ∈ h.name, hostChar c = true) : readAuthority h.text = h := by
  obtain ⟨n, p⟩ := h
  have hc : ':' ∉ n := fun hm => absurd (hh _ hm) (by decide)
  cases p with
  | none => simp only [readAuthority, Host.text, Host.portText, List.append_nil, cut_none hc, Option.map_none]
  | some p =>
    simp only [readAuthority, Host.text, Host.portText, cut_some hc, Option.map_some, Nat.ofDigitChars_ten_toDigits]

theorem Origin.chars {o : Origin} (ho : o.Valid) : ∀ c ∈ o.host.name, hostChar c = true := by
  rcases ho.2 with ⟨h, _⟩ | ⟨_, h⟩
  · exact h.1
  · rw [h]; intro c hc; cases hc

theorem scheme_no_colon {o : Origin} (ho : o.Valid) : ':' ∉ o.scheme := by
  intro hm
  rcases ho.1 with (h | h) | h | h
  · rw [h] at hm; revert hm; decide
  · rw [h] at hm; revert hm; decide
  · rw [h] at hm; revert hm; decide
  · exact absurd (h.1 _ hm) (by decide)

theorem readHost_eq {s : Text} {h : Host} {r : Ref} {t : Tail} (hh : ∀ c ∈ h.name, hostChar c = true) (hr : r.Valid)
    (ht : t.Valid) : readHost s (h.text ++ '/' :: r.text ++ t.text) = ⟨⟨s, h⟩, resolve [] r, t⟩ := by
  have h1 := takeWhile_host (s := '/' :: r.text ++ t.text) (host_chars hh) (by simp; decide)
  have h2 := readTail_eq (p := '/' :: r.text) (t := t)
    (by simp [Ref.Valid.not_mem hr (d := '#') rfl (by decide)])
    (by simp [Ref.Valid.not_mem hr (d := '?') rfl (by decide)]) ht
  have h3 : h.text ++ '/' :: r.text ++ t.text = h.text ++ ('/' :: r.text ++ t.text) := by simp
  rw [h3]
  simp only [readHost, h1.1, h1.2, h2, dropSlash, readRef_text hr, readAuthority_text hh]

theorem parse_url {o : Origin} {r : Ref} {t : Tail} (ho : o.Valid) (hr : r.Valid) (ht : t.Valid) :
    parse (o.text ++ '/' :: r.text ++ t.text) = some ⟨o, resolve [] r, t⟩ := by
  obtain ⟨s, h⟩ := o
  have h1 := cut_some (s := '/' :: '/' :: (h.text ++ '/' :: r.text ++ t.text)) (scheme_no_colon ho)
  have h2 : Origin.text ⟨s, h⟩ ++ '/' :: r.text ++ t.text =
      s ++ ':' :: '/' :: '/' :: (h.text ++ '/' :: r.text ++ t.text) := by simp [Origin.text]
  rw [h2]
  simp only [parse, h1]
  rw [if_pos ho.1, readHost_eq (Origin.chars ho) hr ht]

theorem parse_none_of_cut {t : Text} (h : (cut ':' t).2 = none) : parse t = none := by
  unfold parse
  split
  · next h' => rw [h'] at h; cases h
  · rfl

theorem parse_no_colon {t : Text} (h : ':' ∉ t) : parse t = none :=
  parse_none_of_cut (by rw [cut_none h])

theorem parse_slash (t : Text) : parse ('/' :: t) = none := by
  unfold parse
  split
  · next scheme rest h' =>
    simp only [cut, show ¬ ('/' = ':') by decide, if_false, Prod.mk.injEq] at h'
    have : scheme = '/' :: (cut ':' t).1 := h'.1.symm
    rw [if_neg]
    rw [this]
    rintro (h | h | h)
    · simp [Web] at h
    · simp [Local] at h
    · exact absurd (h.1 '/' (by simp)) (by decide)
  · rfl

theorem at_self (a : Addr) : UrlLib.At lib₀ (.inl a) a := ⟨rfl, rfl, rfl, rfl, rfl, rfl, rfl, rfl, rfl⟩

theorem shown_inj {n n' : Text} {p p' : Option Nat} (h : Host.shown ⟨n, p⟩ = Host.shown ⟨n', p'⟩) : n = n' := by
  unfold Host.shown at h
  by_cases e1 : n = [] <;> by_cases e2 : n' = [] <;> simp_all

theorem at_eq {u : Addr ⊕ Origin} {a : Addr} (h : UrlLib.At lib₀ u a) :
    ∃ b, u = .inl b ∧ b.origin = a.origin ∧ b.loc.text = a.loc.text ∧ b.tail = a.tail := by
  cases u with
  | inr o =>
    have h4 := h.path
    dsimp only [lib₀] at h4
    cases h4
  | inl u =>
    refine ⟨u, rfl, ?_⟩
    obtain ⟨⟨s, ⟨n', p'⟩⟩, l, ⟨q, f⟩⟩ := u
    obtain ⟨⟨s2, ⟨n2, p2⟩⟩, l2, ⟨q2, f2⟩⟩ := a
    have h1 := h.scheme; have h3 := h.host; have h4 := h.path; have h5 := h.query; have h6 := h.fragment
    have h7 := h.port
    dsimp only [lib₀, whole] at h1 h3 h4 h5 h6 h7
    have h8 : n' = n2 := shown_inj h3
    clear h3
    subst h1 h8 h5 h6 h7
    exact ⟨rfl, h4, rfl⟩

theorem at_mk {u a : Addr} (h1 : u.origin = a.origin) (h2 : u.loc.text = a.loc.text) (h3 : u.tail = a.tail) :
    UrlLib.At lib₀ (.inl u) a := by
  refine ⟨?_, ?_, ?_, rfl, rfl, ?_, h2, ?_, ?_⟩ <;> dsimp only [lib₀, whole]
  · simp only [Addr.text, h1, h2, h3]
  · rw [h1]
  · rw [h1]
  · rw [h1]
  · rw [h3]
  · rw [h3]

theorem bareOf_none_of {t : Text} (h : (cut ':' t).2 = none) : bareOf t = none := by
  unfold bareOf
  split
  · next h' => rw [h'] at h; cases h
  · rfl

theorem bareOf_slash (t : Text) : bareOf ('/' :: t) = none := by
  unfold bareOf
  split
  · next scheme rest h' =>
    simp only [cut, show ¬ ('/' = ':') by decide, if_false, Prod.mk.injEq] at h'
    have : scheme = '/' :: (cut ':' t).1 := h'.1.symm
    rw [if_neg]
    rw [this]
    rintro ⟨h, _⟩
    exact absurd (h.1 '/' (by simp)) (by decide)
  · rfl

theorem bareOf_url {o : Origin} (ho : o.Valid) (t : Text) : bareOf (o.text ++ '/' :: t) = none := by
  obtain ⟨s, h⟩ := o
  have h1 := cut_some (s := '/' :: '/' :: (h.text ++ '/' :: t)) (scheme_no_colon ho)
  have h2 : Origin.text ⟨s, h⟩ ++ '/' :: t = s ++ ':' :: '/' :: '/' :: (h.text ++ '/' :: t) := by simp [Origin.text]
  rw [h2]
  simp only [bareOf, h1]
  rw [if_neg]
  rintro ⟨_, h⟩
  simp only [List.all_append, List.all_cons, Bool.and_eq_true] at h
  exact absurd h.2.1 (by decide)

theorem bareOf_known {o : Origin} (ho : o.Valid) (hw : ¬ Custom o.scheme) : bareOf o.text = none := by
  obtain ⟨s, h⟩ := o
  have h1 := cut_some (s := '/' :: '/' :: h.text) (scheme_no_colon ho)
  have h2 : Origin.text ⟨s, h⟩ = s ++ ':' :: '/' :: '/' :: h.text := by simp [Origin.text]
  rw [h2]
  simp only [bareOf, h1]
  rw [if_neg]
  rintro ⟨h, _⟩
  exact hw h

theorem bareOf_custom {o : Origin} (ho : o.Valid) (hw : Custom o.scheme) : bareOf o.text = some o := by
  have h1 := cut_some (s := '/' :: '/' :: o.host.text) (scheme_no_colon ho)
  have h2 : Origin.text o = o.scheme ++ ':' :: '/' :: '/' :: o.host.text := by simp [Origin.text]
  rw [h2]
  simp only [bareOf, h1]
  rw [if_pos ⟨hw, by simpa using host_chars (Origin.chars ho)⟩, readAuthority_text (Origin.chars ho)]

theorem lib_parse {t : Text} {a : Addr} (h1 : bareOf t = none) (h2 : parse t = some a) : lib₀.parse t = some (.inl a) := by
  simp only [lib₀, h1, h2, Option.map_some]

theorem lib_join {u : Addr ⊕ Origin} {t : Text} {a : Addr} (h1 : bareOf t = none) (h2 : join (whole u) t = some a) :
    lib₀.join u t = some (.inl a) := by
  simp only [lib₀, h1, h2, Option.map_some]

theorem valid_ref {l : Loc} (h : l.Valid) : Ref.Valid ⟨l.dirs, l.file⟩ := by
  refine ⟨fun s hs => ⟨(h.1 s hs).1, (h.1 s hs).2.1⟩, ?_⟩
  rcases h.2 with h | h
  · dsimp only; rw [h]; decide
  · exact h.1

theorem base_dirs {u a : Addr} (h : u.loc.text = a.loc.text) (ha : a.Valid) :
    (readRef (dropSlash u.loc.text)).dirs = a.loc.dirs := by
  rw [h]
  have := readRef_text (valid_ref ha.2.1)
  exact congrArg Ref.dirs this

theorem head_ref {r : Ref} (hr : r.Valid) (hne : r.text ≠ []) :
    ∃ c s, r.text = c :: s ∧ plainChar c = true := by
  obtain ⟨ds, f⟩ := r
  cases ds with
  | nil =>
    cases f with
    | nil => exact absurd rfl hne
    | cons c s => exact ⟨c, s, rfl, hr.2.1 c (by simp)⟩
  | cons d ds =>
    obtain ⟨h1, h2⟩ := hr.1 d (by simp)
    cases d with
    | nil => exact absurd rfl h2
    | cons c s => exact ⟨c, _, rfl, h1.1 c (by simp)⟩

theorem tail_no_colon {t : Tail} (ht : t.Valid) : ':' ∉ t.text := by
  obtain ⟨q, f⟩ := t
  intro hm
  simp only [Tail.text, List.mem_append] at hm
  rcases hm with hm | hm
  · cases q with
    | none => simp [Tail.queryText] at hm
    | some x =>
      simp [Tail.queryText] at hm
      exact Plain.not_mem (ht.1 x (by simp)) rfl hm
  · cases f with
    | none => simp [Tail.fragmentText] at hm
    | some x =>
      simp [Tail.fragmentText] at hm
      exact Plain.not_mem (ht.2 x (by simp)) rfl hm

theorem tail_head {t : Tail} {c : Char} (h : t.text.head? = some c) : c = '?' ∨ c = '#' := by
  obtain ⟨q, f⟩ := t
  cases q <;> cases f <;> simp [Tail.text, Tail.queryText, Tail.fragmentText] at h <;> simp [← h]

theorem join_relative {u : Addr} {t : Text} {c : Char} {s : Text} (ht : t = c :: s) (hc : c ≠ '/')
    (hn : parse t = none) :
    join u t = some ⟨u.origin, resolve (readRef (dropSlash u.loc.text)).dirs (readRef (readTail t).1), (readTail t).2⟩ := by
  subst ht
  unfold join
  rw [hn]
  dsimp only
  split
  · next h => cases h
  · next h => cases h; exact absurd rfl hc
  · next h => cases h; exact absurd rfl hc
  · rfl

theorem laws₀ : UrlLib.Laws lib₀ where
  parse_path o r t ho hr ht := ⟨_, lib_parse (by
    rw [List.append_assoc, List.cons_append]; exact bareOf_url ho _) (parse_url ho hr ht), at_self _⟩
  parse_origin o ho hw := by
    have hb := bareOf_known ho hw
    obtain ⟨s, h⟩ := o
    have h1 := cut_some (s := '/' :: '/' :: h.text) (scheme_no_colon ho)
    have h2 : Origin.text ⟨s, h⟩ = s ++ ':' :: '/' :: '/' :: h.text := by simp [Origin.text]
    have h3 := takeWhile_host (s := []) (host_chars (Origin.chars ho)) (by simp)
    rw [List.append_nil] at h3
    refine ⟨.inl ⟨⟨s, h⟩, ⟨[], []⟩, {}⟩, lib_parse hb ?_, at_self _⟩
    rw [h2]
    simp only [parse, h1]
    rw [if_pos ho.1]
    dsimp only at h3
    have h4 := readAuthority_text (Origin.chars ho)
    dsimp only at h4
    simp only [readHost, h3.1, h3.2, h4]
    rfl
  parse_no_colon t h := by
    simp only [lib₀, bareOf_none_of (by rw [cut_none h]), parse_no_colon h, Option.map_none]
  parse_slash t := by simp only [lib₀, bareOf_slash, parse_slash, Option.map_none]
  join_ref u a r t hu ha hr ht hne := by
    obtain ⟨c, s, hcs, hc⟩ := head_ref hr hne
    have h0 : r.text ++ t.text = c :: (s ++ t.text) := by rw [hcs]; rfl
    have hcol : ':' ∉ r.text ++ t.text := by
      simp [Ref.Valid.not_mem hr (d := ':') rfl (by decide), tail_no_colon ht]
    have hn : parse (r.text ++ t.text) = none := parse_no_colon hcol
    obtain ⟨b, rfl, e1, e2, e3⟩ := at_eq hu
    have h1 := join_relative (u := b) h0 (plain_ne hc rfl) hn
    have h2 := readTail_eq (p := r.text) (t := t) (Ref.Valid.not_mem hr rfl (by decide))
      (Ref.Valid.not_mem hr rfl (by decide)) ht
    refine ⟨_, lib_join (bareOf_none_of (by rw [cut_none hcol])) h1, at_mk e1 ?_ ?_⟩
    · dsimp only; rw [h2, base_dirs e2 ha, readRef_text hr]
    · dsimp only; rw [h2]
  join_empty u a hu ha := by
    obtain ⟨b, rfl, e1, e2, e3⟩ := at_eq hu
    refine ⟨_, lib_join rfl rfl, at_mk e1 e2 ?_⟩
    dsimp only [whole]; rw [e3]
  join_path u a r t hu ha hr ht := by
    obtain ⟨u, rfl, e1, e2, e3⟩ := at_eq hu
    have h2 := readTail_eq (p := r.text) (t := t) (Ref.Valid.not_mem hr rfl (by decide))
      (Ref.Valid.not_mem hr rfl (by decide)) ht
    have h3 : join u ('/' :: r.text ++ t.text) =
        some ⟨u.origin, resolve [] (readRef (readTail (r.text ++ t.text)).1), (readTail (r.text ++ t.text)).2⟩ := by
      unfold join
      rw [List.cons_append, parse_slash]
      dsimp only
      split
      · next h => cases h
      · next rest h =>
        exfalso
        simp only [List.cons.injEq, true_and] at h
        by_cases hne : r.text = []
        · rw [hne, List.nil_append] at h
          have := tail_head (c := '/') (t := t) (by rw [h]; rfl)
          revert this; decide
        · obtain ⟨c, s, hcs, hc⟩ := head_ref hr hne
          rw [hcs] at h
          simp only [List.cons_append, List.cons.injEq] at h
          exact plain_ne hc (d := '/') rfl h.1
      · next h => cases h; rfl
      · next h => exact (h _ rfl).elim
    refine ⟨_, lib_join (by rw [List.cons_append]; exact bareOf_slash _) h3, at_mk e1 ?_ ?_⟩
    · dsimp only; rw [h2, readRef_text hr]
    · dsimp only; rw [h2]
  join_host u a h r t hu ha hf ho hr ht := by
    obtain ⟨u, rfl, e1, e2, e3⟩ := at_eq hu
    refine ⟨.inl (readHost u.origin.scheme (h.text ++ '/' :: r.text ++ t.text)), lib_join ?_ ?_, ?_⟩
    · simp only [List.cons_append]
      exact bareOf_slash _
    · show join u _ = _
      have : ['/', '/'] ++ h.text ++ '/' :: r.text ++ t.text = '/' :: '/' :: (h.text ++ '/' :: r.text ++ t.text) := by
        simp
      rw [this]
      unfold join
      rw [parse_slash]
      rfl
    · rw [readHost_eq ho.1 hr ht, e1]
      exact at_self _
  join_url u a o r t hu ha ho hr ht := by
    refine ⟨_, lib_join ?_ ?_, at_self _⟩
    · rw [List.append_assoc, List.cons_append]; exact bareOf_url ho _
    unfold join
    rw [parse_url ho hr ht]
  setPath_slash u a r hu ha hr := by
    obtain ⟨u, rfl, e1, e2, e3⟩ := at_eq hu
    show UrlLib.At lib₀ (setPath (.inl u) ('/' :: r.text)) _
    rw [setPath, if_neg (by simp)]
    refine at_mk e1 ?_ e3
    dsimp only
    rw [dropSlash, readRef_text hr]
  setPath_ref u a r hu ha hr hw := by
    obtain ⟨u, rfl, e1, e2, e3⟩ := at_eq hu
    show UrlLib.At lib₀ (setPath _ _) _
    rw [setPath, if_neg (by
      rintro ⟨h1, h2⟩
      rw [whole, e1] at h2
      rcases hw with h | h
      · exact h h1
      · exact h h2)]
    refine at_mk e1 ?_ e3
    dsimp only
    have : dropSlash r.text = r.text := by
      by_cases hne : r.text = []
      · rw [hne]; rfl
      · obtain ⟨c, s, hcs, hc⟩ := head_ref hr hne
        rw [hcs]
        unfold dropSlash
        split
        · next h => cases h; exact absurd hc (by decide)
        · rfl
    rw [this, readRef_text hr]
  setPath_bare u o l hu ho hl hc := by
    obtain ⟨u, rfl, e1, e2, e3⟩ := at_eq hu
    show lib₀.asStr (setPath _ _) = _
    rw [setPath, if_pos ⟨rfl, by rw [whole, e1]; exact hc⟩, whole, e1]
  join_bare u a o hu ha ho hc := by
    refine ⟨.inr o, by simp only [lib₀, bareOf_custom ho hc], rfl, fun r hr => ?_⟩
    show UrlLib.At lib₀ (setPath (.inr o) ('/' :: r.text)) _
    rw [setPath, if_neg (by simp), dropSlash, readRef_text hr]
    exact at_self _

/-- The same with encoding. -/
abbrev lib : UrlLib :=
  { lib₀ with
    parse := fun t => lib₀.parse (encode t)
    join := fun u t => lib₀.join u (encode t) }

theorem encode_nil : encode [] = [] := rfl

theorem encode_append (s t : Text) : encode (s ++ t) = encode s ++ encode t := by simp [encode]

theorem encode_cons (c : Char) (t : Text) : encode (c :: t) = encodeChar c ++ encode t := by simp [encode]

theorem encodeChar_of {c : Char} (h : rawChar c = false) : encodeChar c = [c] := by simp [encodeChar, h]

theorem encode_of : ∀ {t : Text}, (∀ c ∈ t, rawChar c = false) → encode t = t
  | [], _ => rfl
  | c :: t, h => by
    rw [encode_cons, encodeChar_of (h c (by simp)), encode_of (fun x hx => h x (by simp [hx]))]
    rfl

theorem hexDigit_mem (n : Nat) : hexDigit n ∈ "0123456789ABCDEF".toList := by
  by_cases h : n < 16
  · have : ∀ m : Fin 16, hexDigit m.1 ∈ "0123456789ABCDEF".toList := by decide
    exact this ⟨n, h⟩
  · have : hexDigit n = '0' := by
      unfold hexDigit
      rw [List.getD_eq_getElem?_getD, List.getElem?_eq_none (by simp; omega)]
      rfl
    rw [this]
    decide

/-- What raw characters become. -/
theorem encodeChar_mem {c d : Char} (hr : rawChar c = true) (h : d ∈ encodeChar c) :
    d = '%' ∨ d ∈ "0123456789ABCDEF".toList := by
  simp only [encodeChar, hr, if_true, List.mem_flatMap, encodeByte, List.mem_cons, List.not_mem_nil, or_false] at h
  obtain ⟨b, _, rfl | rfl | rfl⟩ := h
  · exact .inl rfl
  · exact .inr (hexDigit_mem _)
  · exact .inr (hexDigit_mem _)

theorem encodeChar_raw {c : Char} (hr : rawChar c = true) : ∃ s, encodeChar c = '%' :: s := by
  simp only [encodeChar, hr, if_true]
  cases h : String.utf8EncodeChar c with
  | nil => exact absurd h String.utf8EncodeChar_ne_nil
  | cons b l => exact ⟨_, rfl⟩

/-- Encoding leaves no raw character. -/
theorem encode_clean {t : Text} : ∀ c ∈ encode t, rawChar c = false := by
  intro c hc
  obtain ⟨d, _, hd⟩ := List.mem_flatMap.1 hc
  by_cases hr : rawChar d = true
  · rcases encodeChar_mem hr hd with rfl | h
    · decide
    · have : ∀ x ∈ "0123456789ABCDEF".toList, rawChar x = false := by decide
      exact this c h
  · rw [Bool.not_eq_true] at hr
    rw [encodeChar_of hr, List.mem_singleton] at hd
    rw [hd]; exact hr

theorem encode_encode (t : Text) : encode (encode t) = encode t := encode_of encode_clean

theorem mem_encode {c : Char} {t : Text} (hp : c ≠ '%') (hh : c ∉ "0123456789ABCDEF".toList) (h : c ∈ encode t) : c ∈ t := by
  obtain ⟨d, hd, hc⟩ := List.mem_flatMap.1 h
  by_cases hr : rawChar d = true
  · rcases encodeChar_mem hr hc with h | h
    · exact absurd h hp
    · exact absurd h hh
  · rw [Bool.not_eq_true] at hr
    rw [encodeChar_of hr, List.mem_singleton] at hc
    rw [hc]; exact hd

theorem plain_ascii {c : Char} (h : plainChar c = true) : c.toNat < 128 := by
  simp only [plainChar, Bool.or_eq_true, decide_eq_true_eq, Char.le_def, UInt32.le_iff_toNat_le, List.mem_cons,
    List.not_mem_nil, or_false] at h
  have hz : 'z'.val.toNat = 122 := rfl
  have hZ : 'Z'.val.toNat = 90 := rfl
  have h9 : '9'.val.toNat = 57 := rfl
  show c.val.toNat < 128
  rcases h with (((((((h | h) | h) | h) | h) | h) | h) | h)
  · omega
  · omega
  · omega
  all_goals first
    | (subst h; decide)
    | (rcases h with h | h | h | h | h | h | h | h | h | h | h | h | h | h <;> subst h <;> decide)

theorem plain_not_raw {c : Char} (h : plainChar c = true) : rawChar c = false := by
  have key : ∀ n : Fin 128, plainChar (Char.ofNat n.1) = true → rawChar (Char.ofNat n.1) = false := by decide +kernel
  have := key ⟨c.toNat, plain_ascii h⟩
  rw [Char.ofNat_toNat] at this
  exact this h

/-- No character to be encoded. -/
def Clean (t : Text) : Prop := ∀ c ∈ t, rawChar c = false

theorem Clean.append {s t : Text} (hs : Clean s) (ht : Clean t) : Clean (s ++ t) :=
  fun c hc => (List.mem_append.1 hc).elim (hs c) (ht c)

theorem Clean.cons {c : Char} {t : Text} (hc : rawChar c = false) (ht : Clean t) : Clean (c :: t) := by
  intro d hd
  rcases List.mem_cons.1 hd with rfl | hd
  · exact hc
  · exact ht d hd

theorem Plain.clean {t : Text} (h : Plain t) : Clean t := fun c hc => plain_not_raw (h.1 c hc)

theorem Ref.Valid.clean {r : Ref} (h : r.Valid) : Clean r.text := by
  intro c hc
  rcases mem_pathText hc with rfl | ⟨s, hs, h'⟩ | h'
  · decide
  · exact Plain.clean (h.1 s hs).1 c h'
  · exact Plain.clean h.2 c h'

theorem Tail.Valid.clean {t : Tail} (h : t.Valid) : Clean t.text := by
  obtain ⟨q, f⟩ := t
  refine Clean.append ?_ ?_
  · cases q with
    | none => exact fun c hc => by cases hc
    | some x => exact Clean.cons (by decide) (Plain.clean (h.1 x (by simp)))
  · cases f with
    | none => exact fun c hc => by cases hc
    | some x => exact Clean.cons (by decide) (Plain.clean (h.2 x (by simp)))

theorem host_plain {c : Char} (h : hostChar c = true) : plainChar c = true := by
  simp only [hostChar, Bool.or_eq_true, decide_eq_true_eq] at h
  simp only [plainChar, Bool.or_eq_true, decide_eq_true_eq]
  rcases h with ((h | h) | h) | h <;> simp [h]

theorem scheme_plain {c : Char} (h : schemeChar c = true) : plainChar c = true := by
  simp only [schemeChar, Bool.or_eq_true, decide_eq_true_eq] at h
  simp only [plainChar, Bool.or_eq_true, decide_eq_true_eq]
  rcases h with (((h | h) | h) | h) | h <;> simp [h]

theorem digit_plain {c : Char} (h : c.isDigit = true) : plainChar c = true := by
  simp only [Char.isDigit, Bool.and_eq_true, decide_eq_true_eq] at h
  have h1 : '0' ≤ c := h.1
  have h2 : c ≤ '9' := h.2
  simp [plainChar, h1, h2]

theorem Host.clean {h : Host} (hc : ∀ c ∈ h.name, hostChar c = true) : Clean h.text := by
  refine Clean.append (fun c hm => plain_not_raw (host_plain (hc c hm))) ?_
  unfold Host.portText
  cases h.port with
  | none => exact fun c hc => by cases hc
  | some n =>
    exact Clean.cons (by decide) fun c hm =>
      plain_not_raw (digit_plain (Nat.isDigit_of_mem_toDigits (by decide) (by decide) hm))

theorem Origin.Valid.clean {o : Origin} (h : o.Valid) : Clean o.text := by
  refine Clean.append (Clean.append ?_ (by unfold Clean; decide)) (Host.clean ?_)
  · rcases h.1 with h | h | h
    · rcases h with h | h <;> (rw [h]; unfold Clean; decide)
    · rw [h]; unfold Clean; decide
    · exact fun c hc => plain_not_raw (scheme_plain (h.1 c hc))
  · rcases h.2 with h | h
    · exact h.1.1
    · rw [h.2]; intro c hc; cases hc

theorem at_lib {u : Addr ⊕ Origin} {a : Addr} : UrlLib.At lib u a ↔ UrlLib.At lib₀ u a :=
  ⟨fun h => ⟨h.1, h.2, h.3, h.4, h.5, h.6, h.7, h.8, h.9⟩, fun h => ⟨h.1, h.2, h.3, h.4, h.5, h.6, h.7, h.8, h.9⟩⟩

theorem lib_parse_clean {t : Text} (h : Clean t) : lib.parse t = lib₀.parse t := by
  show lib₀.parse (encode t) = _
  rw [encode_of h]

theorem lib_join_clean {u : Addr ⊕ Origin} {t : Text} (h : Clean t) : lib.join u t = lib₀.join u t := by
  show lib₀.join u (encode t) = _
  rw [encode_of h]

theorem laws : UrlLib.Laws lib where
  parse_path o r t ho hr ht := by
    rw [lib_parse_clean (((Origin.Valid.clean ho).append (Clean.cons (by decide) (Ref.Valid.clean hr))).append
      (Tail.Valid.clean ht))]
    obtain ⟨u, h1, h2⟩ := laws₀.parse_path o r t ho hr ht
    exact ⟨u, h1, at_lib.2 h2⟩
  parse_origin o ho hw := by
    rw [lib_parse_clean (Origin.Valid.clean ho)]
    obtain ⟨u, h1, h2⟩ := laws₀.parse_origin o ho hw
    exact ⟨u, h1, at_lib.2 h2⟩
  parse_no_colon t h := laws₀.parse_no_colon _ fun hm => h (mem_encode (by decide) (by decide) hm)
  parse_slash t := by
    show lib₀.parse (encode ('/' :: t)) = none
    rw [encode_cons, encodeChar_of (by decide)]
    exact laws₀.parse_slash _
  join_ref u a r t hu ha hr ht hne := by
    rw [lib_join_clean ((Ref.Valid.clean hr).append (Tail.Valid.clean ht))]
    obtain ⟨v, h1, h2⟩ := laws₀.join_ref u a r t (at_lib.1 hu) ha hr ht hne
    exact ⟨v, h1, at_lib.2 h2⟩
  join_empty u a hu ha := by
    obtain ⟨v, h1, h2⟩ := laws₀.join_empty u a (at_lib.1 hu) ha
    exact ⟨v, h1, at_lib.2 h2⟩
  join_path u a r t hu ha hr ht := by
    rw [lib_join_clean ((Clean.cons (by decide) (Ref.Valid.clean hr)).append (Tail.Valid.clean ht))]
    obtain ⟨v, h1, h2⟩ := laws₀.join_path u a r t (at_lib.1 hu) ha hr ht
    exact ⟨v, h1, at_lib.2 h2⟩
  join_host u a h r t hu ha hf ho hr ht := by
    rw [lib_join_clean ((((show Clean ['/', '/'] by unfold Clean; decide).append (Host.clean ho.1)).append
      (Clean.cons (by decide) (Ref.Valid.clean hr))).append (Tail.Valid.clean ht))]
    obtain ⟨v, h1, h2⟩ := laws₀.join_host u a h r t (at_lib.1 hu) ha hf ho hr ht
    exact ⟨v, h1, at_lib.2 h2⟩
  join_url u a o r t hu ha ho hr ht := by
    rw [lib_join_clean (((Origin.Valid.clean ho).append (Clean.cons (by decide) (Ref.Valid.clean hr))).append
      (Tail.Valid.clean ht))]
    obtain ⟨v, h1, h2⟩ := laws₀.join_url u a o r t (at_lib.1 hu) ha ho hr ht
    exact ⟨v, h1, at_lib.2 h2⟩
  setPath_slash u a r hu ha hr := at_lib.2 (laws₀.setPath_slash u a r (at_lib.1 hu) ha hr)
  setPath_ref u a r hu ha hr hw := at_lib.2 (laws₀.setPath_ref u a r (at_lib.1 hu) ha hr hw)
  setPath_bare u o l hu ho hl hc := laws₀.setPath_bare u o l (at_lib.1 hu) ho hl hc
  join_bare u a o hu ha ho hc := by
    rw [lib_join_clean (Origin.Valid.clean ho)]
    obtain ⟨v, h1, h2, h3⟩ := laws₀.join_bare u a o (at_lib.1 hu) ha ho hc
    exact ⟨v, h1, h2, fun r hr => at_lib.2 (h3 r hr)⟩

theorem encodes : UrlLib.Encodes lib where
  parse t _ := by show lib₀.parse _ = lib₀.parse _; rw [encode_encode]
  join u t _ := by show lib₀.join _ _ = lib₀.join _ _; rw [encode_encode]

end MiniUrl
end RSM
