import Verif.Props.MapUrl
/-! # C80: the whole table of `join`, for plain URLs

For every `url` library satisfying the contract. -/

namespace RSM
open Spec

namespace Spec

/-- The four ways of writing a plain URL, up to query and fragment. -/
inductive Written where
  /-- `a/b` -/
  | ref (r : Ref)
  /-- `/a/b` -/
  | path (r : Ref)
  /-- `//host/a/b` -/
  | host (h : Host) (r : Ref)
  /-- `http://host/a/b` -/
  | url (o : Origin) (r : Ref)

namespace Written

def text : Written → Text
  | ref r => r.text
  | path r => '/' :: r.text
  | host h r => ['/', '/'] ++ h.text ++ '/' :: r.text
  | url o r => o.text ++ '/' :: r.text

def Valid : Written → Prop
  | ref r => r.Valid ∧ r.text ≠ []
  | path r => r.Valid
  | host h r => h.Valid ∧ r.Valid
  | url o r => o.Valid ∧ r.Valid

/-- What a URL means on a page in directory `dirs` of `o` (RFC 3986, 5.2). -/
def target (o : Origin) (dirs : List Text) : Written → Origin × Loc
  | ref r => (o, resolve dirs r)
  | path r => (o, resolve [] r)
  | host h r => (⟨o.scheme, h⟩, resolve [] r)
  | url o r => (o, resolve [] r)

/-- The directory of that name, whether or not a slash was written. -/
def asDir : Written → Written
  | ref r => ref r.asDir
  | path r => path r.asDir
  | host h r => host h r.asDir
  | url o r => url o r.asDir

/-- A location as the path of a URL. -/
def ofLoc (l : Loc) : Ref := ⟨l.dirs, l.file⟩

/-- `p` below the directory `R`, with no more of scheme and host than one of the two gives. A full URL is not touched,
not even its dot segments. -/
def join : Written → Written → Written
  | _, url o p => url o p
  | url o R, ref p => url o (ofLoc (resolve [] (R.below p)))
  | url o _, path p => url o (ofLoc (resolve [] p))
  | url o _, host h p => url ⟨o.scheme, h⟩ (ofLoc (resolve [] p))
  | _, host h p => host h (ofLoc (resolve [] p))
  | host h R, ref p => host h (ofLoc (resolve [] (R.below p)))
  | host h _, path p => host h (ofLoc (resolve [] p))
  | _, path p => path (ofLoc (resolve [] p))
  | path R, ref p => path (ofLoc (resolve [] (R.below p)))
  | ref R, ref p => ref (R.below p).norm

def IsHost : Written → Prop
  | host _ _ => True
  | _ => False

def IsLocal : Written → Prop
  | url o _ => Local o.scheme
  | _ => False

/-- Both relative: the one case in which query and fragment are not kept as they are (C52). -/
def BothRefs : Written → Written → Prop
  | ref _, ref _ => True
  | _, _ => False

end Written
end Spec

section
variable {U : UrlLib} (hU : U.Laws)
include hU

theorem withBase_hostPath {a : Addr} {h : Host} {r : Ref} {t : Tail} (ha : a.Valid)
    (hf : ¬ Local a.origin.scheme) (ho : h.Valid) (hr : r.Valid) (ht : t.Valid) :
    withBase U (['/', '/'] ++ h.text ++ '/' :: r.text ++ t.text) (some a.text) =
      .ok (Addr.text ⟨⟨a.origin.scheme, h⟩, resolve [] r, t⟩) := by
  obtain ⟨u, h1, h2⟩ := parse_addr hU ha
  obtain ⟨v, h3, h4⟩ := hU.join_host u _ h r t h2 ha hf ho hr ht
  exact withBase_at h1 (by rw [joinUrl, h3]; rfl) h4

omit hU in
theorem host_other_scheme {o : Origin} {h : Host} (ho : o.Valid) (hf : ¬ Local o.scheme) (hh : h.Valid) :
    Origin.Valid ⟨o.scheme, h⟩ := ⟨ho.1, .inl ⟨hh, hf⟩⟩

/-- The directory made of a root. -/
theorem ensureDirectory_written {R : Written} (hR : R.Valid) (hl : 2 ≤ R.text.length) :
    ∃ ty d, getUrlType R.text = .ok ty ∧ ensureDirectory U R.text = .ok d ∧
      match R with
      | .ref r => ty = .pathRelative ∧ d = r.asDir.norm.text
      | .path r => ty = .pathAbsolute ∧ d = (resolve [] r.asDir).text
      | .host h r => ty = .schemeRelative ∧ d = ['/', '/'] ++ h.text ++ (resolve [] r.asDir).text
      | .url o r => ty = .absolute ∧ d = o.text ++ (resolve [] r.asDir).text := by
  cases R with
  | ref r =>
    have ht := type_ref (t := {}) hR.1 noTail_valid hR.2 (by rw [no_tail]; exact hl)
    rw [no_tail] at ht
    exact ⟨_, _, ht, ensureDirectory_ref hU hR.1 hl, rfl, rfl⟩
  | path r =>
    have hne : r.text ≠ [] := by
      intro h
      simp only [Written.text, h, List.length_cons, List.length_nil] at hl
      omega
    have ht := type_path (t := {}) hR (by rw [no_tail]; exact List.length_pos_iff.2 hne)
    rw [no_tail] at ht
    exact ⟨_, _, ht, ensureDirectory_path hU hR hne, rfl, rfl⟩
  | host h r => exact ⟨_, _, type_host _, ensureDirectory_host hU hR.1 hR.2, rfl, rfl⟩
  | url o r => exact ⟨_, _, type_url hR.1 _, ensureDirectory_url hU hR.1 hR.2, rfl, rfl⟩

/-- C80: for plain URLs of two characters or more, of any two kinds, `join` gives what the path means below the
root, followed by the query and fragment of the path; if both are relative references these must be absent. A
scheme-relative path below a `file` URL is left out: files are not on every host. -/
theorem C80_join {R p : Written} {t : Tail} (hR : R.Valid) (hp : p.Valid) (ht : t.Valid)
    (hRl : 2 ≤ R.text.length) (hpl : 2 ≤ (p.text ++ t.text).length) (hq : R.BothRefs p → t = {})
    (hf : R.IsLocal → ¬ p.IsHost) :
    joinPaths U R.text (p.text ++ t.text) = .ok ((R.join p).text ++ t.text) := by
  obtain ⟨ty, d, h1, h2, h3⟩ := ensureDirectory_written hU hR hRl
  have hRn : ∀ r : Ref, 2 ≤ ('/' :: r.text).length → r.text ≠ [] := by
    intro r h e
    simp only [e, List.length_cons, List.length_nil] at h
    omega
  cases p with
  | url o p =>
    have tp : getUrlType (Written.text (.url o p) ++ t.text) = .ok .absolute := by
      rw [Written.text, List.append_assoc]; exact type_url hp.1 _
    rw [joinPaths, tp, Res.ok_bind, h1, Res.ok_bind, h2, Res.ok_bind, if_pos rfl]
    cases R <;> rfl
  | ref p =>
    cases R with
    | ref R =>
      obtain rfl := hq trivial
      rw [Written.text, Written.text, joinPaths_ref_ref hU hR.1 hp.1 ht hRl hp.2 hpl, no_tail]
      simp only [Option.getD_none, List.append_nil]
      rfl
    | path R => exact joinPaths_path_ref hU hR hp.1 ht (hRn R hRl) hp.2 hpl
    | host h R => exact joinPaths_host_ref hU hR.1 hR.2 hp.1 ht hp.2 hpl
    | url o R => exact joinPaths_url_ref hU hR.1 hR.2 hp.1 ht hp.2 hpl
  | path p =>
    have hlen : 1 ≤ (p.text ++ t.text).length := by
      simp only [Written.text, List.cons_append, List.length_cons] at hpl
      omega
    have tp : getUrlType (Written.text (.path p) ++ t.text) = .ok .pathAbsolute := type_path hp hlen
    have hn : normalize U (Written.text (.path p) ++ t.text) = .ok ((resolve [] p).text ++ t.text) :=
      normalize_path hU hp ht hlen
    rw [joinPaths, tp, Res.ok_bind, h1, Res.ok_bind, h2, Res.ok_bind]
    cases R with
    | ref R =>
      obtain ⟨rfl, rfl⟩ := h3
      exact hn
    | path R =>
      obtain ⟨rfl, rfl⟩ := h3
      exact hn
    | host h R =>
      obtain ⟨rfl, rfl⟩ := h3
      have hl := resolve_valid (B := []) (by simp) (Ref.asDir_valid hR.2)
      have h4 := withBase_host hU hR.1 (Loc.Valid.ref hl)
      rw [resolve_loc hl] at h4
      have h5 := withBase_path hU (a := ⟨⟨hostOrigin.scheme, h⟩, resolve [] R.asDir, {}⟩) ⟨Host.Valid.http hR.1, hl, noTail_valid⟩ hp ht
      have h6 : withBase U (['/', '/'] ++ h.text ++ (resolve [] R.asDir).text) (some protocolAndHost) = _ := h4
      show (do
        let b ← withBase U (['/', '/'] ++ h.text ++ (resolve [] R.asDir).text) (some protocolAndHost)
        let r ← withBase U ('/' :: p.text ++ t.text) (some b)
        pure (r.drop protocol.length)) = _
      rw [h6, Res.ok_bind, h5, Res.ok_bind]
      rfl
    | url o R =>
      obtain ⟨rfl, rfl⟩ := h3
      have hl := resolve_valid (B := []) (by simp) (Ref.asDir_valid hR.2)
      have h5 := withBase_path hU (a := ⟨o, resolve [] R.asDir, {}⟩) ⟨hR.1, hl, noTail_valid⟩ hp ht
      have h7 : o.text ++ (resolve [] R.asDir).text = Addr.text ⟨o, resolve [] R.asDir, {}⟩ := by
        simp only [Addr.text, no_tail]
      rw [h7]
      exact h5
  | host h p =>
    have tp : getUrlType (Written.text (.host h p) ++ t.text) = .ok .schemeRelative := type_host _
    have hn : normalize U (Written.text (.host h p) ++ t.text) = .ok (['/', '/'] ++ h.text ++ (resolve [] p).text ++ t.text) :=
      normalize_host hU hp.1 hp.2 ht
    rw [joinPaths, tp, Res.ok_bind, h1, Res.ok_bind, h2, Res.ok_bind]
    cases R with
    | ref R =>
      obtain ⟨rfl, rfl⟩ := h3
      exact hn
    | path R =>
      obtain ⟨rfl, rfl⟩ := h3
      exact hn
    | host h' R =>
      obtain ⟨rfl, rfl⟩ := h3
      exact hn
    | url o R =>
      obtain ⟨rfl, rfl⟩ := h3
      have hl := resolve_valid (B := []) (by simp) (Ref.asDir_valid hR.2)
      have h5 := withBase_hostPath hU (a := ⟨o, resolve [] R.asDir, {}⟩) ⟨hR.1, hl, noTail_valid⟩
        (fun h => hf h trivial) hp.1 hp.2 ht
      have h7 : o.text ++ (resolve [] R.asDir).text = Addr.text ⟨o, resolve [] R.asDir, {}⟩ := by
        simp only [Addr.text, no_tail]
      rw [h7]
      exact h5

omit hU in
theorem resolve_ofLoc {l : Loc} (hl : l.Valid) (B : List Text) : resolve B (Written.ofLoc l) = ⟨B ++ l.dirs, l.file⟩ := by
  have h : ∀ (ds A : List Text), (∀ s ∈ ds, Name s) → ds.foldl Spec.enter A = A ++ ds := by
    intro ds
    induction ds with
    | nil => simp
    | cons d ds ih =>
      intro A hd
      have hn := hd d (by simp)
      rw [List.foldl_cons, ih _ (fun s hs => hd s (by simp [hs]))]
      simp [Spec.enter, hn.2.2.1, hn.2.2.2]
  have h1 : l.file ≠ dot ∧ l.file ≠ dotdot := by
    rcases hl.2 with h | h
    · rw [h]; decide
    · exact h.2.2
  simp only [resolve, Written.ofLoc, h _ _ hl.1, h1.1, h1.2, if_false]

omit hU in
theorem resolve_twice {r : Ref} (hr : r.Valid) : resolve [] (Written.ofLoc (resolve [] r)) = resolve [] r := by
  rw [resolve_ofLoc (resolve_valid (by simp) hr)]
  rfl

omit hU in
/-- What a joined URL means. -/
theorem join_target {R p : Written} (hR : R.Valid) (hp : p.Valid) (o : Origin) (dirs : List Text) :
    (R.join p).target o dirs = p.target (R.asDir.target o dirs).1 (R.asDir.target o dirs).2.dirs := by
  have hb : ∀ (B : List Text) (R p : Ref), resolve (resolve B R.asDir).dirs p = resolve B (R.below p) :=
    fun B R p => resolve_below B _ p
  cases R <;> cases p <;>
    simp only [Written.join, Written.target, Written.asDir, hb, Written.Valid] at hR hp ⊢
  all_goals first
    | rw [resolve_norm (below_valid hR.1 hp.1)]
    | rw [resolve_twice (below_valid hR hp.1)]
    | rw [resolve_twice (below_valid hR.2 hp.1)]
    | rw [resolve_twice hp]
    | rw [resolve_twice hp.2]

/-- C80: on whatever page it appears, the joined URL means what the path means in the directory the root means. -/
theorem C80_meaning {R p : Written} {t : Tail} (hR : R.Valid) (hp : p.Valid) (ht : t.Valid)
    (hRl : 2 ≤ R.text.length) (hpl : 2 ≤ (p.text ++ t.text).length) (hq : R.BothRefs p → t = {})
    (hf : R.IsLocal → ¬ p.IsHost) :
    ∃ j : Written, joinPaths U R.text (p.text ++ t.text) = .ok (j.text ++ t.text) ∧
      ∀ o dirs, j.target o dirs = p.target (R.asDir.target o dirs).1 (R.asDir.target o dirs).2.dirs :=
  ⟨_, C80_join hU hR hp ht hRl hpl hq hf, fun o dirs => join_target hR hp o dirs⟩

end

/-- All sixteen cases of C80. -/
example :
    ["src", "/src", "//h/src", "http://h/src"].map (fun R => ["../a.js", "/x/../a.js", "//g/a.js?q", "https://g/./a.js"].map
        fun p => (joinPaths MiniUrl.lib R.toList p.toList).toOption.map String.ofList) =
      [["a.js", "/a.js", "//g/a.js?q", "https://g/./a.js"].map some,
       ["/a.js", "/a.js", "//g/a.js?q", "https://g/./a.js"].map some,
       ["//h/a.js", "//h/a.js", "//g/a.js?q", "https://g/./a.js"].map some,
       ["http://h/a.js", "http://h/a.js", "http://g/a.js?q", "https://g/./a.js"].map some] := by
  decide +kernel

/-- Its hypotheses, for one of them. -/
example : joinPaths MiniUrl.lib "https://h/src".toList "//g/x/../a.js?q".toList = .ok "https://g/a.js?q".toList :=
  C80_join MiniUrl.laws (R := .url ⟨"https".toList, "h".toList, none⟩ ⟨[], "src".toList⟩)
    (p := .host ⟨"g".toList, none⟩ ⟨["x".toList, "..".toList], "a.js".toList⟩) (t := ⟨some "q".toList, none⟩)
    ⟨by decide, by decide⟩ ⟨by decide, by decide⟩ (by unfold Tail.Valid; decide)
    (by decide) (by decide) (by simp [Written.BothRefs]) (fun h => absurd h (by show ¬ Local _; decide))

/-- A file on no host. -/
example : joinPaths MiniUrl.lib "file:///home/me/src".toList "../a.js?q".toList = .ok "file:///home/me/a.js?q".toList :=
  C80_join MiniUrl.laws (R := .url ⟨"file".toList, Host.empty⟩ ⟨["home".toList, "me".toList], "src".toList⟩)
    (p := .ref ⟨["..".toList], "a.js".toList⟩) (t := ⟨some "q".toList, none⟩)
    ⟨by decide, by decide⟩ ⟨by decide, by decide⟩ (by unfold Tail.Valid; decide)
    (by decide) (by decide) (by simp [Written.BothRefs]) (fun _ h => h)

end RSM
