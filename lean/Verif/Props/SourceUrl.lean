import Verif.Props.JoinTable
import Verif.Props.Url
/-! # C82: the whole of `compute_source_url`, for plain URLs

For every `url` library satisfying the contract. -/

namespace RSM
open Spec

namespace Spec.Written

/-- Without dot segments, as far as possible. -/
def norm : Written → Written
  | ref r => ref r.norm
  | path r => path (ofLoc (resolve [] r))
  | host h r => host h (ofLoc (resolve [] r))
  | url o r => url o (ofLoc (resolve [] r))

/-- Under a source root a path counts as a relative reference. -/
def unslashed : Written → Written
  | path r => ref r
  | w => w

/-- What the code takes for the directory of a map: all names of its directories run together. -/
def mapDir : Written → Written
  | ref r => ref ⟨[], (resolve [] r).dirs.flatten⟩
  | path r => path ⟨[], (resolve [] r).dirs.flatten⟩
  | host h r => host h ⟨[], (resolve [] r).dirs.flatten⟩
  | url o r => url o ⟨[], (resolve [] r).dirs.flatten⟩

def IsRef : Written → Prop
  | ref _ => True
  | _ => False

/-- The source as it is looked at: under a source root or not. -/
def seen (root : Option Written) (s : Written) : Written := if root.isSome then s.unslashed else s

/-- The source under the source root. -/
def under : Option Written → Written → Written
  | none, s => s.norm
  | some R, s => R.join s.unslashed.norm

/-- The source under the source root, in the directory of the map. -/
def located (root : Option Written) (s : Written) : Option Written → Written
  | none => under root s
  | some m => m.mapDir.join (under root s)

/-- Every text that is looked at on the way has two characters at least. -/
def LongEnough (root : Option Written) (s : Written) (t : Tail) (m : Option Written) : Prop :=
  2 ≤ (s.text ++ t.text).length ∧ 2 ≤ ((seen root s).text ++ t.text).length ∧
  (∀ R ∈ root, 2 ≤ R.text.length ∧ 2 ≤ ((seen root s).norm.text ++ t.text).length) ∧
  (∀ M ∈ m, 2 ≤ M.text.length ∧ 2 ≤ M.mapDir.text.length ∧ 2 ≤ ((under root s).text ++ t.text).length)

/-- Nowhere on the way is a scheme-relative URL used from a `file` URL: files are not on every host. -/
def Apart (root : Option Written) (s : Written) (m : Option Written) : Prop :=
  (∀ R ∈ root, R.IsLocal → ¬ s.IsHost) ∧ ∀ M ∈ m, M.IsLocal → ¬ (under root s).IsHost

/-- Plain, but possibly empty. -/
def Wf : Written → Prop
  | ref r => r.Valid
  | path r => r.Valid
  | host h r => h.Valid ∧ r.Valid
  | url o r => o.Valid ∧ r.Valid

/-- The URL of a map: a relative one may not have two dots in a row anywhere. -/
def MapUrl (m : Written) : Prop := m.Valid ∧ (m.IsRef → ¬ dotdot <:+: m.text)

theorem Valid.wf {w : Written} (h : w.Valid) : w.Wf := by
  cases w <;> simp only [Valid, Wf] at h ⊢
  · exact h.1
  · exact h
  · exact h
  · exact h

theorem Wf.valid {w : Written} (h : w.Wf) (hl : w.IsRef → w.text ≠ []) : w.Valid := by
  cases w <;> simp only [Valid, Wf] at h ⊢
  · exact ⟨h, hl trivial⟩
  · exact h
  · exact h
  · exact h

theorem ofLoc_valid {r : Ref} (hr : r.Valid) : (ofLoc (resolve [] r)).Valid :=
  Loc.Valid.ref (resolve_valid (by simp) hr)

theorem norm_wf {w : Written} (h : w.Wf) : w.norm.Wf := by
  cases w <;> simp only [norm, Wf] at h ⊢
  · exact norm_valid h
  · exact ofLoc_valid h
  · exact ⟨h.1, ofLoc_valid h.2⟩
  · exact ⟨h.1, ofLoc_valid h.2⟩

theorem unslashed_wf {w : Written} (h : w.Wf) : w.unslashed.Wf := by
  cases w <;> exact h

theorem join_wf {R p : Written} (hR : R.Wf) (hp : p.Wf) (hf : R.IsLocal → ¬ p.IsHost) : (R.join p).Wf := by
  cases R <;> cases p <;> simp only [join, Wf] at hR hp ⊢
  all_goals first
    | exact hp
    | exact norm_valid (below_valid hR hp)
    | exact ofLoc_valid hp
    | exact ofLoc_valid (below_valid hR hp)
    | exact ⟨hR.1, ofLoc_valid (below_valid hR.2 hp)⟩
    | exact ⟨hR.1, ofLoc_valid hp⟩
    | exact ⟨host_other_scheme hR.1 (fun h => hf h trivial) hp.1, ofLoc_valid hp.2⟩
    | exact ⟨hp.1, ofLoc_valid hp.2⟩

theorem join_isRef {R p : Written} (h : (R.join p).IsRef) : p.IsRef := by
  cases R <;> cases p <;> simp [join, IsRef] at h ⊢

theorem norm_isRef {w : Written} (h : w.norm.IsRef) : w.IsRef := by
  cases w <;> simp [norm, IsRef] at h ⊢

theorem flat_valid {r : Ref} (hr : r.Valid) : Ref.Valid ⟨[], (resolve [] r).dirs.flatten⟩ := by
  refine ⟨by simp, ?_⟩
  rcases flatten_name (resolve_valid (B := []) (by simp) hr).1 with h | h
  · show Plain _
    rw [h]; exact plain_nil
  · exact h.1

theorem mapDir_wf {w : Written} (h : w.Wf) : w.mapDir.Wf := by
  cases w <;> simp only [mapDir, Wf] at h ⊢
  · exact flat_valid h
  · exact flat_valid h
  · exact ⟨h.1, flat_valid h.2⟩
  · exact ⟨h.1, flat_valid h.2⟩

theorem seen_wf {root : Option Written} {s : Written} (h : s.Wf) : (seen root s).Wf := by
  unfold seen
  split
  · exact unslashed_wf h
  · exact h

theorem norm_isHost {w : Written} : w.unslashed.norm.IsHost ↔ w.IsHost := by
  cases w <;> simp [unslashed, norm, IsHost]

theorem mapDir_isLocal {w : Written} : w.mapDir.IsLocal ↔ w.IsLocal := by
  cases w <;> exact Iff.rfl

theorem under_wf {root : Option Written} {s : Written} (hR : ∀ R ∈ root, R.Wf) (h : s.Wf)
    (hf : ∀ R ∈ root, R.IsLocal → ¬ s.IsHost) : (under root s).Wf := by
  cases root with
  | none => exact norm_wf h
  | some R => exact join_wf (hR R rfl) (norm_wf (unslashed_wf h)) (fun hl hh => hf R rfl hl (norm_isHost.1 hh))

theorem under_isRef {root : Option Written} {s : Written} (h : (under root s).IsRef) : (seen root s).IsRef := by
  cases root with
  | none => exact norm_isRef h
  | some R => exact norm_isRef (join_isRef h)

/-- Of a text of two characters or more. -/
theorem Wf.valid' {w : Written} {t : Tail} (h : w.Wf) (hq : w.IsRef → t = {}) (hl : 2 ≤ (w.text ++ t.text).length) :
    w.Valid := by
  apply h.valid
  intro hr e
  rw [hq hr, no_tail, e] at hl
  simp at hl

end Spec.Written

open Written

section
variable {U : UrlLib} (hU : U.Laws)
include hU

theorem normalize_written {w : Written} {t : Tail} (hw : w.Wf) (ht : t.Valid) (hq : w.IsRef → t = {})
    (hl : 2 ≤ (w.text ++ t.text).length) : normalize U (w.text ++ t.text) = .ok (w.norm.text ++ t.text) := by
  have hv := hw.valid' hq hl
  cases w with
  | ref r =>
    obtain rfl := hq trivial
    rw [Written.text, normalize_ref hU hv.1 ht hv.2 hl, no_tail]
    simp only [Option.getD_none, List.append_nil]
    rfl
  | path r =>
    refine normalize_path hU hv ht ?_
    simp only [Written.text, List.cons_append, List.length_cons] at hl
    omega
  | host h r => exact normalize_host hU hv.1 hv.2 ht
  | url o r => exact normalize_url hU hv.1 hv.2 ht

theorem relative_from_root {input : Text} (hdots : countDotDot input = 0) {f : Text} (hf : f = [] ∨ Name f) :
    computeRelativeUrl U (buildSafeBase input) (Addr.text ⟨hostOrigin, ⟨[], f⟩, {}⟩) = .ok f := by
  have hsafe : safeDirs input = [] := by rw [safeDirs, hdots]; rfl
  have hv : Loc.Valid ⟨[], f⟩ := ⟨by simp, hf⟩
  have h7 := relUrl hU (B := []) (o := hostOrigin) (o' := hostOrigin) (l := ⟨[], f⟩) (t := {})
    hostOrigin_valid (by simp) ⟨hostOrigin_valid, hv, noTail_valid⟩
  have h8 : Addr.text ⟨hostOrigin, ⟨[], []⟩, {}⟩ = buildSafeBase input := by
    rw [buildSafeBase_eq, hsafe]
  rw [h8] at h7
  rw [h7]
  have h9 : relativePath (Loc.text ⟨[], []⟩) (Loc.text ⟨[], f⟩) = f := by
    have h10 : splitChar '/' (Loc.text ⟨[], f⟩) = [[], f] := by
      have := splitChar_pathText [[]] f (by simp) (Plain.no_slash (Loc.Valid.ref hv).2)
      simpa [Loc.text, pathText] using this
    have h11 : splitChar '/' (Loc.text ⟨[], []⟩) = [[], []] := by decide
    simp [relativePath, h10, h11, dropCommon, joinSep]
  rw [h9]
  simp

theorem trimFilename_written {m : Written} (hm : m.MapUrl) (hl : 2 ≤ m.text.length) :
    ∃ d, trimFilename U m.text = .ok d ∧ ∀ p, joinPaths U d p = joinPaths U m.mapDir.text p := by
  obtain ⟨hv, hd⟩ := hm
  obtain ⟨u, h1, h2⟩ := parse_base hU m.text
  cases m with
  | ref r =>
    have hdots : countDotDot (Written.text (.ref r)) = 0 := countDotDot_zero (hd trivial)
    have hsafe : safeDirs (Written.text (.ref r)) = [] := by rw [safeDirs, hdots]; rfl
    rw [hsafe] at h2
    obtain ⟨v, h3, h4⟩ := join_dir hU h2 hostOrigin_valid (by simp) hv.1
    have ht := type_ref (t := {}) hv.1 noTail_valid hv.2 (by rw [no_tail]; exact hl)
    rw [no_tail] at ht
    have hlv := resolve_valid (B := []) (by simp) hv.1
    have h6 := trim_at hU h4 ⟨hostOrigin_valid, hlv, noTail_valid⟩ (.inl hostOrigin_web)
    have h7 := relative_from_root hU hdots (flatten_name hlv.1)
    refine ⟨_, ?_, fun _ => rfl⟩
    simp only [Written.text] at h1 h7 ⊢
    simp only [trimFilename, safeHandler, ht, Res.ok_bind, h1, h3, h6.str, Res.pure_eq, h7]
    simp [mapDir, Ref.text, pathText]
  | path r =>
    obtain ⟨v, h3, h4⟩ := hU.join_path u _ r {} h2 (base_valid _) hv noTail_valid
    rw [no_tail] at h3
    have h5 : joinUrl U u ('/' :: r.text) = .ok v := by rw [joinUrl, h3]; rfl
    have ht := type_path (t := {}) hv (by
      rw [no_tail]; simp only [Written.text, List.length_cons] at hl; omega)
    rw [no_tail] at ht
    have h6 := trim_at hU h4 ⟨hostOrigin_valid, resolve_valid (by simp) hv, noTail_valid⟩ (.inl hostOrigin_web)
    refine ⟨_, ?_, fun _ => rfl⟩
    simp only [Written.text] at h1 ⊢
    simp only [trimFilename, safeHandler, ht, Res.ok_bind, h1, h5, h6.str, Res.pure_eq]
    rw [Addr.text, no_tail]
    rfl
  | host h r =>
    obtain ⟨v, h3, h4⟩ := hU.join_host u _ h r {} h2 (base_valid _) hostOrigin_not_local hv.1 hv.2 noTail_valid
    rw [no_tail] at h3
    have h5 : joinUrl U u (['/', '/'] ++ h.text ++ '/' :: r.text) = .ok v := by rw [joinUrl, h3]; rfl
    have ht : getUrlType (['/', '/'] ++ h.text ++ '/' :: r.text) = .ok .schemeRelative := type_host _
    have h6 := trim_at hU h4 ⟨Host.Valid.http hv.1, resolve_valid (by simp) hv.2, noTail_valid⟩ (.inl hostOrigin_web)
    refine ⟨_, ?_, fun _ => rfl⟩
    simp only [Written.text] at h1 ⊢
    simp only [trimFilename, safeHandler, ht, Res.ok_bind, h1, h5, h6.str, Res.pure_eq]
    rw [Addr.text, no_tail]
    rfl
  | url o r => exact trimFilename_url_ref hU hv.1 hv.2

omit hU in
/-- The type of a source, and what is left of it under a source root. -/
theorem unslash_written {s : Written} {t : Tail} (hs : s.Valid) (ht : t.Valid)
    (hl : 2 ≤ (s.text ++ t.text).length) :
    ∃ ty, getUrlType (s.text ++ t.text) = .ok ty ∧
      (if ty = .pathAbsolute then removeFirstSlash (s.text ++ t.text) else s.text ++ t.text) =
        s.unslashed.text ++ t.text := by
  cases s with
  | ref r => exact ⟨_, type_ref hs.1 ht hs.2 hl, rfl⟩
  | path r =>
    refine ⟨_, type_path hs ?_, ?_⟩
    · simp only [Written.text, List.cons_append, List.length_cons] at hl
      omega
    · rw [if_pos rfl]; exact removeFirstSlash_path _
  | host h r => exact ⟨_, type_host _, rfl⟩
  | url o r =>
    refine ⟨.absolute, ?_, rfl⟩
    rw [Written.text, List.append_assoc]; exact type_url hs.1 _

/-- The source under the source root. -/
theorem source_under {root : Option Written} {s : Written} {t : Tail} (hR : ∀ R ∈ root, R.Valid) (hs : s.Valid)
    (ht : t.Valid) (hq : (seen root s).IsRef → t = {}) (hf : ∀ R ∈ root, R.IsLocal → ¬ s.IsHost)
    (h1 : 2 ≤ (s.text ++ t.text).length)
    (h2 : 2 ≤ ((seen root s).text ++ t.text).length)
    (h3 : ∀ R ∈ root, 2 ≤ R.text.length ∧ 2 ≤ ((seen root s).norm.text ++ t.text).length) :
    computeSourceUrl U (root.map text) (s.text ++ t.text) none = .ok ((under root s).text ++ t.text) := by
  cases root with
  | none =>
    have h := normalize_written hU hs.wf ht hq h2
    simp only [computeSourceUrl, Option.map_none, Res.pure_eq, Res.ok_bind, h]
    rfl
  | some R =>
    obtain ⟨ty, e1, e2⟩ := unslash_written hs ht h1
    have h := normalize_written hU (unslashed_wf hs.wf) ht hq h2
    obtain ⟨h4, h5⟩ := h3 R rfl
    have hnq : s.unslashed.norm.IsRef → t = {} := fun h => hq (norm_isRef h)
    have hv : s.unslashed.norm.Valid := (norm_wf (unslashed_wf hs.wf)).valid' hnq h5
    have hj := C80_join hU (hR R rfl) hv ht h4 h5 (fun hb => hnq (by
      generalize s.unslashed.norm = w at hb
      cases R <;> cases w <;> simp [BothRefs, IsRef] at hb ⊢)) (fun hl hh => hf R rfl hl (norm_isHost.1 hh))
    simp only [computeSourceUrl, Option.map_some, e1, Res.ok_bind, Res.pure_eq, e2, h, hj]
    rfl

/-- C82: for a plain source, source root and map URL, each of any of the four kinds or absent: `compute_source_url`
gives the source joined below the source root, joined below the directory of the map with all names of its directories
run together, if every text looked at on the way has two characters at least. Scheme-relative URLs used from `file` URLs
are left out. -/
theorem C82_source_url {root m : Option Written} {s : Written} {t : Tail} (hR : ∀ R ∈ root, R.Valid) (hs : s.Valid)
    (hm : ∀ M ∈ m, M.MapUrl) (ht : t.Valid) (hq : (seen root s).IsRef → t = {}) (hf : Apart root s m)
    (hl : LongEnough root s t m) :
    computeSourceUrl U (root.map text) (s.text ++ t.text) (m.map text) = .ok ((located root s m).text ++ t.text) := by
  obtain ⟨h1, h2, h3, h4⟩ := hl
  have h := source_under hU hR hs ht hq hf.1 h1 h2 h3
  cases m with
  | none => exact h
  | some m =>
    obtain ⟨h5, h6, h7⟩ := h4 m rfl
    obtain ⟨d, hd, hdj⟩ := trimFilename_written hU (hm m rfl) h5
    have hmv : m.mapDir.Valid := (mapDir_wf (hm m rfl).1.wf).valid (fun _ e => by rw [e] at h6; simp at h6)
    have huq : (under root s).IsRef → t = {} := fun h => hq (under_isRef h)
    have huv : (under root s).Valid := (under_wf (fun R h => (hR R h).wf) hs.wf hf.1).valid' huq h7
    have hj := C80_join hU hmv huv ht h6 h7 (fun hb => huq (by
      generalize under root s = w at hb
      generalize m.mapDir = r at hb
      cases r <;> cases w <;> simp [BothRefs, IsRef] at hb ⊢)) (fun hl => hf.2 m rfl (mapDir_isLocal.1 hl))
    rw [Option.map_some, source_then_map h hd, hdj, hj]
    rfl

/-- C82: otherwise it panics. -/
theorem C82_panics {root m : Option Written} {s : Written} {t : Tail} (hR : ∀ R ∈ root, R.Valid) (hs : s.Valid)
    (hm : ∀ M ∈ m, M.MapUrl) (ht : t.Valid) (hq : (seen root s).IsRef → t = {}) (hf : Apart root s m)
    (hl : ¬ LongEnough root s t m) :
    ∃ e, computeSourceUrl U (root.map text) (s.text ++ t.text) (m.map text) = .error e := by
  cases hc : computeSourceUrl U (root.map text) (s.text ++ t.text) (m.map text) with
  | error e => exact ⟨e, rfl⟩
  | ok z =>
    exfalso
    apply hl
    -- the stages
    have hA : 2 ≤ (s.text ++ t.text).length ∧ 2 ≤ ((seen root s).text ++ t.text).length ∧
        ∀ R ∈ root, 2 ≤ R.text.length ∧ 2 ≤ ((seen root s).norm.text ++ t.text).length := by
      cases root with
      | none =>
        simp only [computeSourceUrl, Option.map_none, Res.pure_eq, Res.ok_bind, Res.bind_eq_ok] at hc
        obtain ⟨n, hn, _⟩ := hc
        have h1 : 2 ≤ (s.text ++ t.text).length := by
          rcases Nat.lt_or_ge (s.text ++ t.text).length 2 with h | h
          · rw [normalize_short _ h] at hn; cases hn
          · exact h
        exact ⟨h1, h1, by simp⟩
      | some R =>
        simp only [computeSourceUrl, Option.map_some, Res.bind_eq_ok, Res.pure_eq] at hc
        obtain ⟨ty, e1, s', e2, n, e3, y, e4, _⟩ := hc
        have h1 := getUrlType_ok e1
        obtain ⟨ty', e1', e2'⟩ := unslash_written hs ht h1
        rw [e1'] at e1
        cases e1
        cases e2
        rw [e2'] at e3
        have h2 : 2 ≤ (s.unslashed.text ++ t.text).length := by
          rcases Nat.lt_or_ge (s.unslashed.text ++ t.text).length 2 with h | h
          · rw [normalize_short _ h] at e3; cases e3
          · exact h
        rw [normalize_written hU (unslashed_wf hs.wf) ht hq h2] at e3
        cases e3
        refine ⟨h1, h2, fun R' hR' => ?_⟩
        cases hR'
        constructor
        · rcases Nat.lt_or_ge R.text.length 2 with h | h
          · exact absurd e4 (joinPaths_short_root h y)
          · exact h
        · rcases Nat.lt_or_ge (s.unslashed.norm.text ++ t.text).length 2 with h | h
          · rw [joinPaths_short_path h] at e4; cases e4
          · exact h
    obtain ⟨h1, h2, h3⟩ := hA
    refine ⟨h1, h2, h3, fun m' hm' => ?_⟩
    cases hm'
    have h := source_under hU hR hs ht hq hf.1 h1 h2 h3
    have h5 : 2 ≤ m'.text.length := by
      rcases Nat.lt_or_ge m'.text.length 2 with hlt | hge
      · exfalso
        have hsh : trimFilename U m'.text = .error .unwrap := by
          have : getUrlType m'.text = .error .unwrap := C48_short _ hlt
          simp only [trimFilename, safeHandler, this, Res.error_bind]
        cases root with
        | none =>
          simp only [computeSourceUrl, Option.map_none, Option.map_some, Res.pure_eq, Res.ok_bind, Res.bind_eq_ok, hsh] at hc
          obtain ⟨_, _, _, h, _⟩ := hc
          cases h
        | some R =>
          simp only [computeSourceUrl, Option.map_some, Res.bind_eq_ok, Res.pure_eq, hsh] at hc
          obtain ⟨_, _, _, _, _, _, _, _, _, h, _⟩ := hc
          cases h
      · exact hge
    obtain ⟨d, hd, hdj⟩ := trimFilename_written hU (hm m' rfl) h5
    rw [Option.map_some, source_then_map h hd, hdj] at hc
    refine ⟨h5, ?_, ?_⟩
    · rcases Nat.lt_or_ge m'.mapDir.text.length 2 with h | h
      · exact absurd hc (joinPaths_short_root h z)
      · exact h
    · rcases Nat.lt_or_ge ((under root s).text ++ t.text).length 2 with h | h
      · rw [joinPaths_short_path h] at hc; cases hc
      · exact h

omit hU in
theorem norm_target {w : Written} (hw : w.Wf) (o : Origin) (dirs : List Text) :
    w.norm.target o dirs = w.target o dirs := by
  cases w <;> simp only [Written.norm, Written.target, Wf] at hw ⊢
  · rw [resolve_norm hw]
  · rw [resolve_twice hw]
  · rw [resolve_twice hw.2]
  · rw [resolve_twice hw.2]

end

/-- Directories run together: one, if any. -/
def runTogether : List Text → List Text
  | [] => []
  | d :: D => [(d :: D).flatten]

/-- What directories run together mean. -/
theorem resolve_flat {D B : List Text} (hD : ∀ s ∈ D, Name s) :
    resolve B (Ref.asDir ⟨[], D.flatten⟩) = ⟨B ++ runTogether D, []⟩ := by
  rcases flatten_name hD with h | h
  · have h0 : D = [] := by
      cases D with
      | nil => rfl
      | cons d D =>
        have := (hD d (by simp)).2.1
        simp [List.flatten_cons, this] at h
    subst h0
    simp [Ref.asDir, resolve, dot, dotdot, runTogether]
  · have h0 : D ≠ [] := by rintro rfl; exact h.2.1 rfl
    have h2 := h.2.2.1
    have h3 := h.2.2.2
    have h4 : runTogether D = [D.flatten] := by
      cases D with
      | nil => exact absurd rfl h0
      | cons d D => rfl
    rw [h4]
    simp only [Ref.asDir, h.2.1, if_false, List.nil_append, resolve, List.foldl_cons, List.foldl_nil, Spec.enter, h2, h3]
    simp [dot, dotdot]

theorem enter_inside (B : List Text) : ∀ (ds A : List Text), (∀ s ∈ ds, s ≠ dotdot) →
    ds.foldl Spec.enter (B ++ A) = B ++ ds.foldl Spec.enter A
  | [], _, _ => rfl
  | d :: ds, A, h => by
    have hd := h d (by simp)
    rw [List.foldl_cons, List.foldl_cons, ← enter_inside B ds _ (fun s hs => h s (by simp [hs]))]
    congr 1
    unfold Spec.enter
    split
    · rfl
    · rw [List.append_assoc]

/-- A relative reference that never climbs stays below the directory it is used in. -/
theorem resolve_inside {r : Ref} (h : ¬ dotdot <:+: r.text) (B : List Text) :
    (resolve B r).dirs = B ++ (resolve [] r).dirs := by
  have h1 : ∀ s ∈ r.dirs, s ≠ dotdot := by
    rintro s hs rfl
    apply h
    obtain ⟨a, b, e⟩ := List.append_of_mem hs
    refine ⟨pathText a [], '/' :: pathText b r.file, ?_⟩
    rw [Ref.text, e, pathText_append, pathText_cons, List.append_assoc]
  have h2 : r.file ≠ dotdot := by
    intro e
    apply h
    refine ⟨r.dirs.flatMap (· ++ ['/']), [], ?_⟩
    rw [List.append_nil, Ref.text, pathText, e]
  have h3 := enter_inside B r.dirs [] h1
  rw [List.append_nil] at h3
  simp only [resolve, h2, if_false]
  split <;> exact h3

namespace Spec.Written

/-- The directories the URL of a map names. -/
def named : Written → List Text
  | ref r => (resolve [] r).dirs
  | path r => (resolve [] r).dirs
  | host _ r => (resolve [] r).dirs
  | url _ r => (resolve [] r).dirs

/-- Where the page of a source is: where the page is, or where the map is. -/
def base (o : Origin) (dirs : List Text) : Option Written → Origin × List Text
  | none => (o, dirs)
  | some m => ((m.target o dirs).1, (m.target o dirs).2.dirs)

/-- Where sources are: there, or below it in the source root. -/
def home (b : Origin × List Text) : Option Written → Origin × List Text
  | none => b
  | some R => ((R.asDir.target b.1 b.2).1, (R.asDir.target b.1 b.2).2.dirs)

theorem mapDir_target {m : Written} (hm : m.MapUrl) (o : Origin) (dirs : List Text) :
    ∃ B, (m.target o dirs).2.dirs = B ++ m.named ∧
      m.mapDir.asDir.target o dirs =
        ((m.target o dirs).1, ⟨B ++ runTogether m.named, []⟩) := by
  obtain ⟨hv, hd⟩ := hm
  cases m with
  | ref r =>
    refine ⟨dirs, resolve_inside (hd trivial) dirs, ?_⟩
    simp only [mapDir, asDir, target, named, resolve_flat (resolve_valid (B := []) (by simp) hv.1).1]
  | path r =>
    refine ⟨[], rfl, ?_⟩
    simp only [mapDir, asDir, target, named, resolve_flat (resolve_valid (B := []) (by simp) hv).1]
  | host h r =>
    refine ⟨[], rfl, ?_⟩
    simp only [mapDir, asDir, target, named, resolve_flat (resolve_valid (B := []) (by simp) hv.2).1]
  | url o r =>
    refine ⟨[], rfl, ?_⟩
    simp only [mapDir, asDir, target, named, resolve_flat (resolve_valid (B := []) (by simp) hv.2).1]

theorem names_long : ∀ {D : List Text}, (∀ s ∈ D, Name s) → D.length ≤ D.flatten.length
  | [], _ => by simp
  | d :: D, h => by
    have h1 := List.length_pos_iff.2 (h d (by simp)).2.1
    have h2 := names_long (D := D) (fun s hs => h s (by simp [hs]))
    simp only [List.length_cons, List.flatten_cons, List.length_append]
    omega

theorem entered_few : ∀ (ds A : List Text), (ds.foldl Spec.enter A).length ≤ A.length + ds.length
  | [], _ => by simp
  | d :: ds, A => by
    have h1 := entered_few ds (Spec.enter A d)
    have h2 : (Spec.enter A d).length ≤ A.length + 1 := by
      unfold Spec.enter
      split
      · omega
      · split <;> (simp; try omega)
    simp only [List.foldl_cons, List.length_cons]
    omega

theorem named_text (r : Ref) : (resolve [] r).dirs.length ≤ r.text.length := by
  have h1 := entered_few r.dirs []
  have h2 : (resolve [] r).dirs.length ≤ (r.dirs.foldl Spec.enter []).length := by
    unfold resolve
    dsimp only
    split
    · exact Nat.le_refl _
    · split <;> simp
  have h3 : ∀ ds : List Text, ds.length ≤ (pathText ds r.file).length := by
    intro ds
    induction ds with
    | nil => simp
    | cons d ds ih => rw [pathText_cons]; simp only [List.length_cons, List.length_append]; omega
  have h4 := h3 r.dirs
  simp only [List.length_nil, Ref.text] at h1 ⊢
  omega

theorem deep_long {m : Written} (hm : m.Wf) (hdeep : 2 ≤ m.named.length) :
    2 ≤ m.text.length ∧ 2 ≤ m.mapDir.text.length := by
  have hf : ∀ f : Text, Ref.text ⟨[], f⟩ = f := fun f => by simp [Ref.text, pathText]
  cases m <;> simp only [named, Wf, Written.text, mapDir, hf, List.length_cons, List.length_append] at hm hdeep ⊢
  case ref r => exact ⟨Nat.le_trans hdeep (named_text r), Nat.le_trans hdeep (names_long (resolve_valid (by simp) hm).1)⟩
  case path r =>
    have h1 := named_text r
    have h2 := names_long (resolve_valid (B := []) (by simp) hm).1
    omega
  case host h r =>
    have h1 := named_text r
    have h2 := names_long (resolve_valid (B := []) (by simp) hm.2).1
    omega
  case url o r =>
    have h1 := named_text r
    have h2 := names_long (resolve_valid (B := []) (by simp) hm.2).1
    omega

theorem under_target {root : Option Written} {s : Written} {t : Tail} (hR : ∀ R ∈ root, R.Valid) (hs : s.Valid)
    (hq : (seen root s).IsRef → t = {})
    (h3 : ∀ R ∈ root, 2 ≤ R.text.length ∧ 2 ≤ ((seen root s).norm.text ++ t.text).length)
    (b : Origin × List Text) :
    (under root s).target b.1 b.2 = (seen root s).target (home b root).1 (home b root).2 := by
  cases root with
  | none => exact norm_target hs.wf _ _
  | some R =>
    have hv : s.unslashed.norm.Valid :=
      (norm_wf (unslashed_wf hs.wf)).valid' (fun h => hq (norm_isRef h)) (h3 R rfl).2
    rw [under, join_target (hR R rfl) hv, norm_target (unslashed_wf hs.wf)]
    rfl

end Spec.Written

section
variable {U : UrlLib} (hU : U.Laws)
include hU

/-- C82: if the URL of the map names at most one directory, then on whatever page it appears the computed URL means what
the source means in the directory that the source root means in the directory of the map. -/
theorem C82_meaning {root m : Option Written} {s : Written} {t : Tail} (hR : ∀ R ∈ root, R.Valid) (hs : s.Valid)
    (hm : ∀ M ∈ m, M.MapUrl ∧ M.named.length ≤ 1) (ht : t.Valid) (hq : (seen root s).IsRef → t = {})
    (hf : Apart root s m) (hl : LongEnough root s t m) :
    ∃ j : Written,
      computeSourceUrl U (root.map text) (s.text ++ t.text) (m.map text) = .ok (j.text ++ t.text) ∧
      ∀ o dirs, j.target o dirs =
        (seen root s).target (home (base o dirs m) root).1 (home (base o dirs m) root).2 := by
  refine ⟨_, C82_source_url hU hR hs (fun M h => (hm M h).1) ht hq hf hl, fun o dirs => ?_⟩
  obtain ⟨h1, h2, h3, h4⟩ := hl
  cases m with
  | none => exact under_target hR hs hq h3 (o, dirs)
  | some m =>
    obtain ⟨h5, h6, h7⟩ := h4 m rfl
    obtain ⟨hmu, hsh⟩ := hm m rfl
    have hmv : m.mapDir.Valid := (mapDir_wf hmu.1.wf).valid (fun _ e => by rw [e] at h6; simp at h6)
    have huq : (under root s).IsRef → t = {} := fun h => hq (under_isRef h)
    have huv : (under root s).Valid := (under_wf (fun R h => (hR R h).wf) hs.wf hf.1).valid' huq h7
    obtain ⟨B, e1, e2⟩ := mapDir_target hmu o dirs
    have e3 : runTogether m.named = m.named := by
      generalize m.named = D at hsh
      match D, hsh with
      | [], _ => rfl
      | [d], _ => simp [runTogether]
    rw [e3, ← e1] at e2
    rw [located, join_target hmv huv, e2]
    exact under_target hR hs hq h3 (base o dirs (some m))

/-- C82: if it names two or more, then not even a bare file name is found beside the map, on any page. -/
theorem C82_deep_refuted {m : Written} {f : Text} (hm : m.MapUrl) (hdeep : 2 ≤ m.named.length)
    (hf : Name f) (hfl : 2 ≤ f.length) :
    ∃ j : Written, computeSourceUrl U none f (some m.text) = .ok j.text ∧
      ∀ o dirs, (j.target o dirs).2.dirs.length < ((Written.ref ⟨[], f⟩).target (base o dirs (some m)).1
        (base o dirs (some m)).2).2.dirs.length := by
  obtain ⟨hml, hl⟩ := deep_long hm.1.wf hdeep
  have hr : Ref.Valid ⟨[], f⟩ := ⟨by simp, hf.1⟩
  have hft : Ref.text ⟨[], f⟩ = f := by simp [Ref.text, pathText]
  have hs : (Written.ref ⟨[], f⟩).Valid := ⟨hr, by rw [hft]; exact hf.2.1⟩
  have hn : Ref.norm ⟨[], f⟩ = ⟨[], f⟩ := by
    simp [Ref.norm, Ref.climb, Ref.lastName, hf.2.2.1, hf.2.2.2]
  have hu : under none (Written.ref ⟨[], f⟩) = .ref ⟨[], f⟩ := by simp [under, Written.norm, hn]
  have hlong : LongEnough none (.ref ⟨[], f⟩) {} (some m) := by
    refine ⟨?_, ?_, by simp, fun M hM => ?_⟩
    · rw [no_tail, Written.text, hft]; exact hfl
    · rw [no_tail, seen]
      simpa [Written.text, hft] using hfl
    · cases hM
      refine ⟨hml, hl, ?_⟩
      rw [no_tail, hu, Written.text, hft]; exact hfl
  have h := C82_source_url hU (root := none) (m := some m) (s := .ref ⟨[], f⟩) (t := {}) (by simp) hs
    (fun M hM => by cases hM; exact hm) noTail_valid (fun _ => rfl)
    ⟨by simp, fun M _ _ h => by rw [hu] at h; exact h⟩ hlong
  rw [no_tail, no_tail] at h
  refine ⟨_, by simpa [Written.text, hft] using h, fun o dirs => ?_⟩
  have hmv : m.mapDir.Valid := (mapDir_wf hm.1.wf).valid (fun _ e => by rw [e] at hl; simp at hl)
  obtain ⟨B, e1, e2⟩ := mapDir_target hm o dirs
  rw [located, hu, join_target hmv hs, e2]
  have h0 : (runTogether m.named).length ≤ 1 := by
    cases m.named <;> simp [runTogether]
  have h3 : ∀ A : List Text, (resolve A ⟨[], f⟩).dirs = A := by
    intro A
    simp [resolve, hf.2.2.1, hf.2.2.2]
  show (resolve _ ⟨[], f⟩).dirs.length < (resolve _ ⟨[], f⟩).dirs.length
  rw [h3, h3]
  show _ < (m.target o dirs).2.dirs.length
  rw [e1]
  simp only [List.length_append]
  omega

end

/-- Every kind of source below every kind of source root, for a map in a directory of a host. -/
example :
    ["src", "/src", "//h/src", "http://h/src"].map (fun R => ["../a.js", "/x/../a.js", "//g/./a.js", "https://g/./a.js?q"].map
        fun s => (computeSourceUrl MiniUrl.lib (some R.toList) s.toList (some "//m/js/app.map".toList)).toOption.map
          String.ofList) =
      [["//m/js/a.js", "//m/js/src/a.js", "//g/a.js", "https://g/a.js?q"].map some,
       ["//m/a.js", "//m/src/a.js", "//g/a.js", "https://g/a.js?q"].map some,
       ["//h/a.js", "//h/src/a.js", "//g/a.js", "https://g/a.js?q"].map some,
       ["http://h/a.js", "http://h/src/a.js", "http://g/a.js", "https://g/a.js?q"].map some] := by
  decide +kernel

/-- The hypotheses of C82_source_url and C82_meaning, for one of them. -/
example : computeSourceUrl MiniUrl.lib (some "src".toList) "../a.js".toList (some "//m/js/app.map".toList) =
    .ok "//m/js/a.js".toList :=
  C82_source_url MiniUrl.laws (root := some (.ref ⟨[], "src".toList⟩)) (s := .ref ⟨["..".toList], "a.js".toList⟩)
    (m := some (.host ⟨"m".toList, none⟩ ⟨["js".toList], "app.map".toList⟩)) (t := {})
    (by rintro R ⟨⟩; exact ⟨by decide, by decide⟩) ⟨by decide, by decide⟩
    (by rintro M ⟨⟩; exact ⟨⟨by decide, by decide⟩, by simp [IsRef]⟩) noTail_valid (fun _ => rfl)
    ⟨by rintro R ⟨⟩ _ h; exact h, by rintro M ⟨⟩ h; exact h.elim⟩
    ⟨by decide, by decide, by rintro R ⟨⟩; decide, by rintro M ⟨⟩; decide⟩

example : Written.named (.host ⟨"m".toList, none⟩ ⟨["js".toList], "app.map".toList⟩) = ["js".toList] := by decide

/-- A page with the map in the root of a host: every text is long enough, except the directory of the map, so it panics
where the source could be found. -/
example : computeSourceUrl MiniUrl.lib none "a.js".toList (some "/app.map".toList) = .error .unwrap := by decide +kernel

example : ¬ LongEnough none (.ref ⟨[], "a.js".toList⟩) {} (some (.path ⟨[], "app.map".toList⟩)) := by
  rintro ⟨_, _, _, h⟩
  exact absurd (h _ rfl).2.1 (by decide)

/-- C82_deep_refuted: the map is in `/static/js`, and `a.js` is looked for in `/staticjs`. -/
example : computeSourceUrl MiniUrl.lib none "a.js".toList (some "/static/js/app.map".toList) =
      .ok "/staticjs/a.js".toList ∧
    Written.named (.path ⟨["static".toList, "js".toList], "app.map".toList⟩) = ["static".toList, "js".toList] := by
  decide +kernel

/-- A bundler's URLs, which name no host, and a development server with a port. -/
example :
    computeSourceUrl MiniUrl.lib (some "webpack:///src".toList) "./../a.js".toList none = .ok "webpack:///a.js".toList ∧
    computeSourceUrl MiniUrl.lib none "webpack:///./src/x/../a.js".toList (some "http://localhost:8080/app.map".toList) =
      .ok "webpack:///src/a.js".toList ∧
    computeSourceUrl MiniUrl.lib none "a.js".toList (some "http://localhost:8080/app.map".toList) =
      .ok "http://localhost:8080/a.js".toList ∧
    computeSourceUrl MiniUrl.lib none "a.js".toList (some "webpack:///app.map".toList) =
      .ok "webpack:///a.js".toList := by
  decide +kernel

/-- The hypotheses for them. -/
example : computeSourceUrl MiniUrl.lib (some "webpack:///src".toList) "./../a.js".toList none =
    .ok "webpack:///a.js".toList :=
  C82_source_url MiniUrl.laws (root := some (.url ⟨"webpack".toList, Host.empty⟩ ⟨[], "src".toList⟩))
    (s := .ref ⟨[".".toList, "..".toList], "a.js".toList⟩) (m := none) (t := {})
    (by rintro R ⟨⟩; exact ⟨by decide +kernel, by decide⟩) ⟨by decide, by decide⟩
    (by rintro M ⟨⟩) noTail_valid (fun _ => rfl)
    ⟨by rintro R ⟨⟩ _ h; exact h, by rintro M ⟨⟩⟩ ⟨by decide, by decide, by rintro R ⟨⟩; decide +kernel, by rintro M ⟨⟩⟩

/-- Files: a map and a source on the disk. -/
example :
    computeSourceUrl MiniUrl.lib none "file:///home/me/src/../a.js".toList (some "http://localhost:8080/app.map".toList) =
      .ok "file:///home/me/a.js".toList ∧
    computeSourceUrl MiniUrl.lib (some "src".toList) "a.js".toList (some "file:///home/app.map".toList) =
      .ok "file:///home/src/a.js".toList := by
  decide +kernel

/-- The hypotheses for the second. -/
example : computeSourceUrl MiniUrl.lib (some "src".toList) "a.js".toList (some "file:///home/app.map".toList) =
    .ok "file:///home/src/a.js".toList :=
  C82_source_url MiniUrl.laws (root := some (.ref ⟨[], "src".toList⟩)) (s := .ref ⟨[], "a.js".toList⟩)
    (m := some (.url ⟨"file".toList, Host.empty⟩ ⟨["home".toList], "app.map".toList⟩)) (t := {})
    (by rintro R ⟨⟩; exact ⟨by decide, by decide⟩) ⟨by decide, by decide⟩
    (by rintro M ⟨⟩; exact ⟨⟨by decide, by decide⟩, by simp [IsRef]⟩) noTail_valid (fun _ => rfl)
    ⟨by rintro R ⟨⟩ _ h; exact h, by rintro M ⟨⟩ _ h; exact h⟩
    ⟨by decide, by decide, by rintro R ⟨⟩; decide, by rintro M ⟨⟩; decide⟩

end RSM
