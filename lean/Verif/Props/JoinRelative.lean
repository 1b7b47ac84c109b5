import Verif.Props.JoinTable
import Verif.Props.RelativeTable
/-! # Property C120: `join` and `relative` undo each other -/

namespace RSM
open Spec

/-- A reference without dot segments: names, and a file or nothing. -/
def Spec.Ref.Clean (r : Ref) : Prop := (∀ s ∈ r.dirs, Name s) ∧ (r.file = [] ∨ Name r.file)

instance (r : Ref) : Decidable r.Clean := by unfold Ref.Clean; infer_instance

theorem Spec.Ref.Clean.valid {r : Ref} (h : r.Clean) : r.Valid := by
  refine ⟨fun s hs => ⟨(h.1 s hs).1, (h.1 s hs).2.1⟩, ?_⟩
  rcases h.2 with h | h
  · rw [h]; decide
  · exact h.1

/-- The directories that a root leads to on its host. -/
def rootDirs (R : Ref) : List Text := (resolve [] R.asDir).dirs

theorem root_loc (R : Ref) : resolve [] R.asDir = ⟨rootDirs R, []⟩ := by
  have hRf : (resolve [] R.asDir).file = [] := by
    simp [resolve, Ref.asDir, dot, dotdot]
  rw [rootDirs, ← hRf]

theorem resolve_root_below (R p : Ref) : resolve [] (R.below p) = resolve (rootDirs R) p := by
  have h4 : R.asDir = ⟨R.asDir.dirs, []⟩ := rfl
  rw [rootDirs, h4, resolve_below]; rfl

theorem resolve_clean {p : Ref} (hp : p.Clean) (D : List Text) : resolve D p = ⟨D ++ p.dirs, p.file⟩ :=
  resolve_ofLoc (l := ⟨p.dirs, p.file⟩) hp D

section
variable {U : UrlLib} (hU : U.Laws)
include hU

theorem join_below {o : Origin} {R p : Ref} (ho : o.Valid) (hR : R.Valid) (hp : p.Valid) (hl : 2 ≤ p.text.length) :
    joinPaths U (o.text ++ '/' :: R.text) p.text = .ok (o.text ++ '/' :: pathText (resolve (rootDirs R) p).dirs
      (resolve (rootDirs R) p).file) := by
  have hne : p.text ≠ [] := by intro h; rw [h] at hl; simp at hl
  have := C80_join hU (R := .url o R) (p := .ref p) (t := {}) ⟨ho, hR⟩ ⟨hp, hne⟩ noTail_valid url_long
    (by rw [no_tail]; exact hl) (fun h => by cases h) (fun _ h => by cases h)
  rw [no_tail, no_tail] at this
  rw [← resolve_root_below]
  exact this

/-- C120: what `relative` makes of what `join` made of a path without dot segments is the path, to the letter. -/
theorem C120_relative_of_join {o : Origin} {R p : Ref} (ho : o.Valid) (hR : R.Valid) (hp : p.Clean)
    (hl : 2 ≤ p.text.length) :
    ∃ j, joinPaths U (o.text ++ '/' :: R.text) p.text = .ok j ∧ relative U (o.text ++ '/' :: R.text) j = .ok p.text := by
  refine ⟨_, join_below hU ho hR hp.valid hl, ?_⟩
  have hRv := resolve_valid (B := []) (by simp) (Ref.asDir_valid hR)
  rw [root_loc] at hRv
  rw [resolve_clean hp]
  have hlv : Loc.Valid ⟨rootDirs R ++ p.dirs, p.file⟩ := by
    refine ⟨fun s hs => ?_, hp.2⟩
    rcases List.mem_append.1 hs with hs | hs
    · exact hRv.1 s hs
    · exact hp.1 s hs
  have := relative_url hU (t := {}) (p := ⟨rootDirs R ++ p.dirs, p.file⟩) ho hR hlv.ref noTail_valid
  rw [no_tail, root_loc, resolve_loc hlv, relativePath_eq hRv.1 (fun s hs => Plain.no_slash (hlv.1 s hs).1)
    (Plain.no_slash hlv.ref.2)] at this
  have e := dropCommon_append (rootDirs R) (p.dirs ++ [p.file]) []
  rw [List.append_nil, dropCommon_nil] at e
  rw [List.append_assoc, e, List.map_nil, List.nil_append, joinSep_pathText] at this
  simpa [Written.bare, Ref.text] using this

/-- C120, for a path with dot segments: it leads where the path leads, from the root, or, if that is the root or a directory
above it without the final slash, there with one. -/
theorem C120_relative_of_join_leads {o : Origin} {R p : Ref} (ho : o.Valid) (hR : R.Valid) (hp : p.Valid)
    (hl : 2 ≤ p.text.length) :
    ∃ j q, joinPaths U (o.text ++ '/' :: R.text) p.text = .ok j ∧ relative U (o.text ++ '/' :: R.text) j = .ok q.text ∧
      q.Valid ∧ (resolve (rootDirs R) q = resolve (rootDirs R) p ∨
        (resolve (rootDirs R) p).asDir.dirs <+: rootDirs R ∧ resolve (rootDirs R) q = (resolve (rootDirs R) p).asDir) := by
  have hRv := resolve_valid (B := []) (by simp) (Ref.asDir_valid hR)
  rw [root_loc] at hRv
  have hlv := resolve_valid (B := rootDirs R) hRv.1 hp
  obtain ⟨q, q1, q2, q3⟩ := C83_url hU (t := {}) (p := ⟨(resolve (rootDirs R) p).dirs, (resolve (rootDirs R) p).file⟩) ho hR
    hlv.ref noTail_valid
  rw [resolve_loc hlv] at q3
  rw [no_tail] at q2
  refine ⟨_, q, join_below hU ho hR hp hl, ?_, q1, q3⟩
  simpa [Written.bare, Ref.text] using q2

/-- C120, the other way round: what `join` makes of what `relative` made of a URL on the same host is that URL in normal
form (with a final slash, if it is the root or a directory above it), if `relative` gave two characters or more; if it gave
fewer, `join` panics. -/
theorem C120_join_of_relative {o : Origin} {R p : Ref} (ho : o.Valid) (hR : R.Valid) (hp : p.Valid) :
    ∃ r, relative U (o.text ++ '/' :: R.text) (o.text ++ '/' :: p.text) = .ok r ∧
      (2 ≤ r.length → ∃ l : Loc, joinPaths U (o.text ++ '/' :: R.text) r = .ok (o.text ++ l.text) ∧
        (l = resolve [] p ∨ l = (resolve [] p).asDir ∧ l.dirs <+: rootDirs R)) ∧
      (r.length < 2 → joinPaths U (o.text ++ '/' :: R.text) r = .error .unwrap) := by
  obtain ⟨q, q1, q2, q3⟩ := C83_url hU (t := {}) ho hR hp noTail_valid
  rw [no_tail] at q2
  have hb : Written.bare {} = [] := rfl
  rw [hb, List.append_nil] at q2
  refine ⟨q.text, q2, fun hl => ⟨resolve (rootDirs R) q, join_below hU ho hR q1 hl, ?_⟩, fun hl => ?_⟩
  · rcases q3 with h | ⟨h1, h2⟩
    · exact .inl h
    · exact .inr ⟨h2, by rw [rootDirs, h2]; exact h1⟩
  · simp only [joinPaths, C48_short _ hl, Res.error_bind]

end

/-! ## Cases -/

/-- There and back, and `relative` giving one character. -/
theorem C120_cases :
    [joinPaths MiniUrl.lib "http://h/lib/x".toList "src/a.js".toList,
      relative MiniUrl.lib "http://h/lib/x".toList "http://h/lib/x/src/a.js".toList,
      joinPaths MiniUrl.lib "http://h/lib/x".toList "../y/a.js".toList,
      relative MiniUrl.lib "http://h/lib/x".toList "http://h/lib/y/a.js".toList,
      relative MiniUrl.lib "http://h/lib/x".toList "http://h/lib/x/a".toList,
      joinPaths MiniUrl.lib "http://h/lib/x".toList "a".toList].map (fun r => r.toOption.map String.ofList) =
    [some "http://h/lib/x/src/a.js", some "src/a.js", some "http://h/lib/y/a.js", some "../y/a.js", some "a", none] := by
  decide +kernel

/-- The hypotheses hold of that case. -/
example : Origin.Valid ⟨"http".toList, ⟨"h".toList, none⟩⟩ ∧ Ref.Valid ⟨["lib".toList], "x".toList⟩ ∧
    Ref.Clean ⟨["src".toList], "a.js".toList⟩ := by decide +kernel

end RSM
