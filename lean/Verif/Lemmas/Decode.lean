import Verif.Spec.Mappings
import Verif.Lemmas.Vlq
/-! # Lemmas about the decoder of `mappings` strings -/

namespace RSM

open Spec

theorem splitOn_ne_nil (sep : Char) (t : List Char) : splitOn sep t ≠ [] := by
  cases t with
  | nil => simp [splitOn]
  | cons c t =>
    simp only [splitOn]
    split
    · simp
    · split <;> simp

theorem splitOn_cons_of (sep : Char) (t : List Char) : ∃ l ls, splitOn sep t = l :: ls := by
  have := splitOn_ne_nil sep t
  cases h : splitOn sep t with
  | nil => exact absurd h this
  | cons l ls => exact ⟨l, ls, rfl⟩

theorem splitOn_append (sep : Char) {a t l : List Char} {ls : List (List Char)}
    (ha : sep ∉ a) (ht : splitOn sep t = l :: ls) : splitOn sep (a ++ t) = (a ++ l) :: ls := by
  induction a with
  | nil => simpa using ht
  | cons c a ih =>
    simp only [List.mem_cons, not_or] at ha
    have hc : ¬ c = sep := fun e => ha.1 e.symm
    simp [splitOn, hc, ih ha.2]

theorem splitOn_self (sep : Char) {a : List Char} (ha : sep ∉ a) : splitOn sep a = [a] := by
  have := splitOn_append sep (t := []) (l := []) (ls := []) ha rfl
  simpa using this

theorem splitOn_sep (sep : Char) (t : List Char) : splitOn sep (sep :: t) = [] :: splitOn sep t := by
  simp [splitOn]

/-- Decoding what follows a segment on the same line. -/
def decodeMid (line col : Nat) (d : DState) (text : List Char) : Option (List RawMapping) :=
  match splitOn ';' text with
  | [] => none
  | l :: ls =>
    match l with
    | [] => decodeLines (line + 1) d ls
    | c :: r =>
      if c = ',' then do
        let (ms, d) ← decodeSegments line col d (splitOn ',' r)
        let rest ← decodeLines (line + 1) d ls
        some (ms ++ rest)
      else none

theorem decodeMid_nil (line col : Nat) (d : DState) : decodeMid line col d [] = some [] := rfl

theorem decode_segment_append {line col : Nat} {d d1 : DState} {seg text : List Char}
    {raw : RawMapping} {out : List RawMapping} (hc : ',' ∉ seg) (hs : ';' ∉ seg)
    (h1 : decodeSegment line col d seg = some (raw, d1))
    (h2 : decodeMid line raw.column d1 text = some out) :
    ∃ l ls, splitOn ';' (seg ++ text) = (seg ++ l) :: ls ∧
      (do
        let (ms, d) ← decodeSegments line col d (splitOn ',' (seg ++ l))
        let rest ← decodeLines (line + 1) d ls
        some (ms ++ rest)) = some (raw :: out) := by
  obtain ⟨l, ls, hl⟩ := splitOn_cons_of ';' text
  refine ⟨l, ls, splitOn_append ';' hs hl, ?_⟩
  unfold decodeMid at h2
  rw [hl] at h2
  simp only at h2
  cases l with
  | nil =>
    simp only at h2
    rw [List.append_nil, splitOn_self ',' hc]
    simp [decodeSegments, h1, h2]
  | cons c r =>
    simp only at h2
    split at h2
    · rename_i hcc
      subst hcc
      rw [splitOn_append ',' hc (splitOn_sep ',' r)]
      simp only [List.append_nil, decodeSegments, h1, Option.bind_eq_bind, Option.bind_some]
      simp only [Option.bind_eq_bind, Option.bind_eq_some_iff] at h2
      obtain ⟨⟨ms, d2⟩, h3, rest, h4, h5⟩ := h2
      simp only [Option.some.injEq] at h5
      subst h5
      simp [h3, h4]
    · cases h2

/-- A segment at the start of a line. -/
theorem decode_start_segment {line : Nat} {d d1 : DState} {seg text : List Char}
    {raw : RawMapping} {out : List RawMapping} (hne : seg ≠ []) (hc : ',' ∉ seg) (hs : ';' ∉ seg)
    (h1 : decodeSegment line 0 d seg = some (raw, d1))
    (h2 : decodeMid line raw.column d1 text = some out) :
    decodeLines line d (splitOn ';' (seg ++ text)) = some (raw :: out) := by
  obtain ⟨l, ls, h3, h4⟩ := decode_segment_append hc hs h1 h2
  rw [h3]
  simp only [decodeLines]
  rw [if_neg (by simp [hne])]
  exact h4

/-- A further segment on a line. -/
theorem decode_comma_segment {line col : Nat} {d d1 : DState} {seg text : List Char}
    {raw : RawMapping} {out : List RawMapping} (hc : ',' ∉ seg) (hs : ';' ∉ seg)
    (h1 : decodeSegment line col d seg = some (raw, d1))
    (h2 : decodeMid line raw.column d1 text = some out) :
    decodeMid line col d (',' :: (seg ++ text)) = some (raw :: out) := by
  obtain ⟨l, ls, h3, h4⟩ := decode_segment_append hc hs h1 h2
  unfold decodeMid
  rw [show splitOn ';' (',' :: (seg ++ text)) = (',' :: (seg ++ l)) :: ls by
    simp [splitOn, h3]]
  simp only [if_true]
  exact h4

theorem decode_semis (line : Nat) (d : DState) (n : Nat) (t : List Char) :
    decodeLines line d (splitOn ';' (List.replicate n ';' ++ t)) =
      decodeLines (line + n) d (splitOn ';' t) := by
  induction n generalizing line with
  | zero => simp
  | succ n ih =>
    rw [List.replicate_succ, List.cons_append, splitOn_sep]
    simp only [decodeLines, if_true, Option.bind_eq_bind, Option.bind_some, List.nil_append]
    rw [ih, show line + 1 + n = line + (n + 1) by omega]
    cases decodeLines (line + (n + 1)) d (splitOn ';' t) <;> rfl

theorem decode_mid_semis (line col : Nat) (d : DState) (n : Nat) (t : List Char) :
    decodeMid line col d (List.replicate (n + 1) ';' ++ t) =
      decodeLines (line + (n + 1)) d (splitOn ';' t) := by
  unfold decodeMid
  rw [List.replicate_succ, List.cons_append, splitOn_sep]
  simp only
  rw [decode_semis, show line + 1 + n = line + (n + 1) by omega]

theorem encU_chars (n : Nat) : ∀ c ∈ encU n, digitValue c ≠ none := by
  induction n using Nat.strongRecOn with
  | ind n ih =>
    intro c hc
    rw [encU] at hc
    split at hc
    · rename_i h
      simp only [List.mem_singleton] at hc
      subst hc
      rw [digitValue_digitChar (by omega)]; simp
    · rename_i h
      simp only [List.mem_cons] at hc
      rcases hc with rfl | hc
      · rw [digitValue_digitChar (by omega)]; simp
      · exact ih (n / 32) (by omega) c hc

theorem encU_ne_nil (n : Nat) : encU n ≠ [] := by
  rw [encU]; split <;> simp

/-- The text of a list of deltas. -/
def encAll (ds : List Int) : List Char := (ds.map (fun d => encU (signed d))).flatten

theorem encAll_cons (d : Int) (ds : List Int) : encAll (d :: ds) = encU (signed d) ++ encAll ds := by
  simp [encAll]

theorem encAll_chars (ds : List Int) : ∀ c ∈ encAll ds, digitValue c ≠ none := by
  intro c hc
  simp only [encAll, List.mem_flatten, List.mem_map] at hc
  obtain ⟨l, ⟨d, _, rfl⟩, hc⟩ := hc
  exact encU_chars _ c hc

theorem encAll_comma (ds : List Int) : ',' ∉ encAll ds :=
  fun h => encAll_chars ds _ h (by decide +kernel)

theorem encAll_semi (ds : List Int) : ';' ∉ encAll ds :=
  fun h => encAll_chars ds _ h (by decide +kernel)

theorem decodeFields_encAll (ds : List Int) (h : ∀ d ∈ ds, d.natAbs < 2147483648) :
    decodeFields (encAll ds) = some ds := by
  induction ds with
  | nil => simp [encAll, decodeFields]
  | cons d ds ih =>
    rw [encAll_cons]
    have hlen : (encU (signed d)).length ≤ 7 := by
      apply encU_length _ 6
      have := h d (by simp)
      unfold signed; split <;> omega
    obtain ⟨c, cs, hcs⟩ := List.exists_cons_of_ne_nil (encU_ne_nil (signed d))
    have hdec : decodeVlq (encU (signed d) ++ encAll ds) = some (d, encAll ds) := by
      simp [decodeVlq, decodeUnsigned_encU, unsign_signed]
    rw [hcs] at hdec hlen ⊢
    simp only [List.cons_append] at hdec ⊢
    rw [decodeFields, hdec]
    simp only
    rw [dif_pos, ih (fun d hd => h d (by simp [hd]))]
    simp only [List.length_cons, List.length_append] at hlen ⊢
    omega

end RSM
