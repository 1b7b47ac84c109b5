import Verif.Lemmas.Vlq
/-! # Properties C01-C05: base64 digits and VLQs -/

namespace RSM

open Spec

/-- C01. Decoding the encoding of `v` followed by any text gives `v` and that text. -/
theorem C01_vlq_roundtrip (cfg : Cfg) (v : Int) (h : v.natAbs < 2 ^ 30) (rest : List Char) :
    ∃ cs, base64vlqEncode cfg v = .ok cs ∧ decodeVlq (cs ++ rest) = some (v, rest) := by
  refine ⟨_, encode_eq cfg v (by simpa using h), ?_⟩
  simp [decodeVlq, decodeUnsigned_encU, unsign_signed]

example : ((-1073741823 : Int)).natAbs < 2 ^ 30 := by decide

/-- Well-formed VLQ text: continuation bit on all digits but the last, no superfluous last digit. -/
def WellFormedVlq (cs : List Char) : Prop :=
  (∀ c ∈ cs.dropLast, ∃ d, digitValue c = some d ∧ 32 ≤ d) ∧
  ∃ c d, cs.getLast? = some c ∧ digitValue c = some d ∧ d < 32 ∧ (1 < cs.length → d ≠ 0)

theorem wellFormed_encU (n : Nat) : WellFormedVlq (encU n) ∧ (0 < n → ∀ c, encU n = [c] → digitValue c ≠ some 0) := by
  induction n using Nat.strongRecOn with
  | ind n ih =>
    rw [encU]
    split
    · rename_i h
      have hd := digitValue_digitChar (show n < 64 by omega)
      refine ⟨⟨by simp, _, n, rfl, hd, h, by simp⟩, ?_⟩
      intro hn c hc
      simp only [List.cons.injEq, and_true] at hc
      subst hc; rw [hd]; simp; omega
    · rename_i h
      have hd := digitValue_digitChar (show n % 32 + 32 < 64 by omega)
      obtain ⟨⟨h1, c, d, h2, h3, h4, h5⟩, h6⟩ := ih (n / 32) (by omega)
      have hne : encU (n / 32) ≠ [] := by
        intro he; rw [he] at h2; simp at h2
      refine ⟨⟨?_, c, d, ?_, h3, h4, ?_⟩, ?_⟩
      · intro c' hc'
        rw [List.dropLast_cons_of_ne_nil hne] at hc'
        rcases List.mem_cons.1 hc' with rfl | hc'
        · exact ⟨_, hd, by omega⟩
        · exact h1 c' hc'
      · rw [List.getLast?_cons]; simp [h2]
      · intro _ hd0
        by_cases hl : 1 < (encU (n / 32)).length
        · exact h5 hl hd0
        · have hl1 : (encU (n / 32)).length = 1 := by
            have : 0 < (encU (n / 32)).length := List.length_pos_iff.2 hne
            omega
          obtain ⟨c', hc'⟩ := List.length_eq_one_iff.1 hl1
          rw [hc'] at h2
          simp only [List.getLast?_singleton, Option.some.injEq] at h2
          subst h2
          exact h6 (by omega) c' hc' (by rw [h3, hd0])
      · intro _ c' hc'
        simp only [List.cons.injEq] at hc'
        exact absurd hc'.2 hne

/-- The RFC 4648 base64 alphabet. -/
def rfc4648 : String := "ABCDEFGHIJKLMNOPQRSTUVWXYZabcdefghijklmnopqrstuvwxyz0123456789+/"

theorem rfc4648_eq : rfc4648.toList = intToCharMap := by decide

/-- C02. For deltas below 2^30 the encoder does not panic; the output has 1 to 7 characters, all
base64 digits, and is well formed. -/
theorem C02_vlq_wellformed (cfg : Cfg) (v : Int) (h : v.natAbs < 2 ^ 30) :
    ∃ cs, base64vlqEncode cfg v = .ok cs ∧ 1 ≤ cs.length ∧ cs.length ≤ 7 ∧
      (∀ c ∈ cs, c ∈ rfc4648.toList) ∧ WellFormedVlq cs := by
  rw [rfc4648_eq]
  have hs : signed v < 32 ^ (6 + 1) := by
    unfold signed; simp at h; split <;> simp <;> omega
  refine ⟨_, encode_eq cfg v (by simpa using h), ?_, encU_length _ 6 hs, ?_, (wellFormed_encU _).1⟩
  · rw [encU]; split <;> simp
  · generalize signed v = n
    have mem : ∀ m, m < 64 → digitChar m ∈ intToCharMap := by
      intro m hm
      have := base64Encode_digitChar hm
      unfold base64Encode at this
      split at this
      · exact List.mem_of_getElem? this
      · cases this
    induction n using Nat.strongRecOn with
    | ind n ih =>
      rw [encU]
      split
      · intro c hc
        simp only [List.mem_singleton] at hc
        subst hc; exact mem n (by omega)
      · intro c hc
        rcases List.mem_cons.1 hc with rfl | hc
        · exact mem _ (by omega)
        · exact ih (n / 32) (by omega) c hc

theorem digitValue_lt {c : Char} {d : Nat} (hd : digitValue c = some d) : d < 64 := by
  have hle : ∀ {a b : Char}, a ≤ b → a.toNat ≤ b.toNat := fun h => h
  have e1 : 'A'.toNat = 65 := rfl
  have e2 : 'Z'.toNat = 90 := rfl
  have e3 : 'a'.toNat = 97 := rfl
  have e4 : 'z'.toNat = 122 := rfl
  have e5 : '0'.toNat = 48 := rfl
  have e6 : '9'.toNat = 57 := rfl
  unfold digitValue at hd
  split at hd
  · rename_i hc
    have h1 := hle hc.1; have h2 := hle hc.2
    simp only [Option.some.injEq] at hd; omega
  · split at hd
    · rename_i hc
      have h1 := hle hc.1; have h2 := hle hc.2
      simp only [Option.some.injEq] at hd; omega
    · split at hd
      · rename_i hc
        have h1 := hle hc.1; have h2 := hle hc.2
        simp only [Option.some.injEq] at hd; omega
      · split at hd
        · simp only [Option.some.injEq] at hd; omega
        · split at hd
          · simp only [Option.some.injEq] at hd; omega
          · cases hd

theorem decodeUnsigned_bound : ∀ (cs : List Char) (n : Nat), decodeUnsigned cs = some (n, []) →
    n < 32 ^ cs.length := by
  intro cs
  induction cs with
  | nil => intro n h; simp [decodeUnsigned] at h
  | cons c cs ih =>
    intro n h
    rw [decodeUnsigned] at h
    split at h
    · cases h
    · rename_i d hd
      split at h
      · rename_i hlt
        simp only [Option.some.injEq, Prod.mk.injEq] at h
        obtain ⟨rfl, rfl⟩ := h
        simpa using hlt
      · split at h
        · cases h
        · rename_i hi rest hdec
          simp only [Option.some.injEq, Prod.mk.injEq] at h
          obtain ⟨rfl, rfl⟩ := h
          have := ih hi hdec
          have hd64 : d < 64 := digitValue_lt hd
          rw [List.length_cons, Nat.pow_succ]
          omega

/-- C02, minimality: no text denoting `v` is shorter than the one produced. -/
theorem C02_vlq_minimal (cfg : Cfg) (v : Int) (h : v.natAbs < 2 ^ 30) (cs other : List Char)
    (henc : base64vlqEncode cfg v = .ok cs) (hother : decodeVlq other = some (v, [])) :
    cs.length ≤ other.length := by
  rw [encode_eq cfg v (by simpa using h)] at henc
  cases henc
  unfold decodeVlq at hother
  split at hother
  · cases hother
  · rename_i n rest hdec
    simp only [Option.some.injEq, Prod.mk.injEq] at hother
    obtain ⟨hv, rfl⟩ := hother
    have hb := decodeUnsigned_bound other n hdec
    have hle : signed v ≤ n := by
      rw [← hv]; unfold signed unsign; split <;> split <;> omega
    cases hl : other.length with
    | zero =>
      have : other = [] := List.eq_nil_of_length_eq_zero hl
      subst this; simp [decodeUnsigned] at hdec
    | succ k =>
      rw [hl] at hb
      exact encU_length _ k (by omega)

theorem encU_ne_nil (n : Nat) : encU n ≠ [] := by
  rw [encU]; split <;> simp

theorem decodeVlqs_encU (vs : List Int) :
    decodeVlqs (vs.flatMap (fun v => encU (signed v))) = some vs := by
  induction vs with
  | nil => simp [decodeVlqs]
  | cons v vs ih =>
    have hdec : decodeVlq (encU (signed v) ++ vs.flatMap (fun v => encU (signed v)))
        = some (v, vs.flatMap (fun v => encU (signed v))) := by
      simp [decodeVlq, decodeUnsigned_encU, unsign_signed]
    have hne := encU_ne_nil (signed v)
    simp only [List.flatMap_cons]
    generalize vs.flatMap (fun v => encU (signed v)) = tail at *
    obtain ⟨c, cs, he⟩ := List.exists_cons_of_ne_nil hne
    rw [he] at hdec ⊢
    rw [List.cons_append] at hdec ⊢
    rw [decodeVlqs]
    simp only [hdec]
    rw [if_pos (by simp; omega)]
    simp [ih]

/-- C03. Writing the encodings of a list of deltas one after the other loses nothing: the text
decodes to exactly that list. -/
theorem C03_vlq_sequences_decode (cfg : Cfg) (vs : List Int) (h : ∀ v ∈ vs, v.natAbs < 2 ^ 30) :
    ∃ pieces, vs.mapM (base64vlqEncode cfg) = .ok pieces ∧ decodeVlqs pieces.flatten = some vs := by
  refine ⟨vs.map (fun v => encU (signed v)), ?_, ?_⟩
  · induction vs with
    | nil => rfl
    | cons v vs ih =>
      rw [List.mapM_cons, encode_eq cfg v (by simpa using h v (by simp)),
        ih (fun w hw => h w (by simp [hw]))]
      rfl
  · rw [← List.flatMap_def]; exact decodeVlqs_encU vs

/-- C03, injectivity: different lists of deltas give different texts. -/
theorem C03_vlq_sequences_injective (cfg : Cfg) (vs ws : List Int)
    (hv : ∀ v ∈ vs, v.natAbs < 2 ^ 30) (hw : ∀ w ∈ ws, w.natAbs < 2 ^ 30)
    (ps qs : List (List Char)) (h1 : vs.mapM (base64vlqEncode cfg) = .ok ps)
    (h2 : ws.mapM (base64vlqEncode cfg) = .ok qs) (heq : ps.flatten = qs.flatten) : vs = ws := by
  obtain ⟨ps', hp, hd⟩ := C03_vlq_sequences_decode cfg vs hv
  obtain ⟨qs', hq, hd'⟩ := C03_vlq_sequences_decode cfg ws hw
  rw [h1] at hp; rw [h2] at hq; cases hp; cases hq
  rw [heq, hd'] at hd
  exact (Option.some.inj hd).symm

example : ∀ v ∈ [5, -7, (1000000 : Int)], v.natAbs < 2 ^ 30 := by decide

/-- C04 (refutation). On a 64-bit target the encoding of *no* delta of magnitude 2^30 or more
decodes to that delta, in either build profile. -/
theorem C04_vlq_full_range_refuted (cfg : Cfg) (h64 : cfg.ptr64 = true) (v : Int) (hv : IsI32 v)
    (hbig : 2 ^ 30 ≤ v.natAbs) (cs : List Char) (h : base64vlqEncode cfg v = .ok cs) :
    decodeVlq cs ≠ some (v, []) := by
  have big : 1073741824 ≤ v.natAbs := by simpa using hbig
  have single : ∀ d, d < 32 → decodeVlq [digitChar d] ≠ some (v, []) := by
    intro d hd
    simp only [decodeVlq, decodeUnsigned, digitValue_digitChar (show d < 64 by omega), hd, if_true]
    intro he
    simp only [Option.some.injEq, Prod.mk.injEq, and_true] at he
    unfold unsign at he
    split at he <;> omega
  unfold IsI32 at hv
  unfold base64vlqEncode toVlqSigned at h
  by_cases hneg : v < 0
  · simp only [hneg, if_true] at h
    by_cases hmin : v = -2147483648
    · subst hmin
      unfold Cfg.arith at h
      rw [if_neg (by decide)] at h
      split at h
      · simp at h
      · have hw : wrap32 (wrap32 (- -2147483648) * 2) + 1 = 1 := by decide
        simp only [Res.ok_bind, hw] at h
        rw [if_pos (by decide)] at h
        simp only [Res.ok_bind] at h
        rw [vlqLoop_eq cfg 1 1 (by decide) (asUsize_nonneg cfg 1 (by decide))] at h
        cases h
        rw [encU]; exact single 1 (by decide)
    · have h1 : cfg.arith (-v) = .ok (-v) := cfg.arith_ok (by unfold IsI32; omega)
      have h2 : cfg.arith (wrap32 (-v * 2) + 1) = .ok (wrap32 (-v * 2) + 1) :=
        cfg.arith_ok (by unfold IsI32 wrap32; omega)
      simp only [h1, Res.ok_bind, h2] at h
      rw [vlqLoop_neg64 cfg h64 _ (by unfold IsI32 wrap32; omega) (by unfold wrap32; omega)] at h
      cases h
      exact single _ (by omega)
  · simp only [hneg, if_false, Res.ok_bind] at h
    rw [vlqLoop_neg64 cfg h64 _ (by unfold IsI32 wrap32; omega) (by unfold wrap32; omega)] at h
    cases h
    exact single _ (by omega)

/-- The hypotheses of the refutation are met: `2^30` is an `i32`, and it is encoded (as `"A"`). -/
example : base64vlqEncode ⟨true, true⟩ 1073741824 = .ok ['A'] := by
  have : toVlqSigned ⟨true, true⟩ 1073741824 = .ok (-2147483648) := by rfl
  unfold base64vlqEncode
  rw [this]
  simp only [Res.ok_bind]
  rw [vlqLoop_neg64 _ rfl _ (by decide) (by decide)]
  rfl

/-- C04 (what is true). On a 32-bit target every `i32` but `i32::MIN` round-trips; together with
`C01_vlq_roundtrip` (64-bit, |v| < 2^30) and `C04_vlq_full_range_refuted` this settles every
value. Missing with respect to the full property: 64-bit targets for |v| ≥ 2^30 and `i32::MIN`,
where the property is false of the code. -/
theorem C04_vlq_full_range_partial (cfg : Cfg) (h32 : cfg.ptr64 = false) (v : Int) (hv : IsI32 v)
    (hmin : v ≠ -2147483648) (rest : List Char) :
    ∃ cs, base64vlqEncode cfg v = .ok cs ∧ decodeVlq (cs ++ rest) = some (v, rest) := by
  unfold IsI32 at hv
  refine ⟨_, encode_eq_of cfg v (by omega) (by simp [h32]), ?_⟩
  simp [decodeVlq, decodeUnsigned_encU, unsign_signed]

/-- C04, `i32::MIN`: a debug build panics, a release build writes `B`, which denotes (minus) zero. -/
theorem C04_vlq_min (cfg : Cfg) : base64vlqEncode cfg (-2147483648) =
    if cfg.overflowChecks then .error .overflow else .ok ['B'] := by
  unfold base64vlqEncode toVlqSigned Cfg.arith
  rw [if_pos (by decide), if_neg (by decide)]
  cases cfg.overflowChecks
  · have hw : wrap32 (wrap32 (- -2147483648) * 2) + 1 = 1 := by decide
    simp only [Res.ok_bind, hw, Bool.false_eq_true, if_false]
    rw [if_pos (by decide)]
    simp only [Res.ok_bind]
    rw [vlqLoop_eq cfg 1 1 (by decide) (asUsize_nonneg cfg 1 (by decide)), encU]
    rfl
  · rfl

/-- C05. `encode(n)` is `Some` exactly for 0 ≤ n < 64, is the n-th letter of the alphabet, and
inverts the digit value. -/
theorem C05_base64_digit (n : Int) :
    ((base64Encode n).isSome ↔ 0 ≤ n ∧ n < 64) ∧
    (∀ c, base64Encode n = some c → rfc4648.toList[n.toNat]? = some c ∧ digitValue c = some n.toNat) := by
  have hl : intToCharMap.length = 64 := rfl
  have hr : rfc4648.toList = intToCharMap := by decide
  constructor
  · unfold base64Encode
    split
    · rename_i h
      have hlt : n.toNat < intToCharMap.length := by omega
      rw [List.getElem?_eq_getElem hlt]; simp; omega
    · rename_i h; simp; omega
  · intro c hc
    unfold base64Encode at hc
    split at hc
    · rename_i h
      refine ⟨by rw [hr]; exact hc, ?_⟩
      have := digit_table ⟨n.toNat, by omega⟩
      simp only [hc, Option.bind_some] at this
      exact this
    · cases hc

/-- C05, injectivity. -/
theorem C05_base64_injective (m n : Int) (c : Char) (hm : base64Encode m = some c)
    (hn : base64Encode n = some c) : m = n := by
  have h1 := (C05_base64_digit m).2 c hm
  have h2 := (C05_base64_digit n).2 c hn
  have hm' := (C05_base64_digit m).1.1 (by simp [hm])
  have hn' := (C05_base64_digit n).1.1 (by simp [hn])
  have := h1.2.symm.trans h2.2
  simp only [Option.some.injEq] at this
  omega

end RSM
