import Verif.Model.Vlq
import Verif.Spec.Vlq
/-! # Helper lemmas for the VLQ properties -/

namespace RSM

open Spec

theorem digit_table : ∀ n : Fin 64, (intToCharMap[n.val]?).bind digitValue = some n.val := by
  decide +kernel

theorem base64Encode_of_lt {n : Nat} (h : n < 64) :
    ∃ c, base64Encode (n : Int) = some c ∧ digitValue c = some n := by
  have h1 := digit_table ⟨n, h⟩
  have hl : intToCharMap.length = 64 := rfl
  have : base64Encode (n : Int) = intToCharMap[n]? := by
    unfold base64Encode
    rw [if_pos (by rw [hl]; omega)]
    simp
  rw [this]
  simp only [Option.bind_eq_some_iff] at h1
  exact h1

/-- The character for a digit value below 64 (`'A'` otherwise). -/
def digitChar (n : Nat) : Char := (base64Encode (n : Int)).getD 'A'

theorem base64Encode_digitChar {n : Nat} (h : n < 64) :
    base64Encode (n : Int) = some (digitChar n) := by
  obtain ⟨c, hc, _⟩ := base64Encode_of_lt h
  simp [digitChar, hc]

theorem digitValue_digitChar {n : Nat} (h : n < 64) : digitValue (digitChar n) = some n := by
  obtain ⟨c, hc, hd⟩ := base64Encode_of_lt h
  simp [digitChar, hc, hd]

/-- The digits emitted for an unsigned number. -/
def encU (n : Nat) : List Char :=
  if _h : n < 32 then [digitChar n] else digitChar (n % 32 + 32) :: encU (n / 32)
termination_by n
decreasing_by omega

theorem or32 {n : Nat} (h : n < 32) : n ||| 32 = n + 32 := by
  have : ∀ m : Fin 32, m.val ||| 32 = m.val + 32 := by decide
  exact this ⟨n, h⟩

theorem vlqStep_eq (cfg : Cfg) (v : Int) (n : Nat) (hn : n < 4294967296)
    (h : cfg.asUsize v = n) :
    vlqStep cfg v = (if n / 32 > 0 then ((n % 32 + 32 : Nat) : Int) else ((n % 32 : Nat) : Int),
      ((n / 32 : Nat) : Int)) := by
  have hand : n &&& 31 = n % 32 := Nat.and_two_pow_sub_one_eq_mod n 5
  have hsh : n >>> 5 = n / 32 := by simp [Nat.shiftRight_eq_div_pow]
  have hm : vlqBaseMask = 31 := rfl
  have hc : vlqContinuationBit = 32 := rfl
  have hd : wrap32 ((n % 32 : Nat) : Int) = ((n % 32 : Nat) : Int) :=
    wrap32_of_isI32 (by unfold IsI32; omega)
  have hq : wrap32 ((n / 32 : Nat) : Int) = ((n / 32 : Nat) : Int) :=
    wrap32_of_isI32 (by unfold IsI32; omega)
  have hu : cfg.asUsize ((n % 32 : Nat) : Int) = n % 32 := by
    unfold Cfg.asUsize; split <;> omega
  unfold vlqStep
  simp only [h, hm, hc, vlqBaseShift, hand, hsh, hd, hq, hu, or32 (Nat.mod_lt n (by decide : 32 > 0))]
  have hdw : wrap32 ((n % 32 + 32 : Nat) : Int) = ((n % 32 + 32 : Nat) : Int) :=
    wrap32_of_isI32 (by unfold IsI32; omega)
  simp only [hdw]
  by_cases hp : n / 32 > 0
  · rw [if_pos (by omega), if_pos hp]
  · rw [if_neg (by omega), if_neg hp]

theorem vlqLoop_eq (cfg : Cfg) : ∀ (n : Nat) (v : Int), n < 4294967296 → cfg.asUsize v = n →
    vlqLoop cfg v = .ok (encU n) := by
  intro n
  induction n using Nat.strongRecOn with
  | ind n ih =>
    intro v hn h
    unfold vlqLoop
    rw [vlqLoopWith, encU]
    have hs := vlqStep_eq cfg v n hn h
    rw [hs]
    by_cases hlt : n < 32
    · have h0 : n / 32 = 0 := by omega
      have hm : n % 32 = n := by omega
      simp only [h0, hm, hlt, base64Encode_digitChar (show n < 64 by omega), gt_iff_lt,
        Nat.lt_irrefl, if_false, dif_pos]
      rfl
    · have h0 : 0 < n / 32 := by omega
      have := ih (n / 32) (by omega) ((n / 32 : Nat) : Int) (by omega)
        (by unfold Cfg.asUsize; split <;> omega)
      unfold vlqLoop at this
      simp only [gt_iff_lt, h0, if_true, hlt, dif_neg, not_false_eq_true,
        base64Encode_digitChar (show n % 32 + 32 < 64 by omega), this]
      rw [dif_pos (by omega)]
      rfl

theorem asUsize_nonneg (cfg : Cfg) (n : Nat) (hn : n < 4294967296) : cfg.asUsize (n : Int) = n := by
  unfold Cfg.asUsize; split <;> omega

theorem decodeUnsigned_encU (n : Nat) (rest : List Char) :
    decodeUnsigned (encU n ++ rest) = some (n, rest) := by
  induction n using Nat.strongRecOn with
  | ind n ih =>
    rw [encU]
    split
    · rename_i h
      simp [decodeUnsigned, digitValue_digitChar (show n < 64 by omega), h]
    · rename_i h
      have hd := digitValue_digitChar (show n % 32 + 32 < 64 by omega)
      simp only [List.cons_append, decodeUnsigned, hd, ih (n / 32) (by omega)]
      rw [if_neg (by omega)]
      congr 2
      omega

/-- The accumulated VLQ of a signed number: twice the magnitude, plus one when negative. -/
def signed (v : Int) : Nat := if v < 0 then 2 * v.natAbs + 1 else 2 * v.natAbs

theorem unsign_signed (v : Int) : unsign (signed v) = v := by
  unfold signed unsign; split <;> split <;> omega

theorem encode_eq_of (cfg : Cfg) (v : Int) (h : -2147483648 < v ∧ v ≤ 2147483647)
    (hw : cfg.ptr64 = true → v.natAbs < 1073741824) :
    base64vlqEncode cfg v = .ok (encU (signed v)) := by
  unfold base64vlqEncode toVlqSigned
  by_cases hv : v < 0
  · have h1 : cfg.arith (-v) = .ok (-v) := cfg.arith_ok (by unfold IsI32; omega)
    have h2 : cfg.arith (wrap32 (-v * 2) + 1) = .ok (wrap32 (-v * 2) + 1) :=
      cfg.arith_ok (by unfold IsI32 wrap32; omega)
    simp only [hv, if_true, h1, Res.ok_bind, h2]
    apply vlqLoop_eq
    · simp only [signed, hv, if_true]; omega
    · simp only [signed, hv, if_true]
      unfold Cfg.asUsize wrap32
      cases hp : cfg.ptr64
      · simp only [Bool.false_eq_true, if_false]; omega
      · have := hw hp; simp only [if_true]; omega
  · simp only [hv, if_false, Res.ok_bind]
    apply vlqLoop_eq
    · simp only [signed, hv, if_false]; omega
    · simp only [signed, hv, if_false]
      unfold Cfg.asUsize wrap32
      cases hp : cfg.ptr64
      · simp only [Bool.false_eq_true, if_false]; omega
      · have := hw hp; simp only [if_true]; omega

theorem encode_eq_limit (cfg : Cfg) (v : Int) (h : v.natAbs < cfg.vlqLimit) :
    base64vlqEncode cfg v = .ok (encU (signed v)) :=
  encode_eq_of cfg v (by have := cfg.vlqLimit_le; omega) (fun h64 => by simpa [Cfg.vlqLimit, h64] using h)

theorem encode_eq (cfg : Cfg) (v : Int) (h : v.natAbs < 1073741824) :
    base64vlqEncode cfg v = .ok (encU (signed v)) :=
  encode_eq_of cfg v (by omega) (fun _ => h)

/-- On a 64-bit target a negative `vlq` yields one digit and stops. -/
theorem vlqLoop_neg64 (cfg : Cfg) (hp : cfg.ptr64 = true) (v : Int) (h : IsI32 v) (hv : v < 0) :
    vlqLoop cfg v = .ok [digitChar (v % 32).toNat] := by
  obtain ⟨N, hN, hu⟩ : ∃ N : Nat, (N : Int) = 18446744073709551616 + v ∧ cfg.asUsize v = N := by
    refine ⟨_, ?_, rfl⟩
    unfold IsI32 at h; unfold Cfg.asUsize; rw [hp]; simp only [if_true]; omega
  have hneg : ¬ wrap32 ((N / 32 : Nat) : Int) > 0 := by
    unfold IsI32 at h; unfold wrap32; omega
  have hd : wrap32 ((N % 32 : Nat) : Int) = ((v % 32).toNat : Int) := by
    unfold wrap32; omega
  have hs : vlqStep cfg v = (((v % 32).toNat : Int), wrap32 ((N / 32 : Nat) : Int)) := by
    unfold vlqStep
    have hand : N &&& 31 = N % 32 := Nat.and_two_pow_sub_one_eq_mod _ 5
    have hsh : N >>> 5 = N / 32 := by simp [Nat.shiftRight_eq_div_pow]
    have hm : vlqBaseMask = 31 := rfl
    simp only [hu, hm, vlqBaseShift, hand, hsh, hd]
    rw [if_neg hneg]
  unfold vlqLoop
  rw [vlqLoopWith, hs]
  simp only [base64Encode_digitChar (show (v % 32).toNat < 64 by omega), hneg, dif_neg,
    not_false_eq_true]

theorem encU_length (n : Nat) : ∀ k, n < 32 ^ (k + 1) → (encU n).length ≤ k + 1 := by
  intro k
  induction k generalizing n with
  | zero => intro h; rw [encU]; simp at h; simp [h]
  | succ k ih =>
    intro h
    rw [encU]
    split
    · simp
    · have := ih (n / 32) (by
        rw [Nat.div_lt_iff_lt_mul (by decide)]; rw [Nat.pow_succ] at h; exact h)
      simp only [List.length_cons]; omega

end RSM
