import Verif.Model.Base64
/-! # `src/base64_vlq.rs` -/

namespace RSM

/-- `/repo/src/base64_vlq.rs` 15, `VLQ_BASE_SHIFT`. -/
def vlqBaseShift : Nat := 5
/-- `/repo/src/base64_vlq.rs` 18, `VLQ_BASE`. -/
def vlqBase : Nat := 1 <<< vlqBaseShift
/-- `/repo/src/base64_vlq.rs` 21, `VLQ_BASE_MASK`. -/
def vlqBaseMask : Nat := vlqBase - 1
/-- `/repo/src/base64_vlq.rs` 24, `VLQ_CONTINUATION_BIT`. -/
def vlqContinuationBit : Nat := vlqBase

/-- `/repo/src/base64_vlq.rs` 26-32, `to_vlq_signed`. The unary minus and the `+ 1` are checked
in debug builds; `<< 1` discards the top bit silently in every build (Rust only checks the shift
amount). -/
def toVlqSigned (cfg : Cfg) (value : Int) : Res Int :=
  if value < 0 then do
    let n ← cfg.arith (-value)
    cfg.arith (wrap32 (n * 2) + 1)
  else .ok (wrap32 (value * 2))

/-- One round of the loop at `/repo/src/base64_vlq.rs` 40-53: the base64 digit emitted for `vlq`
and the next `vlq`. All casts are exact: `vlq as usize`, `& VLQ_BASE_MASK`, `>> VLQ_BASE_SHIFT`,
`as i32`. -/
def vlqStep (cfg : Cfg) (vlq : Int) : Int × Int :=
  let digit : Int := wrap32 (cfg.asUsize vlq &&& vlqBaseMask : Nat)
  let next : Int := wrap32 (cfg.asUsize vlq >>> vlqBaseShift : Nat)
  if next > 0 then (wrap32 (cfg.asUsize digit ||| vlqContinuationBit : Nat), next)
  else (digit, next)

theorem vlqStep_snd (cfg : Cfg) (vlq : Int) :
    (vlqStep cfg vlq).2 = wrap32 ((cfg.asUsize vlq / 32 : Nat) : Int) := by
  unfold vlqStep
  simp only [vlqBaseShift, Nat.shiftRight_eq_div_pow]
  split <;> rfl

/-- Why the loop ends: negative values, possible only on entry, count as larger than every `i32`. -/
def vlqMeasure (vlq : Int) : Nat := if vlq < 0 then 4294967296 else vlq.toNat

/-- The loop goes on only with a strictly smaller measure. -/
theorem vlqStep_decreases (cfg : Cfg) (vlq : Int) (h : (vlqStep cfg vlq).2 > 0) :
    vlqMeasure (vlqStep cfg vlq).2 < vlqMeasure vlq := by
  have hs := vlqStep_snd cfg vlq
  generalize (vlqStep cfg vlq).2 = n at *
  unfold wrap32 Cfg.asUsize at hs
  unfold vlqMeasure
  rw [if_neg (by omega)]
  split
  · split at hs <;> omega
  · split at hs <;> omega

/-- `/repo/src/base64_vlq.rs` 40-54, the `loop`, for any loop body `step` that makes progress:
emit the digit, stop when the next value is not positive. (The body is a parameter only so that
the definition is by well-founded recursion on an opaque function.) -/
def vlqLoopWith (step : Int → Int × Int)
    (dec : ∀ v, (step v).2 > 0 → vlqMeasure (step v).2 < vlqMeasure v) (vlq : Int) :
    Res (List Char) :=
  match base64Encode (step vlq).1 with
  | none => .error .unwrap
  | some c =>
    if _h : (step vlq).2 > 0 then do
      let rest ← vlqLoopWith step dec (step vlq).2
      pure (c :: rest)
    else .ok [c]
termination_by vlqMeasure vlq
decreasing_by exact dec vlq _h

/-- `/repo/src/base64_vlq.rs` 40-54, the `loop`. It terminates because it goes on only while the
shifted value is positive, see `vlqStep_decreases`. -/
def vlqLoop (cfg : Cfg) (vlq : Int) : Res (List Char) :=
  vlqLoopWith (vlqStep cfg) (vlqStep_decreases cfg) vlq

/-- `/repo/src/base64_vlq.rs` 34-55, `base64vlq_encode`. -/
def base64vlqEncode (cfg : Cfg) (value : Int) : Res (List Char) := do
  let vlq ← toVlqSigned cfg value
  vlqLoop cfg vlq

end RSM
