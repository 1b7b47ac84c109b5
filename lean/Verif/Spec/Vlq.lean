import Verif.Model.Rust
/-!
# Specification of base64 VLQ decoding

Written from the Source Map v3 format description, independently of the Rust code. A VLQ is a
sequence of base64 digits, least significant group first; bit 5 (value 32) of a digit means "more
digits follow", the low five bits are data; the lowest bit of the accumulated number is the sign.
-/

namespace RSM.Spec

/-- Value of a base64 character (RFC 4648, table 1). -/
def digitValue (c : Char) : Option Nat :=
  if 'A' ≤ c ∧ c ≤ 'Z' then some (c.toNat - 'A'.toNat)
  else if 'a' ≤ c ∧ c ≤ 'z' then some (c.toNat - 'a'.toNat + 26)
  else if '0' ≤ c ∧ c ≤ '9' then some (c.toNat - '0'.toNat + 52)
  else if c = '+' then some 62
  else if c = '/' then some 63
  else none

/-- Unsigned VLQ at the front of a text: the number and the remaining text. -/
def decodeUnsigned : List Char → Option (Nat × List Char)
  | [] => none
  | c :: cs =>
    match digitValue c with
    | none => none
    | some d =>
      if d < 32 then some (d, cs)
      else match decodeUnsigned cs with
        | none => none
        | some (hi, rest) => some (d - 32 + 32 * hi, rest)

/-- The signed number denoted by an accumulated VLQ: lowest bit set means negative. -/
def unsign (n : Nat) : Int := if n % 2 = 1 then -((n / 2 : Nat) : Int) else ((n / 2 : Nat) : Int)

/-- Signed VLQ at the front of a text. -/
def decodeVlq (cs : List Char) : Option (Int × List Char) :=
  match decodeUnsigned cs with
  | none => none
  | some (n, rest) => some (unsign n, rest)

/-- A text consisting of nothing but VLQs, decoded from the left. -/
def decodeVlqs (cs : List Char) : Option (List Int) :=
  match cs with
  | [] => some []
  | c :: cs' =>
    match decodeVlq (c :: cs') with
    | none => none
    | some (v, rest) =>
      if rest.length < (c :: cs').length then
        match decodeVlqs rest with
        | none => none
        | some vs => some (v :: vs)
      else none
termination_by cs.length

end RSM.Spec

namespace RSM

/-- The numbers below this bound are those whose differences are VLQ encoded correctly (C01, C04): with 32-bit
pointers all non-negative `i32`, with 64-bit pointers those below `2^30`. -/
def Cfg.vlqLimit (cfg : Cfg) : Nat := if cfg.ptr64 then 1073741824 else 2147483648

theorem Cfg.vlqLimit_le (cfg : Cfg) : cfg.vlqLimit ≤ 2147483648 := by
  unfold vlqLimit; split <;> omega

theorem Cfg.le_vlqLimit (cfg : Cfg) : 1073741824 ≤ cfg.vlqLimit := by
  unfold vlqLimit; split <;> omega

end RSM
