import Verif.Model.Rust
/-! # `src/base64.rs` -/

namespace RSM

/-- `/repo/src/base64.rs` 1-6, `INT_TO_CHAR_MAP`. The Rust table holds one-letter strings that
are parsed to `char` on use; the model holds the characters. -/
def intToCharMap : List Char :=
  [ 'A', 'B', 'C', 'D', 'E', 'F', 'G', 'H', 'I', 'J', 'K', 'L', 'M', 'N', 'O', 'P', 'Q', 'R', 'S',
    'T', 'U', 'V', 'W', 'X', 'Y', 'Z', 'a', 'b', 'c', 'd', 'e', 'f', 'g', 'h', 'i', 'j', 'k', 'l',
    'm', 'n', 'o', 'p', 'q', 'r', 's', 't', 'u', 'v', 'w', 'x', 'y', 'z', '0', '1', '2', '3', '4',
    '5', '6', '7', '8', '9', '+', '/' ]

/-- `/repo/src/base64.rs` 8-14, `encode`. Inside the guard the index is in bounds, so the
`num as usize` index cannot panic; `intToCharMap[num.toNat]?` is `some` there. -/
def base64Encode (num : Int) : Option Char :=
  if 0 ≤ num ∧ num < intToCharMap.length then intToCharMap[num.toNat]? else none

end RSM
