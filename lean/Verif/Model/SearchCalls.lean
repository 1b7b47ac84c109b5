import Verif.Model.BinarySearch
import Verif.Model.Caught
/-! # `src/binary_search.rs` with comparators that have effects

The comparators of `search` are closures, which may change what they can reach through a cell. Here they are calls on a
state `S` of the caller (`Left S`), and `search` is modelled once more with the state it leaves, in either case.
-/

namespace RSM

variable {S α β : Type}

/-- `/repo/src/binary_search.rs` 17-75, `recursive_search`; `fuel` as in `recursiveSearch`. -/
def recursiveSearchL (cfg : Cfg) (cmp : β → Left S Int) (hay : List β) (bias : Int) :
    Nat → Int → Int → Left S Int
  | 0, _, _ => Left.panic (.explicit "recursion does not end")
  | fuel + 1, low, high => do
    let d ← Left.lift (cfg.arith (high - low))
    let mid ← Left.lift (cfg.arith (d.tdiv 2 + low))
    let h ← Left.lift (index hay (cfg.asUsize mid))
    let c ← cmp h
    if c = 0 then pure mid
    else if c > 0 then do
      let up ← Left.lift (cfg.arith (high - mid))
      if up > 1 then recursiveSearchL cfg cmp hay bias fuel mid high
      else if bias = leastUpperBound then
        pure (if high < wrap32 hay.length then high else -1)
      else pure mid
    else do
      let down ← Left.lift (cfg.arith (mid - low))
      if down > 1 then recursiveSearchL cfg cmp hay bias fuel low mid
      else if bias = leastUpperBound then pure mid
      else pure (if low < 0 then -1 else low)

/-- `/repo/src/binary_search.rs` 103-108, the `while` loop; the counter is the (non-negative) index itself. -/
def walkBackL (cmp2 : β → β → Left S Int) (hay : List β) : Nat → Left S Nat
  | 0 => pure 0
  | i + 1 => do
    let a ← Left.lift (index hay (i + 1))
    let b ← Left.lift (index hay i)
    let c ← cmp2 a b
    if c ≠ 0 then pure (i + 1) else walkBackL cmp2 hay i

/-- `/repo/src/binary_search.rs` 77-111, `search`. -/
def searchL (cfg : Cfg) (needle : α) (hay : List β) (cmp1 : α → β → Left S Int)
    (cmp2 : β → β → Left S Int) (bias : Option Int) : Left S Int :=
  if hay.isEmpty then pure (-1)
  else do
    let len := wrap32 hay.length
    let i ← recursiveSearchL cfg (cmp1 needle) hay (bias.getD greatestLowerBound)
      (len + 1).toNat (-1) len
    if i < 0 then pure (-1)
    else do
      let j ← walkBackL cmp2 hay i.toNat
      pure (j : Int)

end RSM
