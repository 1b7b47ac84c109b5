import Verif.Model.Rust
/-! # `src/binary_search.rs` -/

namespace RSM

/-- `/repo/src/binary_search.rs` 1. -/
def greatestLowerBound : Int := 1
/-- `/repo/src/binary_search.rs` 2. -/
def leastUpperBound : Int := 2

/-- `/repo/src/binary_search.rs` 17-75, `recursive_search`. `cmp` is `compare(needle, _)`; a
comparator may panic. `/` on `i32` truncates. Lean needs a bound on the recursion depth: `fuel`;
running out of it would mean more recursive calls than the distance of the initial bounds and is
reported as a panic (C15 shows it does not happen). -/
def recursiveSearch {β : Type} (cfg : Cfg) (cmp : β → Res Int) (hay : List β) (bias : Int) :
    Nat → Int → Int → Res Int
  | 0, _, _ => .error (.explicit "recursion does not end")
  | fuel + 1, low, high => do
    let d ← cfg.arith (high - low)
    let mid ← cfg.arith (d.tdiv 2 + low)
    let h ← index hay (cfg.asUsize mid)
    let c ← cmp h
    if c = 0 then .ok mid
    else if c > 0 then do
      let up ← cfg.arith (high - mid)
      if up > 1 then recursiveSearch cfg cmp hay bias fuel mid high
      else if bias = leastUpperBound then
        .ok (if high < wrap32 hay.length then high else -1)
      else .ok mid
    else do
      let down ← cfg.arith (mid - low)
      if down > 1 then recursiveSearch cfg cmp hay bias fuel low mid
      else if bias = leastUpperBound then .ok mid
      else .ok (if low < 0 then -1 else low)

/-- `/repo/src/binary_search.rs` 103-108, the `while` loop; the counter is the (non-negative)
index itself. -/
def walkBack {β : Type} (cmp2 : β → β → Res Int) (hay : List β) : Nat → Res Nat
  | 0 => .ok 0
  | i + 1 => do
    let a ← index hay (i + 1)
    let b ← index hay i
    let c ← cmp2 a b
    if c ≠ 0 then .ok (i + 1) else walkBack cmp2 hay i

/-- `/repo/src/binary_search.rs` 77-111, `search`. -/
def search {α β : Type} (cfg : Cfg) (needle : α) (hay : List β) (cmp1 : α → β → Res Int)
    (cmp2 : β → β → Res Int) (bias : Option Int) : Res Int :=
  if hay.isEmpty then .ok (-1)
  else do
    let len := wrap32 hay.length
    let i ← recursiveSearch cfg (cmp1 needle) hay (bias.getD greatestLowerBound)
      (len + 1).toNat (-1) len
    if i < 0 then .ok (-1)
    else do
      let j ← walkBack cmp2 hay i.toNat
      pure (j : Int)

end RSM
