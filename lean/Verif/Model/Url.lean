import Verif.Model.Rust
/-! # The `url` crate as used by `src/util.rs`

`/repo/Cargo.toml` 28: `url = "2.2.2"`. The crate is a dependency and is not modelled: its
operations are parameters. What the proofs assume about them is stated separately
(`Verif/Dep/Url.lean`), together with a concrete instance.
-/

namespace RSM

/-- Text of URLs and paths. -/
abbrev Text := List Char

/-- The operations of `url::Url` that `/repo/src/util.rs` uses. `parse` and `join` return `none`
for `Err`. Hosts are compared only for equality, so their text stands for them. -/
structure UrlLib where
  Url : Type
  parse : Text → Option Url
  join : Url → Text → Option Url
  scheme : Url → Text
  username : Url → Text
  password : Url → Option Text
  host : Url → Option Text
  port : Url → Option Nat
  path : Url → Text
  query : Url → Option Text
  fragment : Url → Option Text
  setPath : Url → Text → Url
  asStr : Url → Text

end RSM
