import Verif.Model.Indexed
/-! # The program of the crate: `/repo/bench/main.rs`

`Cargo.toml` 19-21 makes it the binary `main`. -/

namespace RSM

variable {E : Env}

/-- `/repo/bench/main.rs` 6-16, `main`. `file` is what `read_to_string` gives, `none` if it fails; the result is the
sequence of mappings the callback is called with, which the program throws away. Simplification: the clock and the
`println!` of the elapsed time are left out. -/
def program (schedule : List Nat) (file : Option Text) : Res (List LibMapping) := do
  let content ← unwrap file
  let consumer ← createConsumer (E := E) schedule content none
  let consumer ← unwrap consumer
  match consumer with
  | .basic c => do
    let (l, _) ← c.eachMapping .generated
    pure l
  | .indexed _ => pure []

end RSM
