import Verif.Model.Indexed
/-! # `src/consumer.rs` 504-570: the parallel workers that make the sections, step by step

`Verif/Model/Indexed.lean` runs the closure of a section in one go, in the order in which the workers get the lock. Here
the closures are cut into steps, which are interleaved in any way. Simplifications: `rayon` may run the closures on fewer
threads than there are sections, or leave some out after a panic; every such execution is one of those here, cut short.
The whole call panics if some closure does. -/

namespace RSM

variable {E : Env}

/-- Where a worker is in `/repo/src/consumer.rs` 538-568. -/
inductive Worker (E : Env) where
  /-- Not begun. -/
  | idle
  /-- After the check of the `url`, 541. -/
  | checked
  /-- After `lock().unwrap()`, 546. -/
  | locked
  /-- After the comparison with the last offset, 548-552. -/
  | compared
  /-- After the assignment, 554. -/
  | written
  /-- The section is made; the guard is dropped, 568. -/
  | done (s : IdxSection E)
  /-- The closure has panicked. -/
  | panicked

/-- The workers and the mutex of 504-507: who holds the lock, the position inside, and whether it is poisoned. -/
structure Pool (E : Env) where
  worker : Nat → Worker E
  lock : Option Nat
  last : Position
  poisoned : Bool

namespace Pool

/-- `/repo/src/consumer.rs` 504-507: nobody has begun. -/
def start : Pool E := ⟨fun _ => .idle, none, ⟨-1, 0⟩, false⟩

/-- Worker `i` goes on to `w`. -/
def set (p : Pool E) (i : Nat) (w : Worker E) : Pool E := { p with worker := fun j => if j = i then w else p.worker j }

/-- `/repo/src/consumer.rs` 556-567, the section. -/
def makeSection (mapUrl : Option String) (s : JsonSection SourceMapJson) : Res (IdxSection E) := do
  let line ← E.cfg.arith (s.offset.line + 1)
  let column ← E.cfg.arith (s.offset.column + 1)
  let c ← BasicConsumer.fromSourceMapJson s.map mapUrl
  pure ⟨⟨line, column⟩, c⟩

/-- The next step of worker `i`; `none` if it has ended, or waits for the lock. A panic while the guard is held unlocks
and poisons the mutex, and `lock().unwrap()` panics if it is poisoned. -/
def step (mapUrl : Option String) (secs : List (JsonSection SourceMapJson)) (p : Pool E) (i : Nat) : Option (Pool E) :=
  match secs[i]? with
  | none => none
  | some s =>
    match p.worker i with
    | .idle => some (p.set i (if s.url.isSome then .panicked else .checked))
    | .checked =>
      if p.lock.isSome then none
      else if p.poisoned then some (p.set i .panicked)
      else some { p.set i .locked with lock := some i }
    | .locked =>
      if s.offset.line < p.last.line ∨ (s.offset.line = p.last.line ∧ s.offset.column < p.last.column) then
        some { p.set i .panicked with lock := none, poisoned := true }
      else some (p.set i .compared)
    | .compared => some { p.set i .written with last := s.offset }
    | .written =>
      match makeSection mapUrl s with
      | .ok x => some { p.set i (.done x) with lock := none }
      | .error _ => some { p.set i .panicked with lock := none, poisoned := true }
    | .done _ => none
    | .panicked => none

/-- The pool after the workers have made one step each in the order given. -/
def exec (mapUrl : Option String) (secs : List (JsonSection SourceMapJson)) : Pool E → List Nat → Option (Pool E)
  | p, [] => some p
  | p, i :: is => do
    let p' ← step mapUrl secs p i
    exec mapUrl secs p' is

end Pool

end RSM
