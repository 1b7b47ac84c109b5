/-!
# Rust primitives

The fragment of Rust's semantics the model needs: panics as values, 32-bit signed
arithmetic in both build profiles, and integer casts.
-/

namespace RSM

/-- Why a Rust call did not return: the panics that the modelled code can raise. -/
inductive Panic where
  /-- arithmetic overflow (only with overflow checks enabled) -/
  | overflow
  /-- `Option::unwrap` on `None` or `Result::unwrap` on `Err` -/
  | unwrap
  /-- slice or `Vec` index out of bounds -/
  | index
  /-- `RefCell::borrow`/`borrow_mut` while an incompatible guard is alive -/
  | borrow
  /-- an explicit `panic!` -/
  | explicit (msg : String)
deriving DecidableEq, Repr

/-- Result of a Rust call: a value or a panic. -/
abbrev Res (α : Type) := Except Panic α

/-- Build configuration. `overflowChecks` is on in debug and off in release builds
(`/repo/Cargo.toml` 13-14 does not enable it for release). `ptr64` tells whether `usize`
has 64 or 32 bits. -/
structure Cfg where
  overflowChecks : Bool
  ptr64 : Bool
deriving DecidableEq, Repr

/-- `x` is a value of type `i32`. -/
def IsI32 (x : Int) : Prop := -2147483648 ≤ x ∧ x ≤ 2147483647

instance (x : Int) : Decidable (IsI32 x) := by unfold IsI32; infer_instance

/-- Two's complement truncation to 32 bits (`as i32`). -/
def wrap32 (x : Int) : Int := (x + 2147483648) % 4294967296 - 2147483648

/-- The outcome of an `i32` `+`, `-` or unary `-` whose mathematical result is `x`. -/
def Cfg.arith (cfg : Cfg) (x : Int) : Res Int :=
  if IsI32 x then .ok x
  else if cfg.overflowChecks then .error .overflow
  else .ok (wrap32 x)

/-- `x as usize` for `x : i32`: sign extension to the pointer width, read as unsigned. -/
def Cfg.asUsize (cfg : Cfg) (x : Int) : Nat :=
  (x % (if cfg.ptr64 then 18446744073709551616 else 4294967296)).toNat

/-- `Option::unwrap`. -/
def unwrap {α : Type} : Option α → Res α
  | some a => .ok a
  | none => .error .unwrap

/-- `v[i]` for a `Vec`/slice and a `usize` index. -/
def index {α : Type} (l : List α) (i : Nat) : Res α :=
  match l[i]? with
  | some a => .ok a
  | none => .error .index

theorem wrap32_of_isI32 {x : Int} (h : IsI32 x) : wrap32 x = x := by
  unfold IsI32 at h; unfold wrap32; omega

theorem wrap32_isI32 (x : Int) : IsI32 (wrap32 x) := by
  unfold IsI32 wrap32; omega

theorem Cfg.arith_ok (cfg : Cfg) {x : Int} (h : IsI32 x) : cfg.arith x = .ok x := by
  simp [Cfg.arith, h]

theorem Cfg.arith_isI32 (cfg : Cfg) {x y : Int} (h : cfg.arith x = .ok y) : IsI32 y := by
  unfold Cfg.arith at h
  split at h
  · cases h; assumption
  · split at h
    · cases h
    · cases h; exact wrap32_isI32 _

@[simp] theorem Res.ok_bind {α β : Type} (a : α) (f : α → Res β) :
    ((Except.ok a : Res α) >>= f) = f a := (rfl)

@[simp] theorem Res.error_bind {α β : Type} (e : Panic) (f : α → Res β) :
    ((Except.error e : Res α) >>= f) = .error e := (rfl)

@[simp] theorem Res.pure_eq {α : Type} (a : α) : (pure a : Res α) = .ok a := (rfl)

theorem Res.bind_eq_ok {α β : Type} {x : Res α} {f : α → Res β} {b : β} :
    (x >>= f) = .ok b ↔ ∃ a, x = .ok a ∧ f a = .ok b := by
  cases x with
  | error e => simp
  | ok a => simp

end RSM
