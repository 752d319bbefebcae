/-!
# Checked machine arithmetic

Rust integers are modelled by `Nat` (`Int` for signed ones).  An operation that would overflow, underflow, or fail an
assertion evaluates to `none`, the model's *panic* value.  In a release build overflow wraps silently instead of
panicking; a theorem `f x = some y` about a checked model excludes both.

These definitions model the semantics of the Rust primitives, not a particular file of `/repo`.
-/
namespace Fhe

/-- A computation that may panic.  For example the `debug_assert!` and the arithmetic of `add`, `/repo/crates/fhe-math/src/zq/mod.rs` lines 103-106.
-/
abbrev Panics (α : Type) := Option α

/-- `a + b` on `u64`.  For example `/repo/crates/fhe-math/src/zq/mod.rs` lines 103-106. -/
def add64 (a b : Nat) : Panics Nat := if a + b < 2 ^ 64 then some (a + b) else none
/-- `a - b` on an unsigned type.  For example `/repo/crates/fhe-math/src/zq/mod.rs` lines 229 and 701. -/
def subU (a b : Nat) : Panics Nat := if b ≤ a then some (a - b) else none
/-- `a * b` on `u64`.  For example `/repo/crates/fhe-math/src/zq/mod.rs` line 231. -/
def mul64 (a b : Nat) : Panics Nat := if a * b < 2 ^ 64 then some (a * b) else none
/-- `a + b` on `u128`.  For example `/repo/crates/fhe-math/src/zq/mod.rs` line 700. -/
def add128 (a b : Nat) : Panics Nat := if a + b < 2 ^ 128 then some (a + b) else none
/-- `a * b` on `u128`.  For example `/repo/crates/fhe-math/src/zq/mod.rs` lines 133 and 696-698. -/
def mul128 (a b : Nat) : Panics Nat := if a * b < 2 ^ 128 then some (a * b) else none
/-- `a as u64`.  For example `/repo/crates/fhe-math/src/zq/mod.rs` lines 198 and 694. -/
def asU64 (a : Nat) : Nat := a % 2 ^ 64
/-- `a.wrapping_sub(b)` on `u64`, for `a, b < 2^64`.  `/repo/crates/fhe-math/src/zq/mod.rs` line 663. -/
def wsub64 (a b : Nat) : Nat := (a + 2 ^ 64 - b) % 2 ^ 64
/-- `a << k` on `u128`, for `k < 128`: the bits shifted out are lost.  `/repo/crates/fhe-math/src/zq/mod.rs` lines 198 and 733. -/
def shl128 (a k : Nat) : Nat := (a <<< k) % 2 ^ 128
/-- `assert!(c)` and `debug_assert!(c)`.  For example `/repo/crates/fhe-math/src/zq/mod.rs` lines 104, 660-661 and
`/repo/crates/fhe-util/src/lib.rs` line 201. -/
def check (c : Prop) [Decidable c] : Panics Unit := if c then some () else none
/-- The number of bits of the binary representation of `a` (`0` for `0`).  It gives `leading_zeros`, `/repo/crates/fhe-math/src/zq/mod.rs` lines 92,
565 and 775. -/
def bitLen (a : Nat) : Nat := if a = 0 then 0 else a.log2 + 1
/-- `a.leading_zeros()` on `u64`.  `/repo/crates/fhe-math/src/zq/mod.rs` lines 92, 565 and 775. -/
def lz64 (a : Nat) : Nat := 64 - bitLen a

theorem add64_eq {a b : Nat} (h : a + b < 2 ^ 64) : add64 a b = some (a + b) := if_pos h
theorem subU_eq {a b : Nat} (h : b ≤ a) : subU a b = some (a - b) := if_pos h
theorem mul64_eq {a b : Nat} (h : a * b < 2 ^ 64) : mul64 a b = some (a * b) := if_pos h
theorem add128_eq {a b : Nat} (h : a + b < 2 ^ 128) : add128 a b = some (a + b) := if_pos h
theorem mul128_eq {a b : Nat} (h : a * b < 2 ^ 128) : mul128 a b = some (a * b) := if_pos h
theorem check_eq {c : Prop} [Decidable c] (h : c) : check c = some () := if_pos h

end Fhe
