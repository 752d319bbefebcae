import Verif.Model.Pir
import Mathlib.Analysis.SpecialFunctions.Sqrt
/-!
# Floating-point numbers

Models the two computations in `/repo` whose results in floating point matter: `variance` of `/repo/crates/fhe-util/src/lib.rs` and the square root of
`/repo/crates/fhe/examples/util.rs`.  A number of type `f64` has a significand of 53 bits.  The operations of the IEEE standard return a number of the
type that is nearest to the exact result; where two are nearest the standard says which, the model allows either.  Simplification: exponents are
unbounded, so there are no infinities and no subnormal numbers.
-/
namespace Fhe.Float64

/-- The numbers with a significand of 53 bits.  The type of `/repo/crates/fhe-util/src/lib.rs` line 200. -/
def IsFloat (x : ℝ) : Prop := ∃ m e : ℤ, |m| < 2 ^ 53 ∧ x = m * (2 : ℝ) ^ e

/-- `r` is a floating-point number nearest to `x`.  The operations in `/repo/crates/fhe-util/src/lib.rs` lines 202-205. -/
def IsNearest (x r : ℝ) : Prop := IsFloat r ∧ ∀ y, IsFloat y → |r - x| ≤ |y - x|

/-- A way to round every number to a nearest floating-point number.  The operations in `/repo/crates/fhe-util/src/lib.rs` lines 202-205. -/
def Rounding (rnd : ℝ → ℝ) : Prop := ∀ x, IsNearest x (rnd x)

/-- `variance`, `lib.rs` lines 200-206: every operation and every conversion is rounded. -/
noncomputable def variance (rnd : ℝ → ℝ) (values : List Int) : Panics ℝ := do
  check (values.length > 1)
  let mean := rnd (values.foldl (fun (acc : ℝ) (i : Int) => rnd (acc + rnd i)) 0 / rnd values.length)
  return rnd (values.foldl (fun (acc : ℝ) (i : Int) => rnd (acc + rnd (rnd (rnd i - mean) * rnd (rnd i - mean)))) 0 / rnd (rnd values.length - 1))

/-- `(number_rows as f64).sqrt().ceil() as usize`, `util.rs` line 111. -/
noncomputable def ceilSqrt (rnd : ℝ → ℝ) (rows : Nat) : Nat := ⌈rnd (Real.sqrt (rnd rows))⌉₊

end Fhe.Float64
