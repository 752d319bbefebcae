import Mathlib.Algebra.Order.Ring.Abs
import Mathlib.Algebra.Order.Group.Unbundled.Int
/-!
Specification for the RNS scaler: the room its signed accumulator needs.
-/
namespace Fhe.Spec

/-- Each source modulus `q` counts when `n` times its CRT coefficient `g` is not a multiple of `d`, and all of them count once
more when `n` times the source modulus `Q` is not a multiple of `d`. -/
def scalerRoom (moduli garner : List Nat) (n d : Nat) : Nat :=
  ((moduli.zip garner).map fun qg => if d ∣ n * qg.2 then 0 else qg.1).sum + (if d ∣ n * moduli.prod then 0 else moduli.sum)

/-- `z` is `x`, seen as the centered representative `c` modulo `Q` (up to a relative error `2^-55` at the boundary), times `n/d`,
rounded: `c n / d - 1/2 < z < c n / d + 1/2 + 2^-62`; and `z = c` when `n = d`. -/
def IsScaled (Q n d x : Nat) (z : Int) : Prop :=
  ∃ c : Int, (c = x ∨ c = (x : Int) - Q) ∧ 2 * |c| * 2 ^ 55 ≤ Q * (2 ^ 55 + 1) ∧
    2 * n * c - d < 2 * d * z ∧ (2 * d * z) * 2 ^ 61 < (2 * n * c + d) * 2 ^ 61 + d ∧ (n = d → z = c)

end Fhe.Spec
