import Mathlib.Data.ZMod.Basic
import Mathlib.Algebra.BigOperators.Intervals
/-!
# Specification vocabulary for transforms and polynomial products

Nothing here mentions the model of the code.
-/
namespace Fhe.Spec
open Finset

/-- The value at `x` of the polynomial whose coefficients are the entries of `a`, constant term first. -/
def polyEval {p : Nat} (a : List Nat) (x : ZMod p) : ZMod p := ∑ t ∈ range a.length, (a.getD t 0 : ZMod p) * x ^ t

/-- Coefficient `k` of the product of `a` and `b` modulo `X^N + 1`: pairs with `i + j = k` count positively, pairs that
wrap around (`i + j = k + N`) negatively. -/
def negaCoeff {R : Type*} [CommRing R] (N : Nat) (a b : Nat → R) (k : Nat) : R :=
  ∑ i ∈ range N, ∑ j ∈ range N, if i + j = k then a i * b j else if i + j = k + N then -(a i * b j) else 0

/-- The number below `2^n` whose `n`-bit binary representation is that of `i` read backwards. -/
def bitRev (n i : Nat) : Nat := ∑ b ∈ range n, if i.testBit (n - 1 - b) then 2 ^ b else 0

end Fhe.Spec
