import Mathlib.Algebra.BigOperators.Fin
import Verif.Spec.Ntt
/-!
# Specification of the quotient ring `R[X]/(X^N + 1)`

An element is the vector of its `N` coefficients.  The product is schoolbook multiplication where `X^N = -1`.
Nothing here mentions the model of the code.
-/
namespace Fhe

/-- Elements of `R[X]/(X^N + 1)`, by their coefficients. -/
def Nega (N : Nat) (R : Type*) := Fin N → R

namespace Nega
variable {N : Nat} {R : Type*} [CommRing R]

instance : CoeFun (Nega N R) (fun _ => Fin N → R) := ⟨id⟩

/-- The coefficient of `X^i`, `0` out of range. -/
def coeff (f : Nega N R) (i : Nat) : R := if h : i < N then f ⟨i, h⟩ else 0

/-- The element with the given coefficients. -/
def ofFn (f : Nat → R) : Nega N R := fun i => f i

instance : Zero (Nega N R) := ⟨fun _ => 0⟩
instance : One (Nega N R) := ⟨fun i => if i.val = 0 then 1 else 0⟩
instance : Add (Nega N R) := ⟨fun f g i => f i + g i⟩
instance : Neg (Nega N R) := ⟨fun f i => - f i⟩
instance : Sub (Nega N R) := ⟨fun f g i => f i - g i⟩
/-- Pairs with `i + j = k` count positively, pairs that wrap around (`i + j = k + N`) negatively. -/
instance : Mul (Nega N R) := ⟨fun f g k => Spec.negaCoeff N (coeff f) (coeff g) k⟩

/-- The constant polynomial `a`. -/
def const (a : R) : Nega N R := fun i => if i.val = 0 then a else 0

/-- `X^k` for any `k`: the exponent is taken modulo `N` and the sign is `-1` for an odd number of turns. -/
def mono (k : Nat) : Nega N R := fun i => if i.val = k % N then (if (k / N) % 2 = 0 then 1 else -1) else 0

/-- Substitution of `X` by `X^e`: `Σ_j f_j X^(e j)`. -/
def subst (e : Nat) (f : Nega N R) : Nega N R := fun i => ∑ j : Fin N, f j * mono (N := N) (e * j.val) i

/-- Apply a map to every coefficient. -/
def mapFn {S : Type*} (φ : R → S) (f : Nega N R) : Nega N S := fun i => φ (f i)

end Nega
end Fhe
