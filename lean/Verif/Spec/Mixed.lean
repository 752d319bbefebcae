import Verif.Spec.Rq
/-!
# Elements of two contexts
-/
namespace Fhe
open Nega

/-- `g'` is `g` with its coefficients reduced modulo the modulus of the context of `g'`. -/
def Reduces {c c' : Context} (g : c.Elem) (g' : c'.Elem) : Prop := ∀ j, (coeff g' j).val = (coeff g j).val % c'.modulus

/-- `k` and `f` have the same coefficients modulo each of the given moduli. -/
def SameModulo {c : Context} (moduli : List Nat) (k f : c.Elem) : Prop := ∀ j < c.degree, ∀ q ∈ moduli, (coeff k j).val % q = (coeff f j).val % q

end Fhe
