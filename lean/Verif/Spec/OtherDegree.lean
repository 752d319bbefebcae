import Verif.Spec.Rq
/-!
# A polynomial spread out in a larger ring
-/
namespace Fhe
open Nega

/-- `q`, of the context `c`, has as its coefficients the residues of `p`, of the context `c'` with the same moduli, one modulus after the
other, and then zeros. -/
def Spread (c' c : Context) {r : Rep} (p q : Poly r) : Prop :=
  ∃ (f : c'.Elem) (g : c.Elem), Represents c' p f ∧ Represents c q g ∧
    (∀ (i : Nat) (hi : i < c'.moduli.length) (j : Nat), j < c'.degree → coeff g (i * c'.degree + j) = (((coeff f j).val % c'.moduli[i] : ℕ) : ZMod c.modulus)) ∧
    ∀ m, c'.moduli.length * c'.degree ≤ m → m < c.degree → coeff g m = 0

end Fhe
