import Verif.Spec.Rq
/-!
# A polynomial taken modulo other moduli
-/
namespace Fhe
open Nega

/-- `q`, of the context `c`, has modulo each modulus the residues that `p`, of the context `c'` of the same degree, has modulo the modulus at the same
place, as integers. -/
def Reread (c' c : Context) {r : Rep} (p q : Poly r) : Prop :=
  ∃ (f : c'.Elem) (g : c.Elem), Represents c' p f ∧ Represents c q g ∧
    ∀ (i : Nat) (hi' : i < c'.moduli.length) (hi : i < c.moduli.length) (j : Nat), j < c.degree → (coeff g j).val % c.moduli[i] = (coeff f j).val % c'.moduli[i] % c.moduli[i]

end Fhe
