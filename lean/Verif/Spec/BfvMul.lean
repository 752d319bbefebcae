import Verif.Spec.BfvCipher
/-!
# The noise of products of ciphertexts
-/
namespace Fhe.Props

/-- `v` is at most `V`, and the phase `(Q M + v) / t` of parts of at most about `Q/2` is at most `Q/2 · geom`: a bound on `M`. -/
def mulHeight (par : Par) (i S parts V : Nat) : Nat :=
  (par.plaintext.value * (par.modulusAt i * (2 ^ 55 + 1) / 2 ^ 56 * geom (par.degree * S) parts) + V) / par.modulusAt i

/-- The bound on the noise of a product of ciphertexts with `parts` and `parts'` parts and noises of at most `V` and `V'`. -/
def mulNoise (par : Par) (i S parts parts' V V' : Nat) : Nat :=
  par.degree * (mulHeight par i S parts V * V' + mulHeight par i S parts' V' * V) +
    (par.degree * V * V' + par.plaintext.value * ((2 ^ 61 + 1) * par.modulusAt i / 2 ^ 62 * geom (par.degree * S) (parts + parts' - 1))) / par.modulusAt i

end Fhe.Props
