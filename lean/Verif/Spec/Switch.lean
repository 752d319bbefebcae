import Verif.Model.Mbfv
import Verif.Spec.Secrecy
/-!
# What the shares for switching to a public key show

An adversary sees a public key, and the shares that a party makes for switching ciphertexts to it.  The shares are compared with those put together from uniformly distributed coefficients.
-/
namespace Fhe.Secrecy

/-- What an adversary sees: the public key to which the ciphertexts are switched, and the share of the party for every ciphertext. -/
def switchView {k W : Nat} (pk : Panics PublicKey) (sk : SecretKey) (ct : Fin k → Ciphertext) (ω : PublicRandom k W) : Panics PublicKey × (Fin k → Res PublicKeySwitchShare) :=
  (pk, fun j => do PublicKeySwitchShare.new sk (← lift pk) (ct j) (wordsOf (ω j).1) (wordsOf (ω j).2.1) (wordsOf (ω j).2.2))

/-- The share that is put together from given coefficients: the product of the secret key and the second part of the ciphertext is added to the first polynomial. -/
def switchFrom {par : Par} (sk : SecretKey) (ct : Ciphertext) (x : Coeffs par 0 × Coeffs par 0) : Res PublicKeySwitchShare := do
  let c ← par.contextAtLevel 0
  let s ← lift ((← sk.polyAt c).mulAssign (← lift ct.c[1]?))
  let p ← lift ((← polyOf c x.1).addAssign s)
  let q ← polyOf c x.2
  return { par, c0 := ← lift ct.c[0]?, h0Share := p.allowVt, h1Share := q.allowVt }

/-- The share in which nothing of a party is left: two polynomials with given coefficients, next to the first part of the ciphertext. -/
def blankShare {par : Par} (ct : Ciphertext) (x : Coeffs par 0 × Coeffs par 0) : Res PublicKeySwitchShare := do
  let c ← par.contextAtLevel 0
  let p ← polyOf c x.1
  let q ← polyOf c x.2
  return { par, c0 := ← lift ct.c[0]?, h0Share := p.allowVt, h1Share := q.allowVt }

end Fhe.Secrecy
