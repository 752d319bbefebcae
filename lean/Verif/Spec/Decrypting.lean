import Verif.Model.Mbfv
import Verif.Spec.Secrecy
/-!
# What the shares for decrypting show

A party makes shares for the decryption of ciphertexts.  The second parts of the ciphertexts have uniformly distributed coefficients, the first parts are any functions of the second parts.  The
shares are compared with those put together from uniformly distributed coefficients.
-/
namespace Fhe.Secrecy

/-- The ciphertext with a given first part and given coefficients of the second part. -/
def ctWith {par : Par} {i : Nat} (p0 : Poly .ntt) (y : Coeffs par i) : Res Ciphertext := do
  let c ← par.contextAtLevel i
  Ciphertext.new [p0, ← polyOf c y] par

/-- What an adversary sees: every ciphertext, and the share that the party makes for its decryption.  The random choices are the words for the secret key of the party, the second parts of the
ciphertexts, and the words for the shares. -/
def decryptView (par : Par) {i k W : Nat} (p0 : Fin k → Coeffs par i → Poly .ntt) (ω : Words W × (Fin k → Coeffs par i) × (Fin k → Words W)) (j : Fin k) : Res (Ciphertext × DecryptionShare) := do
  let sk ← lift (SecretKey.random par (wordsOf ω.1))
  let ct ← ctWith (p0 j (ω.2.1 j)) (ω.2.1 j)
  return (ct, ← DecryptionShare.new sk ct (wordsOf (ω.2.2 j)))

/-- The same, with a share that is put together from given coefficients. -/
def decryptFrom {par : Par} {i : Nat} (p0 : Coeffs par i → Poly .ntt) (y x : Coeffs par i) : Res (Ciphertext × DecryptionShare) := do
  let c ← par.contextAtLevel i
  let ct ← ctWith (p0 y) y
  return (ct, ⟨{ par, ct, hShare := ← polyOf c x }⟩)

end Fhe.Secrecy
