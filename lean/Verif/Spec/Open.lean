import Verif.Model.BfvCipher
/-!
# Ciphertexts that everybody can read
-/
namespace Fhe

/-- All coefficients of the polynomial are zero. -/
def Poly.Blank {r : Rep} (p : Poly r) : Prop := ∀ row ∈ p.coeffs, ∀ x ∈ row, x = 0

/-- All parts but the first, those that decryption multiplies by powers of the secret key, are zero. -/
def Ciphertext.Open (ct : Ciphertext) : Prop := ∀ p ∈ ct.c.tail, p.Blank

end Fhe
