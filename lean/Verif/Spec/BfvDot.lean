import Verif.Model.BfvCipher
/-!
# What a dot product should compute
-/
namespace Fhe

/-- The sum of the products, computed with the operators `*` and `+`, starting from the empty ciphertext. -/
def Ciphertext.sumProducts (par : Par) (xs : List (Ciphertext × Plaintext)) : Panics Ciphertext :=
  xs.foldlM (fun (acc : Ciphertext) x => do acc.add (← x.1.mulPlain x.2)) (Ciphertext.zero par)

end Fhe
