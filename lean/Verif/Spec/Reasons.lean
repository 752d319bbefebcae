import Verif.Model.BfvParams
import Mathlib.Data.Set.Card
/-!
# What the errors of the parameter builder say

`Reason s e` says in mathematical terms what the error `e` claims about the request `s`.
-/
namespace Fhe

/-- A prime of `size` bits that is one modulo twice the degree. -/
def PrimeOfSize (degree size p : Nat) : Prop := p.Prime ∧ 2 ^ (size - 1) ≤ p ∧ p < 2 ^ size ∧ p % (2 * degree) = 1

/-- The moduli for a list of sizes: each is the largest prime of its size that was not taken before. -/
structure LargestPrimes (degree : Nat) (sizes moduli : List Nat) : Prop where
  length : moduli.length = sizes.length
  fits : ∀ i size p : Nat, sizes[i]? = some size → moduli[i]? = some p → PrimeOfSize degree size p ∧ p ∉ moduli.take i
  largest : ∀ i size p : Nat, sizes[i]? = some size → moduli[i]? = some p → ∀ q, PrimeOfSize degree size q → q ∉ moduli.take i → q ≤ p

/-- The moduli of a request: those that are given, or those for the sizes that are given. -/
def InUse (s : ParamsBuilder) (moduli : List Nat) : Prop :=
  (s.moduliSizes = [] ∧ moduli = s.moduli) ∨ (s.moduliSizes ≠ [] ∧ LargestPrimes s.degree s.moduliSizes moduli)

/-- What an error says about a request.  Errors that are not listed are no reasons. -/
def Reason (s : ParamsBuilder) : FheError → Prop
  | .invalidDegree d => d = s.degree ∧ ¬ ∃ n, 3 ≤ n ∧ n ≤ 16 ∧ d = 2 ^ n
  | .invalidParametersVariance v => v = s.variance ∧ ¬ (1 ≤ v ∧ v ≤ 32)
  | .conflictingModuli => s.moduli ≠ [] ∧ s.moduliSizes ≠ []
  | .missingModuli => s.moduli = [] ∧ s.moduliSizes = []
  | .invalidPlaintextModulus t => t = s.plaintext ∧ t < 2 ^ 64 ∧ ¬ (2 ≤ t ∧ t < 2 ^ 62)
  | .invalidModulusSize i size => s.moduliSizes[i]? = some size ∧ ¬ (10 ≤ size ∧ size ≤ 62)
  | .notEnoughPrimes size degree needed available => degree = s.degree ∧ available < needed ∧
      ((10 ≤ size ∧ size ≤ 62 ∧ needed = s.moduliSizes.count size ∧ available = {p | PrimeOfSize degree size p}.ncard) ∨
        ∃ moduli, InUse s moduli ∧ size = 62 ∧ needed = moduli.length + 1 ∧ available = {p | PrimeOfSize degree 62 p ∧ p ∉ moduli}.ncard)
  | .invalidCiphertextModulus i m => s.moduli[i]? = some m ∧ ¬ (2 ≤ m ∧ m < 2 ^ 62)
  | .duplicateModuli m indices => 2 ≤ indices.length ∧ indices.Pairwise (· < ·) ∧ ∀ i, i ∈ indices ↔ s.moduli[i]? = some m
  | .moduliNotCoprime m m' g => (∃ i j : Nat, i < j ∧ s.moduli[i]? = some m ∧ s.moduli[j]? = some m') ∧ g = Nat.gcd m m' ∧ g ≠ 1
  | .ciphertextModulusNotNttFriendly i m degree => s.moduli[i]? = some m ∧ degree = s.degree ∧ ¬ (m.Prime ∧ m % (2 * degree) = 1)
  | .plaintextExceedsCiphertext t q => t = s.plaintext ∧ q ≤ t ∧ ∃ moduli, InUse s moduli ∧ q = moduli.prod
  | .plaintextNotCoprime t m i g => t = s.plaintext ∧ g = Nat.gcd t m ∧ g ≠ 1 ∧ ∃ moduli, InUse s moduli ∧ moduli[i]? = some m
  | _ => False

end Fhe
