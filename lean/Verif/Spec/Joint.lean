import Verif.Spec.Secrecy
import Verif.Model.Mbfv
/-!
# One honest party among several

Several parties make a public key together, for a common random polynomial.  One of them is honest; the others may choose their shares as they like, but they choose them before they see the share of
the honest party.
-/
namespace Fhe.Secrecy

/-- What the other parties do: their shares, as a function of the common random polynomial. -/
abbrev Strategy (K : Nat) := CommonRandomPoly → Fin K → PublicKeyShare

/-- The shares that a strategy picks can be used: they are valid polynomials of the right context for the common random polynomial, marked as the library marks shares. -/
def Strategy.Usable {K : Nat} (S : Strategy K) (par : Par) (c : Context) : Prop :=
  ∀ crp : CommonRandomPoly, ∀ k, (S crp k).par = par ∧ (S crp k).crp = crp ∧ (S crp k).p0Share.Valid ∧ (S crp k).p0Share.ctx = c ∧ (S crp k).p0Share.vt = true

/-- The common random polynomial with the given coefficients. -/
def crpOf {par : Par} (x : Coeffs par 0) : Res CommonRandomPoly := do return { poly := ← polyOf (← par.contextAtLevel 0) x }

/-- The share of an honest party with a random secret key. -/
def honestShare (par : Par) {W : Nat} (ω : Words W × Words W) (crp : CommonRandomPoly) : Res PublicKeyShare := do
  PublicKeyShare.new (← lift (SecretKey.random par (wordsOf ω.1))) crp (wordsOf ω.2)

/-- The share that is put together from given coefficients. -/
def shareFrom {par : Par} (y : Coeffs par 0) (crp : CommonRandomPoly) : Res PublicKeyShare := do
  return { par, crp, p0Share := (← polyOf (← par.contextAtLevel 0) y).allowVt }

/-- All shares, that of the honest party at position `h`. -/
def allShares {K : Nat} (S : Strategy K) (h : Fin K) (own : PublicKeyShare) (k : Fin K) : PublicKeyShare := if k = h then own else S own.crp k

/-- What an adversary sees: the common random polynomial, all shares, and one ciphertext for every plaintext, encrypted with the public key that the shares make. -/
abbrev JointSight (K k : Nat) := CommonRandomPoly × (Fin K → PublicKeyShare) × (Fin k → Res Ciphertext)

def jointView {par : Par} {K k W : Nat} (S : Strategy K) (h : Fin K) (x : Coeffs par 0) (share : CommonRandomPoly → Res PublicKeyShare) (pt : Fin k → Plaintext) (ω : PublicRandom k W) : Res (JointSight K k) := do
  let crp ← crpOf x
  let own ← share crp
  let pk ← PublicKeyShare.aggregate (List.ofFn (allShares S h own))
  return (crp, allShares S h own, fun j => pk.tryEncrypt (pt j) (wordsOf (ω j).1) (wordsOf (ω j).2.1) (wordsOf (ω j).2.2))

/-- The same with ciphertexts that are put together from given coefficients. -/
def jointFrom {par : Par} {K k : Nat} (S : Strategy K) (h : Fin K) (x : Coeffs par 0) (share : CommonRandomPoly → Res PublicKeyShare) (pt : Fin k → Plaintext) (u : Fin k → Coeffs par 0 × Coeffs par 0) :
    Res (JointSight K k) := do
  let crp ← crpOf x
  let own ← share crp
  return (crp, allShares S h own, fun j => pairFrom (pt j) (u j))

end Fhe.Secrecy
