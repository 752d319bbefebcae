import Verif.Spec.BfvCipher
import Verif.Model.Mbfv
/-!
# What shares tell about a key
-/
namespace Fhe.Chosen

/-- The integer of least absolute value with a remainder. -/
def centered (q x : Nat) : Int := if 2 * x < q then (x : Int) else (x : Int) - q

/-- A list of integers computed from a decryption share alone: its coefficients as centered integers, divided by `4 v + 1` and rounded, where `v` is the variance of the parameters. -/
def keyOf (par : Par) (share : DecryptionShare) : Panics (List Int) := do
  let p ← share.sksShare.hShare.nttToPowerBasis
  return (← p.toBigUint).map fun x => (centered (par.modulusAt 0) x + 2 * par.variance) / (4 * par.variance + 1)

/-- A list of integers that the owner of the secret key `skOut` computes from a share for switching to their public key: `h0 + s h1`, where `s` is their key, as centered integers, divided by `2 E + 1`
and rounded. -/
def receivedKey (par : Par) (skOut : SecretKey) (E : Nat) (share : PublicKeySwitchShare) : Panics (List Int) := do
  let s ← (skOut.polyAt share.h1Share.ctx).unwrap
  let p ← (← s.mulAssign share.h1Share).addAssign share.h0Share
  let p ← p.nttToPowerBasis
  return (← p.toBigUint).map fun x => (centered (par.modulusAt 0) x + E) / (2 * E + 1)

end Fhe.Chosen
