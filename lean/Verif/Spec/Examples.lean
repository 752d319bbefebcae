import Verif.Model.Examples
import Verif.Spec.BfvEval
import Verif.Spec.BfvMul
/-!
# The randomness and the noise in the introductory examples
-/
namespace Fhe

/-- The three streams of an encryption. -/
def EncryptRandom.OK (r : EncryptRandom) : Prop := IsStream r.u ∧ IsStream r.e1 ∧ IsStream r.e2

/-- Streams and seeds of the right kind. -/
structure BfvOps.Random.OK (r : BfvOps.Random) : Prop where
  seed : r.pkSeed.length = 32
  keys : IsStream r.secret ∧ IsStream r.pk ∧ (∀ x i, IsStream (r.galois x i)) ∧ ∀ i, IsStream (r.rk i)
  each : ∀ k, EncryptRandom.OK (r.values k) ∧ EncryptRandom.OK (r.v1 k) ∧ EncryptRandom.OK (r.v2 k)
  once : EncryptRandom.OK r.vals ∧ EncryptRandom.OK r.pt1 ∧ EncryptRandom.OK r.pt2 ∧ EncryptRandom.OK r.x ∧ EncryptRandom.OK r.xs

/-- Streams and seeds of the right kind. -/
structure BfvBasic.Random.OK (r : BfvBasic.Random) : Prop where
  seed : r.pkSeed.length = 32
  keys : IsStream r.secret ∧ IsStream r.pk
  encryptions : EncryptRandom.OK r.a ∧ EncryptRandom.OK r.b ∧ EncryptRandom.OK r.v1 ∧ EncryptRandom.OK r.v2

/-- Streams and seeds of the right kind. -/
structure Rgsw.Random.OK (r : Rgsw.Random) : Prop where
  secret : IsStream r.secret
  first : r.seed1.length = 32 ∧ IsStream r.rng1
  second : r.seed2.length = 32 ∧ IsStream r.rng2
  rgsw : ∀ i, IsStream (r.rgsw0 i) ∧ IsStream (r.rgsw1 i)

end Fhe

namespace Fhe.Props
open Nega

/-- A bound on the noise of an encryption with a public key: `t (2 N B² + B + 1)`, where `B` bounds the secret and the errors. -/
def freshNoise (par : Par) : Nat :=
  let B := 2 * par.variance
  par.plaintext.value * (par.degree * B * B + (B + par.degree * B * B) + 1)

/-- What a key switch at the first level adds. -/
def switchNoise (par : Par) : Nat := par.plaintext.value * (par.degree * par.moduli.sum * (2 * par.variance))

/-- A bound on the noise of a relinearized product of two fresh encryptions. -/
def freshProduct (par : Par) : Nat := mulNoise par 0 (2 * par.variance) 2 2 (freshNoise par) (freshNoise par) + switchNoise par

/-- The noise is small enough to decrypt at the first level. -/
def Room (par : Par) (V : Nat) : Prop := 2 ^ 62 * V ≤ (2 ^ 61 - 1) * par.modulusAt 0

/-- Keys as the examples generate them: a secret with coefficients of at most `B`, the public key, an evaluation key for inner sums and a
relinearization key of this secret, with errors of at most `B`. -/
structure ExampleKeys (par : Par) (s : IntPoly par.degree) (sk : SecretKey) (pk : PublicKey) (ek : EvaluationKey) (rk : RelinearizationKey) : Prop where
  secret : sk.IsKey par s
  small : s.Bounded (2 * par.variance)
  encryption : ∃ v : IntPoly par.degree, pk.par = par ∧ pk.c.Encrypts par s 0 0 v ∧ pk.c.c.length = 2 ∧ v.Bounded (par.plaintext.value * (2 * par.variance))
  evaluation : ek.IsFor par s 0 0 (2 * par.variance)
  sums : ek.supportsInnerSum = some true
  error : ek.ErrorAtMost par (2 * par.variance) (2 * par.variance) (par.degree * par.moduli.sum * (2 * par.variance))
  relinearization : rk.IsFor par s 0 0 (2 * par.variance)
  digits : rk.ksk.digitSum = par.moduli.sum

/-- The noise of every part of the program leaves room. -/
structure OpsRoom (par : Par) (values v1 : List Nat) : Prop where
  weightedPlain : Room par (values.length * (par.plaintext.value * freshNoise par))
  weightedSimd : Room par (par.degree * (par.degree * freshNoise par * par.plaintext.value) + (par.degree - 1) * switchNoise par)
  innerPlain : Room par (v1.length * freshProduct par)
  innerSimd : Room par (par.degree * freshProduct par + (par.degree - 1) * switchNoise par)
  polynomialPlain : Room par (3 * freshProduct par + 2 * freshNoise par + par.plaintext.value)
  polynomialSimd : Room par (par.degree * freshProduct par * par.plaintext.value + par.degree * freshNoise par * par.plaintext.value + par.plaintext.value)

/-- A bound on the noise of the product of a fresh ciphertext and a fresh RGSW ciphertext. -/
def externalNoise (par : Par) : Nat :=
  par.degree * (par.plaintext.value * (2 * par.variance + 1)) * par.plaintext.value + par.plaintext.value * (par.degree * (par.moduli.sum + par.moduli.sum) * (2 * par.variance))

/-- The noise in `rgsw.rs` leaves room: of the external product, of the same switched to the last level, and of the product of the two ciphertexts. -/
structure RgswRoom (par : Par) : Prop where
  external : Room par (externalNoise par)
  switched : 2 ^ 62 * (par.modulusAt (par.moduli.length - 1) * externalNoise par +
    (par.modulusAt 0 - par.modulusAt (par.moduli.length - 1)) * (par.plaintext.value * geom (par.degree * (2 * par.variance)) 2)) ≤
      (2 ^ 61 - 1) * par.modulusAt (par.moduli.length - 1) * par.modulusAt 0
  product : Room par (mulNoise par 0 (2 * par.variance) 2 2 (par.plaintext.value * (2 * par.variance + 1)) (par.plaintext.value * (2 * par.variance + 1)))

end Fhe.Props
