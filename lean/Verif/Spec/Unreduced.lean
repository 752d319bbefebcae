import Verif.Spec.BfvCipher
/-!
# Plaintexts whose coefficients need not be reduced

`Plaintext.Holds` asks for coefficients below the plaintext modulus.  The encoders do not reduce what they are given, so a plaintext can
carry any polynomial modulo the modulus of its level.
-/
namespace Fhe
open Nega

/-- The plaintext object, of parameters `par`, carries the integer polynomial `P` at the given level: its polynomial is a valid one of that
level's context, with the coefficients of `P` modulo the modulus of the level. -/
structure Plaintext.Carries (par : Par) (pt : Plaintext) (level : Nat) (P : IntPoly par.degree) : Prop where
  par_eq : pt.par = par
  poly : ∃ c, par.contextAtLevel level = Res.ok c ∧ pt.polyNtt.IsMod c P

/-- What is read off a coefficient `x` when a plaintext is decoded, encrypted, added or subtracted, with `q` the first ciphertext modulus:
if the plaintext modulus `t` is below `q`, only `x mod q` is looked at. -/
def readCoefficient (t q x : Nat) : Nat := if t < q then x % q % t else x % t

end Fhe
