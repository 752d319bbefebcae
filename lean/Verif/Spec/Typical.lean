import Verif.Spec.Examples
import Verif.Spec.Sampling
/-!
# Random choices given by vectors of words
-/
namespace Fhe

/-- The random choices of `bfv_ops.rs` in which the streams of the secret key and of the error of the public key and two of the three streams
of the last encryption begin with the given words. -/
def BfvOps.Random.withWords (r : BfvOps.Random) {W : Nat} (w : Fin 4 → Fin W → Fin (2 ^ 64)) : BfvOps.Random :=
  { r with secret := wordsOf (w 0), pk := wordsOf (w 1), xs := { r.xs with u := wordsOf (w 2), e2 := wordsOf (w 3) } }

/-- `W` words suffice to sample `n` numbers of variance `v`. -/
def EnoughWords (n v W : Nat) : Prop := if v ≤ 16 then 4 * v * n ≤ 64 * W else 2 * n ≤ W

end Fhe
