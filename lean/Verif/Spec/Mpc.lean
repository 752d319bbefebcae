import Verif.Spec.Circuit
import Verif.Model.Mbfv
/-!
# Computations of several parties

The parties have a common public key and a common relinearization key of level zero, and nothing else: no Galois keys and no RGSW ciphertexts.
-/
namespace Fhe

/-- The computations that can be made with these keys: any but rotations, inner sums and external products, where products are of ciphertexts of
level zero. -/
def Circuit.Collective : {i : Nat} → Circuit i → Prop
  | _, .input _ _ => True
  | _, .add x y => x.Collective ∧ y.Collective
  | _, .sub x y => x.Collective ∧ y.Collective
  | _, .neg x => x.Collective
  | _, .addPlain x _ => x.Collective
  | _, .subPlain x _ => x.Collective
  | _, .plainSub _ x => x.Collective
  | _, .mulPlain x _ => x.Collective
  | i, .mul x y => i = 0 ∧ x.Collective ∧ y.Collective
  | i, .multiply x y => i = 0 ∧ x.Collective ∧ y.Collective
  | _, .external _ _ => False
  | _, .rotateRows _ => False
  | _, .rotateColumns _ _ => False
  | _, .innerSum _ => False
  | _, .switchDown x => x.Collective

/-- A bound on the errors in the relinearization key that `K` parties make, whose secrets have coefficients of at most `S`: with `B` twice the
variance, `N (KB) (KS) + N (KB)² + 2 KB`. -/
def collectiveKeyError (par : Par) (K S : Nat) : Nat :=
  let B := 2 * par.variance
  par.degree * (K * B) * (K * S) + par.degree * (K * B) * (K * B) + 2 * (K * B)

/-- A bound on the noise of an encryption with the public key that they make: `t (N B (KB + 1 + N K S) + B + N K S B + 1)`. -/
def collectiveNoise (par : Par) (K S : Nat) : Nat :=
  let B := 2 * par.variance
  par.plaintext.value * (par.degree * B * (K * B + 1 + par.degree * (K * S)) + (B + par.degree * (K * S) * B) + 1)

/-- The inputs of a computation are encryptions of its messages with the given public key, its plaintexts are the given ones, and its products are
relinearized with the given key. -/
structure Circuit.Env.Under (b : Build) (E : Circuit.Env) {par : Par} (D : Circuit.Data par) (i : Nat) (pk : PublicKey) (rk : RelinearizationKey) : Prop where
  input : ∀ j k, j ≤ i → ∃ (pt : Plaintext) (rngU rng1 rng2 : Nat → Nat), pt.Holds par j (D.msg j k) ∧ IsStream rngU ∧ IsStream rng1 ∧ IsStream rng2 ∧
    pk.tryEncrypt pt rngU rng1 rng2 = Res.ok (E.ct j k)
  plain : ∀ j k, j ≤ i → (E.pt j k).Holds par j (D.plain j k)
  key : E.rk 0 = rk
  multiplicator : Multiplicator.default b rk = Res.ok (E.mp 0)

/-- The bounds that are used for computations of `K` parties. -/
structure Circuit.Data.Of {par : Par} (D : Circuit.Data par) (K S : Nat) : Prop where
  secret : D.secret = K * S
  keyError : D.keyError = collectiveKeyError par K S
  noise : ∀ j k, D.noise j k = collectiveNoise par K S

end Fhe
