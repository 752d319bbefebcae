import Verif.Model.BfvCipher
import Verif.Spec.BfvCipher
import Verif.Spec.Sampling
import Mathlib.Data.Fintype.BigOperators
import Mathlib.Data.Real.Basic
/-!
# Telling encryptions apart

An adversary is any function that answers yes or no to what it sees.  The adversary sees ciphertexts, and the public key if there is one, that the library makes with random choices; the
random choices are words for the samplers and seeds of 32 bytes.  To see whether the adversary can tell the encryptions of two lists of messages apart, its answers are compared with its answers
to ciphertexts put together from uniformly distributed coefficients.
-/
namespace Fhe.Secrecy
open Finset

/-- Words for a sampler. -/
abbrev Words (W : Nat) := Fin W → Fin (2 ^ 64)

/-- Seeds of 32 bytes. -/
abbrev Bytes32 := Fin 32 → Fin 256

def seedOf (σ : Bytes32) : Seed := List.ofFn fun i => (σ i : Nat)

/-- The coefficients of a polynomial modulo the modulus of a level. -/
abbrev Coeffs (par : Par) (i : Nat) := Fin par.degree → Fin (par.modulusAt i)

/-- The probability of the answer yes, if all outcomes are equally likely. -/
noncomputable def pr {Ω : Type} [Fintype Ω] (f : Ω → Bool) : ℝ := (univ.filter fun ω => f ω = true).card / Fintype.card Ω

/-- How well two experiments are told apart. -/
noncomputable def gap {Ω Ω' : Type} [Fintype Ω] [Fintype Ω'] (f : Ω → Bool) (f' : Ω' → Bool) : ℝ := |pr f - pr f'|

/-- The polynomial that the sampler makes of the words. -/
def sample (par : Par) {W : Nat} (w : Words W) : IntPoly par.degree := fun j => entry par.degree par.variance w j

/-- The coefficients `x` are those of `a s + e`: a sample of learning with errors in the ring of the context `c`. -/
def IsLwe {par : Par} {i : Nat} (c : Context) (a : Poly .ntt) (s e : IntPoly par.degree) (x : Coeffs par i) : Prop :=
  ∃ A : IntPoly par.degree, a.IsMod c A ∧ ∀ j, ((x j : Nat) : Int) ≡ (A * s + e) j [ZMOD par.modulusAt i]

/-- The polynomial with the given coefficients. -/
def polyOf {par : Par} {i : Nat} (c : Context) (x : Coeffs par i) : Res (Poly .ntt) := math (Poly.tryFromBigUintNtt (List.ofFn fun j => (x j : Nat)) c false)

/-! ## Secret keys -/

/-- What an adversary sees of a secret key: one ciphertext for every plaintext, or an error or a panic. -/
def secretView (g : Prg) (par : Par) {k W : Nat} (pt : Fin k → Plaintext) (ω : Words W × (Fin k → Bytes32) × (Fin k → Words W)) (j : Fin k) : Res Ciphertext := do
  let sk ← lift (SecretKey.random par (wordsOf ω.1))
  sk.tryEncrypt g (pt j) (seedOf (ω.2.1 j)) (wordsOf (ω.2.2 j))

/-- The ciphertext of a plaintext that is put together from given coefficients. -/
def secretFrom (g : Prg) {par : Par} {i : Nat} (pt : Plaintext) (σ : Bytes32) (x : Coeffs par i) : Res Ciphertext := do
  let c ← par.contextAtLevel i
  let a ← lift (g.poly .ntt c (seedOf σ))
  let p ← lift ((← polyOf c x).addAssign (← lift pt.toPoly))
  return { par, seed := some (seedOf σ), c := [p.allowVt, a.allowVt], level := i }

/-! ## Public keys -/

/-- The random choices for a public key: the secret key, the seed and the error. -/
abbrev KeyRandom (W : Nat) := Words W × Bytes32 × Words W

/-- The random choices for encryptions with a public key: for every ciphertext the three polynomials that are sampled. -/
abbrev PublicRandom (k W : Nat) := Fin k → Words W × Words W × Words W

def publicKey (g : Prg) (par : Par) {W : Nat} (ω : KeyRandom W) : Panics PublicKey := do
  PublicKey.new g (← SecretKey.random par (wordsOf ω.1)) (seedOf ω.2.1) (wordsOf ω.2.2)

/-- What an adversary sees: the public key, and one ciphertext for every plaintext. -/
def publicView {k W : Nat} (pk : Panics PublicKey) (pt : Fin k → Plaintext) (ω : PublicRandom k W) : Panics PublicKey × (Fin k → Res Ciphertext) :=
  (pk, fun j => do (← lift pk).tryEncrypt (pt j) (wordsOf (ω j).1) (wordsOf (ω j).2.1) (wordsOf (ω j).2.2))

/-- The public key that is put together from given coefficients. -/
def publicFrom (g : Prg) {par : Par} (σ : Bytes32) (x : Coeffs par 0) : Panics PublicKey := do
  let c ← (par.contextAtLevel 0).unwrap
  let a ← g.poly .ntt c (seedOf σ)
  let p ← (polyOf c x).unwrap
  return { par, c := { par, seed := some (seedOf σ), c := [p.disallowVt, a.disallowVt], level := 0 } }

/-- The ciphertext of a plaintext that is put together from given coefficients of both parts. -/
def pairFrom {par : Par} (pt : Plaintext) (x : Coeffs par 0 × Coeffs par 0) : Res Ciphertext := do
  let c ← par.contextAtLevel 0
  let p ← lift ((← polyOf c x.1).addAssign (← lift pt.toPoly))
  let q ← polyOf c x.2
  return { par, seed := none, c := [p.allowVt, q.allowVt], level := 0 }

end Fhe.Secrecy
