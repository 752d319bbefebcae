import Verif.Spec.Bfv
import Verif.Model.BfvCipher
import Mathlib.Algebra.BigOperators.Group.Finset.Basic
/-!
# What BFV ciphertexts stand for

Everything is stated with polynomials over the integers, so that objects of different levels can be compared.
-/
namespace Fhe
open Nega

/-- Polynomials with integer coefficients, modulo `X^N + 1`. -/
abbrev IntPoly (N : Nat) := Nega N Int

/-- The polynomial with the given coefficients, zero where the list ends. -/
def IntPoly.ofList (N : Nat) (l : List Int) : IntPoly N := fun j => l.getD j 0

/-- Every coefficient is at most `B` in absolute value. -/
def IntPoly.Bounded {N : Nat} (F : IntPoly N) (B : Nat) : Prop := ∀ j, |F j| ≤ B

/-- The object is a valid polynomial of the context `c`, and its coefficients are those of `F` modulo the modulus of `c`. -/
structure Poly.IsMod (c : Context) {r : Rep} (p : Poly r) {N : Nat} (F : IntPoly N) : Prop where
  ctx : p.ctx = c
  degree : c.degree = N
  valid : p.Valid
  coeffs : (do (← p.toPowerBasis).toBigUint) = some (List.ofFn fun j => (F j % (c.modulus : Int)).toNat)

/-- `a₀ + a₁ s + a₂ s² + …`. -/
def phase {N : Nat} (s : IntPoly N) : List (IntPoly N) → IntPoly N
  | [] => 0
  | a :: l => a + s * phase s l

/-- The secret key object has the given parameters and polynomial. -/
structure SecretKey.IsKey (par : Par) (sk : SecretKey) (s : IntPoly par.degree) : Prop where
  par_eq : sk.par = par
  length : sk.coeffs.length = par.degree
  word : ∀ x ∈ sk.coeffs, -(2 ^ 63) ≤ x ∧ x < 2 ^ 63
  poly : s = IntPoly.ofList par.degree sk.coeffs

/-- The ciphertext encrypts, at a level and under the secret `s`, the message `m` with noise `v`: its parts are polynomials modulo the
modulus `Q` of the level, and with `t` the plaintext modulus and `X` the phase, `t X = Q M + v` for some integer polynomial `M` that
is `m` modulo `t`.  (The usual noise, by which the phase deviates from `Q m / t`, is `v / t`.) -/
structure Ciphertext.Encrypts (par : Par) (s : IntPoly par.degree) (ct : Ciphertext) (level : Nat) (m : par.Msg) (v : IntPoly par.degree) : Prop where
  par_eq : ct.par = par
  level_eq : ct.level = level
  parts : 2 ≤ ct.c.length
  phase : ∃ (c : Context) (F : List (IntPoly par.degree)) (M : IntPoly par.degree), par.contextAtLevel level = Res.ok c ∧
    List.Forall₂ (fun p f => p.IsMod c f) ct.c F ∧ (∀ j, ((M j : Int) : ZMod par.plaintext.value) = m j) ∧
    ∀ j, (par.plaintext.value : Int) * phase s F j = (par.modulusAt level : Int) * M j + v j

/-- Parameters for which decryption at a level is reliable: at most 31 ciphertext moduli, whose sum fits the accumulator of the
scaler, and a plaintext modulus of at most half the modulus of the level; if it is a word-sized modulus, also at most half the first
ciphertext modulus. -/
structure BfvParameters.Reliable (par : BfvParameters) (level : Nat) : Prop where
  count : par.moduli.length ≤ 31
  sum : par.moduli.sum ≤ 2 ^ 65
  modulus : 2 * par.plaintext.value ≤ par.modulusAt level
  first : par.plaintext.value < 2 ^ 62 → ∀ q, par.moduli.head? = some q → 2 * par.plaintext.value ≤ q

/-- Noise small enough to decrypt: below `Q/2` by a relative `2^-61`. -/
def IntPoly.Small {N : Nat} (v : IntPoly N) (Q : Nat) : Prop := ∀ j, 2 ^ 62 * |v j| ≤ (2 ^ 61 - 1) * Q

/-- What is assumed about the generator: the rows it yields for a context of positive moduli have the right shape and reduced entries. -/
def Prg.OK (g : Prg) : Prop := ∀ (seed : Seed) (ctx : Context), (∀ q ∈ ctx.moduli, 0 < q) → (g.expand seed ctx).length = ctx.moduli.length ∧
  ∀ (i q : Nat) (row : List Nat), ctx.moduli[i]? = some q → (g.expand seed ctx)[i]? = some row → row.length = ctx.degree ∧ ∀ x ∈ row, x < q

/-- `1 + x + … + x^(k-1)`. -/
def geom (x k : Nat) : Nat := ∑ i ∈ Finset.range k, x ^ i

/-- A well-formed ciphertext: valid polynomials, at least two, of the context of its level; and if it carries a seed, the last of them
is what the generator makes of it. -/
structure Ciphertext.WellFormed (g : Prg) (par : Par) (ct : Ciphertext) : Prop where
  par_eq : ct.par = par
  level : ct.level < par.moduli.length
  parts : 2 ≤ ct.c.length
  valid : ∀ p ∈ ct.c, p.Valid ∧ par.contextAtLevel ct.level = Res.ok p.ctx
  seed : ∀ seed, ct.seed = some seed → seed.length = 32 ∧ ∀ last, ct.c.getLast? = some last → ∃ p, g.poly .ntt last.ctx seed = some p ∧ last.beq p = true

/-- A stream of 64-bit words. -/
def IsStream (rng : Nat → Nat) : Prop := ∀ i, rng i < 2 ^ 64

end Fhe
