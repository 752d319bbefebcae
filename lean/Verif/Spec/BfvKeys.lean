import Verif.Spec.BfvCipher
import Verif.Model.BfvKeys
/-!
# What key-switching keys stand for
-/
namespace Fhe
open Nega

/-- `d₀ e₀ + d₁ e₁ + …`. -/
def IntPoly.dot {N : Nat} (D E : List (IntPoly N)) : IntPoly N := (List.zipWith (· * ·) D E).sum

/-- The numbers with which a key recombines the digits of a polynomial modulo the modulus of the ciphertexts: either the digits are the
residues modulo the primes `q_j`, and the `i`-th number is 1 modulo `q_i` and 0 modulo the others; or there is only one prime, the
digits are those in base `2^logBase`, as many as are needed for a residue, and the numbers are the powers of the base. -/
inductive KeySwitchingKey.Gadget (k : KeySwitchingKey) : List Int → Prop
  | residues {G : List Int} (base : k.logBase = 0) (count : G.length = k.ctxCiphertext.moduli.length)
      (crt : ∀ (i j q : Nat) (g : Int), k.ctxCiphertext.moduli[j]? = some q → G[i]? = some g → (q : Int) ∣ g - if i = j then 1 else 0) : Gadget k G
  | powers {q count : Nat} (base : 0 < k.logBase) (word : k.logBase < 64) (one : k.ctxCiphertext.moduli = [q]) (enough : q ≤ 2 ^ (k.logBase * count))
      (exact : count = (RnsScaler.ceilLog2 q + k.logBase - 1) / k.logBase) : Gadget k ((List.range count).map fun i => 2 ^ (i * k.logBase))

/-- The bound on the `i`-th digit. -/
def KeySwitchingKey.digitBound (k : KeySwitchingKey) (i : Nat) : Nat := if k.logBase = 0 then k.ctxCiphertext.moduli.getD i 0 else 2 ^ k.logBase

/-- The sum of the bounds on the digits. -/
def KeySwitchingKey.digitSum (k : KeySwitchingKey) : Nat := if k.logBase = 0 then k.ctxCiphertext.moduli.sum else k.c0.length * 2 ^ k.logBase

/-- The key switches from `F` to the secret `s`, with errors `E`: its `i`-th pair encrypts `g_i F` with noise `E_i`, modulo the modulus of
the level of the key. -/
structure KeySwitchingKey.Switches (par : Par) (s F : IntPoly par.degree) (k : KeySwitchingKey) (E : List (IntPoly par.degree)) : Prop where
  par_eq : k.par = par
  ctx : par.contextAtLevel k.ciphertextLevel = Res.ok k.ctxCiphertext
  ctxKsk : par.contextAtLevel k.kskLevel = Res.ok k.ctxKsk
  parts : ∃ (A B : List (IntPoly par.degree)) (G : List Int), k.Gadget G ∧ List.Forall₂ (fun p f => p.IsMod k.ctxKsk f) k.c0 A ∧ List.Forall₂ (fun p f => p.IsMod k.ctxKsk f) k.c1 B ∧
    (A.length = G.length ∧ B.length = G.length ∧ E.length = G.length) ∧
    ∀ (i : Nat) (a b e : IntPoly par.degree) (g : Int), A[i]? = some a → B[i]? = some b → G[i]? = some g → E[i]? = some e → ∀ j, (a + b * s) j = e j + g * F j

/-- `a F`. -/
def IntPoly.scale {N : Nat} (a : Int) (F : IntPoly N) : IntPoly N := fun j => a * F j

/-- The modulus of the level of the key over that of the ciphertexts. -/
def KeySwitchingKey.ratio (par : Par) (k : KeySwitchingKey) : Nat := par.modulusAt k.kskLevel / par.modulusAt k.ciphertextLevel

/-- A bound on the error of a key switch down to the level of the ciphertexts, when the errors in the key are at most `e` and the secret at
most `S`. -/
def KeySwitchingKey.errorBound (par : Par) (k : KeySwitchingKey) (S e : Nat) : Nat :=
  (2 * (par.degree * k.digitSum * e) + (k.ciphertextLevel - k.kskLevel) * k.ratio par * (1 + par.degree * S)) / (2 * k.ratio par)

/-- A key that switches from `G`, for ciphertexts of level `i`, with the key at level `j ≤ i`, and errors of at most `e`. -/
structure KeySwitchingKey.IsFor (par : Par) (s G : IntPoly par.degree) (k : KeySwitchingKey) (i j e : Nat) : Prop where
  level : k.ciphertextLevel = i
  keyLevel : k.kskLevel = j
  le : j ≤ i
  switches : ∃ E : List (IntPoly par.degree), k.Switches par s (IntPoly.scale (k.ratio par) G) E ∧ ∀ x ∈ E, x.Bounded e

/-- A relinearization key of `s`: it switches from `s²`. -/
def RelinearizationKey.IsFor (par : Par) (s : IntPoly par.degree) (k : RelinearizationKey) (i j e : Nat) : Prop := k.ksk.IsFor par s (s * s) i j e

/-- A Galois key of `s` for `X ↦ X^exponent`: it switches from the image of `s`. -/
structure GaloisKey.IsFor (par : Par) (s : IntPoly par.degree) (k : GaloisKey) (exponent i j e : Nat) : Prop where
  odd : exponent % 2 = 1
  element : SubstExponent.new k.ksk.ctxCiphertext exponent = some (.ok k.element)
  switches : k.ksk.IsFor par s (Nega.subst exponent s) i j e

/-- Where slot `i` of a message comes from after its columns have been rotated by `k`: each of the two rows is rotated to the left. -/
def rotateColumns (N k i : Nat) : Nat := if i < N / 2 then (i + k) % (N / 2) else N / 2 + (i - N / 2 + k) % (N / 2)

/-- Where slot `i` of a message comes from after its rows have been exchanged. -/
def swapRows (N i : Nat) : Nat := (i + N / 2) % N

end Fhe
