import Verif.Spec.Circuit
import Verif.Spec.Examples
/-!
# How deep a computation is

For arithmetic computations, that consist of additions, subtractions, negations and products: how many summands they add up, and how many
multiplications follow each other.
-/
namespace Fhe

/-- How many ciphertexts, products and plaintexts are added up or subtracted to give the result. -/
def Circuit.terms : {i : Nat} → Circuit i → Nat
  | _, .add a b => a.terms + b.terms
  | _, .sub a b => a.terms + b.terms
  | _, .neg a => a.terms
  | _, .addPlain a _ => a.terms + 1
  | _, .subPlain a _ => a.terms + 1
  | _, .plainSub _ a => a.terms + 1
  | _, _ => 1

/-- How many multiplications, by ciphertexts or by plaintexts, follow each other. -/
def Circuit.depth : {i : Nat} → Circuit i → Nat
  | _, .add a b => max a.depth b.depth
  | _, .sub a b => max a.depth b.depth
  | _, .neg a => a.depth
  | _, .addPlain a _ => a.depth
  | _, .subPlain a _ => a.depth
  | _, .plainSub _ a => a.depth
  | _, .mulPlain a _ => a.depth + 1
  | _, .mul a b => max a.depth b.depth + 1
  | _, _ => 0

/-- Computations from inputs by additions, subtractions, negations, and products with ciphertexts or plaintexts, where no factor of a product
and not the result has more than `w` terms. -/
def Circuit.Arithmetic (w : Nat) {i : Nat} (c : Circuit i) : Prop := c.terms ≤ w ∧ go c
where
  go : {i : Nat} → Circuit i → Prop
  | _, .input _ _ => True
  | _, .add a b => go a ∧ go b
  | _, .sub a b => go a ∧ go b
  | _, .neg a => go a
  | _, .addPlain a _ => go a
  | _, .subPlain a _ => go a
  | _, .plainSub _ a => go a
  | _, .mulPlain a _ => a.terms ≤ w ∧ go a
  | _, .mul a b => a.terms ≤ w ∧ b.terms ≤ w ∧ go a ∧ go b
  | _, _ => False

/-- Sizes of computations for predefined parameters: degree, largest number of bits of the plaintext modulus, terms, depth.  With the degrees 8192
and 16384 the least plaintext modulus is 65537, of 17 bits. -/
def capacities : List (Nat × Nat × Nat × Nat) :=
  [ (2048, 32, 1, 0), (2048, 28, 16, 0), (2048, 22, 1024, 0),
    (4096, 29, 1, 1), (4096, 25, 16, 1), (4096, 19, 1024, 1), (4096, 34, 1024, 0),
    (8192, 25, 1, 3), (8192, 41, 1, 2), (8192, 21, 16, 3), (8192, 40, 16, 2), (8192, 34, 1024, 2), (8192, 41, 1024, 1),
    (16384, 17, 1, 8), (16384, 23, 1, 7), (16384, 31, 1, 6), (16384, 41, 1, 5), (16384, 46, 1, 4), (16384, 19, 16, 7), (16384, 27, 16, 6), (16384, 37, 16, 5),
    (16384, 46, 16, 4), (16384, 21, 1024, 6), (16384, 31, 1024, 5), (16384, 46, 1024, 4) ]

/-- A ciphertext that was made from the plaintext, with the public key or with the secret key, with any random choices. -/
def Fresh (g : Prg) (sk : SecretKey) (pk : PublicKey) (pt : Plaintext) (ct : Ciphertext) : Prop :=
  (∃ r : EncryptRandom, r.OK ∧ pk.tryEncrypt pt r.u r.e1 r.e2 = Res.ok ct) ∨ ∃ (seed : Seed) (rng : Nat → Nat), seed.length = 32 ∧ IsStream rng ∧ sk.tryEncrypt g pt seed rng = Res.ok ct

end Fhe
