import Verif.Spec.Capacity
/-!
# How much a computation with rotations adds up

For computations that consist of additions, subtractions, negations, products, rotations and inner sums.  An inner sum adds up all rotations
of a vector of `N` slots, so that it counts as the sum of `N` ciphertexts, of which all but one are rotated once more.
-/
namespace Fhe

/-- How many ciphertexts, products and plaintexts are added up or subtracted to give the result. -/
def Circuit.parts (N : Nat) : {i : Nat} → Circuit i → Nat
  | _, .add a b => a.parts N + b.parts N
  | _, .sub a b => a.parts N + b.parts N
  | _, .neg a => a.parts N
  | _, .addPlain a _ => a.parts N + 1
  | _, .subPlain a _ => a.parts N + 1
  | _, .plainSub _ a => a.parts N + 1
  | _, .rotateRows a => a.parts N
  | _, .rotateColumns a _ => a.parts N
  | _, .innerSum a => N * a.parts N
  | _, _ => 1

/-- How many rotations are made, since the last products, of what is added up. -/
def Circuit.rotations (N : Nat) : {i : Nat} → Circuit i → Nat
  | _, .add a b => a.rotations N + b.rotations N
  | _, .sub a b => a.rotations N + b.rotations N
  | _, .neg a => a.rotations N
  | _, .addPlain a _ => a.rotations N
  | _, .subPlain a _ => a.rotations N
  | _, .plainSub _ a => a.rotations N
  | _, .rotateRows a => a.rotations N + 1
  | _, .rotateColumns a _ => a.rotations N + 1
  | _, .innerSum a => N * a.rotations N + (N - 1)
  | _, _ => 0

/-- How many multiplications, by ciphertexts or by plaintexts, follow each other. -/
def Circuit.products : {i : Nat} → Circuit i → Nat
  | _, .add a b => max a.products b.products
  | _, .sub a b => max a.products b.products
  | _, .neg a => a.products
  | _, .addPlain a _ => a.products
  | _, .subPlain a _ => a.products
  | _, .plainSub _ a => a.products
  | _, .rotateRows a => a.products
  | _, .rotateColumns a _ => a.products
  | _, .innerSum a => a.products
  | _, .mulPlain a _ => a.products + 1
  | _, .mul a b => max a.products b.products + 1
  | _, .multiply a b => max a.products b.products + 1
  | _, _ => 0

/-- Computations from inputs by additions, subtractions, negations, products with ciphertexts or plaintexts, and those rotations and inner sums
that are among the given requests, where no factor of a product has more than `w` parts and `r` rotations. -/
def Circuit.Packed (N w r : Nat) (rs : List EvaluationRequest) : {i : Nat} → Circuit i → Prop
  | _, .input _ _ => True
  | _, .add a b => a.Packed N w r rs ∧ b.Packed N w r rs
  | _, .sub a b => a.Packed N w r rs ∧ b.Packed N w r rs
  | _, .neg a => a.Packed N w r rs
  | _, .addPlain a _ => a.Packed N w r rs
  | _, .subPlain a _ => a.Packed N w r rs
  | _, .plainSub _ a => a.Packed N w r rs
  | _, .mulPlain a _ => a.parts N ≤ w ∧ a.rotations N ≤ r ∧ a.Packed N w r rs
  | _, .mul a b => a.parts N ≤ w ∧ a.rotations N ≤ r ∧ b.parts N ≤ w ∧ b.rotations N ≤ r ∧ a.Packed N w r rs ∧ b.Packed N w r rs
  | _, .multiply a b => a.parts N ≤ w ∧ a.rotations N ≤ r ∧ b.parts N ≤ w ∧ b.rotations N ≤ r ∧ a.Packed N w r rs ∧ b.Packed N w r rs
  | _, .rotateRows a => EvaluationRequest.rows ∈ rs ∧ a.Packed N w r rs
  | _, .rotateColumns a steps => EvaluationRequest.columns steps ∈ rs ∧ 1 ≤ steps ∧ steps < N / 2 ∧ a.Packed N w r rs
  | _, .innerSum a => EvaluationRequest.innerSum ∈ rs ∧ a.Packed N w r rs
  | _, _ => False

/-- A size of computations, for predefined parameters. -/
structure Packing where
  degree : Nat
  /-- largest number of bits of the plaintext modulus -/
  bits : Nat
  /-- largest numbers of parts and of rotations of a factor -/
  factorParts : Nat
  factorRotations : Nat
  /-- largest number of multiplications that follow each other -/
  products : Nat
  /-- largest numbers of parts and of rotations of the result -/
  parts : Nat
  rotations : Nat
  deriving DecidableEq

/-- Sizes of computations for predefined parameters. -/
def packings : List Packing :=
  [ ⟨4096, 34, 1, 0, 0, 1, 1⟩, ⟨4096, 29, 1, 0, 1, 1, 1⟩, ⟨4096, 34, 1, 0, 0, 4096, 4095⟩, ⟨4096, 23, 1, 0, 1, 4096, 4095⟩, ⟨4096, 34, 1, 1, 0, 1, 1⟩,
    ⟨4096, 34, 1, 1, 0, 4096, 4095⟩, ⟨4096, 34, 16, 0, 0, 65536, 65536⟩, ⟨4096, 19, 16, 0, 1, 65536, 65536⟩, ⟨4096, 34, 16, 16, 0, 65536, 65536⟩, ⟨4096, 34, 4096, 4095, 0, 4096, 4095⟩,
    ⟨4096, 31, 1024, 1024, 0, 4194304, 4194304⟩, ⟨8192, 41, 1, 0, 2, 1, 1⟩, ⟨8192, 25, 1, 0, 3, 1, 1⟩, ⟨8192, 41, 1, 0, 1, 8192, 8191⟩, ⟨8192, 40, 1, 0, 2, 8192, 8191⟩,
    ⟨8192, 22, 1, 0, 3, 8192, 8191⟩, ⟨8192, 41, 1, 1, 1, 1, 1⟩, ⟨8192, 31, 1, 1, 2, 1, 1⟩, ⟨8192, 41, 1, 1, 1, 8192, 8191⟩, ⟨8192, 26, 1, 1, 2, 8192, 8191⟩,
    ⟨8192, 41, 16, 0, 1, 131072, 131072⟩, ⟨8192, 36, 16, 0, 2, 131072, 131072⟩, ⟨8192, 18, 16, 0, 3, 131072, 131072⟩, ⟨8192, 41, 16, 16, 1, 131072, 131072⟩, ⟨8192, 22, 16, 16, 2, 131072, 131072⟩,
    ⟨8192, 41, 8192, 8191, 1, 8192, 8191⟩, ⟨8192, 18, 8192, 8191, 2, 8192, 8191⟩, ⟨8192, 41, 1024, 1024, 1, 8388608, 8388608⟩, ⟨16384, 46, 1, 0, 4, 1, 1⟩, ⟨16384, 41, 1, 0, 5, 1, 1⟩,
    ⟨16384, 31, 1, 0, 6, 1, 1⟩, ⟨16384, 23, 1, 0, 7, 1, 1⟩, ⟨16384, 17, 1, 0, 8, 1, 1⟩, ⟨16384, 46, 1, 0, 4, 16384, 16383⟩, ⟨16384, 39, 1, 0, 5, 16384, 16383⟩,
    ⟨16384, 29, 1, 0, 6, 16384, 16383⟩, ⟨16384, 21, 1, 0, 7, 16384, 16383⟩, ⟨16384, 46, 1, 1, 4, 1, 1⟩, ⟨16384, 34, 1, 1, 5, 1, 1⟩, ⟨16384, 24, 1, 1, 6, 1, 1⟩,
    ⟨16384, 17, 1, 1, 7, 1, 1⟩, ⟨16384, 46, 1, 1, 3, 16384, 16383⟩, ⟨16384, 44, 1, 1, 4, 16384, 16383⟩, ⟨16384, 31, 1, 1, 5, 16384, 16383⟩, ⟨16384, 22, 1, 1, 6, 16384, 16383⟩,
    ⟨16384, 46, 16, 0, 4, 262144, 262144⟩, ⟨16384, 35, 16, 0, 5, 262144, 262144⟩, ⟨16384, 25, 16, 0, 6, 262144, 262144⟩, ⟨16384, 17, 16, 0, 7, 262144, 262144⟩, ⟨16384, 46, 16, 16, 3, 262144, 262144⟩,
    ⟨16384, 40, 16, 16, 4, 262144, 262144⟩, ⟨16384, 27, 16, 16, 5, 262144, 262144⟩, ⟨16384, 18, 16, 16, 6, 262144, 262144⟩, ⟨16384, 46, 16384, 16383, 3, 16384, 16383⟩, ⟨16384, 33, 16384, 16383, 4, 16384, 16383⟩,
    ⟨16384, 20, 16384, 16383, 5, 16384, 16383⟩, ⟨16384, 46, 1024, 1024, 3, 16777216, 16777216⟩, ⟨16384, 34, 1024, 1024, 4, 16777216, 16777216⟩, ⟨16384, 21, 1024, 1024, 5, 16777216, 16777216⟩ ]

end Fhe
