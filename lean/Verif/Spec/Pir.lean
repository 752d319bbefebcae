import Verif.Spec.BfvCipher
import Verif.Model.Pir
import Verif.Spec.BfvMul
/-!
# Private information retrieval: layout and noise

The database is a list of elements of `size` bytes.  As many of them as fit, at `⌊log2 t⌋` bits per coefficient, form a row; the rows are
arranged as a matrix.
-/
namespace Fhe.Pir

/-- The number of elements in a row. -/
def perRow (par : Par) (size : Nat) : Nat := Nat.log2 par.plaintext.value * par.degree / (size * 8)

/-- The number of rows. -/
def rowCount (par : Par) (count size : Nat) : Nat := (count + perRow par size - 1) / perRow par size

/-- The first dimension of the matrix: the square root of the number of rows, rounded up. -/
def dimension1 (par : Par) (count size : Nat) : Nat := ceilSqrt (rowCount par count size)

/-- The second dimension of the matrix. -/
def dimension2 (par : Par) (count size : Nat) : Nat := (rowCount par count size + dimension1 par count size - 1) / dimension1 par count size

/-- The error of a key switch for ciphertexts of level `i` with a key at level `j`, both with several moduli. -/
def switchError (par : Par) (i j : Nat) : Nat :=
  (2 * (par.degree * (par.moduli.take (par.moduli.length - i)).sum * (2 * par.variance)) + (i - j) * (par.modulusAt j / par.modulusAt i) * (1 + par.degree * (2 * par.variance))) /
    (2 * (par.modulusAt j / par.modulusAt i))

/-- The noise of the ciphertexts of the expanded query, for the expansion level `l`. -/
def expandedNoise (par : Par) (l : Nat) : Nat := 2 ^ l * (par.plaintext.value * (2 * par.variance + 1)) + (2 ^ l - 1) * (par.plaintext.value * switchError par 1 0)

/-- The noise of a product of `dim1` of these with plaintexts. -/
def columnNoise (par : Par) (l dim1 : Nat) : Nat := dim1 * (par.degree * expandedNoise par l * par.plaintext.value)

/-- The noise of a ciphertext of level 1 with noise `V` that is switched to the last level. -/
def switchedNoise (par : Par) (V : Nat) : Nat :=
  let Q := par.modulusAt 1
  let q := par.modulusAt (par.moduli.length - 1)
  (q * V + (Q - q) * (par.plaintext.value * geom (par.degree * (2 * par.variance)) 2)) / Q

/-- The noise of the response of MulPIR before the switch to the last level, for a matrix of `dim1` times `dim2` rows. -/
def mulPirSum (par : Par) (dim1 dim2 : Nat) : Nat :=
  let l := RnsScaler.ceilLog2 (dim1 + dim2)
  dim2 * Props.mulNoise par 1 (2 * par.variance) 2 2 (columnNoise par l dim1) (expandedNoise par l) + par.plaintext.value * switchError par 1 1

/-- The noise of the response of MulPIR. -/
def mulPirNoise (par : Par) (dim1 dim2 : Nat) : Nat := switchedNoise par (mulPirSum par dim1 dim2)

/-- The noise of the ciphertexts that SealPIR reads as plaintexts, for a matrix of `dim1` times `dim2` rows. -/
def sealPirInner (par : Par) (dim1 dim2 : Nat) : Nat := switchedNoise par (columnNoise par (RnsScaler.ceilLog2 (dim1 + dim2)) dim1)

/-- The noise of the responses of SealPIR. -/
def sealPirOuter (par : Par) (dim1 dim2 : Nat) : Nat := switchedNoise par (columnNoise par (RnsScaler.ceilLog2 (dim1 + dim2)) dim2)

/-- The number of bits of the first modulus. -/
def firstBits (par : Par) : Nat := bitLen (par.moduli.headD 0)

/-- The number of values that the words of a polynomial modulo the first modulus are cut into. -/
def partCount (par : Par) : Nat := (par.degree * firstBits par + Nat.log2 par.plaintext.value - 1) / Nat.log2 par.plaintext.value

/-- The number of plaintexts that a ciphertext is read as: the number of responses. -/
def foldCount (par : Par) : Nat := max ((2 * partCount par + par.degree - 1) / par.degree) 1

/-- The message contains the bytes `element` from the byte `offset` on: its coefficients are read as digits of a number to the base `2^⌊log2 t⌋`,
the least significant first, and this number is split into bytes. -/
def Contains (par : Par) (m : par.Msg) (offset : Nat) (element : List Nat) : Prop :=
  let bits := Nat.log2 par.plaintext.value
  (∀ x ∈ msgCoeffs m, x < 2 ^ bits) ∧ Nat.ofDigits (2 ^ bits) (msgCoeffs m) / 256 ^ offset % 256 ^ element.length = Nat.ofDigits 256 element

/-- The conditions on the parameters and the database. -/
structure Fits (par : Par) (database : List (List Nat)) (size : Nat) : Prop where
  word : par.plaintext.value < 2 ^ 64
  levels : 2 ≤ par.moduli.length
  modulus : par.plaintext.value ≤ par.modulusAt 1
  pos : 1 ≤ size
  fits : size * 8 ≤ Nat.log2 par.plaintext.value * par.degree
  ne : database ≠ []
  elements : ∀ e ∈ database, e.length = size ∧ IsBytes e

/-- The seeds have 32 bytes and the generator returns words. -/
structure Random.OK (r : Random) : Prop where
  secret : IsStream r.secret
  galoisSeeds : ∀ x, (r.galoisSeeds x).length = 32
  galois : ∀ x i, IsStream (r.galois x i)
  relinSeed : r.relinSeed.length = 32
  relin : ∀ i, IsStream (r.relin i)
  querySeed : r.querySeed.length = 32
  query : IsStream r.query

end Fhe.Pir
