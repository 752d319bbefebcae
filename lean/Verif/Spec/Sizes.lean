import Verif.Spec.BfvSer
/-!
# Specification: the sizes of the messages

How many bytes a message has, as a function of public data only: the parameters, the levels, the number of parts and of keys, and whether a seed
is written.  No function here is given a coefficient, a message or a key.
-/
namespace Fhe.Sizes

/-- The bytes of a number written in base 128: one for every seven bits that have begun. -/
def number (n : Nat) : Nat := n.log2 / 7 + 1
/-- The bytes of a field that holds a number (the number of the field takes one byte); zero is not written. -/
def numberField (n : Nat) : Nat := if n = 0 then 0 else 1 + number n
/-- The bytes of a field that holds `k` bytes. -/
def bytesField (k : Nat) : Nat := 1 + number k + k
/-- The bits of a modulus. -/
def bits (q : Nat) : Nat := q.log2 + 1

/-- The bytes of a polynomial of the given degree: the representation, the degree, and for every modulus as many bits per coefficient as the
modulus has. -/
def poly (moduli : List Nat) (degree : Nat) : Nat :=
  numberField 1 + numberField degree + bytesField (moduli.map fun q => bits q * degree / 8).sum

/-- The bytes of a polynomial at a level of the parameters: the last `level` moduli are not used. -/
def polyAt (par : BfvParameters) (level : Nat) : Nat := poly (par.moduli.take (par.moduli.length - level)) par.degree

/-- The bytes of a ciphertext: the last part is replaced by the seed, if there is one. -/
def ciphertext (par : BfvParameters) (level parts : Nat) (seeded : Bool) : Nat :=
  (if seeded then (parts - 1) * bytesField (polyAt par level) + bytesField 32 else parts * bytesField (polyAt par level)) + numberField level

/-- The bytes of a public key, which is made with a seed, or was read from a message without one. -/
def publicKey (par : BfvParameters) (seeded : Bool) : Nat := bytesField (ciphertext par 0 2 seeded)

/-- The bytes of a key-switching key with `count` pairs: the second of each pair is replaced by the seed, if there is one. -/
def keySwitchingKey (par : BfvParameters) (ciphertextLevel keyLevel logBase count : Nat) (seeded : Bool) : Nat :=
  (if seeded then count * bytesField (polyAt par keyLevel) + bytesField 32 else 2 * count * bytesField (polyAt par keyLevel)) +
    numberField ciphertextLevel + numberField keyLevel + numberField logBase

/-- The bits of a digit of a generated key: if the key has a single modulus, half of the bits of the modulus; otherwise there are no digits. -/
def digitBits (par : BfvParameters) (keyLevel : Nat) : Nat :=
  match par.moduli.take (par.moduli.length - keyLevel) with
  | [q] => bits q / 2
  | _ => 0

/-- The number of pairs of a generated key: one for every digit of the single modulus, or one for every modulus of the ciphertexts. -/
def pairs (par : BfvParameters) (ciphertextLevel keyLevel : Nat) : Nat :=
  match par.moduli.take (par.moduli.length - keyLevel) with
  | [q] => (bits q + bits q / 2 - 1) / (bits q / 2)
  | _ => par.moduli.length - ciphertextLevel

/-- The bytes of a generated key-switching key. -/
def generatedKey (par : BfvParameters) (ciphertextLevel keyLevel : Nat) : Nat :=
  keySwitchingKey par ciphertextLevel keyLevel (digitBits par keyLevel) (pairs par ciphertextLevel keyLevel) true

/-- The bytes of a relinearization key. -/
def relinearizationKey (ksk : Nat) : Nat := bytesField ksk
/-- The bytes of a Galois key. -/
def galoisKey (ksk exponent : Nat) : Nat := bytesField ksk + numberField exponent
/-- The bytes of an evaluation key: the sizes of its Galois keys, and its levels. -/
def evaluationKey (galois : List Nat) (ciphertextLevel keyLevel : Nat) : Nat := (galois.map bytesField).sum + numberField ciphertextLevel + numberField keyLevel
/-- The bytes of an RGSW ciphertext. -/
def rgsw (ksk0 ksk1 : Nat) : Nat := bytesField ksk0 + bytesField ksk1

/-- The bytes of a secret key all of whose coefficients take one byte. -/
def secretKey (degree : Nat) : Nat := bytesField degree

end Fhe.Sizes
