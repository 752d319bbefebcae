import Verif.Model.Pir
import Verif.Model.BfvRgsw
import Verif.Model.BfvMul
/-!
# The introductory examples

Models `main` of `bfv_basic.rs`, `bfv_ops.rs` and `rgsw.rs` in `/repo/crates/fhe/examples`, without the output.  The numbers that the programs
compute with are arguments, and so are the parameters.
-/
namespace Fhe
open Res

/-- The three streams that an encryption with a public key uses.  They are drawn in `/repo/crates/fhe/src/bfv/keys/public_key.rs` lines 75-77, called from
`/repo/crates/fhe/examples/bfv_basic.rs` lines 28-29. -/
structure EncryptRandom where
  u : Nat → Nat
  e1 : Nat → Nat
  e2 : Nat → Nat

/-- `pk.try_encrypt(&Plaintext::try_encode(v, encoding, params)?, rng)?`, as in `bfv_ops.rs` lines 70-71 and 128-129. -/
def encodeEncrypt (pk : PublicKey) (par : Par) (v : List Nat) (kind : EncodingKind) (r : EncryptRandom) : Res Ciphertext := do
  let pt ← Plaintext.tryEncodeU64 v ⟨kind, 0⟩ par false
  pk.tryEncrypt pt r.u r.e1 r.e2

/-- The encryptions of the elements of a slice, each as a constant, as in `bfv_ops.rs` lines 67-73. -/
def encryptEach (pk : PublicKey) (par : Par) (values : List Nat) (r : Nat → EncryptRandom) : Res (List Ciphertext) :=
  values.zipIdx.mapM fun p => encodeEncrypt pk par [p.1] .poly (r p.2)

namespace BfvBasic

/-- What the generator returns in the course of the program.  `/repo/crates/fhe/examples/bfv_basic.rs` lines 22-41. -/
structure Random where
  secret : Nat → Nat
  pkSeed : Seed
  pk : Nat → Nat
  a : EncryptRandom
  b : EncryptRandom
  v1 : EncryptRandom
  v2 : EncryptRandom

/-- `main`, `bfv_basic.rs` lines 22-45: the two results that are printed, for the numbers `x` and `y` and the vectors `v1` and `v2`. -/
def main (b : Build) (g : Prg) (par : Par) (x y : Nat) (v1 v2 : List Nat) (r : Random) : Res (Nat × List Nat) := do
  let sk ← lift (SecretKey.random par r.secret)
  let pk ← lift (PublicKey.new g sk r.pkSeed r.pk)
  let ptA ← Plaintext.tryEncodeU64 [x] ⟨.poly, 0⟩ par false
  let ptB ← Plaintext.tryEncodeU64 [y] ⟨.poly, 0⟩ par false
  let ctA ← pk.tryEncrypt ptA r.a.u r.a.e1 r.a.e2
  let ctB ← pk.tryEncrypt ptB r.b.u r.b.e1 r.b.e2
  let ctSum ← lift (ctA.add ctB)
  let ptSum ← sk.tryDecrypt b ctSum
  let res ← ptSum.decodeU64 (some ⟨.poly, 0⟩)
  let sum ← lift res[0]?
  let ptV1 ← Plaintext.tryEncodeU64 v1 ⟨.simd, 0⟩ par false
  let ptV2 ← Plaintext.tryEncodeU64 v2 ⟨.simd, 0⟩ par false
  let ctV1 ← pk.tryEncrypt ptV1 r.v1.u r.v1.e1 r.v1.e2
  let ctV2 ← pk.tryEncrypt ptV2 r.v2.u r.v2.e1 r.v2.e2
  let ctSum ← lift (ctV1.add ctV2)
  let ptSum ← sk.tryDecrypt b ctSum
  let res ← ptSum.decodeU64 (some ⟨.simd, 0⟩)
  return (sum, ← lift (Pir.slice res 0 v1.length))

end BfvBasic

namespace BfvOps

/-- What the generator returns in the course of the program: for the keys, and for the encryptions in their order.
`/repo/crates/fhe/examples/bfv_ops.rs` lines 56-145. -/
structure Random where
  secret : Nat → Nat
  pkSeed : Seed
  pk : Nat → Nat
  galoisSeeds : Nat → Seed
  galois : Nat → Nat → Nat → Nat
  rkSeed : Seed
  rk : Nat → Nat → Nat
  values : Nat → EncryptRandom
  vals : EncryptRandom
  v1 : Nat → EncryptRandom
  v2 : Nat → EncryptRandom
  pt1 : EncryptRandom
  pt2 : EncryptRandom
  x : EncryptRandom
  xs : EncryptRandom

/-- `Vec::<u64>::try_decode(&sk.try_decrypt(ct)?, encoding)?`, lines 32-33, 45-46, 110-111, 122-123, 138-139 and 154-155. -/
def decryptDecode (b : Build) (sk : SecretKey) (ct : Ciphertext) (kind : EncodingKind) : Res (List Nat) := do
  let pt ← sk.tryDecrypt b ct
  pt.decodeU64 (some ⟨kind, 0⟩)

/-- `weighted_sum_plain`, `bfv_ops.rs` lines 21-35. -/
def weightedSumPlain (b : Build) (cts : List Ciphertext) (weights : List Nat) (par : Par) (sk : SecretKey) : Res Nat := do
  let acc ← (cts.zip weights).foldlM (fun acc p => do
    let ptW ← Plaintext.tryEncodeU64 [p.2] ⟨.poly, 0⟩ par false
    lift (acc.add (← lift (p.1.mulPlain ptW)))) (Ciphertext.zero par)
  let v ← decryptDecode b sk acc .poly
  lift v[0]?

/-- `weighted_sum_simd`, lines 37-48. -/
def weightedSumSimd (b : Build) (ct : Ciphertext) (weights : Plaintext) (ek : EvaluationKey) (sk : SecretKey) : Res Nat := do
  let tmp ← lift (ct.mulPlain weights)
  let summed ← ek.computesInnerSum tmp
  let v ← decryptDecode b sk summed .simd
  lift v[0]?

/-- The inner product without SIMD, lines 104-111. -/
def innerProductPlain (b : Build) (ct1 ct2 : List Ciphertext) (rk : RelinearizationKey) (par : Par) (sk : SecretKey) : Res Nat := do
  let acc ← (ct1.zip ct2).foldlM (fun acc p => do
    let prod ← lift (p.1.mul p.2)
    let prod ← rk.relinearizes prod
    lift (acc.add prod)) (Ciphertext.zero par)
  let v ← decryptDecode b sk acc .poly
  lift v[0]?

/-- The inner product with SIMD, lines 119-123. -/
def innerProductSimd (b : Build) (ct1 ct2 : Ciphertext) (rk : RelinearizationKey) (ek : EvaluationKey) (sk : SecretKey) : Res Nat := do
  let prod ← lift (ct1.mul ct2)
  let prod ← rk.relinearizes prod
  let summed ← ek.computesInnerSum prod
  let v ← decryptDecode b sk summed .simd
  lift v[0]?

/-- `3 x² + 2 x + 1`, lines 130-137 and 146-153: `n` is the number of times that a coefficient is repeated. -/
def polynomial (ct : Ciphertext) (n : Nat) (kind : EncodingKind) (rk : RelinearizationKey) (par : Par) : Res Ciphertext := do
  let ct2 ← lift (ct.mul ct)
  let ct2 ← rk.relinearizes ct2
  let three ← Plaintext.tryEncodeU64 (List.replicate n 3) ⟨kind, 0⟩ par false
  let two ← Plaintext.tryEncodeU64 (List.replicate n 2) ⟨kind, 0⟩ par false
  let one ← Plaintext.tryEncodeU64 (List.replicate n 1) ⟨kind, 0⟩ par false
  let res ← lift (ct2.mulPlain three)
  let res ← lift (res.add (← lift (ct.mulPlain two)))
  lift (res.addPlain one)

/-- The polynomial without SIMD, lines 130-139. -/
def polynomialPlain (b : Build) (ct : Ciphertext) (rk : RelinearizationKey) (par : Par) (sk : SecretKey) : Res Nat := do
  let res ← polynomial ct 1 .poly rk par
  let v ← decryptDecode b sk res .poly
  lift v[0]?

/-- The polynomial with SIMD, lines 146-156, on `n` slots. -/
def polynomialSimd (b : Build) (ct : Ciphertext) (n : Nat) (rk : RelinearizationKey) (par : Par) (sk : SecretKey) : Res (List Nat) := do
  let res ← polynomial ct n .simd rk par
  let v ← decryptDecode b sk res .simd
  lift (Pir.slice v 0 n)

/-- What the program prints.  `/repo/crates/fhe/examples/bfv_ops.rs` lines 50-159. -/
structure Output where
  weightedPlain : Nat
  weightedSimd : Nat
  innerPlain : Nat
  innerSimd : Nat
  polynomialPlain : Nat
  polynomialSimd : List Nat
deriving DecidableEq, Repr

/-- `main`, lines 56-156, for the given `values`, `weights`, `v1`, `v2`, `x` and `x_vec`. -/
def main (b : Build) (g : Prg) (par : Par) (values weights v1 v2 : List Nat) (x : Nat) (xs : List Nat) (r : Random) : Res Output := do
  let sk ← lift (SecretKey.random par r.secret)
  let pk ← lift (PublicKey.new g sk r.pkSeed r.pk)
  let builder ← EvaluationKeyBuilder.newLeveled b sk 0 0
  let builder ← builder.enableInnerSum
  let ek ← builder.build b g r.galoisSeeds r.galois
  let rk ← RelinearizationKey.newLeveled b g sk 0 0 r.rkSeed r.rk
  let cts ← encryptEach pk par values r.values
  let weightedPlain ← weightedSumPlain b cts weights par sk
  let ctVals ← encodeEncrypt pk par values .simd r.vals
  let ptWs ← Plaintext.tryEncodeU64 weights ⟨.simd, 0⟩ par false
  let weightedSimd ← weightedSumSimd b ctVals ptWs ek sk
  let ctV1 ← encryptEach pk par v1 r.v1
  let ctV2 ← encryptEach pk par v2 r.v2
  let innerPlain ← innerProductPlain b ctV1 ctV2 rk par sk
  let ct1 ← encodeEncrypt pk par v1 .simd r.pt1
  let ct2 ← encodeEncrypt pk par v2 .simd r.pt2
  let innerSimd ← innerProductSimd b ct1 ct2 rk ek sk
  let ctX ← encodeEncrypt pk par [x] .poly r.x
  let polynomialPlain ← polynomialPlain b ctX rk par sk
  let ctXs ← encodeEncrypt pk par xs .simd r.xs
  let polynomialSimd ← polynomialSimd b ctXs xs.length rk par sk
  return { weightedPlain, weightedSimd, innerPlain, innerSimd, polynomialPlain, polynomialSimd }

end BfvOps

namespace Rgsw

/-- What the generator returns in the course of the program.  `/repo/crates/fhe/examples/rgsw.rs` lines 20-28. -/
structure Random where
  secret : Nat → Nat
  seed1 : Seed
  rng1 : Nat → Nat
  seed2 : Seed
  rng2 : Nat → Nat
  rgswSeed0 : Seed
  rgswSeed1 : Seed
  rgsw0 : Nat → Nat → Nat
  rgsw1 : Nat → Nat → Nat

/-- `rgsw.rs` lines 20-48: the two plaintexts that the program compares.  Of the measurements of the noise and the sizes only whether they fail
matters. -/
def products (b : Build) (g : Prg) (par : Par) (v1 v2 : List Nat) (r : Random) : Res (Plaintext × Plaintext) := do
  let sk ← lift (SecretKey.random par r.secret)
  let pt1 ← Plaintext.tryEncodeU64 v1 ⟨.simd, 0⟩ par false
  let pt2 ← Plaintext.tryEncodeU64 v2 ⟨.simd, 0⟩ par false
  let ct1 ← sk.tryEncrypt g pt1 r.seed1 r.rng1
  let ct2 ← sk.tryEncrypt g pt2 r.seed2 r.rng2
  let rgsw ← sk.tryEncryptRgsw b g pt2 r.rgswSeed0 r.rgswSeed1 r.rgsw0 r.rgsw1
  let product ← lift (ct1.mulRgsw rgsw)
  let expected ← lift (ct1.mul ct2)
  let _ ← sk.measureNoise b product
  let _ ← lift product.toBytes
  let _ ← sk.measureNoise b product
  let product ← product.switchToLevel (← lift product.par.maxLevel)
  let _ ← sk.measureNoise b product
  let _ ← lift product.toBytes
  let ptProd ← sk.tryDecrypt b product
  let ptExp ← sk.tryDecrypt b expected
  return (ptProd, ptExp)

/-- `main`, `rgsw.rs` lines 20-54: the assertion `assert_eq!(pt_prod, pt_exp)` and the result that is printed. -/
def main (b : Build) (g : Prg) (par : Par) (v1 v2 : List Nat) (r : Random) : Res (List Nat) := do
  let (ptProd, ptExp) ← products b g par v1 v2 r
  lift (check (ptProd.beq ptExp = true))
  let decoded ← ptProd.decodeU64 (some ⟨.simd, 0⟩)
  lift (Pir.slice decoded 0 v1.length)

end Rgsw

end Fhe
