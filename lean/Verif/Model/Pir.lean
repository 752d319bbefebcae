import Verif.Model.BfvMul
import Verif.Model.BfvDot
import Verif.Model.BfvEval
/-!
# Private information retrieval: the examples MulPIR and SealPIR

Models `main` of `/repo/crates/fhe/examples/mulpir.rs` and of `/repo/crates/fhe/examples/sealpir.rs`, and the functions of `/repo/crates/fhe/examples/util.rs` that they use, without
the command line, the timing and the output.  The server runs its response several times to measure it; one run is modelled.
-/
namespace Fhe
open Res

namespace Pir

/-- `Result::unwrap`.  For example `/repo/crates/fhe/examples/util.rs` lines 126 and 142. -/
def unwrap {α : Type} : Res α → Res α
  | some (.ok x) => Res.ok x
  | some (.error _) => Res.panic
  | none => Res.panic

/-- `number_elements_per_plaintext`, `util.rs` lines 86-92. -/
def numberElements (degree nbits size : Nat) : Panics Nat := do
  let total ← mul64 nbits degree
  let bits ← mul64 size 8
  check (bits ≠ 0)
  return total / bits

/-- `(n as f64).sqrt().ceil() as usize`, `util.rs` line 111.  The model computes the exact value.  Rounding does not change it below `2^52`:
the distance of a square root of a number that is not a square to the next integer below it is more than half a unit in the last place. -/
def ceilSqrt (n : Nat) : Nat := if Nat.sqrt n * Nat.sqrt n = n then Nat.sqrt n else Nat.sqrt n + 1

/-- `a.div_ceil(b)`.  `/repo/crates/fhe/examples/util.rs` lines 108 and 112. -/
def divCeil (a b : Nat) : Panics Nat := do
  check (b ≠ 0)
  return (a + b - 1) / b

/-- The bytes of a row of the database, `util.rs` lines 129-134: `per` elements from position `i per` on, zeroes where the database ends.
Elements of another size make `copy_from_slice` panic. -/
def rowBytes (database : List (List Nat)) (size per i : Nat) : Panics (List Nat) := do
  let parts ← (List.range per).mapM fun j =>
    match database[j + i * per]? with
    | some element => do
      check (element.length = size)
      return element
    | none => some (List.replicate size 0)
  return parts.flatten

/-- `encode_database`, `util.rs` lines 97-145.  The rows are written to the first places of a vector of encodings of zero. -/
def encodeDatabase (database : List (List Nat)) (par : Par) (level : Nat) : Res (List Plaintext × Nat × Nat) := do
  let first ← lift database.head?
  let size := first.length
  lift (check (par.plaintext.value < 2 ^ 64))
  let nbits := Nat.log2 par.plaintext.value
  let per ← lift (numberElements par.degree nbits size)
  let rows ← lift (divCeil database.length per)
  let dim1 := ceilSqrt rows
  let dim2 ← lift (divCeil rows dim1)
  let zero ← unwrap (Plaintext.tryEncodeU64 [] ⟨.poly, level⟩ par true)
  let encoded ← (List.range rows).mapM fun i => do
    let bytes ← lift (rowBytes database size per i)
    let values ← lift (transcodeFromBytes bytes nbits)
    unwrap (Plaintext.tryEncodeU64 values ⟨.poly, level⟩ par true)
  lift (check (rows ≤ dim1 * dim2))
  return (encoded ++ List.replicate (dim1 * dim2 - rows) zero, dim1, dim2)

/-- `generate_database`, `util.rs` lines 74-82: the index of the element, in at most four bytes. -/
def generateDatabase (count size : Nat) : List (List Nat) :=
  (List.range count).map fun i => (List.range size).map fun k => if k < 4 then i % 2 ^ 32 / 2 ^ (8 * k) % 2 ^ 8 else 0

/-- `v[i] = x`.  `/repo/crates/fhe/examples/util.rs` line 136. -/
def setAt (v : List Nat) (i x : Nat) : Panics (List Nat) := do
  check (i < v.length)
  return v.set i x

/-- `iter.step_by(k)`, for a positive `k`: the first element and then every `k`-th.  `/repo/crates/fhe/examples/mulpir.rs` line 172 and
`/repo/crates/fhe/examples/sealpir.rs` line 166. -/
def stepBy {α : Type} (k : Nat) : List α → List α
  | [] => []
  | x :: l => x :: stepBy k (l.drop (k - 1))
termination_by l => l.length
decreasing_by simp only [List.length_drop, List.length_cons]; omega

/-- `v[a..b]`.  For example `/repo/crates/fhe/examples/util.rs` line 132 and `/repo/crates/fhe/examples/sealpir.rs` lines 164 and 285. -/
def slice {α : Type} (v : List α) (a b : Nat) : Panics (List α) := do
  check (a ≤ b ∧ b ≤ v.length)
  return (v.drop a).take (b - a)

/-- What the generator returns in the course of the program.  `/repo/crates/fhe/examples/sealpir.rs` lines 96-140 and
`/repo/crates/fhe/examples/mulpir.rs` lines 93-146. -/
structure Random where
  secret : Nat → Nat
  galoisSeeds : Nat → Seed
  galois : Nat → Nat → Nat → Nat
  relinSeed : Seed
  relin : Nat → Nat → Nat
  querySeed : Seed
  query : Nat → Nat

/-- The expansion level, `mulpir.rs` lines 94 and 134, `sealpir.rs` lines 97 and 128: `(dim1 + dim2).next_power_of_two().ilog2()`. -/
def expansionLevel (dim1 dim2 : Nat) : Panics Nat := do
  let n ← add64 dim1 dim2
  check (n ≤ 2 ^ 63)
  return RnsScaler.ceilLog2 n

/-- The evaluation key of the client, `mulpir.rs` lines 94-98, `sealpir.rs` lines 97-101. -/
def evaluationKey (b : Build) (g : Prg) (sk : SecretKey) (dim1 dim2 : Nat) (r : Random) : Res EvaluationKey := do
  let level ← lift (expansionLevel dim1 dim2)
  let builder ← EvaluationKeyBuilder.newLeveled b sk 1 0
  let builder ← builder.enableExpansion level
  builder.build b g r.galoisSeeds r.galois

/-- The query of the client, `mulpir.rs` lines 133-148, `sealpir.rs` lines 128-141.  The error of a missing inverse is a string; it is represented by a panic. -/
def query (g : Prg) (egcd : Nat → Nat → Nat × Int) (sk : SecretKey) (par : Par) (size index dim1 dim2 : Nat) (r : Random) : Res (List Nat) := do
  let level ← lift (expansionLevel dim1 dim2)
  let per ← lift (numberElements par.degree (Nat.log2 par.plaintext.value) size)
  lift (check (per ≠ 0))
  let queryIndex := index / per
  lift (check (level < 64))
  let inv ← lift (inverse egcd (2 ^ level) par.plaintext.value)
  lift (check (dim2 ≠ 0))
  let pt ← lift (setAt (List.replicate (dim1 + dim2) 0) (queryIndex / dim2) inv)
  let pt ← lift (setAt pt (dim1 + queryIndex % dim2) inv)
  let pt ← Plaintext.tryEncodeU64 pt ⟨.poly, 1⟩ par false
  let ct ← sk.tryEncrypt g pt r.querySeed r.query
  lift ct.toBytes

/-- The expansion of the query by the server, `mulpir.rs` lines 165-166, `sealpir.rs` lines 160-161. -/
def expand (g : Prg) (ek : EvaluationKey) (par : Par) (query : List Nat) (dim1 dim2 : Nat) : Res (List Ciphertext) := do
  let query ← Ciphertext.fromBytes g query par
  ek.expands query (dim1 + dim2)

/-- `dot_product_mod_switch`, `mulpir.rs` lines 170-174, and lines 166-167 of `sealpir.rs`: the product of the query with a column of the database. -/
def columnProduct (database : List Plaintext) (queryVec : List Ciphertext) (dim2 i : Nat) : Res Ciphertext := do
  lift (check (dim2 ≠ 0))
  dotProductScalar queryVec (stepBy dim2 (database.drop i))

end Pir

namespace MulPir
open Pir

/-- The response of the server, `mulpir.rs` lines 164-182. -/
def response (g : Prg) (ek : EvaluationKey) (rk : RelinearizationKey) (par : Par) (database : List Plaintext) (dim1 dim2 : Nat) (query : List Nat) : Res (List Nat) := do
  let expanded ← expand g ek par query dim1 dim2
  let queryVec ← lift (slice expanded 0 dim1)
  let rest ← lift (slice expanded dim1 expanded.length)
  let out ← rest.zipIdx.foldlM (fun out p => do
    let product ← lift ((← columnProduct database queryVec dim2 p.2).mul p.1)
    lift (out.add product)) (Ciphertext.zero par)
  let out ← rk.relinearizes out
  let out ← out.switchToLevel (← lift out.par.maxLevel)
  lift out.toBytes

/-- What the client makes of the response, `mulpir.rs` lines 190-208.  Of the measurement of the noise only whether it panics matters. -/
def answer (b : Build) (g : Prg) (sk : SecretKey) (par : Par) (size index : Nat) (response : List Nat) : Res (List Nat) := do
  let response ← Ciphertext.fromBytes g response par
  let pt ← sk.tryDecrypt b response
  let values ← pt.decodeU64 (some ⟨.poly, 2⟩)
  let plaintext ← lift (transcodeToBytes values (Nat.log2 par.plaintext.value))
  let per ← lift (numberElements par.degree (Nat.log2 par.plaintext.value) size)
  lift (check (per ≠ 0))
  let offset := index % per
  let _ ← lift (sk.measureNoise b response).run
  lift (slice plaintext (offset * size) ((offset + 1) * size))

/-- `main`, `mulpir.rs` lines 65-210, from the database on.  The parameters, the database and the index are arguments; `addr` is the address of
the allocation of the parameters.  The result is the answer, after the final assertion. -/
def main (b : Build) (g : Prg) (egcd : Nat → Nat → Nat × Int) (params : ParamsBuilder) (addr : Nat) (database : List (List Nat)) (index : Nat) (r : Random) : Res (List Nat) := do
  let element ← lift database[index]?
  let size := element.length
  let par : Par := ⟨← params.build b, addr⟩
  let (encoded, dim1, dim2) ← encodeDatabase database par 1
  let sk ← lift (SecretKey.random par r.secret)
  let ek ← evaluationKey b g sk dim1 dim2 r
  let rk ← RelinearizationKey.newLeveled b g sk 1 1 r.relinSeed r.relin
  let ekBytes ← lift ek.toBytes
  let rkBytes ← lift rk.toBytes
  let ek ← EvaluationKey.fromBytes b g ekBytes par
  let rk ← RelinearizationKey.fromBytes g rkBytes par
  let query ← Pir.query g egcd sk par size index dim1 dim2 r
  let response ← response g ek rk par encoded dim1 dim2 query
  let answer ← answer b g sk par size index response
  lift (check (answer = element))
  return answer

end MulPir

namespace SealPir
open Pir

/-- `64 - params.moduli()[0].leading_zeros()`, `sealpir.rs` lines 180, 185, 190, 236, 242 and 247. -/
def modulusBits (par : Par) : Panics Nat := do
  let q ← par.moduli.head?
  return 64 - lz64 q

/-- `expect_ncoefficients`, `sealpir.rs` lines 235-237; half the capacity of lines 179-182. -/
def partLength (par : Par) : Panics Nat := do
  let bits ← mul64 par.degree (← modulusBits par)
  divCeil bits (Nat.log2 par.plaintext.value)

/-- The words of a part of a ciphertext in chunks of the bits of a plaintext coefficient, `sealpir.rs` lines 183-187 and 188-192. -/
def partValues (par : Par) (p : Option (Poly .ntt)) : Panics (List Nat) := do
  let p ← p
  transcodeBidirectional p.coeffs.flatten (← modulusBits par) (Nat.log2 par.plaintext.value)

/-- A ciphertext read as plaintexts, `sealpir.rs` lines 178-199. -/
def parse (par : Par) (c : Ciphertext) : Res (List Plaintext) := do
  let n ← lift (partLength par)
  let _ ← lift (mul64 2 n)
  let v0 ← lift (partValues par c.c[0]?)
  let v1 ← lift (partValues par c.c[1]?)
  PlaintextVec.tryEncodeU64 (v0 ++ v1) ⟨.poly, 1⟩ par true

/-- The response of the server, `sealpir.rs` lines 158-211.  The plaintexts `pts[i]` are looked up before the dot product and not in its
course. -/
def response (g : Prg) (ek : EvaluationKey) (par : Par) (database : List Plaintext) (dim1 dim2 : Nat) (query : List Nat) : Res (List (List Nat)) := do
  let expanded ← expand g ek par query dim1 dim2
  let queryVec ← lift (slice expanded 0 dim1)
  let dots ← (List.range dim2).mapM fun i => do
    let c ← columnProduct database queryVec dim2 i
    c.switchToLevel (← lift c.par.maxLevel)
  let fold ← dots.mapM (parse par)
  let first ← lift fold.head?
  (List.range first.length).mapM fun i => do
    let rest ← lift (slice expanded dim1 expanded.length)
    let column ← lift (fold.mapM (·[i]?))
    let out ← dotProductScalar rest column
    let out ← out.switchToLevel (← lift out.par.maxLevel)
    lift out.toBytes

/-- A polynomial read from the values, `sealpir.rs` lines 239-243, 249 and 251, and lines 244-248, 250 and 252. -/
def polyWords (par : Par) (values : List Nat) : Panics (List Nat) := do
  let words ← transcodeBidirectional values (Nat.log2 par.plaintext.value) (← modulusBits par)
  check (words.length ≥ par.degree)
  return words.take par.degree

/-- What the client makes of the responses, `sealpir.rs` lines 222-286.  `flat_map` leaves out the ciphertexts that `try_decrypt` refuses.  Of the
measurement of the noise only whether it panics matters. -/
def answer (b : Build) (g : Prg) (sk : SecretKey) (par : Par) (size index : Nat) (responses : List (List Nat)) : Res (List Nat) := do
  let responses ← responses.mapM fun r => Pir.unwrap (Ciphertext.fromBytes g r par)
  let decrypted ← lift (responses.mapM fun r => (sk.tryDecrypt b r).okOrNone)
  let values ← (decrypted.filterMap id).mapM fun pt => Pir.unwrap (Plaintext.decodeU64 pt (some ⟨.poly, 2⟩))
  let values := values.flatten
  let n ← lift (partLength par)
  lift (check (values.length ≥ (← lift (mul64 2 n))))
  let poly0 ← lift (polyWords par (← lift (slice values 0 n)))
  let poly1 ← lift (polyWords par (← lift (slice values n (2 * n))))
  let ctx ← par.contextAtLevel 2
  let p0 ← math (Poly.tryFromU64Ntt poly0 ctx true)
  let p1 ← math (Poly.tryFromU64Ntt poly1 ctx true)
  let ct ← Ciphertext.new [p0, p1] par
  let pt ← Pir.unwrap (sk.tryDecrypt b ct)
  let values ← pt.decodeU64 (some ⟨.poly, 2⟩)
  let plaintext ← lift (transcodeToBytes values (Nat.log2 par.plaintext.value))
  let per ← lift (numberElements par.degree (Nat.log2 par.plaintext.value) size)
  lift (check (per ≠ 0))
  let offset := index % per
  let _ ← lift (sk.measureNoise b ct).run
  lift (slice plaintext (offset * size) ((offset + 1) * size))

/-- `main`, `sealpir.rs` lines 69-293, from the database on.  The parameters, the database and the index are arguments; `addr` is the address of
the allocation of the parameters.  The result is the answer, after the final assertion. -/
def main (b : Build) (g : Prg) (egcd : Nat → Nat → Nat × Int) (params : ParamsBuilder) (addr : Nat) (database : List (List Nat)) (index : Nat) (r : Random) : Res (List Nat) := do
  let element ← lift database[index]?
  let size := element.length
  let par : Par := ⟨← params.build b, addr⟩
  let (encoded, dim1, dim2) ← encodeDatabase database par 1
  let sk ← lift (SecretKey.random par r.secret)
  let ek ← evaluationKey b g sk dim1 dim2 r
  let ekBytes ← lift ek.toBytes
  let ek ← EvaluationKey.fromBytes b g ekBytes par
  let query ← Pir.query g egcd sk par size index dim1 dim2 r
  let responses ← response g ek par encoded dim1 dim2 query
  let answer ← answer b g sk par size index responses
  lift (check (answer = element))
  return answer

end SealPir
end Fhe
