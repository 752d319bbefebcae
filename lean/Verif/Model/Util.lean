import Verif.Model.Zq
/-!
# `fhe-util/src/lib.rs` and `fhe-math/src/zq/primes.rs`

Citations are to `/repo/crates/fhe-util/src/lib.rs` unless stated otherwise.
-/
namespace Fhe

/-! ## Transcoding -/

/-- `assert_eq!(x, y)` etc. are `check`; `u64::MAX >> (64 - nbits)`.  `/repo/crates/fhe-util/src/lib.rs` lines 74, 113, 154 and 155. -/
def maskBits (nbits : Nat) : Nat := (2 ^ 64 - 1) >>> (64 - nbits)

/-- The inner loop `while current_value_nbits >= out_nbits { out.push(..); value >>= out_nbits; nbits -= out_nbits }`,
lines 92-96, 130-134 and 174-178.  `emit` is the pushed expression.  Returns `(out, value, nbits)`.  `out_nbits = 0` is
excluded by the assertions of the callers; the guard only makes the recursion total. -/
def drain (outN : Nat) (emit : Nat → Nat) (out : List Nat) (cur nb : Nat) : List Nat × Nat × Nat :=
  if _h : 0 < outN ∧ outN ≤ nb then drain outN emit (out ++ [emit cur]) (cur >>> outN) (nb - outN)
  else (out, cur, nb)
termination_by nb

/-- The outer loop `while current_index < a.len()`, lines 82-97, 121-135, 164-179, over the not yet consumed suffix of the
input.  The code consumes a value only `if current_value_nbits < out_nbits`; the inner loop leaves this condition true,
so the test never fails.  The model panics (`none`) if it did, hence a `some` result shows that it does not. -/
def transcodeLoop (inN outN : Nat) (load : Nat → Panics Nat) (emit : Nat → Nat) :
    List Nat → List Nat × Nat × Nat → Panics (List Nat × Nat × Nat)
  | [], st => some st
  | v :: rest, (out, cur, nb) => do
    check (nb < outN)
    check (nb < 128)
    let x ← load v
    let cur := cur ||| shl128 x nb
    let nb := nb + inN
    transcodeLoop inN outN load emit rest (drain outN emit out cur nb)

/-- `64 - value.leading_zeros() <= nbits` and masking, lines 87-88, 169-170. -/
def loadMasked (nbits v : Nat) : Panics Nat := do
  check (64 - lz64 v ≤ nbits)
  return v &&& maskBits nbits

/-- `transcode_to_bytes`, lines 71-107. -/
def transcodeToBytes (a : List Nat) (nbits : Nat) : Panics (List Nat) := do
  check (0 < nbits ∧ nbits ≤ 64)
  let total ← mul64 a.length nbits
  let nbytes := (total + 7) / 8
  let (out, cur, nb) ← transcodeLoop nbits 8 (loadMasked nbits) (· % 2 ^ 8) a ([], 0, 0)
  if nb > 0 then do
    check (nb < 8)
    check (out.length = (← subU nbytes 1))
    return out ++ [cur % 2 ^ 8]
  else do
    check (out.length = nbytes)
    check (cur = 0)
    return out

/-- `transcode_from_bytes`, lines 111-145. -/
def transcodeFromBytes (b : List Nat) (nbits : Nat) : Panics (List Nat) := do
  check (0 < nbits ∧ nbits ≤ 64)
  let total ← mul64 b.length 8
  let nelements := (total + nbits - 1) / nbits
  let (out, cur, nb) ← transcodeLoop 8 nbits some (fun c => asU64 (c &&& maskBits nbits)) b ([], 0, 0)
  if nb > 0 then do
    check (out.length = (← subU nelements 1))
    return out ++ [asU64 cur]
  else do
    check (out.length = nelements)
    check (cur = 0)
    return out

/-- `transcode_bidirectional`, lines 150-188. -/
def transcodeBidirectional (a : List Nat) (inN outN : Nat) : Panics (List Nat) := do
  check (0 < inN ∧ inN ≤ 64)
  check (0 < outN ∧ outN ≤ 64)
  let total ← mul64 a.length inN
  let size := (total + outN - 1) / outN
  let (out, cur, nb) ← transcodeLoop inN outN (loadMasked inN) (fun c => asU64 (c &&& maskBits outN)) a ([], 0, 0)
  if nb > 0 then do
    check (nb < outN)
    check (out.length = (← subU size 1))
    return out ++ [asU64 cur]
  else do
    check (out.length = size)
    check (cur = 0)
    return out

/-- `Modulus::serialize_vec`, `crates/fhe-math/src/zq/mod.rs` lines 783-786. -/
def Modulus.serializeVec (m : Modulus) (a : List Nat) : Panics (List Nat) := transcodeToBytes a m.nbits
/-- `Modulus::deserialize_vec`, `crates/fhe-math/src/zq/mod.rs` lines 790-793. -/
def Modulus.deserializeVec (m : Modulus) (b : List Nat) : Panics (List Nat) := transcodeFromBytes b m.nbits

/-! ## Centered binomial sampling -/

/-- `u128::count_ones`.  `/repo/crates/fhe-util/src/lib.rs` line 37. -/
def countOnes (x : Nat) : Nat := ((List.range 128).filter x.testBit).length

/-- `mask_add`, line 34. -/
def cbdMaskAdd (v : Nat) : Nat := ((2 ^ 128 - 1) >>> (128 - 4 * v)) >>> (2 * v)
/-- `mask_sub`, line 35. -/
def cbdMaskSub (v : Nat) : Nat := shl128 (cbdMaskAdd v) (2 * v)
/-- The closure `sample`, lines 36-38. -/
def cbdSample (v pool : Nat) : Int :=
  (countOnes (pool &&& cbdMaskAdd v) : Int) - (countOnes (pool &&& cbdMaskSub v) : Int)

/-- The loop of lines 46-55; `rng` is the stream of words of the generator, `pos` the number of words drawn so far. -/
def cbdPoolLoop (v : Nat) (rng : Nat → Nat) : Nat → (pool nb pos : Nat) → Panics (List Int × Nat)
  | 0, _, _, pos => some ([], pos)
  | n + 1, pool, nb, pos => do
    check (nb < 128)
    let (pool, nb, pos) := if nb < 4 * v then (pool ||| shl128 (rng pos) nb, nb + 64, pos + 1) else (pool, nb, pos)
    check (nb ≥ 4 * v)
    let s := cbdSample v pool
    let nb ← subU nb (4 * v)
    let (rest, pos) ← cbdPoolLoop v rng n (pool >>> (4 * v)) nb pos
    return (s :: rest, pos)

/-- The loop of lines 59-62: two words per sample. -/
def cbdPairLoop (v : Nat) (rng : Nat → Nat) : Nat → (pos : Nat) → List Int × Nat
  | 0, pos => ([], pos)
  | n + 1, pos =>
    let pool := rng pos ||| shl128 (rng (pos + 1)) 64
    let (rest, pos') := cbdPairLoop v rng n (pos + 2)
    (cbdSample v pool :: rest, pos')

/-- `sample_vec_cbd`, lines 22-66.  The result is the sampled vector and the number of words drawn; `error` is the
`Err` result for an unsupported variance. -/
def sampleVecCbd (size v : Nat) (rng : Nat → Nat) : Panics (Except Unit (List Int × Nat)) :=
  if ¬ (1 ≤ v ∧ v ≤ 32) then some (.error ())
  else if 4 * v ≤ 64 then do return .ok (← cbdPoolLoop v rng size 0 0 0)
  else some (.ok (cbdPairLoop v rng size 0))

/-! ## Prime generation: `crates/fhe-math/src/zq/primes.rs` -/

/-- First loop, lines 42-44. `t - 1` cannot underflow: the loop stops at 0 since `lz64 0 = 64`; the model returns 0 there
(`leading_zeros ≤ 54` at the call). -/
def primeLoop1 (modulo lz : Nat) : Nat → Nat
  | 0 => 0
  | t + 1 => if (t + 1) % modulo ≠ 1 ∧ lz64 (t + 1) = lz then primeLoop1 modulo lz t else t + 1

/-- Second loop, lines 46-51. `modulo = 0` is excluded by the caller; the guard makes the recursion total. -/
def primeLoop2 (modulo lz t : Nat) : Nat :=
  if _h : lz64 t = lz ∧ isPrime t = false ∧ t ≥ modulo ∧ 0 < modulo then primeLoop2 modulo lz (t - modulo) else t
termination_by t
decreasing_by omega

/-- `generate_prime`, lines 30-60.  `% modulo` panics for `modulo = 0`. -/
def generatePrime (numBits modulo upperBound : Nat) : Panics (Option Nat) :=
  if ¬ (10 ≤ numBits ∧ numBits ≤ 62) then some none
  else do
    check (1 <<< numBits ≥ upperBound)
    let lz := 64 - numBits
    let t ← subU upperBound 1
    check (modulo ≠ 0)
    let t := primeLoop1 modulo lz t
    let t := primeLoop2 modulo lz t
    if lz64 t = lz ∧ isPrime t = true then return some t else return none

/-! ## Modular inverse -/

/-- `inverse`, lines 192-196 of `crates/fhe-util/src/lib.rs`.  `BigUint::mod_inverse` of the dependency `num-bigint-dig`
runs an extended gcd `(d, x)` on `(a, p)`, returns `None` when `d ≠ 1` and otherwise `x`, plus `p` when `x` is negative;
`to_u64` fails out of range.  The extended gcd itself is a parameter. -/
def inverse (egcd : Nat → Nat → Nat × Int) (a p : Nat) : Option Nat :=
  let (d, x) := egcd a p
  if d ≠ 1 then none
  else
    let x := if x < 0 then x + p else x
    if 0 ≤ x ∧ x < 2 ^ 64 then some x.toNat else none

end Fhe
