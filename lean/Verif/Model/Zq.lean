import Mathlib.Data.Nat.Prime.Basic
import Verif.Model.Checked
/-!
# `fhe-math/src/zq`: arithmetic modulo an integer of at most 62 bits

All citations are to `/repo/crates/fhe-math/src/zq/mod.rs` unless stated otherwise.
`debug_assert!`s are part of the model (`check`), so a `some` result also says that none of them fires.
-/
namespace Fhe

/-- Errors of `fhe-math` used in this file: `crates/fhe-math/src/errors.rs`, `Error::InvalidModulus`.  Lines 12-15. -/
inductive ZqError where
  | invalidModulus (p : Nat)
deriving DecidableEq, Repr

/-- `struct Modulus`, lines 31-40.  `distribution` and `arch` (sampling state and SIMD dispatch) carry no value and are
left out.  `vtCfg` records the build configuration that selects one of the two bodies of `reduce1_vt` (lines 676-688):
`true` for `macos`/`avx2`. -/
structure Modulus where
  p : Nat
  barrettHi : Nat
  barrettLo : Nat
  leadingZeros : Nat
  supportsOpt : Bool
  vtCfg : Bool
deriving DecidableEq, Repr

/-- `supports_opt`, `zq/primes.rs` lines 10-25.  Big-integer arithmetic; `(1u64 << lz) + 1` is a `u64` operation, which
cannot overflow since `lz ≤ 63` for a nonzero `p`. (For `p = 0` the Rust shift by 64 overflows; `Modulus::new` never
calls it with `p < 2`.) -/
def supportsOpt (p : Nat) : Bool :=
  if lz64 p < 1 then false
  else
    let middle := 1 <<< (3 * lz64 p)
    let leftSide := (middle + 1) <<< 64
    let middle := middle * ((1 <<< lz64 p) + 1)
    let middle := middle * p
    decide (leftSide < middle)

/-- `is_prime`, `crates/fhe-util/src/lib.rs` lines 16-18.  Delegates to `num-bigint-dig`'s Baillie-PSW test, documented as
exact for `u64`; modelled as primality (trusted). -/
def isPrime (p : Nat) : Bool := decide p.Prime

/-- `const_time_cond_select`, lines 24-28: `mask = -(cond as i64) as u64`. -/
def condSelect (onTrue onFalse : Nat) (cond : Bool) : Nat :=
  let mask := if cond then 2 ^ 64 - 1 else 0
  let diff := onTrue ^^^ onFalse
  (diff &&& mask) ^^^ onFalse

namespace Modulus

/-- `Modulus::new`, lines 83-99.  The outer `Option` is the panic layer (`to_u128().unwrap()`). -/
def new (cfg : Bool) (p : Nat) : Panics (Except ZqError Modulus) :=
  if p < 2 ∨ p >>> 62 ≠ 0 then some (.error (.invalidModulus p))
  else do
    let barrett := (1 <<< 128) / p
    check (barrett < 2 ^ 128)
    return .ok {
      p := p
      barrettHi := asU64 (barrett >>> 64)
      barrettLo := asU64 barrett
      leadingZeros := lz64 p
      supportsOpt := Fhe.supportsOpt p
      vtCfg := cfg }

/-- `reduce1`, lines 659-668. -/
def reduce1 (x p : Nat) : Panics Nat := do
  check (p >>> 63 = 0)
  let p2 ← mul64 2 p
  check (x < p2)
  let r := condSelect x (wsub64 x p) (decide (x < p))
  check (r = x % p)
  return r

/-- `reduce1_vt`, lines 676-688 (both `cfg` variants). -/
def reduce1Vt (cfg : Bool) (x p : Nat) : Panics Nat :=
  if cfg then do
    check (p >>> 63 = 0)
    let p2 ← mul64 2 p
    check (x < p2)
    if x ≥ p then subU x p else return x
  else reduce1 x p

/-- `lazy_reduce_u128`, lines 693-707. -/
def lazyReduceU128 (m : Modulus) (a : Nat) : Panics Nat := do
  let aLo := asU64 a
  let aHi := asU64 (a >>> 64)
  let pLoLo := (← mul128 aLo m.barrettLo) >>> 64
  let pHiLo ← mul128 aHi m.barrettLo
  let pLoHi ← mul128 aLo m.barrettHi
  let s ← add128 pLoHi pHiLo
  let s ← add128 s pLoLo
  let hh ← mul128 aHi m.barrettHi
  let q ← add128 (s >>> 64) hh
  let r := asU64 (← subU a (← mul128 q m.p))
  check (r < 2 * m.p)
  check (r % m.p = asU64 (a % m.p))
  return r

/-- `lazy_reduce`, lines 712-723. -/
def lazyReduce (m : Modulus) (a : Nat) : Panics Nat := do
  let pLoLo := (← mul128 a m.barrettLo) >>> 64
  let pLoHi ← mul128 a m.barrettHi
  let q := (← add128 pLoHi pLoLo) >>> 64
  let r := asU64 (← subU a (← mul128 q m.p))
  check (r < 2 * m.p)
  check (r % m.p = a % m.p)
  return r

/-- `lazy_reduce_opt_u128`, lines 730-740.  `a << leading_zeros` drops the bits above 128. -/
def lazyReduceOptU128 (m : Modulus) (a : Nat) : Panics Nat := do
  check (a < m.p * m.p)
  let t ← mul128 m.barrettLo (a >>> 64)
  let s ← add128 t (shl128 a m.leadingZeros)
  let q := s >>> 64
  let r := asU64 (← subU a (← mul128 q m.p))
  check (r < 2 * m.p)
  check (r % m.p = asU64 (a % m.p))
  return r

/-- `lazy_reduce_opt`, lines 744-752.  The shift `a >> (64 - leading_zeros)` overflows (panics) when
`leading_zeros = 0`. -/
def lazyReduceOpt (m : Modulus) (a : Nat) : Panics Nat := do
  let k ← subU 64 m.leadingZeros
  check (k < 64)
  let q := a >>> k
  let r := asU64 (← subU a (← mul128 q m.p))
  check (r < 2 * m.p)
  check (r % m.p = a % m.p)
  return r

/-- `reduce_u128`, lines 594-596. -/
def reduceU128 (m : Modulus) (a : Nat) : Panics Nat := do reduce1 (← m.lazyReduceU128 a) m.p
/-- `reduce_u128_vt`, lines 604-606. -/
def reduceU128Vt (m : Modulus) (a : Nat) : Panics Nat := do reduce1Vt m.vtCfg (← m.lazyReduceU128 a) m.p
/-- `reduce`, lines 610-612. -/
def reduce (m : Modulus) (a : Nat) : Panics Nat := do reduce1 (← m.lazyReduce a) m.p
/-- `reduce_vt`, lines 620-622. -/
def reduceVt (m : Modulus) (a : Nat) : Panics Nat := do reduce1Vt m.vtCfg (← m.lazyReduce a) m.p
/-- `reduce_opt_u128`, lines 626-629. -/
def reduceOptU128 (m : Modulus) (a : Nat) : Panics Nat := do
  check (m.supportsOpt = true)
  reduce1 (← m.lazyReduceOptU128 a) m.p
/-- `reduce_opt_u128_vt`, lines 636-639. -/
def reduceOptU128Vt (m : Modulus) (a : Nat) : Panics Nat := do
  check (m.supportsOpt = true)
  reduce1Vt m.vtCfg (← m.lazyReduceOptU128 a) m.p
/-- `reduce_opt`, lines 643-645. -/
def reduceOpt (m : Modulus) (a : Nat) : Panics Nat := do reduce1 (← m.lazyReduceOpt a) m.p
/-- `reduce_opt_vt`, lines 653-655. -/
def reduceOptVt (m : Modulus) (a : Nat) : Panics Nat := do reduce1Vt m.vtCfg (← m.lazyReduceOpt a) m.p

/-- `add`, lines 103-106. -/
def add (m : Modulus) (a b : Nat) : Panics Nat := do
  check (a < m.p ∧ b < m.p)
  reduce1 (← add64 a b) m.p
/-- `add_vt`, lines 115-118. -/
def addVt (m : Modulus) (a b : Nat) : Panics Nat := do
  check (a < m.p ∧ b < m.p)
  reduce1Vt m.vtCfg (← add64 a b) m.p
/-- `sub`, lines 123-126: `a + p - b`, evaluated left to right. -/
def sub (m : Modulus) (a b : Nat) : Panics Nat := do
  check (a < m.p ∧ b < m.p)
  reduce1 (← subU (← add64 a m.p) b) m.p
/-- `mul`, lines 131-134. -/
def mul (m : Modulus) (a b : Nat) : Panics Nat := do
  check (a < m.p ∧ b < m.p)
  m.reduceU128 (← mul128 a b)
/-- `mul_vt`, lines 142-145. -/
def mulVt (m : Modulus) (a b : Nat) : Panics Nat := do
  check (a < m.p ∧ b < m.p)
  reduce1Vt m.vtCfg (← m.lazyReduceU128 (← mul128 a b)) m.p
/-- `mul_opt`, lines 151-156. -/
def mulOpt (m : Modulus) (a b : Nat) : Panics Nat := do
  check (m.supportsOpt = true)
  check (a < m.p ∧ b < m.p)
  m.reduceOptU128 (← mul128 a b)
/-- `mul_opt_vt`, lines 164-169. -/
def mulOptVt (m : Modulus) (a b : Nat) : Panics Nat := do
  check (m.supportsOpt = true)
  check (a < m.p ∧ b < m.p)
  m.reduceOptU128Vt (← mul128 a b)
/-- `neg`, lines 175-178. -/
def neg (m : Modulus) (a : Nat) : Panics Nat := do
  check (a < m.p)
  reduce1 (← subU m.p a) m.p
/-- `neg_vt`, lines 186-189. -/
def negVt (m : Modulus) (a : Nat) : Panics Nat := do
  check (a < m.p)
  reduce1Vt m.vtCfg (← subU m.p a) m.p

/-- `shoup`, lines 195-199. -/
def shoup (m : Modulus) (a : Nat) : Panics Nat := do
  check (a < m.p)
  return asU64 (shl128 a 64 / m.p)

/-- `lazy_mul_shoup`, lines 224-234. -/
def lazyMulShoup (m : Modulus) (a b bShoup : Nat) : Panics Nat := do
  check (b < m.p)
  check (some bShoup = m.shoup b)
  let q := (← mul128 a bShoup) >>> 64
  let ab ← mul128 a b
  let r := asU64 (← subU ab (← mul128 q m.p))
  let p2 ← mul64 2 m.p
  check (r < p2)
  return r
/-- `mul_shoup`, lines 205-207. -/
def mulShoup (m : Modulus) (a b bShoup : Nat) : Panics Nat := do
  reduce1 (← m.lazyMulShoup a b bShoup) m.p
/-- `mul_shoup_vt`, lines 215-217. -/
def mulShoupVt (m : Modulus) (a b bShoup : Nat) : Panics Nat := do
  reduce1Vt m.vtCfg (← m.lazyMulShoup a b bShoup) m.p

/-- `izip!(a.iter_mut(), b.iter()).for_each(|(ai, bi)| *ai = f(*ai, *bi))`: entries of `a` beyond the length of `b` are left untouched.  For example
`/repo/crates/fhe-math/src/zq/mod.rs` lines 243, 289, 337 and 341. -/
def zipAssign (f : Nat → Nat → Panics Nat) : List Nat → List Nat → Panics (List Nat)
  | a :: as, b :: bs => do
    let c ← f a b
    let cs ← zipAssign f as bs
    return c :: cs
  | as, _ => some as

/-- The 16-wide chunked loop shared by `add_vec_vt` and `sub_vec_vt` (lines 261-281 and 307-327): complete chunks of 16
of both slices are zipped, then the two remainders are zipped. -/
def chunkAssign (f : Nat → Nat → Panics Nat) (a b : List Nat) : Panics (List Nat) :=
  if _h : 16 ≤ a.length ∧ 16 ≤ b.length then do
    let c ← zipAssign f (a.take 16) (b.take 16)
    let cs ← chunkAssign f (a.drop 16) (b.drop 16)
    return c ++ cs
  else zipAssign f a b
termination_by a.length
decreasing_by simp [List.length_drop]; omega

/-- `add_vec`, lines 240-245. -/
def addVec (m : Modulus) (a b : List Nat) : Panics (List Nat) := do
  check (a.length = b.length)
  zipAssign m.add a b
/-- `add_vec_vt`, lines 254-282.  The individual bounds `a < p` are not asserted here. When the lengths agree (asserted)
the chunking of both slices coincides. -/
def addVecVt (m : Modulus) (a b : List Nat) : Panics (List Nat) := do
  check (a.length = b.length)
  chunkAssign (fun x y => do reduce1Vt m.vtCfg (← add64 x y) m.p) a b
/-- `sub_vec`, lines 286-291. -/
def subVec (m : Modulus) (a b : List Nat) : Panics (List Nat) := do
  check (a.length = b.length)
  zipAssign m.sub a b
/-- `sub_vec_vt`, lines 300-328: `p + a - b`. -/
def subVecVt (m : Modulus) (a b : List Nat) : Panics (List Nat) := do
  check (a.length = b.length)
  chunkAssign (fun x y => do reduce1Vt m.vtCfg (← subU (← add64 m.p x) y) m.p) a b
/-- `mul_vec`, lines 332-344. -/
def mulVec (m : Modulus) (a b : List Nat) : Panics (List Nat) := do
  check (a.length = b.length)
  if m.supportsOpt then zipAssign m.mulOpt a b else zipAssign m.mul a b
/-- `mul_vec_vt`, lines 378-392. -/
def mulVecVt (m : Modulus) (a b : List Nat) : Panics (List Nat) := do
  check (a.length = b.length)
  if m.supportsOpt then zipAssign m.mulOptVt a b else zipAssign m.mulVt a b
/-- `scalar_mul_vec`, lines 349-355. -/
def scalarMulVec (m : Modulus) (a : List Nat) (b : Nat) : Panics (List Nat) := do
  let bShoup ← m.shoup b
  a.mapM (fun ai => m.mulShoup ai b bShoup)
/-- `scalar_mul_vec_vt`, lines 363-369. -/
def scalarMulVecVt (m : Modulus) (a : List Nat) (b : Nat) : Panics (List Nat) := do
  let bShoup ← m.shoup b
  a.mapM (fun ai => m.mulShoupVt ai b bShoup)
/-- `shoup_vec`, lines 398-401. -/
def shoupVec (m : Modulus) (a : List Nat) : Panics (List Nat) := a.mapM m.shoup

/-- Three-way `izip!` used by the Shoup vector products.  `/repo/crates/fhe-math/src/zq/mod.rs` lines 413 and 431. -/
def zipAssign3 (f : Nat → Nat → Nat → Panics Nat) : List Nat → List Nat → List Nat → Panics (List Nat)
  | a :: as, b :: bs, c :: cs => do
    let d ← f a b c
    let ds ← zipAssign3 f as bs cs
    return d :: ds
  | as, _, _ => some as

/-- `mul_shoup_vec`, lines 407-416. -/
def mulShoupVec (m : Modulus) (a b bShoup : List Nat) : Panics (List Nat) := do
  check (a.length = b.length)
  check (a.length = bShoup.length)
  check (some bShoup = m.shoupVec b)
  zipAssign3 m.mulShoup a b bShoup
/-- `mul_shoup_vec_vt`, lines 425-435. -/
def mulShoupVecVt (m : Modulus) (a b bShoup : List Nat) : Panics (List Nat) := do
  check (a.length = b.length)
  check (a.length = bShoup.length)
  check (some bShoup = m.shoupVec b)
  zipAssign3 m.mulShoupVt a b bShoup
/-- `reduce_vec`, lines 438-441 (and `reduce_vec_new`, lines 515-518). -/
def reduceVec (m : Modulus) (a : List Nat) : Panics (List Nat) := a.mapM m.reduce
/-- `reduce_vec_vt`, lines 471-476 (and `reduce_vec_new_vt`, lines 526-529). -/
def reduceVecVt (m : Modulus) (a : List Nat) : Panics (List Nat) := a.mapM m.reduceVt
/-- `neg_vec`, lines 534-537. -/
def negVec (m : Modulus) (a : List Nat) : Panics (List Nat) := a.mapM m.neg
/-- `neg_vec_vt`, lines 545-550. -/
def negVecVt (m : Modulus) (a : List Nat) : Panics (List Nat) := a.mapM m.negVt
/-- `lazy_reduce_vec`, lines 756-762. -/
def lazyReduceVec (m : Modulus) (a : List Nat) : Panics (List Nat) :=
  if m.supportsOpt then a.mapM m.lazyReduceOpt else a.mapM m.lazyReduce

/-- Two's complement reading of a `u64` (`x as i64`).  `/repo/crates/fhe-math/src/zq/mod.rs` lines 453 and 456. -/
def asI64 (x : Nat) : Int := if x < 2 ^ 63 then x else (x : Int) - 2 ^ 64
/-- Two's complement encoding of an `i64` (`x as u64`).  `/repo/crates/fhe-math/src/zq/mod.rs` lines 25 and 453. -/
def ofI64 (x : Int) : Nat := (x % 2 ^ 64).toNat

/-- `center`, lines 448-457.  `(a as i64).wrapping_sub(p as i64) as u64` is a wrapping subtraction of bit patterns. -/
def center (m : Modulus) (a : Nat) : Panics Int := do
  check (a < m.p)
  let threshold := m.p >>> 1
  let cond := decide (a ≥ threshold)
  let onTrue := ofI64 (asI64 a - asI64 m.p)
  let onFalse := a
  return asI64 (condSelect onTrue onFalse cond)
/-- `center_vec`, lines 461-464. -/
def centerVec (m : Modulus) (a : List Nat) : Panics (List Int) := a.mapM m.center

/-- The operand `((p as i128) << 64) + (a as i128)) as u128` of `reduce_i64`, line 480: an `i128` addition (overflow
checked), then a cast of a (checked non-negative by the cast's semantics: the value modulo `2^128`). -/
def i64Operand (m : Modulus) (a : Int) : Panics Nat := do
  let s : Int := (m.p : Int) * 2 ^ 64 + a
  check (-(2 ^ 127 : Int) ≤ s ∧ s < 2 ^ 127)
  return (s % 2 ^ 128).toNat
/-- `reduce_i64`, lines 479-481. -/
def reduceI64 (m : Modulus) (a : Int) : Panics Nat := do m.reduceU128 (← m.i64Operand a)
/-- `reduce_i64_vt`, lines 488-490. -/
def reduceI64Vt (m : Modulus) (a : Int) : Panics Nat := do m.reduceU128Vt (← m.i64Operand a)
/-- `reduce_vec_i64`, lines 494-497. -/
def reduceVecI64 (m : Modulus) (a : List Int) : Panics (List Nat) := a.mapM m.reduceI64
/-- `reduce_vec_i64_vt`, lines 505-511. -/
def reduceVecI64Vt (m : Modulus) (a : List Int) : Panics (List Nat) := a.mapM m.reduceI64Vt

/-- The `while i >= 0` loop of `pow`, lines 566-572; the argument `k` is `i + 1`, so `i` runs from `k - 1` down to 0. -/
def powLoop (m : Modulus) (a n : Nat) : Nat → Nat → Panics Nat
  | 0, r => some r
  | i + 1, r => do
    let r ← m.mul r r
    let r ← if (n >>> i) &&& 1 = 1 then m.mul r a else some r
    powLoop m a n i r

/-- `pow`, lines 556-575.  The loop starts at bit `62 - n.leading_zeros()`. -/
def pow (m : Modulus) (a n : Nat) : Panics Nat := do
  check (a < m.p ∧ n < m.p)
  if n = 0 then return 1
  else if n = 1 then return a
  else do
    let i ← subU 62 (lz64 n)
    powLoop m a n (i + 1) a

/-- `inv`, lines 582-590.  The outer `Option` is the panic layer. -/
def inv (m : Modulus) (a : Nat) : Panics (Option Nat) := do
  if ¬ isPrime m.p ∨ a = 0 then return none
  else
    let r ← m.pow a (← subU m.p 2)
    check (m.mul a r = some 1)
    return some r

/-- `p_nbits = 64 - (p - 1).leading_zeros()`, lines 775, 784, 791. -/
def nbits (m : Modulus) : Nat := 64 - lz64 (m.p - 1)

/-- `serialization_length`, lines 773-777. -/
def serializationLength (m : Modulus) (size : Nat) : Panics Nat := do
  check (size % 8 = 0)
  return m.nbits * size / 8

end Modulus

/-- Well-formed moduli: exactly those produced by `Modulus::new` (proved in `Verif.Props.Zq`).  `Modulus::new`,
`/repo/crates/fhe-math/src/zq/mod.rs` lines 83-99. -/
structure Modulus.WF (m : Modulus) : Prop where
  two_le : 2 ≤ m.p
  lt : m.p < 2 ^ 62
  hi : m.barrettHi = 2 ^ 128 / m.p / 2 ^ 64
  lo : m.barrettLo = 2 ^ 128 / m.p % 2 ^ 64
  lz : m.leadingZeros = lz64 m.p
  opt : m.supportsOpt = Fhe.supportsOpt m.p

end Fhe
