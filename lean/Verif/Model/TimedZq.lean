import Verif.Model.Timed
import Verif.Model.Ntt
import Verif.Model.Util
/-!
# Traces of `fhe-math/src/zq`, `fhe-math/src/ntt` and of the sampler of `fhe-util`

Release builds, see `Verif/Model/Timed.lean`.  Citations are to `/repo/crates/fhe-math/src/zq/mod.rs` unless stated otherwise.
-/
namespace Fhe.Release

/-! ## Scalars -/

/-- `reduce1`, lines 659-668.  `x < p` is turned into a mask by `const_time_cond_select` (lines 24-28), without a jump. -/
def reduce1 (x p : Nat) : Timed Nat := return condSelect x (wsub64 x p) (decide (x < p))

/-- `reduce1_vt`, lines 676-688; `cfg` selects the body. -/
def reduce1Vt (cfg : Bool) (x p : Nat) : Timed Nat :=
  if cfg then do
    if ← branchOn (x ≥ p) then return wsub 64 x p else return x
  else reduce1 x p

/-- `lazy_reduce_u128`, lines 693-707. -/
def lazyReduceU128 (m : Modulus) (a : Nat) : Timed Nat :=
  let aLo := asU64 a
  let aHi := asU64 (a >>> 64)
  let pLoLo := wmul128 aLo m.barrettLo >>> 64
  let pHiLo := wmul128 aHi m.barrettLo
  let pLoHi := wmul128 aLo m.barrettHi
  let q := wadd128 (wadd128 (wadd128 pLoHi pHiLo) pLoLo >>> 64) (wmul128 aHi m.barrettHi)
  return asU64 (wsub 128 a (wmul128 q m.p))

/-- `lazy_reduce`, lines 712-723. -/
def lazyReduce (m : Modulus) (a : Nat) : Timed Nat :=
  let pLoLo := wmul128 a m.barrettLo >>> 64
  let pLoHi := wmul128 a m.barrettHi
  let q := wadd128 pLoHi pLoLo >>> 64
  return asU64 (wsub 128 a (wmul128 q m.p))

/-- `lazy_reduce_opt_u128`, lines 730-740. -/
def lazyReduceOptU128 (m : Modulus) (a : Nat) : Timed Nat :=
  let q := wadd128 (wmul128 m.barrettLo (a >>> 64)) (shl128 a m.leadingZeros) >>> 64
  return asU64 (wsub 128 a (wmul128 q m.p))

/-- `lazy_reduce_opt`, lines 744-752.  A release build takes the amount of a shift modulo the width. -/
def lazyReduceOpt (m : Modulus) (a : Nat) : Timed Nat :=
  let q := a >>> (wsub 32 64 m.leadingZeros % 64)
  return asU64 (wsub 128 a (wmul128 q m.p))

/-- `reduce_u128`, lines 594-596. -/
def reduceU128 (m : Modulus) (a : Nat) : Timed Nat := do reduce1 (← lazyReduceU128 m a) m.p
/-- `reduce_u128_vt`, lines 604-606. -/
def reduceU128Vt (m : Modulus) (a : Nat) : Timed Nat := do reduce1Vt m.vtCfg (← lazyReduceU128 m a) m.p
/-- `reduce`, lines 610-612. -/
def reduce (m : Modulus) (a : Nat) : Timed Nat := do reduce1 (← lazyReduce m a) m.p
/-- `reduce_vt`, lines 620-622. -/
def reduceVt (m : Modulus) (a : Nat) : Timed Nat := do reduce1Vt m.vtCfg (← lazyReduce m a) m.p
/-- `reduce_opt_u128`, lines 626-629. -/
def reduceOptU128 (m : Modulus) (a : Nat) : Timed Nat := do reduce1 (← lazyReduceOptU128 m a) m.p
/-- `reduce_opt_u128_vt`, lines 636-639. -/
def reduceOptU128Vt (m : Modulus) (a : Nat) : Timed Nat := do reduce1Vt m.vtCfg (← lazyReduceOptU128 m a) m.p
/-- `reduce_opt`, lines 643-645. -/
def reduceOpt (m : Modulus) (a : Nat) : Timed Nat := do reduce1 (← lazyReduceOpt m a) m.p
/-- `reduce_opt_vt`, lines 653-655. -/
def reduceOptVt (m : Modulus) (a : Nat) : Timed Nat := do reduce1Vt m.vtCfg (← lazyReduceOpt m a) m.p

/-- `add`, lines 103-106. -/
def add (m : Modulus) (a b : Nat) : Timed Nat := reduce1 (wadd64 a b) m.p
/-- `add_vt`, lines 115-118. -/
def addVt (m : Modulus) (a b : Nat) : Timed Nat := reduce1Vt m.vtCfg (wadd64 a b) m.p
/-- `sub`, lines 123-126. -/
def sub (m : Modulus) (a b : Nat) : Timed Nat := reduce1 (wsub 64 (wadd64 a m.p) b) m.p
/-- `mul`, lines 131-134. -/
def mul (m : Modulus) (a b : Nat) : Timed Nat := reduceU128 m (wmul128 a b)
/-- `mul_vt`, lines 142-145. -/
def mulVt (m : Modulus) (a b : Nat) : Timed Nat := do reduce1Vt m.vtCfg (← lazyReduceU128 m (wmul128 a b)) m.p
/-- `mul_opt`, lines 151-156. -/
def mulOpt (m : Modulus) (a b : Nat) : Timed Nat := reduceOptU128 m (wmul128 a b)
/-- `mul_opt_vt`, lines 164-169. -/
def mulOptVt (m : Modulus) (a b : Nat) : Timed Nat := reduceOptU128Vt m (wmul128 a b)
/-- `neg`, lines 175-178. -/
def neg (m : Modulus) (a : Nat) : Timed Nat := reduce1 (wsub 64 m.p a) m.p
/-- `neg_vt`, lines 186-189. -/
def negVt (m : Modulus) (a : Nat) : Timed Nat := reduce1Vt m.vtCfg (wsub 64 m.p a) m.p

/-- `shoup`, lines 195-199: a division of a `u128`. -/
def shoup (m : Modulus) (a : Nat) : Timed Nat := do return asU64 (← divide (shl128 a 64) m.p)

/-- `lazy_mul_shoup`, lines 224-234. -/
def lazyMulShoup (m : Modulus) (a b bShoup : Nat) : Timed Nat :=
  let q := wmul128 a bShoup >>> 64
  return asU64 (wsub 128 (wmul128 a b) (wmul128 q m.p))
/-- `mul_shoup`, lines 205-207. -/
def mulShoup (m : Modulus) (a b bShoup : Nat) : Timed Nat := do reduce1 (← lazyMulShoup m a b bShoup) m.p
/-- `mul_shoup_vt`, lines 215-217. -/
def mulShoupVt (m : Modulus) (a b bShoup : Nat) : Timed Nat := do reduce1Vt m.vtCfg (← lazyMulShoup m a b bShoup) m.p

/-- `center`, lines 448-457. -/
def center (m : Modulus) (a : Nat) : Timed Int :=
  let threshold := m.p >>> 1
  let onTrue := Modulus.ofI64 (Modulus.asI64 a - Modulus.asI64 m.p)
  return Modulus.asI64 (condSelect onTrue a (decide (a ≥ threshold)))

/-- The operand of `reduce_i64`, line 480. -/
def i64Operand (m : Modulus) (a : Int) : Nat := (((m.p : Int) * 2 ^ 64 + a) % 2 ^ 128).toNat
/-- `reduce_i64`, lines 479-481. -/
def reduceI64 (m : Modulus) (a : Int) : Timed Nat := reduceU128 m (i64Operand m a)
/-- `reduce_i64_vt`, lines 488-490. -/
def reduceI64Vt (m : Modulus) (a : Int) : Timed Nat := reduceU128Vt m (i64Operand m a)

/-! ## Vectors -/

/-- The chunked loop of `add_vec_vt` and `sub_vec_vt`, lines 261-281 and 307-327. -/
def chunkLoop (f : Nat → Nat → Timed Nat) (a b : List Nat) : Timed (List Nat) :=
  if _h : 16 ≤ a.length ∧ 16 ≤ b.length then do
    let _ ← branchOn True
    let c ← zipLoop f (a.take 16) (b.take 16)
    let cs ← chunkLoop f (a.drop 16) (b.drop 16)
    return c ++ cs
  else do
    let _ ← branchOn False
    zipLoop f a b
termination_by a.length
decreasing_by simp [List.length_drop]; omega

/-- `add_vec`, lines 240-245. -/
def addVec (m : Modulus) (a b : List Nat) : Timed (List Nat) := zipLoop (add m) a b
/-- `add_vec_vt`, lines 254-282. -/
def addVecVt (m : Modulus) (a b : List Nat) : Timed (List Nat) := chunkLoop (fun x y => reduce1Vt m.vtCfg (wadd64 x y) m.p) a b
/-- `sub_vec`, lines 286-291. -/
def subVec (m : Modulus) (a b : List Nat) : Timed (List Nat) := zipLoop (sub m) a b
/-- `sub_vec_vt`, lines 300-328. -/
def subVecVt (m : Modulus) (a b : List Nat) : Timed (List Nat) :=
  chunkLoop (fun x y => reduce1Vt m.vtCfg (wsub 64 (wadd64 m.p x) y) m.p) a b
/-- `mul_vec`, lines 332-344. -/
def mulVec (m : Modulus) (a b : List Nat) : Timed (List Nat) := do
  if ← branchOn (m.supportsOpt = true) then zipLoop (mulOpt m) a b else zipLoop (mul m) a b
/-- `mul_vec_vt`, lines 378-392. -/
def mulVecVt (m : Modulus) (a b : List Nat) : Timed (List Nat) := do
  if ← branchOn (m.supportsOpt = true) then zipLoop (mulOptVt m) a b else zipLoop (mulVt m) a b
/-- `scalar_mul_vec`, lines 349-355. -/
def scalarMulVec (m : Modulus) (a : List Nat) (b : Nat) : Timed (List Nat) := do
  let bShoup ← shoup m b
  mapLoop (fun ai => mulShoup m ai b bShoup) a
/-- `scalar_mul_vec_vt`, lines 363-369. -/
def scalarMulVecVt (m : Modulus) (a : List Nat) (b : Nat) : Timed (List Nat) := do
  let bShoup ← shoup m b
  mapLoop (fun ai => mulShoupVt m ai b bShoup) a
/-- `shoup_vec`, lines 398-401. -/
def shoupVec (m : Modulus) (a : List Nat) : Timed (List Nat) := mapLoop (shoup m) a
/-- `mul_shoup_vec`, lines 407-416. -/
def mulShoupVec (m : Modulus) (a b bShoup : List Nat) : Timed (List Nat) :=
  zipLoop (fun ai (x : Nat × Nat) => mulShoup m ai x.1 x.2) a (b.zip bShoup)
/-- `mul_shoup_vec_vt`, lines 425-435. -/
def mulShoupVecVt (m : Modulus) (a b bShoup : List Nat) : Timed (List Nat) :=
  zipLoop (fun ai (x : Nat × Nat) => mulShoupVt m ai x.1 x.2) a (b.zip bShoup)
/-- `reduce_vec`, lines 438-441 (and `reduce_vec_new`, lines 515-518). -/
def reduceVec (m : Modulus) (a : List Nat) : Timed (List Nat) := mapLoop (reduce m) a
/-- `reduce_vec_vt`, lines 471-476 (and `reduce_vec_new_vt`, lines 526-529). -/
def reduceVecVt (m : Modulus) (a : List Nat) : Timed (List Nat) := mapLoop (reduceVt m) a
/-- `center_vec`, lines 461-464. -/
def centerVec (m : Modulus) (a : List Nat) : Timed (List Int) := mapLoop (center m) a
/-- `reduce_vec_i64`, lines 494-497. -/
def reduceVecI64 (m : Modulus) (a : List Int) : Timed (List Nat) := mapLoop (reduceI64 m) a
/-- `reduce_vec_i64_vt`, lines 505-511. -/
def reduceVecI64Vt (m : Modulus) (a : List Int) : Timed (List Nat) := mapLoop (reduceI64Vt m) a
/-- `neg_vec`, lines 534-537. -/
def negVec (m : Modulus) (a : List Nat) : Timed (List Nat) := mapLoop (neg m) a
/-- `neg_vec_vt`, lines 545-550. -/
def negVecVt (m : Modulus) (a : List Nat) : Timed (List Nat) := mapLoop (negVt m) a
/-- `lazy_reduce_vec`, lines 756-762. -/
def lazyReduceVec (m : Modulus) (a : List Nat) : Timed (List Nat) := do
  if ← branchOn (m.supportsOpt = true) then mapLoop (lazyReduceOpt m) a else mapLoop (lazyReduce m) a

/-- The loop of `pow`, lines 566-572; the argument is `i + 1`. -/
def powLoop (m : Modulus) (a n : Nat) : Nat → Nat → Timed Nat
  | 0, r => do
    let _ ← branchOn False
    return r
  | i + 1, r => do
    let _ ← branchOn True
    let r ← mul m r r
    let r ← if ← branchOn ((n >>> i) &&& 1 = 1) then mul m r a else pure r
    powLoop m a n i r

/-- `pow`, lines 556-575: documented as variable time. -/
def pow (m : Modulus) (a n : Nat) : Timed Nat := do
  if ← branchOn (n = 0) then return 1
  else if ← branchOn (n = 1) then return a
  else powLoop m a n (wsub 32 62 (lz64 n) + 1) a

/-! ## Transforms: `/repo/crates/fhe-math/src/ntt/native.rs` -/

/-- `reduce3`, `native.rs` lines 238-243. -/
def reduce3 (op : NttOperator) (a : Nat) : Timed Nat := do reduce1 (← reduce1 a op.pTwice) op.p.p
/-- `reduce3_vt`, `native.rs` lines 248-253. -/
def reduce3Vt (op : NttOperator) (a : Nat) : Timed Nat := do reduce1Vt op.p.vtCfg (← reduce1Vt op.p.vtCfg a op.pTwice) op.p.p

/-- `butterfly` and `butterfly_vt`, `native.rs` lines 256-285: they differ in the reduction `red` only. -/
def butterflyWith (op : NttOperator) (red : Nat → Nat → Timed Nat) (x y w wShoup : Nat) : Timed (Nat × Nat) := do
  let x ← red x op.pTwice
  let t ← lazyMulShoup op.p y w wShoup
  return (wadd64 x t, wsub 64 (wadd64 x op.pTwice) t)

/-- `inv_butterfly` and `inv_butterfly_vt`, `native.rs` lines 288-315. -/
def invButterflyWith (op : NttOperator) (red : Nat → Nat → Timed Nat) (x y z zShoup : Nat) : Timed (Nat × Nat) := do
  let t := x
  let x ← red (wadd64 y t) op.pTwice
  let y ← lazyMulShoup op.p (wsub 64 (wadd64 op.pTwice t) y) z zShoup
  return (x, y)

/-- Butterfly number `k` of `forward`, `native.rs` lines 84-98; the arm is selected by `l == 1`. -/
def fwdOp (op : NttOperator) (last : Bool) (k x y : Nat) : Timed (Nat × Nat) := do
  let omega ← fetch op.omegas k
  let omegaShoup ← fetch op.omegasShoup k
  let (x, y) ← butterflyWith op reduce1 x y omega omegaShoup
  if ← branchOn (last = true) then return (← reduce3 op x, ← reduce3 op y) else return (x, y)
/-- Butterfly number `k` of `forward_vt_lazy`, `native.rs` lines 150-170. -/
def fwdVtOp (op : NttOperator) (k x y : Nat) : Timed (Nat × Nat) := do
  let omega ← fetch op.omegas k
  let omegaShoup ← fetch op.omegasShoup k
  butterflyWith op (reduce1Vt op.p.vtCfg) x y omega omegaShoup
/-- Butterfly number `k` of `backward`, `native.rs` lines 114-125. -/
def bwdOp (op : NttOperator) (k x y : Nat) : Timed (Nat × Nat) := do
  let zetaInv ← fetch op.zetasInv k
  let zetaInvShoup ← fetch op.zetasInvShoup k
  invButterflyWith op reduce1 x y zetaInv zetaInvShoup
/-- Butterfly number `k` of `backward_vt`, `native.rs` lines 205-224. -/
def bwdVtOp (op : NttOperator) (k x y : Nat) : Timed (Nat × Nat) := do
  let zetaInv ← fetch op.zetasInv k
  let zetaInvShoup ← fetch op.zetasInvShoup k
  invButterflyWith op (reduce1Vt op.p.vtCfg) x y zetaInv zetaInvShoup

/-- One pass over the chunks, `native.rs` lines 83-99 and 113-126. -/
def chunkPass (f : Nat → Nat → Nat → Timed (Nat × Nat)) (l k : Nat) (a : List Nat) : Timed (List Nat × Nat) :=
  if _h : 0 < l ∧ 2 * l ≤ a.length then do
    let _ ← branchOn True
    let chunk := a.take (2 * l)
    let prs ← mapLoop (fun xy : Nat × Nat => f k xy.1 xy.2) ((chunk.take l).zip (chunk.drop l))
    let (rest, k') ← chunkPass f l (k + 1) (a.drop (2 * l))
    return (prs.map Prod.fst ++ prs.map Prod.snd ++ rest, k')
  else do
    let _ ← branchOn False
    return (a, k)
termination_by a.length
decreasing_by simp only [List.length_drop]; omega

/-- The loop of `forward`, `native.rs` lines 82-101. -/
def forwardLoop (op : NttOperator) (l k : Nat) (a : List Nat) : Timed (List Nat) :=
  if _h : l > 0 then do
    let _ ← branchOn True
    let (a, k) ← chunkPass (fwdOp op (decide (l = 1))) l k a
    forwardLoop op (l >>> 1) k a
  else do
    let _ ← branchOn False
    return a
termination_by l
decreasing_by rw [Nat.shiftRight_eq_div_pow]; omega

/-- `forward`, `native.rs` lines 77-102. -/
def forward (op : NttOperator) (a : List Nat) : Timed (List Nat) := forwardLoop op (op.size >>> 1) 1 a

/-- The loop of `backward`, `native.rs` lines 112-128. -/
def backwardLoop (op : NttOperator) (l k : Nat) (a : List Nat) : Timed (List Nat) :=
  if _h : 0 < l ∧ l < op.size then do
    let _ ← branchOn True
    let (a, k) ← chunkPass (bwdOp op) l k a
    backwardLoop op (l <<< 1) k a
  else do
    let _ ← branchOn False
    return a
termination_by op.size - l
decreasing_by rw [Nat.shiftLeft_eq]; omega

/-- `backward`, `native.rs` lines 106-132. -/
def backward (op : NttOperator) (a : List Nat) : Timed (List Nat) := do
  let a ← backwardLoop op 1 0 a
  mapLoop (fun ai => mulShoup op.p ai op.sizeInv op.sizeInvShoup) a

/-- The pair of entries of a butterfly, `native.rs` lines 159-160, 166-167, 213-214, 220-221: `get_disjoint_unchecked_mut` does not test the
indices; out of range is undefined behaviour, here a panic. -/
def pairUpdate (f : Nat → Nat → Nat → Timed (Nat × Nat)) (l k j : Nat) (a : List Nat) : Timed (List Nat) := do
  let x ← fetch a j
  let y ← fetch a (j + l)
  let (x, y) ← f k x y
  return (a.set j x).set (j + l) y

/-- The inner loop, `native.rs` lines 163-168 and 217-222. -/
def idxInner (f : Nat → Nat → Nat → Timed (Nat × Nat)) (l k : Nat) : (left j : Nat) → List Nat → Timed (List Nat)
  | 0, _, a => do
    let _ ← branchOn False
    return a
  | left + 1, j, a => do
    let _ ← branchOn True
    let a ← pairUpdate f l k j a
    idxInner f l k left (j + 1) a

/-- The middle loop, `native.rs` lines 149-171 and 204-225. -/
def idxPass (f : Nat → Nat → Nat → Timed (Nat × Nat)) (l : Nat) : (left i k : Nat) → List Nat → Timed (List Nat × Nat)
  | 0, _, k, a => do
    let _ ← branchOn False
    return (a, k)
  | left + 1, i, k, a => do
    let _ ← branchOn True
    let a ← idxInner f l k l (2 * i * l) a
    idxPass f l left (i + 1) (k + 1) a

/-- The outer loop of `forward_vt_lazy`, `native.rs` lines 148-174. -/
def forwardVtLoop (op : NttOperator) (l m k : Nat) (a : List Nat) : Timed (List Nat) :=
  if _h : l > 0 then do
    let _ ← branchOn True
    let (a, k) ← idxPass (fwdVtOp op) l m 0 k a
    forwardVtLoop op (l >>> 1) (m <<< 1) k a
  else do
    let _ ← branchOn False
    return a
termination_by l
decreasing_by rw [Nat.shiftRight_eq_div_pow]; omega

/-- `forward_vt_lazy`, `native.rs` lines 142-175. -/
def forwardVtLazy (op : NttOperator) (a : List Nat) : Timed (List Nat) := forwardVtLoop op (op.size >>> 1) 1 1 a
/-- `forward_vt`, `native.rs` lines 183-189. -/
def forwardVt (op : NttOperator) (a : List Nat) : Timed (List Nat) := do mapLoop (reduce3Vt op) (← forwardVtLazy op a)

/-- The outer loop of `backward_vt`, `native.rs` lines 203-228. -/
def backwardVtLoop (op : NttOperator) (l m k : Nat) (a : List Nat) : Timed (List Nat) :=
  if _h : m > 0 then do
    let _ ← branchOn True
    let (a, k) ← idxPass (bwdVtOp op) l m 0 k a
    backwardVtLoop op (l <<< 1) (m >>> 1) k a
  else do
    let _ ← branchOn False
    return a
termination_by m
decreasing_by rw [Nat.shiftRight_eq_div_pow]; omega

/-- `backward_vt`, `native.rs` lines 197-233. -/
def backwardVt (op : NttOperator) (a : List Nat) : Timed (List Nat) := do
  let a ← backwardVtLoop op 1 (op.size >>> 1) 0 a
  mapLoop (fun ai => mulShoup op.p ai op.sizeInv op.sizeInvShoup) a

/-! ## The sampler: `/repo/crates/fhe-util/src/lib.rs` -/

/-- The loop of `/repo/crates/fhe-util/src/lib.rs` lines 46-55: the number of bits in the pool is tested, not the bits. -/
def cbdPoolLoop (v : Nat) (rng : Nat → Nat) : Nat → (pool nb pos : Nat) → Timed (List Int × Nat)
  | 0, _, _, pos => do
    let _ ← branchOn False
    return ([], pos)
  | n + 1, pool, nb, pos => do
    let _ ← branchOn True
    let (pool, nb, pos) ← if ← branchOn (nb < 4 * v) then pure (pool ||| shl128 (rng pos) nb, nb + 64, pos + 1)
      else pure (pool, nb, pos)
    let s := cbdSample v pool
    let (rest, pos) ← cbdPoolLoop v rng n (pool >>> (4 * v)) (wsub 64 nb (4 * v)) pos
    return (s :: rest, pos)

/-- The loop of `/repo/crates/fhe-util/src/lib.rs` lines 59-62. -/
def cbdPairLoop (v : Nat) (rng : Nat → Nat) : Nat → (pos : Nat) → Timed (List Int × Nat)
  | 0, pos => do
    let _ ← branchOn False
    return ([], pos)
  | n + 1, pos => do
    let _ ← branchOn True
    let pool := rng pos ||| shl128 (rng (pos + 1)) 64
    let (rest, pos') ← cbdPairLoop v rng n (pos + 2)
    return (cbdSample v pool :: rest, pos')

/-- `sample_vec_cbd`, `/repo/crates/fhe-util/src/lib.rs` lines 22-66.  `count_ones` is one instruction; what the generator does to
produce its words is not traced. -/
def sampleVecCbd (size v : Nat) (rng : Nat → Nat) : Timed (Except Unit (List Int × Nat)) := do
  if ← branchOn (¬ (1 ≤ v ∧ v ≤ 32)) then return .error ()
  else if ← branchOn (4 * v ≤ 64) then return .ok (← cbdPoolLoop v rng size 0 0 0)
  else return .ok (← cbdPairLoop v rng size 0)

end Fhe.Release
