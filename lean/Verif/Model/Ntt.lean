import Verif.Model.Zq
/-!
# `fhe-math/src/ntt/native.rs`: number-theoretic transforms

Citations are to `/repo/crates/fhe-math/src/ntt/native.rs` unless stated otherwise.  The `tfhe-ntt` feature backend
(`ntt/tfhe.rs`) is in `Model/Tfhe.lean`.  Slices are lists; an out-of-range access (a panic, or undefined behaviour for
`get_unchecked`) is `none`.
-/
namespace Fhe

/-- `usize::reverse_bits` for a word of `w` bits: bit `b` moves to position `w - 1 - b`.  `/repo/crates/fhe-math/src/ntt/native.rs` line 53 and
`/repo/crates/fhe-math/src/rq/context.rs` line 62. -/
def revBits : (w i : Nat) → Nat
  | 0, _ => 0
  | w + 1, i => (i % 2) * 2 ^ w + revBits w (i / 2)

/-- `struct NttOperator`, lines 16-26. -/
structure NttOperator where
  p : Modulus
  pTwice : Nat
  size : Nat
  omegas : List Nat
  omegasShoup : List Nat
  zetasInv : List Nat
  zetasInvShoup : List Nat
  sizeInv : Nat
  sizeInvShoup : Nat
deriving DecidableEq, Repr

/-- `supports_ntt`, `ntt/mod.rs` lines 19-23.  `(n as u64) << 1` drops the top bit, and `% 0` panics. -/
def supportsNtt (p n : Nat) : Panics Bool := do
  check (n ≥ 8 ∧ n = 2 ^ n.log2)
  let d := (n <<< 1) % 2 ^ 64
  check (d ≠ 0)
  return decide (p % d = 1) && isPrime p

namespace NttOperator

/-- `is_primitive_root`, lines 341-348. -/
def isPrimitiveRoot (a n : Nat) (p : Modulus) : Panics Bool := do
  check (a < p.p)
  check ((← supportsNtt p.p (n >>> 1)) = true)
  if (← p.pow a n) = 1 then return decide ((← p.pow a (n / 2)) ≠ 1) else return false

/-- The `for _ in 0..100` loop of `primitive_root`, lines 326-332; `rng i` is the `i`-th value drawn from `0..p`. -/
def primitiveRootLoop (n : Nat) (p : Modulus) (lambda : Nat) (rng : Nat → Nat) : (left i : Nat) → Panics (Option Nat)
  | 0, _ => some none
  | left + 1, i => do
    let root ← p.pow (rng i) lambda
    if (← isPrimitiveRoot root (2 * n) p) then return some root
    else primitiveRootLoop n p lambda rng left (i + 1)

/-- `primitive_root`, lines 320-336.  `dbg` is the build mode: when no root is found after 100 trials a debug build
panics and a release build returns 0. -/
def primitiveRoot (dbg : Bool) (n : Nat) (p : Modulus) (rng : Nat → Nat) : Panics Nat := do
  check ((← supportsNtt p.p n) = true)
  let lambda := (p.p - 1) / (2 * n)
  match ← primitiveRootLoop n p lambda rng 100 0 with
  | some r => return r
  | none => do check (dbg = false); return 0

/-- `successors(Some(x), |n| Some(f(n))).take(k).collect()`.  `/repo/crates/fhe-math/src/ntt/native.rs` lines 44-49. -/
def successorsTake (f : Nat → Panics Nat) : (k x : Nat) → Panics (List Nat)
  | 0, _ => some []
  | k + 1, x => do
    let y ← f x
    let rest ← successorsTake f k y
    return x :: rest

/-- `NttOperator::new`, lines 35-73.  The outer `Option` is the panic layer. -/
def new (dbg : Bool) (rng : Nat → Nat) (p : Modulus) (size : Nat) : Panics (Option NttOperator) := do
  if (← supportsNtt p.p size) = false then return none
  else
    match ← p.inv size with
    | none => return none
    | some sizeInv => do
      let omega ← primitiveRoot dbg size p rng
      match ← p.inv omega with
      | none => return none
      | some omegaInv => do
        let powers ← successorsTake (fun n => p.mul n omega) size 1
        let powersInv ← successorsTake (fun n => p.mul n omegaInv) size omegaInv
        let omegas ← (List.range size).mapM fun i => powers[revBits 64 i >>> (lz64 size + 1)]?
        let zetasInv ← (List.range size).mapM fun i => powersInv[revBits 64 i >>> (lz64 size + 1)]?
        let omegasShoup ← p.shoupVec omegas
        let zetasInvShoup ← p.shoupVec zetasInv
        let pTwice ← mul64 p.p 2
        let sizeInvShoup ← p.shoup sizeInv
        return some { p, pTwice, size, omegas, omegasShoup, zetasInv, zetasInvShoup, sizeInv, sizeInvShoup }

/-- `reduce3`, lines 238-243. -/
def reduce3 (op : NttOperator) (a : Nat) : Panics Nat := do
  check (a < 4 * op.p.p)
  let y ← Modulus.reduce1 a op.pTwice
  Modulus.reduce1 y op.p.p

/-- `reduce3_vt`, lines 248-253. -/
def reduce3Vt (op : NttOperator) (a : Nat) : Panics Nat := do
  check (a < 4 * op.p.p)
  let y ← Modulus.reduce1Vt op.p.vtCfg a op.pTwice
  Modulus.reduce1Vt op.p.vtCfg y op.p.p

/-- `butterfly` (lines 256-269) and `butterfly_vt` (lines 272-285): they differ in the reduction `red` only. -/
def butterflyWith (op : NttOperator) (red : Nat → Nat → Panics Nat) (x y w wShoup : Nat) : Panics (Nat × Nat) := do
  check (x < 4 * op.p.p)
  check (y < 4 * op.p.p)
  check (w < op.p.p)
  check (op.p.shoup w = some wShoup)
  let x ← red x op.pTwice
  let t ← op.p.lazyMulShoup y w wShoup
  let y ← subU (← add64 x op.pTwice) t
  let x ← add64 x t
  check (x < 4 * op.p.p)
  check (y < 4 * op.p.p)
  return (x, y)

/-- `inv_butterfly` (lines 288-300) and `inv_butterfly_vt` (lines 303-315). -/
def invButterflyWith (op : NttOperator) (red : Nat → Nat → Panics Nat) (x y z zShoup : Nat) : Panics (Nat × Nat) := do
  check (x < op.pTwice)
  check (y < op.pTwice)
  check (z < op.p.p)
  check (op.p.shoup z = some zShoup)
  let t := x
  let x ← red (← add64 y t) op.pTwice
  let y ← op.p.lazyMulShoup (← subU (← add64 op.pTwice t) y) z zShoup
  check (x < op.pTwice)
  check (y < op.pTwice)
  return (x, y)

/-- Butterfly number `k` of the constant-time forward transform, lines 84-98; `last` is `l == 1`. -/
def fwdOp (op : NttOperator) (last : Bool) (k x y : Nat) : Panics (Nat × Nat) := do
  let omega ← op.omegas[k]?
  let omegaShoup ← op.omegasShoup[k]?
  let (x, y) ← op.butterflyWith Modulus.reduce1 x y omega omegaShoup
  if last then return (← op.reduce3 x, ← op.reduce3 y) else return (x, y)

/-- Butterfly number `k` of the variable-time lazy forward transform, lines 150-170. -/
def fwdVtOp (op : NttOperator) (k x y : Nat) : Panics (Nat × Nat) := do
  let omega ← op.omegas[k]?
  let omegaShoup ← op.omegasShoup[k]?
  op.butterflyWith (Modulus.reduce1Vt op.p.vtCfg) x y omega omegaShoup

/-- Butterfly number `k` of the constant-time backward transform, lines 114-125. -/
def bwdOp (op : NttOperator) (k x y : Nat) : Panics (Nat × Nat) := do
  let zetaInv ← op.zetasInv[k]?
  let zetaInvShoup ← op.zetasInvShoup[k]?
  op.invButterflyWith Modulus.reduce1 x y zetaInv zetaInvShoup

/-- Butterfly number `k` of the variable-time backward transform, lines 205-224. -/
def bwdVtOp (op : NttOperator) (k x y : Nat) : Panics (Nat × Nat) := do
  let zetaInv ← op.zetasInv[k]?
  let zetaInvShoup ← op.zetasInvShoup[k]?
  op.invButterflyWith (Modulus.reduce1Vt op.p.vtCfg) x y zetaInv zetaInvShoup

/-- One pass `for chunk in a.chunks_exact_mut(2 * l)`, lines 83-99 and 113-126: the chunk's left and right halves are
zipped.  (For `l == 1` the code accesses `left[0]`, `right[0]` directly: the halves have one element.)  A remainder
shorter than `2 l` is left untouched.  Returns the array and the next `k`. -/
def chunkPass (f : Nat → Nat → Nat → Panics (Nat × Nat)) (l k : Nat) (a : List Nat) : Panics (List Nat × Nat) :=
  if _h : 0 < l ∧ 2 * l ≤ a.length then do
    let chunk := a.take (2 * l)
    let prs ← ((chunk.take l).zip (chunk.drop l)).mapM fun xy => f k xy.1 xy.2
    let (rest, k') ← chunkPass f l (k + 1) (a.drop (2 * l))
    return (prs.map Prod.fst ++ prs.map Prod.snd ++ rest, k')
  else some (a, k)
termination_by a.length
decreasing_by simp only [List.length_drop]; omega

/-- `while l > 0 { .. ; l >>= 1 }` of `forward`, lines 82-101. -/
def forwardLoop (op : NttOperator) (l k : Nat) (a : List Nat) : Panics (List Nat) :=
  if _h : l > 0 then do
    let (a, k) ← chunkPass (op.fwdOp (decide (l = 1))) l k a
    forwardLoop op (l >>> 1) k a
  else some a
termination_by l
decreasing_by rw [Nat.shiftRight_eq_div_pow]; omega

/-- `forward`, lines 77-102. -/
def forward (op : NttOperator) (a : List Nat) : Panics (List Nat) := do
  check (a.length = op.size)
  forwardLoop op (op.size >>> 1) 1 a

/-- `while l < self.size { .. ; l <<= 1 }` of `backward`, lines 112-128 (`l = 0` never happens). -/
def backwardLoop (op : NttOperator) (l k : Nat) (a : List Nat) : Panics (List Nat) :=
  if _h : 0 < l ∧ l < op.size then do
    let (a, k) ← chunkPass op.bwdOp l k a
    backwardLoop op (l <<< 1) k a
  else some a
termination_by op.size - l
decreasing_by rw [Nat.shiftLeft_eq]; omega

/-- `backward`, lines 106-132. -/
def backward (op : NttOperator) (a : List Nat) : Panics (List Nat) := do
  check (a.length = op.size)
  let a ← backwardLoop op 1 0 a
  a.mapM fun ai => op.p.mulShoup ai op.sizeInv op.sizeInvShoup

/-- `a.get_disjoint_unchecked_mut([j, j + l])` followed by a butterfly, lines 159-160, 166-167, 213-214, 220-221. -/
def pairUpdate (f : Nat → Nat → Nat → Panics (Nat × Nat)) (l k j : Nat) (a : List Nat) : Panics (List Nat) := do
  let x ← a[j]?
  let y ← a[j + l]?
  let (x, y) ← f k x y
  return (a.set j x).set (j + l) y

/-- `for j in s..(s + l)`, lines 163-168 and 217-222 (and the `l == 1` arms, lines 156-161 and 210-215); `left` iterations remain. -/
def idxInner (f : Nat → Nat → Nat → Panics (Nat × Nat)) (l k : Nat) : (left j : Nat) → List Nat → Panics (List Nat)
  | 0, _, a => some a
  | left + 1, j, a => do
    let a ← pairUpdate f l k j a
    idxInner f l k left (j + 1) a

/-- `for i in 0..m`, lines 149-171, 204-225; `left` iterations remain.  Returns the array and the next `k`. -/
def idxPass (f : Nat → Nat → Nat → Panics (Nat × Nat)) (l : Nat) : (left i k : Nat) → List Nat → Panics (List Nat × Nat)
  | 0, _, k, a => some (a, k)
  | left + 1, i, k, a => do
    let s := 2 * i * l
    let a ← idxInner f l k l s a
    idxPass f l left (i + 1) (k + 1) a

/-- `while l > 0 { .. ; l >>= 1; m <<= 1 }`, lines 148-174. -/
def forwardVtLoop (op : NttOperator) (l m k : Nat) (a : List Nat) : Panics (List Nat) :=
  if _h : l > 0 then do
    let (a, k) ← idxPass op.fwdVtOp l m 0 k a
    forwardVtLoop op (l >>> 1) (m <<< 1) k a
  else some a
termination_by l
decreasing_by rw [Nat.shiftRight_eq_div_pow]; omega

/-- `forward_vt_lazy`, lines 142-175.  The caller guarantees at least `size` elements; the model takes exactly `size`. -/
def forwardVtLazy (op : NttOperator) (a : List Nat) : Panics (List Nat) := do
  check (a.length = op.size)
  forwardVtLoop op (op.size >>> 1) 1 1 a

/-- `forward_vt`, lines 183-189. -/
def forwardVt (op : NttOperator) (a : List Nat) : Panics (List Nat) := do
  let a ← op.forwardVtLazy a
  a.mapM op.reduce3Vt

/-- `while m > 0 { .. ; l <<= 1; m >>= 1 }`, lines 203-228. -/
def backwardVtLoop (op : NttOperator) (l m k : Nat) (a : List Nat) : Panics (List Nat) :=
  if _h : m > 0 then do
    let (a, k) ← idxPass op.bwdVtOp l m 0 k a
    backwardVtLoop op (l <<< 1) (m >>> 1) k a
  else some a
termination_by m
decreasing_by rw [Nat.shiftRight_eq_div_pow]; omega

/-- `backward_vt`, lines 197-233. -/
def backwardVt (op : NttOperator) (a : List Nat) : Panics (List Nat) := do
  check (a.length = op.size)
  let a ← backwardVtLoop op 1 (op.size >>> 1) 0 a
  a.mapM fun ai => op.p.mulShoup ai op.sizeInv op.sizeInvShoup

end NttOperator
end Fhe
