import Verif.Model.TimedRq
import Verif.Model.ReleaseMore
import Verif.Model.BfvDot
/-!
# Memory accesses that are not checked

The library contains blocks of code that read and write memory without comparing the index to the length.  This file models them, as a release
build executes them, with a third outcome next to returning and panicking: undefined behaviour, for an access outside of the allocation and for two
mutable references to one element.  Arithmetic and checked accesses are those of `Verif/Model/Timed*.lean`.

The other functions that the library marks in the same way are those that run in variable time; they access no memory.  Not modelled: the aliasing
rules for references to different parts of an allocation, initialization (all arrays are made by `vec!` or `zeros`), and the implementations of
`Send` in `/repo/crates/fhe/src/bfv/plaintext.rs` line 217 and `parameters.rs` line 125.
-/
namespace Fhe.Memory
open Release

/-- How a call ends.  For example a call of `forward_vt_lazy`, `/repo/crates/fhe-math/src/ntt/native.rs` lines 142-175. -/
inductive Outcome (α : Type) where
  | returned (a : α)
  | panicked
  | undefined
deriving DecidableEq, Repr

namespace Outcome
variable {α β : Type}

/-- Sequencing: a panic and undefined behaviour end the run.  The sequence of two statements, in all functions of this file. -/
def bind (o : Outcome α) (f : α → Outcome β) : Outcome β :=
  match o with
  | returned a => f a
  | panicked => panicked
  | undefined => undefined

/-- Statements in sequence, in all functions of this file. -/
instance : Monad Outcome where
  pure := returned
  bind := Outcome.bind

end Outcome

variable {α β γ : Type}

/-- Safe code.  For example `/repo/crates/fhe-math/src/rns/scaler.rs` lines 317-323. -/
def safe (t : Timed α) : Outcome α :=
  match t.result with
  | some a => .returned a
  | none => .panicked

/-- `*l.get_unchecked(i)`, `*ptr.offset(i)`.  For example `/repo/crates/fhe-math/src/ntt/native.rs` lines 150-151,
`/repo/crates/fhe-math/src/rns/scaler.rs` lines 324-328 and `/repo/crates/fhe-math/src/rq/ops.rs` lines 517-519. -/
def unchecked (l : List α) (i : Nat) : Outcome α :=
  match l[i]? with
  | some a => .returned a
  | none => .undefined

/-- `*l.get(i).unwrap()`, `l[i]`.  For example `/repo/crates/fhe-math/src/rns/scaler.rs` line 323. -/
def checked (l : List α) (i : Nat) : Outcome α :=
  match l[i]? with
  | some a => .returned a
  | none => .panicked

/-- `for i in 0..n { out[i] = f(i) }`.  For example the loop of `/repo/crates/fhe-math/src/rns/scaler.rs` lines 317-350. -/
def collect (f : Nat → Outcome α) : (left i : Nat) → Outcome (List α)
  | 0, _ => return []
  | left + 1, i => do
    let x ← f i
    let xs ← collect f left (i + 1)
    return x :: xs

/-! ## Transforms: `/repo/crates/fhe-math/src/ntt/native.rs` -/

/-- `get_disjoint_unchecked_mut([i, j])` and the update of both entries, lines 159-160, 166-167, 213-214 and 220-221. -/
def pairUpdate (f : Nat → Nat → Timed (Nat × Nat)) (i j : Nat) (a : List Nat) : Outcome (List Nat) :=
  if i = j then .undefined
  else do
    let x ← unchecked a i
    let y ← unchecked a j
    let (x, y) ← safe (f x y)
    return (a.set i x).set j y

/-- The loop over `j`, lines 164-168 and 218-222; for `l = 1` it is the single access of lines 156-161 and 210-215. -/
def inner (f : Nat → Nat → Timed (Nat × Nat)) (l : Nat) : (left j : Nat) → List Nat → Outcome (List Nat)
  | 0, _, a => return a
  | left + 1, j, a => do
    let a ← pairUpdate f j (j + l) a
    inner f l left (j + 1) a

/-- The loop over `i`, lines 149-171 and 204-225: the tables are read without a check.  Returns the array and the next `k`. -/
def pass (f : Nat → Nat → Nat → Nat → Timed (Nat × Nat)) (table tableShoup : List Nat) (l : Nat) : (left i k : Nat) → List Nat → Outcome (List Nat × Nat)
  | 0, _, k, a => return (a, k)
  | left + 1, i, k, a => do
    let w ← unchecked table k
    let wShoup ← unchecked tableShoup k
    let a ← inner (fun x y => f x y w wShoup) l l (2 * i * l) a
    pass f table tableShoup l left (i + 1) (k + 1) a

/-- The loop of lines 148-174. -/
def forwardLoop (op : NttOperator) (l m k : Nat) (a : List Nat) : Outcome (List Nat) :=
  if _h : l > 0 then do
    let (a, k) ← pass (butterflyWith op (reduce1Vt op.p.vtCfg)) op.omegas op.omegasShoup l m 0 k a
    forwardLoop op (l >>> 1) (m <<< 1) k a
  else return a
termination_by l
decreasing_by rw [Nat.shiftRight_eq_div_pow]; omega

/-- The loop of lines 203-228. -/
def backwardLoop (op : NttOperator) (l m k : Nat) (a : List Nat) : Outcome (List Nat) :=
  if _h : m > 0 then do
    let (a, k) ← pass (invButterflyWith op (reduce1Vt op.p.vtCfg)) op.zetasInv op.zetasInvShoup l m 0 k a
    backwardLoop op (l <<< 1) (m >>> 1) k a
  else return a
termination_by m
decreasing_by rw [Nat.shiftRight_eq_div_pow]; omega

/-- `std::slice::from_raw_parts_mut(p, n)`, where `p` points to entry `ptr` of the allocation `mem`.  `/repo/crates/fhe-math/src/ntt/native.rs`
lines 143, 185 and 198. -/
def fromRawParts (mem : List Nat) (ptr n : Nat) : Outcome (List Nat) :=
  if ptr + n ≤ mem.length then .returned ((mem.drop ptr).take n) else .undefined

/-- The allocation after the slice at `ptr` has been changed to `a`.  The effect of the writes through the slice of
`/repo/crates/fhe-math/src/ntt/native.rs` lines 143, 185 and 198. -/
def putBack (mem : List Nat) (ptr : Nat) (a : List Nat) : List Nat := mem.take ptr ++ a ++ mem.drop (ptr + a.length)

/-- `forward_vt_lazy`, lines 142-175; the argument points to entry `ptr` of the allocation `mem`. -/
def forwardVtLazy (op : NttOperator) (mem : List Nat) (ptr : Nat) : Outcome (List Nat) := do
  let a ← fromRawParts mem ptr op.size
  let a ← forwardLoop op (op.size >>> 1) 1 1 a
  return putBack mem ptr a

/-- `forward_vt`, lines 183-189. -/
def forwardVt (op : NttOperator) (mem : List Nat) (ptr : Nat) : Outcome (List Nat) := do
  let mem ← forwardVtLazy op mem ptr
  let a ← fromRawParts mem ptr op.size
  let a ← safe (mapLoop (reduce3Vt op) a)
  return putBack mem ptr a

/-- `backward_vt`, lines 197-233. -/
def backwardVt (op : NttOperator) (mem : List Nat) (ptr : Nat) : Outcome (List Nat) := do
  let a ← fromRawParts mem ptr op.size
  let a ← backwardLoop op 1 (op.size >>> 1) 0 a
  let a ← safe (mapLoop (fun ai => mulShoup op.p ai op.sizeInv op.sizeInvShoup) a)
  return putBack mem ptr a

/-! ## Scaling: `/repo/crates/fhe-math/src/rns/scaler.rs` -/

/-- The loop of lines 341-347. -/
def accumulate (q : Modulus) (rests omega omegaShoup : List Nat) : (left j y : Nat) → Outcome Nat
  | 0, _, y => return y
  | left + 1, j, y => do
    let r ← checked rests j
    let o ← unchecked omega j
    let os ← unchecked omegaShoup j
    let x ← safe (lazyMulShoup q r o os)
    accumulate q rests omega omegaShoup left (j + 1) (wadd128 y x)

/-- Lines 317-350 for one `i`; `idx` is `starting_index + i`. -/
def scaleOne (s : RnsScaler) (rests : List Nat) (v : Nat) (wSign : Bool) (w idx : Nat) : Outcome Nat := do
  let q ← unchecked s.dst.moduli idx
  let omega ← unchecked s.omega idx
  let omegaShoup ← unchecked s.omegaShoup idx
  let gamma ← unchecked s.gamma idx
  let gammaShoup ← unchecked s.gammaShoup idx
  let q2 := wmul64 q.p 2
  let x ← safe (reduceU128 q v)
  let x ← safe (lazyMulShoup q x gamma gammaShoup)
  let y ← safe (addW q s.factor.isOne wSign w q2 (wsub 64 q2 x))
  let y ← accumulate q rests omega omegaShoup rests.length 0 y
  safe (reduceU128 q y)

/-- `scale`, lines 249-352, without its debug assertions; `size` is the length of `out`. -/
def scale (s : RnsScaler) (rests : List Nat) (size startingIndex : Nat) : Outcome (List Nat) := do
  let sum ← safe (sumThetaGarner s.thetaGarnerLo s.thetaGarnerHi rests 0)
  let v ← safe (roundV sum s.thetaGarnerShift)
  let (wSign, w) ← safe (computeW s rests v)
  collect (fun i => scaleOne s rests v wSign w (startingIndex + i)) size 0

/-- `scale_new`, lines 237-241. -/
def scaleNew (s : RnsScaler) (rests : List Nat) (size : Nat) : Outcome (List Nat) := scale s rests size 0

/-! ## Matrices: the crate `ndarray` -/

/-- An owned matrix `Array2<u64>`: an allocation, the position of the entry `(0, 0)` in it and the distances of neighbouring entries.  Safe code can
change the last three: `reversed_axes`, `invert_axis`, `slice_collapse`.  The type of `/repo/crates/fhe-math/src/rq/mod.rs` lines 192 and 200. -/
structure Array2 where
  mem : List Nat
  origin : Int
  rows : Nat
  cols : Nat
  rowStride : Int
  colStride : Int
deriving DecidableEq, Repr

namespace Array2

/-- The position of the entry `(i, j)`.  The entries of `coefficients`, `/repo/crates/fhe-math/src/rq/mod.rs` line 200. -/
def pos (a : Array2) (i j : Nat) : Int := a.origin + i * a.rowStride + j * a.colStride

/-- `a[[i, j]]`.  The entries of `coefficients`, `/repo/crates/fhe-math/src/rq/mod.rs` line 200. -/
def entry (a : Array2) (i j : Nat) : Option Nat :=
  if i < a.rows ∧ j < a.cols ∧ 0 ≤ a.pos i j then a.mem[(a.pos i j).toNat]? else none

/-- What `ndarray` guarantees of every array: the entries are in the allocation and at different positions.  It holds of `coefficients`,
`/repo/crates/fhe-math/src/rq/mod.rs` line 200. -/
def Sound (a : Array2) : Prop :=
  (∀ i < a.rows, ∀ j < a.cols, 0 ≤ a.pos i j ∧ a.pos i j < a.mem.length) ∧
  ∀ i < a.rows, ∀ j < a.cols, ∀ i' < a.rows, ∀ j' < a.cols, a.pos i j = a.pos i' j' → i = i' ∧ j = j'

/-- `Array2::from_shape_vec((rows, cols), v)` and `Array2::zeros`: row after row.  `/repo/crates/fhe-math/src/rq/mod.rs` line 200 and
`/repo/crates/fhe-math/src/rq/convert.rs` lines 151, 198 and 221. -/
def standard (rows cols : Nat) (v : List Nat) : Array2 := ⟨v, 0, rows, cols, cols, 1⟩

/-- The rows of a matrix that is stored row after row.  `outer_iter`, for example `/repo/crates/fhe-math/src/rq/ops.rs` line 549. -/
def toRows (a : Array2) : List (List Nat) := Poly.splitRows a.cols a.rows a.mem

/-- `a.invert_axis(Axis(1))`: the order of the columns is reversed without moving an entry.  Code outside of `/repo` can call it; no line of `/repo`
does. -/
def reverseColumns (a : Array2) : Array2 := { a with origin := a.origin + (a.cols - 1 : Nat) * a.colStride, colStride := -a.colStride }

end Array2

/-- The matrix of a polynomial as the constructors and the operations lay it out: `Array2::zeros`, `Array2::from_shape_vec`.
`/repo/crates/fhe-math/src/rq/mod.rs` line 200 and `/repo/crates/fhe-math/src/rq/convert.rs` lines 151, 198 and 221. -/
def matrix {r : Rep} (p : Poly r) : Array2 := Array2.standard p.coeffs.length p.ctx.degree p.coeffs.flatten

/-! ## Transforms of polynomials: `/repo/crates/fhe-math/src/rq/mod.rs` -/

/-- `izip!(a.outer_iter_mut(), ops).for_each(|(mut v, op)| f(op, v.as_mut_ptr()))`, lines 337-338 and 348-349, from row `i` on: only the
address of the first entry of the row is passed on. -/
def rowsVt (f : NttOperator → List Nat → Nat → Outcome (List Nat)) : List NttOperator → (i : Nat) → Array2 → Outcome Array2
  | [], _, a => return a
  | op :: ops, i, a =>
    if i < a.rows then do
      let mem ← f op a.mem (a.pos i 0).toNat
      rowsVt f ops (i + 1) { a with mem }
    else return a

/-- `izip!(a.outer_iter_mut(), ops).for_each(|(mut v, op)| f(op, v.as_slice_mut().unwrap()))`, lines 340-341 and 351-352: `as_slice_mut` is `None`
unless neighbouring entries of the row are next to each other. -/
def rowsCt (f : NttOperator → List Nat → Timed (List Nat)) : List NttOperator → (i : Nat) → Array2 → Outcome Array2
  | [], _, a => return a
  | op :: ops, i, a =>
    if i < a.rows then
      if a.cols ≤ 1 ∨ a.colStride = 1 then do
        let ptr := (a.pos i 0).toNat
        let row ← safe (f op ((a.mem.drop ptr).take a.cols))
        rowsCt f ops (i + 1) { a with mem := putBack a.mem ptr row }
      else .panicked
    else return a

/-- `ntt_forward`, lines 335-343. -/
def nttForward (ops : List NttOperator) (vt : Bool) (a : Array2) : Outcome Array2 :=
  if vt then rowsVt forwardVt ops 0 a else rowsCt forward ops 0 a
/-- `ntt_backward`, lines 346-354. -/
def nttBackward (ops : List NttOperator) (vt : Bool) (a : Array2) : Outcome Array2 :=
  if vt then rowsVt backwardVt ops 0 a else rowsCt backward ops 0 a

/-- `TryConvertFrom<Array2<u64>>`, `/repo/crates/fhe-math/src/rq/convert.rs` lines 243-285: only the shape is looked at.  The result is the matrix
that the polynomial holds. -/
def tryFromArray2 (a : Array2) (ctx : Context) : Except MathError Array2 :=
  if a.rows ≠ ctx.q.length ∨ a.cols ≠ ctx.degree then .error (.invalidCoefficientShape a.rows a.cols ctx.q.length ctx.degree) else .ok a

/-- `Poly::<PowerBasis>::try_convert_from(a, ctx, vt)?.into_ntt()`, `convert.rs` lines 243-263 and `mod.rs` lines 535-538. -/
def convertAndTransform (a : Array2) (ctx : Context) (vt : Bool) : Outcome (Except MathError Array2) :=
  match tryFromArray2 a ctx with
  | .error e => return .error e
  | .ok a => do
    let a ← nttForward ctx.ops vt a
    return .ok a

/-- `create_constant_ntt_polynomial_with_lazy_coefficients_and_variable_time`, lines 563-586, from row `i` on: `clone_from_slice` panics unless the
lengths agree. -/
def lazyConstantRows (v : List Nat) : List (Modulus × NttOperator) → (i : Nat) → Array2 → Outcome Array2
  | [], _, a => return a
  | (q, op) :: ops, i, a =>
    if i < a.rows then
      if v.length ≠ a.cols then .panicked
      else do
        let ptr := (a.pos i 0).toNat
        let row ← safe (lazyReduceVec q v)
        let mem ← forwardVtLazy op (putBack a.mem ptr row) ptr
        lazyConstantRows v ops (i + 1) { a with mem }
    else return a
/-- Lines 563-586. -/
def lazyConstant (v : List Nat) (ctx : Context) : Outcome Array2 :=
  lazyConstantRows v (ctx.q.zip ctx.ops) 0 (Array2.standard ctx.q.length ctx.degree (List.replicate (ctx.q.length * ctx.degree) 0))

/-! ## Scaling of polynomials: `/repo/crates/fhe-math/src/rq/scaler.rs` -/

/-- `axis_iter(Axis(1))`, line 90: column `j` of a matrix that is stored row after row. -/
def column (a : Array2) (j : Nat) : Outcome (List Nat) := collect (fun i => checked a.mem (i * a.cols + j)) a.rows 0

/-- Assigning column `j` of the rows from `first` on, lines 85-94; the entries are those of an iterator over the matrix. -/
def setColumn (a : Array2) (first j : Nat) : List Nat → Array2
  | [] => a
  | x :: xs => setColumn { a with mem := a.mem.set (first * a.cols + j) x } (first + 1) j xs

/-- The loop of lines 85-94 from column `j` on. -/
def scaleColumns (s : Scaler) (src : Array2) : (left j : Nat) → Array2 → Outcome Array2
  | 0, _, out => return out
  | left + 1, j, out => do
    let col ← column src j
    let new ← scale s.scaler col (s.dst.q.length - s.ncommon) s.ncommon
    scaleColumns s src left (j + 1) (setColumn out s.ncommon j new)

/-- The new matrix: zeros, whose first rows are those of the common moduli, lines 59-65. -/
def scaleInit (s : Scaler) (a : Array2) : Array2 :=
  Array2.standard s.dst.q.length s.dst.degree (a.mem.take (s.ncommon * s.dst.degree) ++ List.replicate ((s.dst.q.length - s.ncommon) * s.dst.degree) 0)

/-- `scale`, lines 55-127, for a polynomial of the right context whose matrix is stored row after row. -/
def polyScale (r : Rep) (s : Scaler) (vt : Bool) (a : Array2) : Outcome Array2 :=
  if s.ncommon < s.dst.q.length then do
    let src ← if r = .powerBasis then pure a else nttBackward s.src.ops vt a
    let out ← scaleColumns s src s.src.degree 0 (scaleInit s a)
    if r = .powerBasis then return out
    else if vt then rowsVt forwardVt (s.dst.ops.drop s.ncommon) s.ncommon out
    else rowsCt forward (s.dst.ops.drop s.ncommon) s.ncommon out
  else return scaleInit s a

/-! ## Dot products -/

/-- `*acc_ptr.offset(i) = reduce(*acc_ptr.offset(i))` for `i` from `i` on, `/repo/crates/fhe-math/src/rq/ops.rs` lines 521-527. -/
def dotReduceAt (vt : Bool) (q : Modulus) : (left i : Nat) → List Nat → Outcome (List Nat)
  | 0, _, acc => return acc
  | left + 1, i, acc => do
    let x ← unchecked acc i
    let y ← safe (if vt then reduceU128Vt q x else reduceU128 q x)
    dotReduceAt vt q left (i + 1) (acc.set i y)

/-- The loop over `j`, `ops.rs` lines 516-531: all four pointers are used without a check. -/
def dotStep (vt : Bool) (degree : Nat) (q : List Modulus) (maxAcc : List Nat) : (left j : Nat) → (numAcc acc : List Nat) → Outcome (List Nat × List Nat)
  | 0, _, numAcc, acc => return (numAcc, acc)
  | left + 1, j, numAcc, acc => do
    let qj ← unchecked q j
    let n ← unchecked numAcc j
    let mx ← unchecked maxAcc j
    if wadd128 n 1 = mx then do
      let acc ← dotReduceAt vt qj degree (j * degree) acc
      dotStep vt degree q maxAcc left (j + 1) (numAcc.set j 1) acc
    else dotStep vt degree q maxAcc left (j + 1) (numAcc.set j (wadd128 n 1)) acc

/-- `fma` of `ops.rs` lines 424-444: the lengths are compared, the accesses are checked. -/
def fmaChecked (out x y : List Nat) : Outcome (List Nat) :=
  if x.length = out.length ∧ y.length = out.length then return List.zipWith (fun o (xy : Nat × Nat) => wadd128 o (wmul128 xy.1 xy.2)) out (x.zip y)
  else .panicked

/-- The loop of `ops.rs` lines 504-533. -/
def dotLoop (vt : Bool) (degree : Nat) (q : List Modulus) (maxAcc : List Nat) : List (List Nat × List Nat) → (numAcc acc : List Nat) → Outcome (List Nat)
  | [], _, acc => return acc
  | (x, y) :: rest, numAcc, acc => do
    let acc ← fmaChecked acc x y
    let (numAcc, acc) ← dotStep vt degree q maxAcc q.length 0 numAcc acc
    dotLoop vt degree q maxAcc rest numAcc acc

/-- The loop of `ops.rs` lines 537-543. -/
def dotLoopPlain : List (List Nat × List Nat) → (acc : List Nat) → Outcome (List Nat)
  | [], acc => return acc
  | (x, y) :: rest, acc => do
    let acc ← fmaChecked acc x y
    dotLoopPlain rest acc

/-- The last reduction, `ops.rs` lines 546-561: iterators over the matrices. -/
def dotFinish (vt : Bool) (c : Context) (acc : List Nat) : Timed (List (List Nat)) :=
  mapLoop (fun x : List Nat × Modulus => mapLoop (fun y => if vt then reduceU128Vt x.2 y else reduceU128 x.2 y) x.1) ((Poly.splitRows c.degree c.q.length acc).zip c.q)

/-- `dot_product`, `ops.rs` lines 449-570, for polynomials that are stored row after row (otherwise `as_slice().unwrap()` panics).  A release build
takes the amount of the shift in line 493 modulo 128. -/
def dotProduct (p q : List (Poly .ntt)) : Outcome (Except MathError (Poly .ntt)) :=
  if p.length = 0 ∨ q.length = 0 then return .error .emptyDotProduct
  else if p.length ≠ q.length then return .error (.dotProductLengthMismatch p.length q.length)
  else match p with
  | [] => return .error .emptyDotProduct
  | first :: _ =>
    if (p.any fun x => x.ctx ≠ first.ctx) ∨ (q.any fun x => x.ctx ≠ first.ctx) then return .error .polynomialContextMismatch
    else do
      let vt := (p.zip q).all fun x => x.1.vt && x.2.vt
      let c := first.ctx
      let maxAcc := c.q.map fun qi => shl128 1 (2 * lz64 qi.p % 128)
      match maxAcc.min? with
      | none => .panicked
      | some minOfMax => do
        let pq := (p.zip q).map fun x => (x.1.coeffs.flatten, x.2.coeffs.flatten)
        let zeros := List.replicate (c.q.length * c.degree) 0
        let acc ← if p.length > minOfMax then dotLoop vt c.degree c.q maxAcc pq (List.replicate c.q.length 1) zeros else dotLoopPlain pq zeros
        let rows ← safe (dotFinish vt c acc)
        return .ok { ctx := c, vt, coeffs := rows, shoup := none, hasLazy := false }

/-- `fma_at!`, `/repo/crates/fhe/src/bfv/ops/dot_product.rs` lines 16-23. -/
def fmaAt (x y out : List Nat) (idx : Nat) : Outcome (List Nat) := do
  let a ← unchecked x idx
  let b ← unchecked y idx
  let o ← unchecked out idx
  return out.set idx (wadd128 o (wmul128 a b))

/-- `count` consecutive updates from `idx` on.  `/repo/crates/fhe/src/bfv/ops/dot_product.rs` lines 26-47. -/
def fmaRun (x y : List Nat) : (count idx : Nat) → List Nat → Outcome (List Nat)
  | 0, _, out => return out
  | count + 1, idx, out => do
    let out ← fmaAt x y out idx
    fmaRun x y count (idx + 1) out

/-- The unrolled loop, lines 26-43, with `left` rounds to go from round `i` on. -/
def fmaBlocks (x y : List Nat) : (left i : Nat) → List Nat → Outcome (List Nat)
  | 0, _, out => return out
  | left + 1, i, out => do
    let out ← fmaRun x y 16 (16 * i) out
    fmaBlocks x y left (i + 1) out

/-- `fma`, lines 11-48. -/
def fmaUnchecked (out x y : List Nat) : Outcome (List Nat) := do
  let n := out.length
  let r := n / 16
  let out ← fmaBlocks x y r 0 out
  fmaRun x y (n % 16) (16 * r) out

/-- Functions of the crate `fhe`.  `Result`, `/repo/crates/fhe/src/errors.rs` line 12. -/
abbrev OutRes (α : Type) := ExceptT FheError Outcome α
/-- Code without unchecked accesses.  For example the checks of `/repo/crates/fhe/src/bfv/ops/dot_product.rs` before line 115. -/
def ofRes (x : Res α) : OutRes α := ExceptT.mk (match x.run with
  | none => .panicked
  | some r => .returned r)
/-- Code that does not fail.  For example `fma`, `/repo/crates/fhe/src/bfv/ops/dot_product.rs` lines 11-48. -/
def ofOutcome (x : Outcome α) : OutRes α := ExceptT.lift x
/-- `map_err(Error::MathError)`.  `/repo/crates/fhe/src/errors.rs` line 21. -/
def ofMath (x : Outcome (Except MathError α)) : OutRes α := ExceptT.mk do
  match ← x with
  | .ok a => return .ok a
  | .error e => return .error (.math e)

/-- `izip!(acc.outer_iter_mut(), l)` with an update, `dot_product.rs` lines 137 and 139-143. -/
def zipUpdate (f : α → β → Outcome α) : List α → List β → Outcome (List α)
  | a :: as, b :: bs => do
    let a' ← f a b
    let as' ← zipUpdate f as bs
    return a' :: as'
  | as, _ => return as

/-- The body of the loop over the pairs, `dot_product.rs` lines 136-153. -/
def dotAccumulate (acc : List (List (List Nat))) (ct : Ciphertext) (pt : Plaintext) : Outcome (List (List (List Nat))) :=
  zipUpdate (fun acci (ci : Poly .ntt) => zipUpdate (fun accij (x : List Nat × List Nat) => fmaUnchecked accij x.1 x.2) acci (ci.coeffs.zip pt.polyNtt.coeffs)) acc ct.c

/-- The loop of lines 134-155. -/
def dotAccumulateAll : List (Ciphertext × Plaintext) → List (List (List Nat)) → Outcome (List (List (List Nat)))
  | [], acc => return acc
  | (ct, pt) :: rest, acc => do
    let acc ← dotAccumulate acc ct pt
    dotAccumulateAll rest acc

/-- Lines 158-178: iterators over the accumulators. -/
def dotReducePart (ctx : Context) (degree : Nat) (vt : Bool) (acci : List (List Nat)) : OutRes (Poly .ntt) := do
  let coeffs ← ofOutcome (safe (zipLoop (fun out (x : List Nat × Modulus) => zipLoop (fun _ a => if vt then reduceU128Vt x.2 a else reduceU128 x.2 a) out x.1)
    (zeroRows ctx.moduli.length degree) (acci.zip ctx.q)))
  ofRes (Fhe.math (some (Poly.tryFromArray2Ntt coeffs ctx vt)))

/-- `cti.get_unchecked(i)` for every ciphertext, line 119. -/
def partsAt (cts : List Ciphertext) (i : Nat) : Outcome (List (Poly .ntt)) :=
  match cts with
  | [] => return []
  | ct :: cts => do
    let p ← unchecked ct.c i
    let ps ← partsAt cts i
    return p :: ps

/-- Lines 115-127. -/
def dotParts (cts : List Ciphertext) (pts : List Plaintext) : (left i : Nat) → OutRes (List (Poly .ntt))
  | 0, _ => return []
  | left + 1, i => do
    let parts ← ofOutcome (partsAt cts i)
    let c ← ofMath (dotProduct parts (pts.map Plaintext.polyNtt))
    let cs ← dotParts cts pts left (i + 1)
    return c :: cs

/-- `dot_product_scalar`, `dot_product.rs` lines 54-187. -/
def dotProductScalar (cts : List Ciphertext) (pts : List Plaintext) : OutRes Ciphertext :=
  if cts.length = 0 ∨ pts.length = 0 then throw .dotProductEmptyInput
  else if cts.length ≠ pts.length then throw (.dotProductOperandCount cts.length pts.length)
  else match cts with
  | [] => throw .dotProductEmptyInput
  | first :: _ => do
    ofRes (first.validateFor first.par)
    let ctx ← ofRes (first.par.contextAtLevel first.level)
    let vt := (cts.zip pts).all fun x => x.1.c.all (fun p => p.vt) && x.2.polyNtt.vt
    ofRes (dotValidate first ctx (cts.zip pts))
    match (ctx.moduli.map fun qi => shl128 1 (2 * lz64 qi % 128)).min? with
    | none => ofOutcome .panicked
    | some minOfMax =>
      if cts.length > minOfMax then do
        let c ← dotParts cts pts first.c.length 0
        return { par := first.par, seed := none, c, level := first.level }
      else do
        let acc ← ofOutcome (dotAccumulateAll (cts.zip pts) (List.replicate first.c.length (zeroRows ctx.moduli.length first.par.degree)))
        let c ← acc.mapM (dotReducePart ctx first.par.degree vt)
        return { par := first.par, seed := none, c, level := first.level }

end Fhe.Memory
