import Verif.Model.Ntt
import Verif.Model.Rns
import Verif.Model.Util
import Verif.Model.Wire
/-!
# `fhe-math/src/rq`: contexts and polynomials

Citations are to files of `/repo/crates/fhe-math/src/rq`.  An `Array2<u64>` of shape `(rows, columns)` is the list of
its rows.  `Arc` is transparent.  Zeroization of memory (`zeroize`) has no effect on values and is left out.
-/
namespace Fhe

/-- What a build fixes: the configuration that selects the body of `reduce1_vt`, debug or release mode (it matters only
when no primitive root is found), and the stream of values `rng p i` that `ChaCha8Rng::seed_from_u64(0)` yields for
`random_range(0..p)` in `NttOperator::primitive_root` (`ntt/native.rs` lines 324-326). -/
structure Build where
  cfg : Bool
  dbg : Bool
  rng : Nat → Nat → Nat

/-- `enum Representation`, `mod.rs` lines 28-40.  (The type-level tags `PowerBasis`, `Ntt`, `NttShoup`, lines 42-83, are the
index `r` of `Poly`.) -/
inductive Rep where
  | powerBasis | ntt | nttShoup
deriving DecidableEq, Repr

/-! ## Contexts (`context.rs`) -/

/-- `struct Context` without `next_context`, `context.rs` lines 9-18. -/
structure CtxLevel where
  moduli : List Nat
  q : List Modulus
  rns : RnsContext
  ops : List NttOperator
  degree : Nat
  bitrev : List Nat
  invLast : List Nat
  invLastShoup : List Nat
deriving DecidableEq, Repr

/-- `struct Context`, `context.rs` lines 9-19.  The chain of `next_context`s is the list `nexts`, the nearest first. -/
structure Context extends CtxLevel where
  nexts : List CtxLevel
deriving DecidableEq, Repr

namespace Context

/-- `next_context`, `context.rs` line 18. -/
def next (c : Context) : Option Context :=
  match c.nexts with
  | [] => none
  | l :: ls => some { toCtxLevel := l, nexts := ls }

/-- The closure of `context.rs` lines 49-57. -/
def newOp (b : Build) (degree modulus : Nat) : Panics (Except MathError (Modulus × NttOperator)) := do
  match ← Modulus.new b.cfg modulus with
  | .error (.invalidModulus p) => return .error (.invalidModulus p)
  | .ok qi => do
    match ← NttOperator.new b.dbg (b.rng modulus) qi degree with
    | none => return .error (.nttOperatorUnavailable modulus degree)
    | some op => return .ok (qi, op)

/-- One iteration of the loop of `context.rs` lines 68-72; `unwrap` of a missing inverse panics. -/
def invLastOne (qLast : Nat) (qi : Modulus) : Panics (Nat × Nat) := do
  let inv ← ← qi.inv (← qi.reduce qLast)
  return (inv, ← qi.shoup inv)

/-- `Context::new` without the recursive call, `context.rs` lines 43-72. -/
def newLevel (b : Build) (moduli : List Nat) (degree : Nat) : Panics (Except MathError CtxLevel) :=
  if ¬ (degree = 2 ^ degree.log2) ∨ degree < 8 then some (.error (.invalidPolynomialDegree degree 8))
  else do
    match ← RnsContext.new b.cfg moduli with
    | .error e => return .error e
    | .ok rns => do
      match ← RnsContext.collectResults (newOp b degree) moduli with
      | .error e => return .error e
      | .ok qops => do
        let q := qops.map (·.1)
        let ops := qops.map (·.2)
        let bitrev := (List.range degree).map fun j => revBits 64 j >>> (lz64 degree + 1)
        let qLast ← moduli.getLast?
        let invs ← q.dropLast.mapM (invLastOne qLast)
        return .ok { moduli, q, rns, ops, degree, bitrev, invLast := invs.map (·.1), invLastShoup := invs.map (·.2) }

/-- `Context::new`, `context.rs` lines 42-92. -/
def new (b : Build) (moduli : List Nat) (degree : Nat) : Panics (Except MathError Context) := do
  match ← newLevel b moduli degree with
  | .error e => return .error e
  | .ok l =>
    if _h : moduli.length ≥ 2 then
      match ← new b moduli.dropLast degree with
      | .error e => return .error e
      | .ok n => return .ok { toCtxLevel := l, nexts := n.toCtxLevel :: n.nexts }
    else return .ok { toCtxLevel := l, nexts := [] }
termination_by moduli.length
decreasing_by rw [List.length_dropLast]; omega

/-- `modulus`, `context.rs` lines 101-103. -/
def modulus (c : Context) : Nat := c.rns.modulus

/-- The loop of `niterations_to`, `context.rs` lines 127-139; the list is the rest of the chain. -/
def niterationsLoop (target : Context) : List CtxLevel → Nat → Except MathError Nat
  | [], _ => .error .contextNotReachable
  | l :: ls, n => if ({ toCtxLevel := l, nexts := ls } : Context) = target then .ok (n + 1) else niterationsLoop target ls (n + 1)

/-- `niterations_to`, `context.rs` lines 119-140. -/
def niterationsTo (c target : Context) : Except MathError Nat :=
  if target = c then .ok 0 else niterationsLoop target c.nexts 0

/-- The loop of `context_at_level`, `context.rs` lines 151-153; `unwrap` of `None` panics. -/
def descend : Nat → Context → Panics Context
  | 0, c => some c
  | i + 1, c => do descend i (← c.next)

/-- `context_at_level`, `context.rs` lines 143-156. -/
def contextAtLevel (c : Context) (i : Nat) : Panics (Except MathError Context) :=
  if i ≥ c.moduli.length then some (.error (.invalidContextLevel i (c.moduli.length - 1)))
  else do return .ok (← descend i c)

end Context

/-! ## Substitution exponents (`mod.rs`) -/

/-- `struct SubstitutionExponent`, `mod.rs` lines 88-94. -/
structure SubstExponent where
  exponent : Nat
  ctx : Context
  powerBitrev : List Nat
deriving DecidableEq, Repr

/-- The `map` of `mod.rs` lines 109-114: `left` elements remain, `power` is the running value.  `power += exponent` is checked
arithmetic on `usize`. -/
def substPowers (degree exponent : Nat) : (left power : Nat) → Panics (List Nat)
  | 0, _ => some []
  | left + 1, power => do
    let r := revBits 64 (power &&& (degree - 1)) >>> (lz64 degree + 1)
    let power ← add64 power exponent
    let rest ← substPowers degree exponent left power
    return r :: rest

/-- `SubstitutionExponent::new`, `mod.rs` lines 99-121. -/
def SubstExponent.new (ctx : Context) (exponent : Nat) : Panics (Except MathError SubstExponent) := do
  let d ← mul64 2 ctx.degree
  check (d ≠ 0)
  let exponent := exponent % d
  if exponent &&& 1 = 0 then return .error (.invalidSubstitutionExponent exponent ctx.degree)
  else do
    let powerBitrev ← substPowers ctx.degree exponent ctx.degree ((exponent - 1) / 2)
    return .ok { exponent, ctx, powerBitrev }

/-! ## Polynomials (`mod.rs`) -/

/-- `struct Poly<R>`, `mod.rs` lines 126-133. -/
structure Poly (r : Rep) where
  ctx : Context
  hasLazy : Bool
  vt : Bool
  coeffs : List (List Nat)
  shoup : Option (List (List Nat))
deriving DecidableEq, Repr

/-- `izip!(rows.outer_iter_mut(), l)` with an update of the row: rows beyond the length of `l` are left untouched.  For example
`/repo/crates/fhe-math/src/rq/mod.rs` lines 263, 283 and 337. -/
def zipRows {β : Type} (f : List Nat → β → Panics (List Nat)) : List (List Nat) → List β → Panics (List (List Nat))
  | r :: rs, x :: xs => do
    let r' ← f r x
    let rs' ← zipRows f rs xs
    return r' :: rs'
  | rs, _ => some rs

/-- Column `j` of a matrix (`axis_iter(Axis(1))`).  `/repo/crates/fhe-math/src/rq/convert.rs` lines 509, 517 and 525. -/
def column (rows : List (List Nat)) (j : Nat) : Panics (List Nat) := rows.mapM fun r => r[j]?
/-- All columns of a matrix with `n` columns.  `/repo/crates/fhe-math/src/rq/scaler.rs` lines 88-89. -/
def columns (n : Nat) (rows : List (List Nat)) : Panics (List (List Nat)) := (List.range n).mapM (column rows)
/-- A zero matrix, `Array2::zeros`.  For example `/repo/crates/fhe-math/src/rq/mod.rs` lines 192 and 200. -/
def zeroRows (rows cols : Nat) : List (List Nat) := List.replicate rows (List.replicate cols 0)

namespace Poly
variable {r : Rep}

/-- `PartialEq for Poly`, `mod.rs` lines 135-144: the timing flag is ignored. -/
def beq (a b : Poly r) : Bool :=
  decide (a.ctx = b.ctx) && a.hasLazy == b.hasLazy && a.coeffs == b.coeffs && a.shoup == b.shoup

/-- `zero`, `mod.rs` lines 189-204. -/
def zero (r : Rep) (ctx : Context) : Poly r :=
  { ctx, hasLazy := false, vt := false, coeffs := zeroRows ctx.q.length ctx.degree
    shoup := if r = .nttShoup then some (zeroRows ctx.q.length ctx.degree) else none }

/-- `allow_variable_time_computations`, `mod.rs` lines 211-213. -/
def allowVt (p : Poly r) : Poly r := { p with vt := true }
/-- `disallow_variable_time_computations`, `mod.rs` lines 222-224. -/
def disallowVt (p : Poly r) : Poly r := { p with vt := false }

/-- `compute_coefficients_shoup`, `mod.rs` lines 244-258. -/
def computeShoup (p : Poly r) : Panics (Poly r) := do
  let s ← zipRows (fun v (qi : Modulus) => qi.shoupVec v) p.coeffs p.ctx.q
  return { p with shoup := some s }

/-- `from_parts`, `mod.rs` lines 630-658. -/
def fromParts {s : Rep} (r : Rep) (p : Poly s) : Panics (Poly r) := do
  if r = .nttShoup then
    match p.shoup with
    | none => do
      let p ← p.computeShoup
      return { ctx := p.ctx, hasLazy := p.hasLazy, vt := p.vt, coeffs := p.coeffs, shoup := p.shoup }
    | some t => return { ctx := p.ctx, hasLazy := p.hasLazy, vt := p.vt, coeffs := p.coeffs, shoup := some t }
  else return { ctx := p.ctx, hasLazy := p.hasLazy, vt := p.vt, coeffs := p.coeffs, shoup := none }

/-- The transform selected by the timing flag, `mod.rs` lines 336-342. -/
def fwdRow (vt : Bool) (v : List Nat) (op : NttOperator) : Panics (List Nat) := if vt then op.forwardVt v else op.forward v
/-- The transform selected by the timing flag, `mod.rs` lines 347-353. -/
def bwdRow (vt : Bool) (v : List Nat) (op : NttOperator) : Panics (List Nat) := if vt then op.backwardVt v else op.backward v

/-- `ntt_forward`, `mod.rs` lines 335-343. -/
def nttForward (p : Poly r) : Panics (Poly r) := do
  return { p with coeffs := ← zipRows (fwdRow p.vt) p.coeffs p.ctx.ops }
/-- `ntt_backward`, `mod.rs` lines 346-354. -/
def nttBackward (p : Poly r) : Panics (Poly r) := do
  return { p with coeffs := ← zipRows (bwdRow p.vt) p.coeffs p.ctx.ops }

/-- `Poly<PowerBasis>::into_ntt`, `mod.rs` lines 535-538. -/
def intoNtt (p : Poly .powerBasis) : Panics (Poly .ntt) := do fromParts .ntt (← p.nttForward)
/-- `Poly<PowerBasis>::into_ntt_shoup`, `mod.rs` lines 542-546. -/
def intoNttShoup (p : Poly .powerBasis) : Panics (Poly .nttShoup) := do fromParts .nttShoup (← (← p.nttForward).computeShoup)
/-- `Poly<Ntt>::into_power_basis`, `mod.rs` lines 590-593. -/
def nttToPowerBasis (p : Poly .ntt) : Panics (Poly .powerBasis) := do fromParts .powerBasis (← p.nttBackward)
/-- `Poly<Ntt>::into_ntt_shoup`, `mod.rs` lines 597-600. -/
def nttToShoup (p : Poly .ntt) : Panics (Poly .nttShoup) := do fromParts .nttShoup (← p.computeShoup)
/-- `Poly<NttShoup>::into_ntt`, `mod.rs` lines 612-616. -/
def shoupToNtt (p : Poly .nttShoup) : Panics (Poly .ntt) := fromParts .ntt ({ p with shoup := none } : Poly .nttShoup)
/-- `Poly<NttShoup>::into_power_basis`, `mod.rs` lines 620-625. -/
def shoupToPowerBasis (p : Poly .nttShoup) : Panics (Poly .powerBasis) := do
  fromParts .powerBasis (← ({ p with shoup := none } : Poly .nttShoup).nttBackward)

/-- The conversion to the power basis for any representation: `to_power_basis`, `mod.rs` lines 424-426, 552-554, 606-608. -/
def toPowerBasis : {r : Rep} → Poly r → Panics (Poly .powerBasis)
  | .powerBasis, p => some p
  | .ntt, p => p.nttToPowerBasis
  | .nttShoup, p => p.shoupToPowerBasis

/-- `create_constant_ntt_polynomial_with_lazy_coefficients_and_variable_time`, `mod.rs` lines 563-586. `clone_from_slice`
panics when the lengths differ. -/
def constantNttLazyVt (coeffs : List Nat) (ctx : Context) : Panics (Poly .ntt) := do
  let rows ← zipRows (fun row (qo : Modulus × NttOperator) => do
      check (row.length = coeffs.length)
      qo.2.forwardVtLazy (← qo.1.lazyReduceVec coeffs))
    (zeroRows ctx.q.length ctx.degree) (ctx.q.zip ctx.ops)
  return { ctx, hasLazy := true, vt := true, coeffs := rows, shoup := none }

/-! ### Substitution, `mod.rs` lines 360-412 -/

/-- `q_row[*j] = p_row[*k]` for `(j, k)` in the zipped index lists, `mod.rs` lines 374-376 and 384-386; out of range panics. -/
def permRow (row : List Nat) : List Nat → List Nat → List Nat → Panics (List Nat)
  | j :: js, k :: ks, out => do
    let v ← row[k]?
    check (j < out.length)
    permRow row js ks (out.set j v)
  | _, _, out => some out

/-- The sign in `mod.rs` lines 399-404. -/
def substSign (degree power : Nat) (qi : Modulus) (x y : Nat) : Panics Nat :=
  if power &&& degree ≠ 0 then qi.sub x y else qi.add x y

/-- The update of one row in `mod.rs` lines 395-406: entry `power & mask` of the output gets `±` entry `j` of the input. -/
def substCell (degree power j : Nat) (outRow : List Nat) (qp : Modulus × List Nat) : Panics (List Nat) := do
  let i := power &&& (degree - 1)
  let x ← outRow[i]?
  let y ← qp.2[j]?
  let v ← substSign degree power qp.1 x y
  return outRow.set i v

/-- The loop of `mod.rs` lines 393-407; `left` iterations remain. -/
def substLoop (degree exponent : Nat) (q : List Modulus) (rows : List (List Nat)) :
    (left j power : Nat) → List (List Nat) → Panics (List (List Nat))
  | 0, _, _, out => some out
  | left + 1, j, power, out => do
    let out ← zipRows (substCell degree power j) out (q.zip rows)
    let power ← add64 power exponent
    substLoop degree exponent q rows left (j + 1) power out

/-- The rows of the result of `substitute` in the power basis, `mod.rs` lines 390-408. -/
def substPowerBasis (p : Poly r) (e : SubstExponent) : Panics (List (List Nat)) :=
  substLoop p.ctx.degree e.exponent p.ctx.q p.coeffs p.ctx.degree 0 0 (zeroRows p.ctx.q.length p.ctx.degree)

/-- The rows of the result of `substitute` in an NTT representation, `mod.rs` lines 369-377. -/
def substNtt (ctx : Context) (e : SubstExponent) (rows : List (List Nat)) : Panics (List (List Nat)) :=
  zipRows (fun out row => permRow row ctx.bitrev e.powerBitrev out) (zeroRows ctx.q.length ctx.degree) rows

/-- `substitute`, `mod.rs` lines 360-412. -/
def substitute (p : Poly r) (e : SubstExponent) : Panics (Poly r) := do
  let z := Poly.zero r p.ctx
  match r with
  | .powerBasis => return { z with vt := p.vt, coeffs := ← p.substPowerBasis e }
  | .ntt => return { z with vt := p.vt, coeffs := ← substNtt p.ctx e p.coeffs }
  | .nttShoup => do
    let c ← substNtt p.ctx e p.coeffs
    let s ← substNtt p.ctx e (← p.shoup)
    return { z with vt := p.vt, coeffs := c, shoup := some s }

/-! ### Modulus switching, `mod.rs` lines 433-507 -/

/-- One coefficient, `mod.rs` lines 472-480. -/
def switchDownCoeff (qi : Modulus) (inv invShoup halfMod coeff lastCoeff : Nat) : Panics Nat := do
  let tmp ← add64 (← qi.lazyReduce lastCoeff) halfMod
  let t ← subU (← mul64 3 qi.p) tmp
  let c ← add64 coeff t
  qi.mulShoup c inv invShoup

/-- `reduce_vt` or `reduce` according to the timing flag, `mod.rs` lines 463-467. -/
def reduceSel (vt : Bool) (qi : Modulus) (x : Nat) : Panics Nat := if vt then qi.reduceVt x else qi.reduce x

/-- One row, `mod.rs` lines 462-482. -/
def switchDownRow (vt : Bool) (half : Nat) (last : List Nat) (row : List Nat) (x : Modulus × Nat × Nat) : Panics (List Nat) := do
  let h ← subU x.1.p (← reduceSel vt x.1 half)
  Modulus.zipAssign (switchDownCoeff x.1 x.2.1 x.2.2 h) row last

/-- `switch_down`, `mod.rs` lines 433-492. -/
def switchDown (p : Poly .powerBasis) : Panics (Except MathError (Poly .powerBasis)) := do
  match p.ctx.next with
  | none => return .error .noMoreContext
  | some next => do
    let qLast ← p.ctx.q.getLast?
    let half := qLast.p / 2
    let n ← subU p.ctx.q.length 1
    let lastRow ← p.coeffs[n]?
    let last ← lastRow.mapM fun c => if p.vt then qLast.addVt c half else qLast.add c half
    let rows ← zipRows (switchDownRow p.vt half last) (p.coeffs.take n) (p.ctx.q.zip (p.ctx.invLast.zip p.ctx.invLastShoup))
    return .ok { p with ctx := next, coeffs := rows }

/-- The loop of `switch_down_to`, `mod.rs` lines 500-502. -/
def switchDownLoop : Nat → Poly .powerBasis → Panics (Except MathError (Poly .powerBasis))
  | 0, p => some (.ok p)
  | n + 1, p => do
    match ← p.switchDown with
    | .error e => return .error e
    | .ok p => switchDownLoop n p

/-- `switch_down_to`, `mod.rs` lines 498-507. -/
def switchDownTo (p : Poly .powerBasis) (target : Context) : Panics (Except MathError (Poly .powerBasis)) := do
  match p.ctx.niterationsTo target with
  | .error e => return .error e
  | .ok n => do
    match ← switchDownLoop n p with
    | .error e => return .error e
    | .ok p => if p.ctx ≠ target then return .error .contextNotReachable else return .ok p

/-! ### Multiplication by `x^(-power)`, `mod.rs` lines 510-531 -/

/-- The sign in `mod.rs` lines 522-526. -/
def shiftSign (degree index : Nat) (qi : Modulus) (x : Nat) : Panics Nat := if index &&& degree = 0 then some x else qi.neg x

/-- The loop of `mod.rs` lines 520-527; `left` iterations remain. -/
def shiftLoop (degree shift : Nat) (qi : Modulus) (row : List Nat) : (left k : Nat) → List Nat → Panics (List Nat)
  | 0, _, out => some out
  | left + 1, k, out => do
    let index ← add64 shift k
    let i := index &&& (degree - 1)
    let x ← row[k]?
    let v ← shiftSign degree index qi x
    check (i < out.length)
    shiftLoop degree shift qi row left (k + 1) (out.set i v)

/-- `multiply_inverse_power_of_x`, `mod.rs` lines 510-531. -/
def multiplyInversePowerOfX (p : Poly .powerBasis) (power : Nat) : Panics (Poly .powerBasis) := do
  let d2 := p.ctx.degree <<< 1
  check (d2 < 2 ^ 64 ∧ d2 ≠ 0)
  let shift := (← subU d2 power) % d2
  let rows ← zipRows (fun out (x : List Nat × Modulus) => shiftLoop p.ctx.degree shift x.2 x.1 p.ctx.degree 0 out)
    (zeroRows p.ctx.q.length p.ctx.degree) (p.coeffs.zip p.ctx.q)
  return { p with coeffs := rows }

/-! ### Arithmetic (`ops.rs`) -/

/-- `AddAssign` for `Poly<PowerBasis>` (`ops.rs` lines 10-36) and `Poly<Ntt>` (lines 92-118); the same code. -/
def addAssign (a p : Poly r) : Panics (Poly r) := do
  check (a.hasLazy = false ∧ p.hasLazy = false)
  check (a.ctx = p.ctx)
  let vt := a.vt && p.vt
  let rows ← zipRows (fun v1 (x : List Nat × Modulus) => if vt then x.2.addVecVt v1 x.1 else x.2.addVec v1 x.1)
    a.coeffs (p.coeffs.zip a.ctx.q)
  return { a with vt := vt, coeffs := rows }

/-- `SubAssign` for `Poly<PowerBasis>` (`ops.rs` lines 55-81) and `Poly<Ntt>` (lines 137-163); the same code. -/
def subAssign (a p : Poly r) : Panics (Poly r) := do
  check (a.hasLazy = false ∧ p.hasLazy = false)
  check (a.ctx = p.ctx)
  let vt := a.vt && p.vt
  let rows ← zipRows (fun v1 (x : List Nat × Modulus) => if vt then x.2.subVecVt v1 x.1 else x.2.subVec v1 x.1)
    a.coeffs (p.coeffs.zip a.ctx.q)
  return { a with vt := vt, coeffs := rows }

/-- `MulAssign<&Poly<Ntt>> for Poly<Ntt>`, `ops.rs` lines 174-206. -/
def mulAssign (a p : Poly .ntt) : Panics (Poly .ntt) := do
  check (p.hasLazy = false)
  check (a.hasLazy = false)
  check (a.ctx = p.ctx)
  let vt := a.vt && p.vt
  let rows ← zipRows (fun v1 (x : List Nat × Modulus) => if vt then x.2.mulVecVt v1 x.1 else x.2.mulVec v1 x.1)
    a.coeffs (p.coeffs.zip a.ctx.q)
  return { a with vt := vt, coeffs := rows }

/-- `MulAssign<&Poly<NttShoup>> for Poly<Ntt>`, `ops.rs` lines 208-245. -/
def mulAssignShoup (a : Poly .ntt) (p : Poly .nttShoup) : Panics (Poly .ntt) := do
  check (p.hasLazy = false)
  check (a.ctx = p.ctx)
  let vt := a.vt && p.vt
  let ps ← p.shoup
  let rows ← zipRows (fun v1 (x : List Nat × List Nat × Modulus) =>
      if vt then x.2.2.mulShoupVecVt v1 x.1 x.2.1 else x.2.2.mulShoupVec v1 x.1 x.2.1)
    a.coeffs (p.coeffs.zip (ps.zip a.ctx.q))
  return { a with vt := vt, coeffs := rows, hasLazy := false }

/-- `MulAssign<&BigUint>` for `Poly<Ntt>` (`ops.rs` lines 297-324) and `Poly<PowerBasis>` (lines 326-352); the same code. -/
def mulScalar (a : Poly r) (s : Nat) : Panics (Poly r) := do
  let crt ← a.ctx.rns.project s
  let rows ← zipRows (fun v1 (x : Nat × Modulus) => if a.vt then x.2.scalarMulVecVt v1 x.1 else x.2.scalarMulVec v1 x.1)
    a.coeffs (crt.zip a.ctx.q)
  return { a with coeffs := rows }

/-- `Neg` for `&Poly<Ntt>`, `&Poly<PowerBasis>`, `Poly<Ntt>`, `Poly<PowerBasis>`: `ops.rs` lines 354-418; the same code. -/
def neg (a : Poly r) : Panics (Poly r) := do
  check (a.hasLazy = false)
  let rows ← zipRows (fun v1 (qi : Modulus) => if a.vt then qi.negVecVt v1 else qi.negVec v1) a.coeffs a.ctx.q
  return { a with coeffs := rows }

/-! ### Dot product, `ops.rs` lines 420-570 -/

/-- `*out += x * y` over zipped slices, `ops.rs` lines 435-437 and 441-443. -/
def fmaZip : List Nat → List Nat → List Nat → Panics (List Nat)
  | o :: os, x :: xs, y :: ys => do
    let o' ← add128 o (← mul128 x y)
    let rest ← fmaZip os xs ys
    return o' :: rest
  | os, _, _ => some os

/-- `fma` after its assertions, `ops.rs` lines 430-443: chunks of 16 and a remainder. -/
def fmaChunks (out x y : List Nat) : Panics (List Nat) :=
  if _h : 16 ≤ out.length ∧ 16 ≤ x.length ∧ 16 ≤ y.length then do
    let c ← fmaZip (out.take 16) (x.take 16) (y.take 16)
    let cs ← fmaChunks (out.drop 16) (x.drop 16) (y.drop 16)
    return c ++ cs
  else fmaZip out x y
termination_by out.length
decreasing_by simp [List.length_drop]; omega

/-- `fma`, `ops.rs` lines 424-444. -/
def fma (out x y : List Nat) : Panics (List Nat) := do
  check (x.length = out.length)
  check (y.length = out.length)
  fmaChunks out x y

/-- `reduce_u128` or `reduce_u128_vt`, `ops.rs` lines 520-528 and 553-559. -/
def dotReduce (vt : Bool) (qj : Modulus) (x : Nat) : Panics Nat := if vt then qj.reduceU128Vt x else qj.reduceU128 x

/-- The loop of `ops.rs` lines 516-531 from index `j` on: the moduli, limits and counters not yet visited; returns the accumulator
and the new counters. -/
def dotStep (vt : Bool) (degree : Nat) : (j : Nat) → (q : List Modulus) → (maxAcc numAcc : List Nat) → List Nat → Panics (List Nat × List Nat)
  | j, qj :: q, mx :: maxAcc, n :: numAcc, acc => do
    let n ← add128 n 1
    if n = mx then do
      let seg ← ((acc.drop (j * degree)).take degree).mapM (dotReduce vt qj)
      let acc := acc.take (j * degree) ++ seg ++ acc.drop ((j + 1) * degree)
      let (acc, rest) ← dotStep vt degree (j + 1) q maxAcc numAcc acc
      return (acc, 1 :: rest)
    else do
      let (acc, rest) ← dotStep vt degree (j + 1) q maxAcc numAcc acc
      return (acc, n :: rest)
  | _, _, _, _, acc => some (acc, [])

/-- The loop of `ops.rs` lines 504-533. -/
def dotLoop (vt : Bool) (degree : Nat) (q : List Modulus) (maxAcc : List Nat) :
    List (Poly .ntt × Poly .ntt) → (numAcc acc : List Nat) → Panics (List Nat)
  | [], _, acc => some acc
  | (pi, qi) :: rest, numAcc, acc => do
    let acc ← fma acc pi.coeffs.flatten qi.coeffs.flatten
    let (acc, numAcc) ← dotStep vt degree 0 q maxAcc numAcc acc
    dotLoop vt degree q maxAcc rest numAcc acc

/-- The loop of `ops.rs` lines 537-543. -/
def dotLoopPlain : List (Poly .ntt × Poly .ntt) → List Nat → Panics (List Nat)
  | [], acc => some acc
  | (pi, qi) :: rest, acc => do dotLoopPlain rest (← fma acc pi.coeffs.flatten qi.coeffs.flatten)

/-- `acc.outer_iter()`: consecutive rows of length `degree`.  `/repo/crates/fhe-math/src/rq/ops.rs` line 549. -/
def splitRows (degree : Nat) : (rows : Nat) → List Nat → List (List Nat)
  | 0, _ => []
  | n + 1, l => l.take degree :: splitRows degree n (l.drop degree)

/-- `1u128 << (2 * leading_zeros)`, `ops.rs` line 493; the shift amount must be below 128. -/
def maxAccOf (qi : Modulus) : Panics Nat := do
  check (2 * lz64 qi.p < 128)
  return shl128 1 (2 * lz64 qi.p)

/-- The two ways of accumulating, `ops.rs` lines 500-544. -/
def dotAcc (vt : Bool) (c : Context) (maxAcc : List Nat) (minOfMax : Nat) (pq : List (Poly .ntt × Poly .ntt)) : Panics (List Nat) :=
  if pq.length > minOfMax then
    dotLoop vt c.degree c.q maxAcc pq (List.replicate c.q.length 1) (List.replicate (c.q.length * c.degree) 0)
  else dotLoopPlain pq (List.replicate (c.q.length * c.degree) 0)

/-- `dot_product`, `ops.rs` lines 449-570. -/
def dotProduct (p q : List (Poly .ntt)) : Panics (Except MathError (Poly .ntt)) :=
  if p.length = 0 ∨ q.length = 0 then some (.error .emptyDotProduct)
  else if p.length ≠ q.length then some (.error (.dotProductLengthMismatch p.length q.length))
  else match p with
  | [] => some (.error .emptyDotProduct)
  | first :: _ =>
    if (p.any fun x => x.ctx ≠ first.ctx) ∨ (q.any fun x => x.ctx ≠ first.ctx) then some (.error .polynomialContextMismatch)
    else do
      let vt := (p.zip q).all fun x => x.1.vt && x.2.vt
      let c := first.ctx
      let maxAcc ← c.q.mapM maxAccOf
      let minOfMax ← maxAcc.min?
      let acc ← dotAcc vt c maxAcc minOfMax (p.zip q)
      let rows ← ((splitRows c.degree c.q.length acc).zip c.q).mapM fun x => x.1.mapM (dotReduce vt x.2)
      return .ok { ctx := c, vt, coeffs := rows, shoup := none, hasLazy := false }

/-! ### Conversions (`convert.rs`) -/

/-- `Array2::from_shape_vec((rows, cols), v)`.  `/repo/crates/fhe-math/src/rq/convert.rs` lines 151, 198 and 221. -/
def fromShapeVec (rows cols : Nat) (v : List Nat) : Option (List (List Nat)) :=
  if v.length = rows * cols then some (splitRows cols rows v) else none

/-- `wi[..v.len()].copy_from_slice(&v)`: panics when `v` is longer.  `/repo/crates/fhe-math/src/rq/convert.rs` lines 167, 178, 341 and 343. -/
def copyPrefix (w v : List Nat) : Panics (List Nat) := do
  check (v.length ≤ w.length)
  return v ++ w.drop v.length

/-- `TryConvertFrom<Vec<u64>> for Poly<PowerBasis>`, `convert.rs` lines 148-193.  The wrappers for `&[u64]`, `&Vec<u64>` and
`&[u64; N]` (lines 311-315, 402-406, 420-424) call it. -/
def tryFromU64 (v : List Nat) (ctx : Context) (vt : Bool) : Panics (Except MathError (Poly .powerBasis)) :=
  if v.length = ctx.q.length * ctx.degree then do
    let coeffs ← fromShapeVec ctx.q.length ctx.degree v
    return .ok { ctx, vt, coeffs, shoup := none, hasLazy := false }
  else if v.length ≤ ctx.degree then do
    let out := Poly.zero .powerBasis ctx
    let rows ← zipRows (fun w (qi : Modulus) => do
      let wi ← copyPrefix w v
      if vt then qi.reduceVecVt wi else qi.reduceVec wi) out.coeffs ctx.q
    return .ok { out with coeffs := rows, vt := vt }
  else some (.error (.invalidCoefficientCount v.length ctx.degree ctx.q.length))

/-- `TryConvertFrom<Vec<u64>> for Poly<Ntt>`, `convert.rs` lines 195-216. -/
def tryFromU64Ntt (v : List Nat) (ctx : Context) (vt : Bool) : Panics (Except MathError (Poly .ntt)) :=
  match fromShapeVec ctx.q.length ctx.degree v with
  | some coeffs => some (.ok { ctx, vt, coeffs, shoup := none, hasLazy := false })
  | none => some (.error (.invalidCoefficientCount v.length ctx.degree ctx.q.length))

/-- `TryConvertFrom<Vec<u64>> for Poly<NttShoup>`, `convert.rs` lines 218-241. -/
def tryFromU64NttShoup (v : List Nat) (ctx : Context) (vt : Bool) : Panics (Except MathError (Poly .nttShoup)) :=
  match fromShapeVec ctx.q.length ctx.degree v with
  | some coeffs => do
    let p ← ({ ctx, vt, coeffs, shoup := none, hasLazy := false } : Poly .nttShoup).computeShoup
    return .ok p
  | none => some (.error (.invalidCoefficientCount v.length ctx.degree ctx.q.length))

/-- `TryConvertFrom<&[i64]> for Poly<PowerBasis>`, `convert.rs` lines 329-354 (and the wrappers, lines 356-360, 468-472). -/
def tryFromI64 (v : List Int) (ctx : Context) (vt : Bool) : Panics (Except MathError (Poly .powerBasis)) :=
  if v.length ≤ ctx.degree then do
    let out := Poly.zero .powerBasis ctx
    let rows ← zipRows (fun w (qi : Modulus) => do
      copyPrefix w (← if vt then qi.reduceVecI64Vt v else qi.reduceVecI64 v)) out.coeffs ctx.q
    return .ok { out with coeffs := rows, vt := vt }
  else some (.error (.tooManyCoefficients v.length ctx.degree))

/-- `c.assign(column)` for the zipped columns, `convert.rs` lines 370-374: column `j` of a zero matrix is overwritten by the
`j`-th list, which has one entry per row. -/
def assignColumns (rows cols : Nat) (l : List (List Nat)) : Panics (List (List Nat)) := do
  check (∀ c ∈ l, c.length = rows)
  (List.range rows).mapM fun i => do copyPrefix (List.replicate cols 0) (← l.mapM fun c => c[i]?)

/-- `TryConvertFrom<&[BigUint]> for Poly<PowerBasis>`, `convert.rs` lines 362-386 (and the wrapper, lines 438-446). -/
def tryFromBigUint (v : List Nat) (ctx : Context) (vt : Bool) : Panics (Except MathError (Poly .powerBasis)) :=
  if v.length > ctx.degree then some (.error (.tooManyCoefficients v.length ctx.degree))
  else do
    let cols ← v.mapM ctx.rns.project
    let coeffs ← assignColumns ctx.q.length ctx.degree cols
    return .ok { ctx, vt, coeffs, shoup := none, hasLazy := false }

/-- `TryConvertFrom<&[BigUint]> for Poly<Ntt>`, `convert.rs` lines 388-393. -/
def tryFromBigUintNtt (v : List Nat) (ctx : Context) (vt : Bool) : Panics (Except MathError (Poly .ntt)) := do
  match ← tryFromBigUint v ctx vt with
  | .error e => return .error e
  | .ok p => return .ok (← p.intoNtt)

/-- `TryConvertFrom<&[BigUint]> for Poly<NttShoup>`, `convert.rs` lines 395-400. -/
def tryFromBigUintNttShoup (v : List Nat) (ctx : Context) (vt : Bool) : Panics (Except MathError (Poly .nttShoup)) := do
  match ← tryFromBigUint v ctx vt with
  | .error e => return .error e
  | .ok p => return .ok (← p.intoNttShoup)

/-- `From<&Poly<R>> for Vec<u64>`, `convert.rs` lines 474-505. -/
def toU64 (p : Poly r) : List Nat := p.coeffs.flatten

/-- `From<&Poly<PowerBasis>> for Vec<BigUint>` (and the same code for `Poly<Ntt>`, `Poly<NttShoup>`), `convert.rs` lines 507-529. -/
def toBigUint (p : Poly r) : Panics (List Nat) := do
  (← columns p.ctx.degree p.coeffs).mapM p.ctx.rns.lift

/-- `small` for `Poly<PowerBasis>`, `mod.rs` lines 298-326; `rng` is the stream of 64-bit words of the generator.  The two error
paths return the same error. -/
def smallPowerBasis (ctx : Context) (variance : Nat) (rng : Nat → Nat) : Panics (Except MathError (Poly .powerBasis)) := do
  if ¬ (1 ≤ variance ∧ variance ≤ 32) then return .error (.invalidVariance variance)
  else
    match ← sampleVecCbd ctx.degree variance rng with
    | .error () => return .error (.invalidVariance variance)
    | .ok (coeffs, _) => tryFromI64 coeffs ctx false

/-- `small` for `Poly<Ntt>`, `mod.rs` lines 321-322. -/
def smallNtt (ctx : Context) (variance : Nat) (rng : Nat → Nat) : Panics (Except MathError (Poly .ntt)) := do
  match ← smallPowerBasis ctx variance rng with
  | .error e => return .error e
  | .ok p => return .ok (← p.intoNtt)

/-- `small` for `Poly<NttShoup>`, `mod.rs` lines 323-324. -/
def smallNttShoup (ctx : Context) (variance : Nat) (rng : Nat → Nat) : Panics (Except MathError (Poly .nttShoup)) := do
  match ← smallPowerBasis ctx variance rng with
  | .error e => return .error e
  | .ok p => return .ok (← p.intoNttShoup)

/-- `random` and `random_from_seed`, `mod.rs` lines 261-292.  `rows` are the vectors that the sampler `random_vec` (not modelled)
returns for the moduli in order. -/
def random (r : Rep) (ctx : Context) (rows : List (List Nat)) : Panics (Poly r) := do
  let p := Poly.zero r ctx
  let rows ← zipRows (fun w v => do check (v.length = w.length); return v) p.coeffs rows
  if r = .nttShoup then computeShoup { p with coeffs := rows } else return { p with coeffs := rows }

end Poly

/-! ## Serialization (`convert.rs`, `serialize.rs`) -/

/-- The protobuf message `Rq`, `/repo/crates/fhe-math/src/proto/rq.proto` lines 12-17. -/
structure RqMsg where
  representation : Int
  degree : Nat
  coefficients : List Nat
  allowVariableTime : Bool
deriving DecidableEq, Repr

namespace RqMsg

/-- The fields of the message, `proto/rq.proto` lines 12-17. -/
def toFields (m : RqMsg) : List Wire.Field :=
  Wire.scalar 1 (Wire.ofI32 m.representation) ++ Wire.scalar 2 m.degree ++ Wire.bytesField 3 m.coefficients ++ Wire.scalar 4 m.allowVariableTime.toNat

/-- A field that is read, `proto/rq.proto` lines 12-17: the last value counts, unknown fields are ignored. -/
def merge (m : RqMsg) : Wire.Field → Option RqMsg
  | (1, .varint n) => some { m with representation := Wire.asI32 n }
  | (2, .varint n) => some { m with degree := Wire.asU32 n }
  | (3, .len p) => some { m with coefficients := p }
  | (4, .varint n) => some { m with allowVariableTime := n != 0 }
  | (t, _) => if t ≤ 4 then none else some m

/-- `encode_to_vec`, `serialize.rs` line 12. -/
def encode (m : RqMsg) : List Nat := Wire.encode m.toFields
/-- `Message::decode`, `serialize.rs` line 24. -/
def decode (bytes : List Nat) : Option RqMsg := Wire.decode merge ⟨0, 0, [], false⟩ Wire.maxDepth bytes

end RqMsg

/-- `RepresentationProto`, `proto/rq.proto` lines 5-10. -/
def Rep.toProto : Rep → Int
  | .powerBasis => 1
  | .ntt => 2
  | .nttShoup => 3

namespace Poly
variable {r : Rep}

/-- `From<&Poly<R>> for Rq`, `convert.rs` lines 17-44. -/
def toRq (p : Poly r) : Panics RqMsg := do
  check (p.hasLazy = false)
  let q ← p.toPowerBasis
  let ser ← (q.coeffs.zip p.ctx.q).mapM fun x => x.2.serializeVec x.1
  return { representation := r.toProto, coefficients := ser.flatten, degree := p.ctx.degree % 2 ^ 32, allowVariableTime := false }

/-- Lines 82-92 of `convert.rs`: the moduli not yet visited and the current index. -/
def parseRows (degree : Nat) (bytes : List Nat) : (q : List Modulus) → (index : Nat) → Panics (List Nat)
  | [], _ => some []
  | qi :: q, index => do
    let size ← qi.serializationLength degree
    check (index + size ≤ bytes.length)
    let v ← qi.deserializeVec ((bytes.drop index).take size)
    let rest ← parseRows degree bytes q (index + size)
    return v ++ rest

/-- `parse_proto`, `convert.rs` lines 46-99.  Error 1: invalid or unknown representation; 2: invalid degree; 3: invalid count. -/
def parseProto (m : RqMsg) (ctx : Context) : Panics (Except MathError (Rep × List Nat)) := do
  let repr : Option Rep := if m.representation = 1 then some .powerBasis else if m.representation = 2 then some .ntt
    else if m.representation = 3 then some .nttShoup else none
  match repr with
  | none => return .error (.serialization 1)
  | some repr =>
    if m.degree % 8 ≠ 0 ∨ m.degree < 8 then return .error (.serialization 2)
    else do
      let lens ← ctx.q.mapM fun qi => qi.serializationLength m.degree
      if m.coefficients.length ≠ lens.sum then return .error (.serialization 3)
      else return .ok (repr, ← parseRows m.degree m.coefficients ctx.q 0)

/-- The final conversion of `convert.rs` lines 112-113, 128-129 and 144-145. -/
def ofPowerBasis : (r : Rep) → Poly .powerBasis → Panics (Poly r)
  | .powerBasis, p => some p
  | .ntt, p => p.intoNtt
  | .nttShoup, p => p.intoNttShoup

/-- `TryConvertFrom<&Rq>` for the three representations, `convert.rs` lines 101-146.  Error 4: representation mismatch. -/
def fromRq (r : Rep) (m : RqMsg) (ctx : Context) (vt : Bool) : Panics (Except MathError (Poly r)) := do
  match ← parseProto m ctx with
  | .error e => return .error e
  | .ok (repr, coeffs) =>
    if repr ≠ r then return .error (.serialization 4)
    else do
      match ← tryFromU64 coeffs ctx vt with
      | .error e => return .error e
      | .ok p => return .ok (← ofPowerBasis r p)

/-- `to_bytes`, `serialize.rs` lines 11-13. -/
def toBytes (p : Poly r) : Panics (List Nat) := do return (← p.toRq).encode

/-- `from_bytes`, `serialize.rs` lines 23-26.  Error 0: the bytes are not a message. -/
def fromBytes (r : Rep) (bytes : List Nat) (ctx : Context) : Panics (Except MathError (Poly r)) :=
  match RqMsg.decode bytes with
  | none => some (.error (.serialization 0))
  | some m => fromRq r m ctx false

end Poly

/-! ## Scaling (`scaler.rs`, `switcher.rs`) -/

/-- `struct Scaler`, `scaler.rs` lines 18-23. -/
structure Scaler where
  src : Context
  dst : Context
  ncommon : Nat
  scaler : RnsScaler
deriving DecidableEq, Repr

namespace Scaler

/-- `Scaler::new`, `scaler.rs` lines 27-52. -/
def new (src dst : Context) (factor : ScalingFactor) : Panics (Except MathError Scaler) :=
  if src.degree ≠ dst.degree then some (.error (.degreeMismatch src.degree dst.degree))
  else do
    let ncommon := if factor.isOne then ((src.q.zip dst.q).takeWhile fun x => x.1 = x.2).length else 0
    let scaler ← RnsScaler.new src.rns dst.rns factor
    return .ok { src, dst, ncommon, scaler }

/-- The rows of `p` in the power basis, `scaler.rs` lines 68-82. -/
def sourceRows {r : Rep} (p : Poly r) : Panics (List (List Nat)) :=
  if r = .powerBasis then some p.coeffs else zipRows (Poly.bwdRow p.vt) p.coeffs p.ctx.ops

/-- The transform of the new rows, `scaler.rs` lines 96-115. -/
def targetRows (r : Rep) (vt : Bool) (rows : List (List Nat)) (ops : List NttOperator) : Panics (List (List Nat)) :=
  if r = .powerBasis then some rows else zipRows (Poly.fwdRow vt) rows ops

/-- `scale`, `scaler.rs` lines 55-127 (`ScaleRepresentation` is implemented for the power basis and for `Ntt`). -/
def scale {r : Rep} (s : Scaler) (p : Poly r) : Panics (Except MathError (Poly r)) :=
  if p.ctx ≠ s.src then some (.error .polynomialContextMismatch)
  else if s.ncommon < s.dst.q.length then do
    let rows ← sourceRows p
    let cols ← columns p.ctx.degree rows
    let newCols ← cols.mapM fun c => s.scaler.scale c (s.dst.q.length - s.ncommon) s.ncommon
    let newRows ← (List.range (s.dst.q.length - s.ncommon)).mapM fun i => newCols.mapM fun c => c[i]?
    let newRows ← targetRows r p.vt newRows (s.dst.ops.drop s.ncommon)
    return .ok { ctx := s.dst, vt := p.vt, coeffs := p.coeffs.take s.ncommon ++ newRows, shoup := none, hasLazy := false }
  else return .ok { ctx := s.dst, vt := p.vt, coeffs := p.coeffs.take s.ncommon, shoup := none, hasLazy := false }

end Scaler

/-- `Switcher::new`, `switcher.rs` lines 17-21. -/
def switcherNew (src dst : Context) : Panics (Except MathError Scaler) := do
  Scaler.new src dst (← ScalingFactor.new dst.modulus src.modulus)

end Fhe
