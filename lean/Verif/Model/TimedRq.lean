import Verif.Model.TimedZq
import Verif.Model.Rq
/-!
# Traces of `fhe-math/src/rns/scaler.rs` and `fhe-math/src/rq`

Release builds, see `Verif/Model/Timed.lean`.  The `BigUint` conversions run in variable time and are not modelled here.
-/
namespace Fhe.Release

/-! ## Scaling: `/repo/crates/fhe-math/src/rns/scaler.rs` -/

/-- `scaler.rs` lines 260-269.  The operations of `u256` are taken to be straight-line code. -/
def sumThetaGarner : (los his rests : List Nat) → (acc : Nat) → Timed Nat
  | lo :: los, hi :: his, r :: rests, acc => do
    let _ ← branchOn True
    sumThetaGarner los his rests (RnsScaler.wadd256 acc (r * RnsScaler.joinWords lo hi % 2 ^ 256))
  | _, _, _, acc => do
    let _ ← branchOn False
    return acc

/-- `scaler.rs` lines 271-272.  The division by the constant 2 is a shift. -/
def roundV (sum shift : Nat) : Timed Nat := return ((sum >>> wsub 64 shift 1) % 2 ^ 128 + 1) / 2

/-- `scaler.rs` lines 279-293: the signs are those of the precomputed tables. -/
def sumThetaOmega : (los his : List Nat) → (signs : List Bool) → (rests : List Nat) → (acc : Nat) → Timed Nat
  | lo :: los, hi :: his, sg :: signs, r :: rests, acc => do
    let _ ← branchOn True
    let prod := r * RnsScaler.joinWords lo hi % 2 ^ 256
    if ← branchOn (sg = true) then sumThetaOmega los his signs rests (RnsScaler.wsub256 acc prod)
    else sumThetaOmega los his signs rests (RnsScaler.wadd256 acc prod)
  | _, _, _, _, acc => do
    let _ ← branchOn False
    return acc

/-- `scaler.rs` lines 304-313: a jump that depends on the scaled value. -/
def roundW (sum : Nat) : Timed (Bool × Nat) := do
  if ← branchOn (sum >>> 191 > 0) then return (true, wadd128 ((RnsScaler.not256 sum >>> 126) % 2 ^ 128) 1 / 2)
  else return (false, ((sum >>> 126) % 2 ^ 128 + 1) / 2)

/-- `scaler.rs` lines 276-314. -/
def computeW (s : RnsScaler) (rests : List Nat) (v : Nat) : Timed (Bool × Nat) := do
  if ← branchOn (s.factor.isOne = true) then return (false, 0)
  else
    let sum ← sumThetaOmega s.thetaOmegaLo s.thetaOmegaHi s.thetaOmegaSign rests 0
    let vg := v * RnsScaler.joinWords s.thetaGammaLo s.thetaGammaHi % 2 ^ 256
    if ← branchOn (s.thetaGammaSign = true) then roundW (RnsScaler.wadd256 sum vg) else roundW (RnsScaler.wsub256 sum vg)

/-- `scaler.rs` lines 341-347. -/
def accumulate (q : Modulus) : (rests omega omegaShoup : List Nat) → (y : Nat) → Timed Nat
  | [], _, _, y => do
    let _ ← branchOn False
    return y
  | r :: rests, o :: omega, os :: omegaShoup, y => do
    let _ ← branchOn True
    let x ← lazyMulShoup q r o os
    accumulate q rests omega omegaShoup (wadd128 y x)
  | _ :: _, _, _, _ => panic

/-- `scaler.rs` lines 334-337: a jump on the sign of `w`. -/
def addW (q : Modulus) (isOne wSign : Bool) (w q2 y : Nat) : Timed Nat := do
  if ← branchOn (isOne = true) then return y
  else
    let wi ← lazyReduceU128 q w
    if ← branchOn (wSign = true) then return wadd128 y (wsub 64 q2 wi) else return wadd128 y wi

/-- `scaler.rs` lines 317-350. -/
def scaleOne (s : RnsScaler) (rests : List Nat) (v : Nat) (wSign : Bool) (w idx : Nat) : Timed Nat := do
  let q ← fetch s.dst.moduli idx
  let omega ← fetch s.omega idx
  let omegaShoup ← fetch s.omegaShoup idx
  let gamma ← fetch s.gamma idx
  let gammaShoup ← fetch s.gammaShoup idx
  let q2 := wmul64 q.p 2
  let y := wsub 64 q2 (← lazyMulShoup q (← reduceU128 q v) gamma gammaShoup)
  let y ← addW q s.factor.isOne wSign w q2 y
  let y ← accumulate q rests omega omegaShoup y
  reduceU128 q y

/-- `scale`, `scaler.rs` lines 249-352. -/
def rnsScale (s : RnsScaler) (rests : List Nat) (size startingIndex : Nat) : Timed (List Nat) := do
  let sum ← sumThetaGarner s.thetaGarnerLo s.thetaGarnerHi rests 0
  let v ← roundV sum s.thetaGarnerShift
  let (wSign, w) ← computeW s rests v
  mapLoop (fun i => scaleOne s rests v wSign w (startingIndex + i)) (List.range size)

/-! ## Polynomials: `/repo/crates/fhe-math/src/rq` -/

variable {r : Rep}

/-- `compute_coefficients_shoup`, `mod.rs` lines 244-258. -/
def computeShoup (p : Poly r) : Timed (Poly r) := do
  let s ← zipLoop (fun v (qi : Modulus) => shoupVec qi v) p.coeffs p.ctx.q
  return { p with shoup := some s }

/-- `from_parts`, `mod.rs` lines 630-658. -/
def fromParts {s : Rep} (r : Rep) (p : Poly s) : Timed (Poly r) := do
  if r = .nttShoup then
    match p.shoup with
    | none => do
      let p ← computeShoup p
      return { ctx := p.ctx, hasLazy := p.hasLazy, vt := p.vt, coeffs := p.coeffs, shoup := p.shoup }
    | some t => return { ctx := p.ctx, hasLazy := p.hasLazy, vt := p.vt, coeffs := p.coeffs, shoup := some t }
  else return { ctx := p.ctx, hasLazy := p.hasLazy, vt := p.vt, coeffs := p.coeffs, shoup := none }

/-- `ntt_forward`, `mod.rs` lines 335-343. -/
def nttForward (p : Poly r) : Timed (Poly r) := do
  if ← branchOn (p.vt = true) then return { p with coeffs := ← zipLoop (fun v op => forwardVt op v) p.coeffs p.ctx.ops }
  else return { p with coeffs := ← zipLoop (fun v op => forward op v) p.coeffs p.ctx.ops }
/-- `ntt_backward`, `mod.rs` lines 346-354. -/
def nttBackward (p : Poly r) : Timed (Poly r) := do
  if ← branchOn (p.vt = true) then return { p with coeffs := ← zipLoop (fun v op => backwardVt op v) p.coeffs p.ctx.ops }
  else return { p with coeffs := ← zipLoop (fun v op => backward op v) p.coeffs p.ctx.ops }

/-- `Poly<PowerBasis>::into_ntt`, `mod.rs` lines 535-538. -/
def intoNtt (p : Poly .powerBasis) : Timed (Poly .ntt) := do fromParts .ntt (← nttForward p)
/-- `Poly<PowerBasis>::into_ntt_shoup`, `mod.rs` lines 542-546. -/
def intoNttShoup (p : Poly .powerBasis) : Timed (Poly .nttShoup) := do fromParts .nttShoup (← computeShoup (← nttForward p))
/-- `Poly<Ntt>::into_power_basis`, `mod.rs` lines 590-593. -/
def nttToPowerBasis (p : Poly .ntt) : Timed (Poly .powerBasis) := do fromParts .powerBasis (← nttBackward p)
/-- `Poly<NttShoup>::into_ntt`, `mod.rs` lines 612-616. -/
def shoupToNtt (p : Poly .nttShoup) : Timed (Poly .ntt) := fromParts .ntt ({ p with shoup := none } : Poly .nttShoup)

/-- The loops over the rows of two polynomials, which the timing flag selects: `ops.rs` lines 15-35, 60-80, 97-117, 142-162, 184-204. -/
def rowLoop (vt : Bool) (fVt f : Modulus → List Nat → List Nat → Timed (List Nat)) (a p : List (List Nat)) (q : List Modulus) :
    Timed (List (List Nat)) := do
  if ← branchOn (vt = true) then zipLoop (fun v1 (x : List Nat × Modulus) => fVt x.2 v1 x.1) a (p.zip q)
  else zipLoop (fun v1 (x : List Nat × Modulus) => f x.2 v1 x.1) a (p.zip q)

/-- `AddAssign`, `ops.rs` lines 10-36 and 92-118. -/
def addAssign (a p : Poly r) : Timed (Poly r) := do
  assert (a.hasLazy = false ∧ p.hasLazy = false)
  let rows ← rowLoop (a.vt && p.vt) addVecVt addVec a.coeffs p.coeffs a.ctx.q
  return { a with vt := a.vt && p.vt, coeffs := rows }
/-- `SubAssign`, `ops.rs` lines 55-81 and 137-163. -/
def subAssign (a p : Poly r) : Timed (Poly r) := do
  assert (a.hasLazy = false ∧ p.hasLazy = false)
  let rows ← rowLoop (a.vt && p.vt) subVecVt subVec a.coeffs p.coeffs a.ctx.q
  return { a with vt := a.vt && p.vt, coeffs := rows }
/-- `MulAssign<&Poly<Ntt>>`, `ops.rs` lines 174-206. -/
def mulAssign (a p : Poly .ntt) : Timed (Poly .ntt) := do
  assert (p.hasLazy = false)
  assert (a.hasLazy = false)
  let rows ← rowLoop (a.vt && p.vt) mulVecVt mulVec a.coeffs p.coeffs a.ctx.q
  return { a with vt := a.vt && p.vt, coeffs := rows }

/-- `MulAssign<&Poly<NttShoup>>`, `ops.rs` lines 208-245. -/
def mulAssignShoup (a : Poly .ntt) (p : Poly .nttShoup) : Timed (Poly .ntt) := do
  assert (p.hasLazy = false)
  let ps ← publicly p.shoup
  let rows ← if ← branchOn ((a.vt && p.vt) = true) then
      zipLoop (fun v1 (x : List Nat × List Nat × Modulus) => mulShoupVecVt x.2.2 v1 x.1 x.2.1) a.coeffs (p.coeffs.zip (ps.zip a.ctx.q))
    else zipLoop (fun v1 (x : List Nat × List Nat × Modulus) => mulShoupVec x.2.2 v1 x.1 x.2.1) a.coeffs (p.coeffs.zip (ps.zip a.ctx.q))
  return { a with vt := a.vt && p.vt, coeffs := rows, hasLazy := false }

/-- `MulAssign<&BigUint>`, `ops.rs` lines 297-324 and 326-352; the reduction of the scalar, `project`, is a computation with big
numbers: the scalar is public. -/
def mulScalar (a : Poly r) (s : Nat) : Timed (Poly r) := do
  let crt ← publicly (a.ctx.rns.project s)
  let rows ← if ← branchOn (a.vt = true) then zipLoop (fun v1 (x : Nat × Modulus) => scalarMulVecVt x.2 v1 x.1) a.coeffs (crt.zip a.ctx.q)
    else zipLoop (fun v1 (x : Nat × Modulus) => scalarMulVec x.2 v1 x.1) a.coeffs (crt.zip a.ctx.q)
  return { a with coeffs := rows }

/-- `Neg`, `ops.rs` lines 354-418. -/
def polyNeg (a : Poly r) : Timed (Poly r) := do
  assert (a.hasLazy = false)
  let rows ← if ← branchOn (a.vt = true) then zipLoop (fun v1 (qi : Modulus) => negVecVt qi v1) a.coeffs a.ctx.q
    else zipLoop (fun v1 (qi : Modulus) => negVec qi v1) a.coeffs a.ctx.q
  return { a with coeffs := rows }

/-- `wi[..v.len()].copy_from_slice(&v)`: the lengths are compared.  `/repo/crates/fhe-math/src/rq/convert.rs` lines 178 and 343. -/
def copyPrefix (w v : List Nat) : Timed (List Nat) := do
  assert (v.length ≤ w.length)
  return v ++ w.drop v.length

/-- `TryConvertFrom<Vec<u64>> for Poly<PowerBasis>`, `convert.rs` lines 148-193. -/
def tryFromU64 (v : List Nat) (ctx : Context) (vt : Bool) : Timed (Except MathError (Poly .powerBasis)) := do
  if ← branchOn (v.length = ctx.q.length * ctx.degree) then
    let coeffs ← publicly (Poly.fromShapeVec ctx.q.length ctx.degree v)
    return .ok { ctx, vt, coeffs, shoup := none, hasLazy := false }
  else if ← branchOn (v.length ≤ ctx.degree) then
    let out := Poly.zero .powerBasis ctx
    let rows ← if ← branchOn (vt = true) then
        zipLoop (fun w (qi : Modulus) => do reduceVecVt qi (← copyPrefix w v)) out.coeffs ctx.q
      else zipLoop (fun w (qi : Modulus) => do reduceVec qi (← copyPrefix w v)) out.coeffs ctx.q
    return .ok { out with coeffs := rows, vt := vt }
  else return .error (.invalidCoefficientCount v.length ctx.degree ctx.q.length)

/-- `TryConvertFrom<&[i64]> for Poly<PowerBasis>`, `convert.rs` lines 329-354. -/
def tryFromI64 (v : List Int) (ctx : Context) (vt : Bool) : Timed (Except MathError (Poly .powerBasis)) := do
  if ← branchOn (v.length ≤ ctx.degree) then
    let out := Poly.zero .powerBasis ctx
    let rows ← zipLoop (fun w (qi : Modulus) => do
        if ← branchOn (vt = true) then copyPrefix w (← reduceVecI64Vt qi v) else copyPrefix w (← reduceVecI64 qi v))
      out.coeffs ctx.q
    return .ok { out with coeffs := rows, vt := vt }
  else return .error (.tooManyCoefficients v.length ctx.degree)

/-- `small` for `Poly<PowerBasis>`, `mod.rs` lines 298-326. -/
def smallPowerBasis (ctx : Context) (variance : Nat) (rng : Nat → Nat) : Timed (Except MathError (Poly .powerBasis)) := do
  if ← branchOn (¬ (1 ≤ variance ∧ variance ≤ 32)) then return .error (.invalidVariance variance)
  else
    match ← sampleVecCbd ctx.degree variance rng with
    | .error () => return .error (.invalidVariance variance)
    | .ok (coeffs, _) => tryFromI64 coeffs ctx false
/-- `small` for `Poly<Ntt>`, `mod.rs` lines 321-322. -/
def smallNtt (ctx : Context) (variance : Nat) (rng : Nat → Nat) : Timed (Except MathError (Poly .ntt)) := do
  match ← smallPowerBasis ctx variance rng with
  | .error e => return .error e
  | .ok p => return .ok (← intoNtt p)

/-- `q_row[*j] = p_row[*k]`, `mod.rs` lines 374-376 and 384-386. -/
def permRow (row : List Nat) : List Nat → List Nat → List Nat → Timed (List Nat)
  | j :: js, k :: ks, out => do
    let _ ← branchOn True
    let v ← fetch row k
    let _ ← fetch out j
    permRow row js ks (out.set j v)
  | _, _, out => do
    let _ ← branchOn False
    return out

/-- The rows in an NTT representation, `mod.rs` lines 369-377. -/
def substNtt (ctx : Context) (e : SubstExponent) (rows : List (List Nat)) : Timed (List (List Nat)) :=
  zipLoop (fun out row => permRow row ctx.bitrev e.powerBitrev out) (zeroRows ctx.q.length ctx.degree) rows

/-- The update of one row, `mod.rs` lines 395-406: the jump is on the exponent. -/
def substCell (degree power j : Nat) (outRow : List Nat) (qp : Modulus × List Nat) : Timed (List Nat) := do
  let i := power &&& (degree - 1)
  let x ← fetch outRow i
  let y ← fetch qp.2 j
  if ← branchOn (power &&& degree ≠ 0) then return outRow.set i (← sub qp.1 x y) else return outRow.set i (← add qp.1 x y)

/-- The loop of `mod.rs` lines 393-407. -/
def substLoop (degree exponent : Nat) (q : List Modulus) (rows : List (List Nat)) :
    (left j power : Nat) → List (List Nat) → Timed (List (List Nat))
  | 0, _, _, out => do
    let _ ← branchOn False
    return out
  | left + 1, j, power, out => do
    let _ ← branchOn True
    let out ← zipLoop (substCell degree power j) out (q.zip rows)
    substLoop degree exponent q rows left (j + 1) (wadd64 power exponent) out

/-- `substitute`, `mod.rs` lines 360-412. -/
def substitute (p : Poly r) (e : SubstExponent) : Timed (Poly r) := do
  let z := Poly.zero r p.ctx
  match r with
  | .powerBasis =>
    let c ← substLoop p.ctx.degree e.exponent p.ctx.q p.coeffs p.ctx.degree 0 0 (zeroRows p.ctx.q.length p.ctx.degree)
    return { z with vt := p.vt, coeffs := c }
  | .ntt => return { z with vt := p.vt, coeffs := ← substNtt p.ctx e p.coeffs }
  | .nttShoup => do
    let c ← substNtt p.ctx e p.coeffs
    let s ← substNtt p.ctx e (← publicly p.shoup)
    return { z with vt := p.vt, coeffs := c, shoup := some s }

/-- One coefficient of `switch_down`, `mod.rs` lines 472-480. -/
def switchDownCoeff (qi : Modulus) (inv invShoup halfMod coeff lastCoeff : Nat) : Timed Nat := do
  let tmp := wadd64 (← lazyReduce qi lastCoeff) halfMod
  mulShoup qi (wadd64 coeff (wsub 64 (wmul64 3 qi.p) tmp)) inv invShoup

/-- One row of `switch_down`, `mod.rs` lines 462-482. -/
def switchDownRow (vt : Bool) (half : Nat) (last : List Nat) (row : List Nat) (x : Modulus × Nat × Nat) : Timed (List Nat) := do
  let h ← if ← branchOn (vt = true) then reduceVt x.1 half else reduce x.1 half
  zipLoop (switchDownCoeff x.1 x.2.1 x.2.2 (wsub 64 x.1.p h)) row last

/-- `switch_down`, `mod.rs` lines 433-492. -/
def switchDown (p : Poly .powerBasis) : Timed (Except MathError (Poly .powerBasis)) := do
  match p.ctx.next with
  | none => return .error .noMoreContext
  | some next => do
    let qLast ← publicly p.ctx.q.getLast?
    let half := qLast.p / 2
    let n ← publicly (subU p.ctx.q.length 1)
    let lastRow ← fetch p.coeffs n
    let last ← if ← branchOn (p.vt = true) then mapLoop (fun c => addVt qLast c half) lastRow
      else mapLoop (fun c => add qLast c half) lastRow
    let rows ← zipLoop (switchDownRow p.vt half last) (p.coeffs.take n) (p.ctx.q.zip (p.ctx.invLast.zip p.ctx.invLastShoup))
    return .ok { p with ctx := next, coeffs := rows }

/-- The loop of `switch_down_to`, `mod.rs` lines 500-502. -/
def switchDownLoop : Nat → Poly .powerBasis → Timed (Except MathError (Poly .powerBasis))
  | 0, p => do
    let _ ← branchOn False
    return .ok p
  | n + 1, p => do
    let _ ← branchOn True
    match ← switchDown p with
    | .error e => return .error e
    | .ok p => switchDownLoop n p

/-- `switch_down_to`, `mod.rs` lines 498-507. -/
def switchDownTo (p : Poly .powerBasis) (target : Context) : Timed (Except MathError (Poly .powerBasis)) := do
  match p.ctx.niterationsTo target with
  | .error e => return .error e
  | .ok n => do
    match ← switchDownLoop n p with
    | .error e => return .error e
    | .ok p => if p.ctx ≠ target then return .error .contextNotReachable else return .ok p

/-! ## Scaling of polynomials: `/repo/crates/fhe-math/src/rq/scaler.rs` -/

/-- `scaler.rs` lines 68-82. -/
def sourceRows (p : Poly r) : Timed (List (List Nat)) := do
  if r = .powerBasis then return p.coeffs
  else if ← branchOn (p.vt = true) then zipLoop (fun v op => backwardVt op v) p.coeffs p.ctx.ops
  else zipLoop (fun v op => backward op v) p.coeffs p.ctx.ops

/-- `scaler.rs` lines 96-115. -/
def targetRows (r : Rep) (vt : Bool) (rows : List (List Nat)) (ops : List NttOperator) : Timed (List (List Nat)) := do
  if r = .powerBasis then return rows
  else if ← branchOn (vt = true) then zipLoop (fun v op => forwardVt op v) rows ops
  else zipLoop (fun v op => forward op v) rows ops

/-- Column `j` of a matrix, `scaler.rs` lines 85-94. -/
def column (rows : List (List Nat)) (j : Nat) : Timed (List Nat) := mapLoop (fun row => fetch row j) rows

/-- `scale`, `scaler.rs` lines 55-127.  `RnsScaler::scale` is the same code for both values of the timing flag. -/
def scale (s : Scaler) (p : Poly r) : Timed (Except MathError (Poly r)) := do
  if p.ctx ≠ s.src then return .error .polynomialContextMismatch
  else if ← branchOn (s.ncommon < s.dst.q.length) then
    let rows ← sourceRows p
    let cols ← mapLoop (column rows) (List.range p.ctx.degree)
    let newCols ← mapLoop (fun c => rnsScale s.scaler c (s.dst.q.length - s.ncommon) s.ncommon) cols
    let newRows ← mapLoop (column newCols) (List.range (s.dst.q.length - s.ncommon))
    let newRows ← targetRows r p.vt newRows (s.dst.ops.drop s.ncommon)
    return .ok { ctx := s.dst, vt := p.vt, coeffs := p.coeffs.take s.ncommon ++ newRows, shoup := none, hasLazy := false }
  else return .ok { ctx := s.dst, vt := p.vt, coeffs := p.coeffs.take s.ncommon, shoup := none, hasLazy := false }

end Fhe.Release
