import Mathlib.Data.Int.GCD
import Verif.Model.Zq
/-!
# `fhe-math/src/rns`: residue number systems

Citations are to `/repo/crates/fhe-math/src/rns/mod.rs` (first part) and `/repo/crates/fhe-math/src/rns/scaler.rs`
(second part).  `BigUint` is `Nat`; `u256` arithmetic is `Nat` modulo `2^256`.
-/
namespace Fhe

/-- `enum Error` of `/repo/crates/fhe-math/src/errors.rs` lines 10-116, the variants that the modelled functions return. -/
inductive MathError where
  | invalidModulus (p : Nat)
  | emptyModuli
  | nonCoprimeModuli (left right : Nat)
  | noMoreContext
  | contextNotReachable
  | polynomialContextMismatch
  | invalidPolynomialDegree (degree minimum : Nat)
  | nttOperatorUnavailable (modulus degree : Nat)
  | invalidContextLevel (level maxLevel : Nat)
  | invalidSubstitutionExponent (exponent degree : Nat)
  | invalidVariance (variance : Nat)
  | emptyDotProduct
  | dotProductLengthMismatch (left right : Nat)
  | invalidCoefficientCount (actual degree moduli : Nat)
  | invalidCoefficientShape (actualRows actualCols expectedRows expectedCols : Nat)
  | tooManyCoefficients (actual maximum : Nat)
  | degreeMismatch (found expected : Nat)
  | nonInvertible (value modulus : Nat)
  | invalidSeedSize (actual expected : Nat)
  | serialization (what : Nat)
deriving DecidableEq, Repr

/-- `num_bigint_dig::ModInverse::mod_inverse`: a library function outside `/repo`, modelled by its contract (the representative in `[0, m)` of the
inverse, when it exists).  Used in `/repo/crates/fhe-math/src/rns/mod.rs` line 94. -/
def modInverse (a m : Nat) : Option Nat :=
  if Nat.gcd a m = 1 then some ((Nat.gcdA a m) % (m : Int)).toNat else none

/-- `struct RnsContext`, lines 24-32. -/
structure RnsContext where
  moduliU64 : List Nat
  moduli : List Modulus
  qTilde : List Nat
  qTildeShoup : List Nat
  qStar : List Nat
  garner : List Nat
  product : Nat
deriving DecidableEq, Repr

namespace RnsContext

/-- The inner loop, lines 61-72: the first `j ≠ i` (in order) whose modulus shares a factor with modulus `i`.
`extended_gcd` is used for the gcd only. -/
def firstNonCoprime (l : List Nat) (i mi : Nat) : (rest : List Nat) → (j : Nat) → Option (Nat × Nat)
  | [], _ => none
  | mj :: rest, j => if i ≠ j ∧ Nat.gcd mi mj ≠ 1 then some (mi, mj) else firstNonCoprime l i mi rest (j + 1)

/-- The outer loop, lines 59-76; returns the product or the offending pair. -/
def checkCoprime (l : List Nat) : (rest : List Nat) → (i product : Nat) → Except MathError Nat
  | [], _, product => .ok product
  | mi :: rest, i, product =>
    match firstNonCoprime l i mi l 0 with
    | some (a, b) => .error (.nonCoprimeModuli a b)
    | none => checkCoprime l rest (i + 1) (product * mi)

/-- The closure mapped over the moduli, lines 90-101.  Returns `(m, q_tilde, q_tilde_shoup, q_star, garner)`. -/
def perModulus (cfg : Bool) (product modulus : Nat) : Panics (Except MathError (Modulus × Nat × Nat × Nat × Nat)) := do
  match ← Modulus.new cfg modulus with
  | .error (.invalidModulus p) => return .error (.invalidModulus p)
  | .ok m => do
    let qStar := product / modulus
    let qTilde ← modInverse (product / modulus) modulus
    check (qTilde < 2 ^ 64)
    let garner := qStar * qTilde
    let qTildeShoup ← m.shoup qTilde
    return .ok (m, qTilde, qTildeShoup, qStar, garner)

/-- `.collect::<Result<Vec<_>>>()`, lines 88-102: stops at the first error. -/
def collectResults {α β : Type} (f : α → Panics (Except MathError β)) : List α → Panics (Except MathError (List β))
  | [] => some (.ok [])
  | a :: l => do
    match ← f a with
    | .error e => return .error e
    | .ok b => do
      match ← collectResults f l with
      | .error e => return .error e
      | .ok bs => return .ok (b :: bs)

/-- `RnsContext::new`, lines 52-116. -/
def new (cfg : Bool) (l : List Nat) : Panics (Except MathError RnsContext) :=
  if l = [] then some (.error .emptyModuli)
  else
    match checkCoprime l l 0 1 with
    | .error e => some (.error e)
    | .ok product => do
      match ← collectResults (perModulus cfg product) l with
      | .error e => return .error e
      | .ok r =>
        return .ok { moduliU64 := l, moduli := r.map (·.1), qTilde := r.map (·.2.1), qTildeShoup := r.map (·.2.2.1),
                     qStar := r.map (·.2.2.2.1), garner := r.map (·.2.2.2.2), product }

/-- `modulus`, lines 120-122. -/
def modulus (c : RnsContext) : Nat := c.product

/-- `project`, lines 126-131; `% 0` and values above `u64::MAX` panic. -/
def project (c : RnsContext) (a : Nat) : Panics (List Nat) :=
  c.moduliU64.mapM fun m => do check (m ≠ 0); check (a % m < 2 ^ 64); return a % m

/-- `lift`, lines 138-143: the sum over the zipped prefix, reduced by the product. -/
def lift (c : RnsContext) (rests : List Nat) : Panics Nat := do
  check (c.product ≠ 0)
  return (List.zipWith (fun r g => g * r) rests c.garner).sum % c.product

/-- `get_garner`, lines 147-149. -/
def getGarner (c : RnsContext) (i : Nat) : Option Nat := c.garner[i]?

end RnsContext

/-! ## Scaler (`scaler.rs`) -/

/-- `struct ScalingFactor`, lines 20-24. -/
structure ScalingFactor where
  numerator : Nat
  denominator : Nat
  isOne : Bool
deriving DecidableEq, Repr

namespace ScalingFactor
/-- `ScalingFactor::new`, lines 29-36. -/
def new (numerator denominator : Nat) : Panics ScalingFactor := do
  check (denominator ≠ 0)
  return { numerator, denominator, isOne := decide (numerator = denominator) }
/-- `ScalingFactor::one`, lines 40-46. -/
def one : ScalingFactor := { numerator := 1, denominator := 1, isOne := true }
end ScalingFactor

/-- `struct RnsScaler`, lines 52-72.  The pairs of words `(lo, hi)` are kept as in the code. -/
structure RnsScaler where
  src : RnsContext
  dst : RnsContext
  factor : ScalingFactor
  gamma : List Nat
  gammaShoup : List Nat
  thetaGammaLo : Nat
  thetaGammaHi : Nat
  thetaGammaSign : Bool
  omega : List (List Nat)
  omegaShoup : List (List Nat)
  thetaOmegaLo : List Nat
  thetaOmegaHi : List Nat
  thetaOmegaSign : List Bool
  thetaGarnerLo : List Nat
  thetaGarnerHi : List Nat
  thetaGarnerShift : Nat
deriving DecidableEq, Repr

namespace RnsScaler

/-- Lines 223-226 and 151-153: split into two `u64` words; a high word above `u64::MAX` panics. -/
def splitWords (theta : Nat) : Panics (Nat × Nat) := do
  check (theta >>> 64 < 2 ^ 64)
  return (theta - (theta >>> 64) <<< 64, theta >>> 64)

/-- The sign and magnitude of the fractional remainder before scaling, lines 193-209. -/
def signedRemainder (a d : Nat) : Nat × Bool :=
  let theta := a % d
  if d > 1 then
    if d % 2 = 1 then
      if theta > d >>> 1 then (d - theta, true) else (theta, false)
    else
      if theta ≥ d >>> 1 then (d - theta, true) else (theta, false)
  else (theta, false)

/-- `extract_projection_and_theta`, lines 183-229.  Returns `(projected, theta_lo, theta_hi, theta_sign)`. -/
def extractProjectionAndTheta (ctx : RnsContext) (input numerator denominator : Nat) (roundUp : Bool) :
    Panics (List Nat × Nat × Nat × Bool) := do
  check (denominator ≠ 0)
  let gamma := (numerator * input + denominator >>> 1) / denominator
  let projected ← ctx.project gamma
  let (theta, sign) := signedRemainder (numerator * input) denominator
  let theta := if roundUp then
      if sign then (theta <<< 127) / denominator else (theta <<< 127 + denominator - 1) / denominator
    else if sign then (theta <<< 127 + denominator - 1) / denominator
    else (theta <<< 127) / denominator
  let (lo, hi) ← splitWords theta
  return (projected, lo, hi, sign)

/-- `u128::next_power_of_two().ilog2()`, for arguments between 1 and `2^127`: the ceiling of the binary logarithm.
`/repo/crates/fhe-math/src/rns/scaler.rs` line 136. -/
def ceilLog2 (a : Nat) : Nat := if a ≤ 1 then 0 else (a - 1).log2 + 1

/-- The shift, lines 130-142. -/
def garnerShift (moduli : List Nat) : Panics Nat := do
  let shifts ← moduli.mapM fun q => do
    let x ← mul128 q moduli.length
    check (x ≤ 2 ^ 127)
    subU 191 (ceilLog2 x)
  match shifts.min? with
  | none => none
  | some s => return min s 127

/-- `RnsScaler::new`, lines 79-175. -/
def new (src dst : RnsContext) (factor : ScalingFactor) : Panics RnsScaler := do
  let (gamma, thetaGammaLo, thetaGammaHi, thetaGammaSign) ←
    extractProjectionAndTheta dst src.product factor.numerator factor.denominator false
  let gammaShoup ← (gamma.zip dst.moduli).mapM fun wq => wq.2.shoup wq.1
  let omegas ← src.garner.mapM fun g => extractProjectionAndTheta dst g factor.numerator factor.denominator true
  -- lines 120-126: `omega[j][i] = qj.reduce(omega_i[j])`
  let omega ← (List.range dst.moduli.length).mapM fun j => do
    let qj ← dst.moduli[j]?
    omegas.mapM fun o => do qj.reduce (← o.1[j]?)
  let omegaShoup ← (dst.moduli.zip omega).mapM fun qo => qo.2.mapM qo.1.shoup
  let shift ← garnerShift src.moduliU64
  let thetas ← src.garner.mapM fun g => do
    check (src.product ≠ 0)
    splitWords ((g <<< shift + src.product >>> 1) / src.product)
  return { src, dst, factor, gamma, gammaShoup, thetaGammaLo, thetaGammaHi, thetaGammaSign, omega, omegaShoup,
           thetaOmegaLo := omegas.map (·.2.1), thetaOmegaHi := omegas.map (·.2.2.1), thetaOmegaSign := omegas.map (·.2.2.2),
           thetaGarnerLo := thetas.map (·.1), thetaGarnerHi := thetas.map (·.2), thetaGarnerShift := shift }

/-- `(lo as u128) | ((hi as u128) << 64)`, lines 267, 287, 297. -/
def joinWords (lo hi : Nat) : Nat := lo ||| hi <<< 64

/-- `U256::from(a) * U256::from(b)`: panics on overflow.  `/repo/crates/fhe-math/src/rns/scaler.rs` lines 267, 286-287 and 296-297. -/
def mul256 (a b : Nat) : Panics Nat := do check (a * b < 2 ^ 256); return a * b
/-- `wrapping_add` on `u256`.  `/repo/crates/fhe-math/src/rns/scaler.rs` lines 266, 291 and 299. -/
def wadd256 (a b : Nat) : Nat := (a + b) % 2 ^ 256
/-- `wrapping_sub` on `u256`, for arguments below `2^256`.  `/repo/crates/fhe-math/src/rns/scaler.rs` lines 289 and 301. -/
def wsub256 (a b : Nat) : Nat := (a + 2 ^ 256 - b) % 2 ^ 256
/-- `!a` on `u256`.  `/repo/crates/fhe-math/src/rns/scaler.rs` lines 304-313. -/
def not256 (a : Nat) : Nat := 2 ^ 256 - 1 - a

/-- Lines 260-269: the inner product with `theta_garner` (the `izip!` stops at the shortest). -/
def sumThetaGarner : (los his rests : List Nat) → (acc : Nat) → Panics Nat
  | lo :: los, hi :: his, r :: rests, acc => do
    let prod ← mul256 r (joinWords lo hi)
    sumThetaGarner los his rests (wadd256 acc prod)
  | _, _, _, acc => some acc

/-- Lines 271-272: `v`. -/
def roundV (sum shift : Nat) : Panics Nat := do
  let sh ← subU shift 1
  let s := (sum >>> sh) % 2 ^ 128
  return (s + 1) / 2

/-- Lines 279-293: the signed inner product with `theta_omega`. -/
def sumThetaOmega : (los his : List Nat) → (signs : List Bool) → (rests : List Nat) → (acc : Nat) → Panics Nat
  | lo :: los, hi :: his, sg :: signs, r :: rests, acc => do
    let prod ← mul256 r (joinWords lo hi)
    sumThetaOmega los his signs rests (if sg then wsub256 acc prod else wadd256 acc prod)
  | _, _, _, _, acc => some acc

/-- Lines 304-313: the sign and magnitude of the rounded sum. -/
def roundW (sum : Nat) : Panics (Bool × Nat) :=
  if sum >>> 191 > 0 then do
    let w ← add128 ((not256 sum >>> 126) % 2 ^ 128) 1
    return (true, w / 2)
  else
    let w := (sum >>> 126) % 2 ^ 128
    return (false, (w + 1) / 2)

/-- Lines 276-314: the sign and magnitude of `w`. -/
def computeW (s : RnsScaler) (rests : List Nat) (v : Nat) : Panics (Bool × Nat) := do
  if s.factor.isOne then return (false, 0)
  else
    let sum ← sumThetaOmega s.thetaOmegaLo s.thetaOmegaHi s.thetaOmegaSign rests 0
    let vg ← mul256 v (joinWords s.thetaGammaLo s.thetaGammaHi)
    let sum := if s.thetaGammaSign then wadd256 sum vg else wsub256 sum vg
    roundW sum

/-- Lines 341-347: accumulate the lazy products. -/
def accumulate (q : Modulus) : (rests omega omegaShoup : List Nat) → (y : Nat) → Panics Nat
  | [], _, _, y => some y
  | r :: rests, o :: omega, os :: omegaShoup, y => do
    let y ← add128 y (← q.lazyMulShoup r o os)
    accumulate q rests omega omegaShoup y
  | _ :: _, _, _, _ => none

/-- Lines 334-337: add or subtract the rounding correction. -/
def addW (q : Modulus) (isOne wSign : Bool) (w q2 y : Nat) : Panics Nat :=
  if isOne then some y
  else do
    let wi ← q.lazyReduceU128 w
    let t ← if wSign then subU q2 wi else some wi
    add128 y t

/-- One iteration of the output loop, lines 317-350. -/
def scaleOne (s : RnsScaler) (rests : List Nat) (v : Nat) (wSign : Bool) (w idx : Nat) : Panics Nat := do
  let q ← s.dst.moduli[idx]?
  let omega ← s.omega[idx]?
  let omegaShoup ← s.omegaShoup[idx]?
  let gamma ← s.gamma[idx]?
  let gammaShoup ← s.gammaShoup[idx]?
  let q2 ← mul64 q.p 2
  let y ← subU q2 (← q.lazyMulShoup (← q.reduceU128 v) gamma gammaShoup)
  let y ← addW q s.factor.isOne wSign w q2 y
  check (rests.length ≤ omega.length)
  check (rests.length ≤ omegaShoup.length)
  let y ← accumulate q rests omega omegaShoup y
  q.reduceU128 y

/-- `scale`, lines 249-352; `size` is the length of `out`, whose previous contents are not read. -/
def scale (s : RnsScaler) (rests : List Nat) (size startingIndex : Nat) : Panics (List Nat) := do
  check (rests.length = s.src.moduliU64.length)
  check (size ≠ 0)
  check (startingIndex + size ≤ s.dst.moduliU64.length)
  let sum ← sumThetaGarner s.thetaGarnerLo s.thetaGarnerHi rests 0
  let v ← roundV sum s.thetaGarnerShift
  let (wSign, w) ← s.computeW rests v
  (List.range size).mapM fun i => s.scaleOne rests v wSign w (startingIndex + i)

/-- `scale_new`, lines 237-241. -/
def scaleNew (s : RnsScaler) (rests : List Nat) (size : Nat) : Panics (List Nat) := s.scale rests size 0

end RnsScaler
end Fhe
