import Verif.Model.TimedRq
import Verif.Model.BfvParams
/-!
# More functions as a release build executes them

See `Verif/Model/Timed.lean`: no `debug_assert!`, wrapping arithmetic, shift amounts taken modulo the word size.
-/
namespace Fhe.Release

/-! ## `/repo/crates/fhe-math/src/rq/mod.rs`, multiplication by `x^(-power)` -/

/-- The sign in `mod.rs` lines 522-526: the jump is on the public exponent. -/
def shiftSign (degree index : Nat) (qi : Modulus) (x : Nat) : Timed Nat := do
  if ← branchOn (index &&& degree = 0) then return x else neg qi x

/-- The loop of `mod.rs` lines 520-527; `left` iterations remain. -/
def shiftLoop (degree shift : Nat) (qi : Modulus) (row : List Nat) : (left k : Nat) → List Nat → Timed (List Nat)
  | 0, _, out => do
    let _ ← branchOn False
    return out
  | left + 1, k, out => do
    let _ ← branchOn True
    let index := wadd64 shift k
    let i := index &&& (degree - 1)
    let x ← fetch row k
    let v ← shiftSign degree index qi x
    let _ ← fetch out i
    shiftLoop degree shift qi row left (k + 1) (out.set i v)

/-- `multiply_inverse_power_of_x`, `mod.rs` lines 510-531: the subtraction wraps around. -/
def multiplyInversePowerOfX (p : Poly .powerBasis) (power : Nat) : Timed (Poly .powerBasis) := do
  let d2 := (p.ctx.degree <<< 1) % 2 ^ 64
  assert (d2 ≠ 0)
  let shift := wsub 64 d2 power % d2
  let rows ← zipLoop (fun out (x : List Nat × Modulus) => shiftLoop p.ctx.degree shift x.2 x.1 p.ctx.degree 0 out)
    (zeroRows p.ctx.q.length p.ctx.degree) (p.coeffs.zip p.ctx.q)
  return { p with coeffs := rows }

/-! ## `/repo/crates/fhe-math/src/zq/primes.rs` -/

/-- `generate_prime`, lines 30-59: `upper_bound - 1` wraps around.  The loops subtract from numbers that are large enough, so they are
those of `Verif/Model/Util.lean`.  `% modulo` panics for `modulo = 0`. -/
def generatePrime (numBits modulo upperBound : Nat) : Panics (Option Nat) :=
  if ¬ (10 ≤ numBits ∧ numBits ≤ 62) then some none
  else do
    let lz := 64 - numBits
    let t := wsub 64 upperBound 1
    check (modulo ≠ 0)
    let t := primeLoop1 modulo lz t
    let t := primeLoop2 modulo lz t
    if lz64 t = lz ∧ isPrime t = true then return some t else return none

/-! ## `/repo/crates/fhe/src/bfv/parameters.rs` -/

/-- The closure of lines 259-285: `64 - plaintext_nbits` wraps around and only the lowest six bits of the shift count. -/
def defaultEntry (b : Build) (bits : Nat) (e : Nat × List Nat) : Panics (Option BfvParameters) := do
  let shift := wsub 64 64 bits % 64
  match ← generatePrime bits (2 * e.1) ((2 ^ 64 - 1) >>> shift) with
  | none => return none
  | some t =>
    if (e.2.map fun m => 64 - lz64 m).sum ≥ bits then
      (ParamsBuilder.build b (({} : ParamsBuilder).setDegree e.1 |>.setPlaintext t |>.setModuli e.2)).okOrNone
    else return none

/-- `default_parameters_128`, lines 218-295. -/
def defaultParameters128 (b : Build) (bits : Nat) : Res (List BfvParameters) := do
  let l ← lift (defaultTable.mapM (defaultEntry b bits))
  if l.filterMap id = [] then Res.err (.noDefaultParameters bits) else return l.filterMap id

end Fhe.Release
