import Verif.Model.BfvMul
import Verif.Model.BfvKeys
/-!
# Multiplication strategies

Models `/repo/crates/fhe/src/bfv/ops/mul.rs`.
-/
namespace Fhe

/-- `struct Multiplicator`, lines 22-32. -/
structure Multiplicator where
  par : Par
  extenderLhs : Scaler
  extenderRhs : Scaler
  downScaler : Scaler
  baseCtx : Context
  mulCtx : Context
  rk : Option RelinearizationKey
  modSwitch : Bool
  level : Nat
deriving DecidableEq, Repr

namespace Multiplicator

/-- `new_leveled_internal`, lines 74-98, and `new_leveled`, lines 56-72; `new`, lines 37-52, is the case of level 0. -/
def newLeveled (b : Build) (lhs rhs : ScalingFactor) (extendedBasis : List Nat) (post : ScalingFactor) (level : Nat) (par : Par) : Res Multiplicator := do
  let baseCtx ← par.contextAtLevel level
  let mulCtx ← math (Context.new b extendedBasis par.degree)
  let extenderLhs ← math (Scaler.new baseCtx mulCtx lhs)
  let extenderRhs ← math (Scaler.new baseCtx mulCtx rhs)
  let downScaler ← math (Scaler.new mulCtx baseCtx post)
  return { par, extenderLhs, extenderRhs, downScaler, baseCtx, mulCtx, rk := none, modSwitch := false, level }

/-- `enable_relinearization`, lines 141-151: returns the new value of `self`. -/
def enableRelinearization (mp : Multiplicator) (rk : RelinearizationKey) : Res Multiplicator := do
  let rkCtx ← mp.par.contextAtLevel rk.ksk.ciphertextLevel
  if rkCtx ≠ mp.baseCtx then Res.err (.parameterMismatch .relinearizationKey .multiplicator)
  else return { mp with rk := some rk }

/-- `enable_mod_switching`, lines 155-162: returns the new value of `self`. -/
def enableModSwitching (mp : Multiplicator) : Res Multiplicator := do
  let last ← mp.par.contextAtLevel (← lift mp.par.maxLevel)
  if last = mp.baseCtx then Res.err (.math .noMoreContext)
  else return { mp with modSwitch := true }

/-- `default`, lines 101-138.  The loop of lines 112-125 is that of `extendedBasis`, whose accumulator holds what follows the moduli of the
context; of the data in `NotEnoughPrimes` only size and degree are modelled. -/
def default (b : Build) (rk : RelinearizationKey) : Res Multiplicator := do
  let par := rk.ksk.par
  let ctx ← par.contextAtLevel rk.ksk.ciphertextLevel
  lift (check (ctx.moduli.length ≤ par.moduliSizes.length))
  let modulusSize := (par.moduliSizes.take ctx.moduli.length).sum
  let nModuli := (modulusSize + 60 + 61) / 62
  let ext ← ParamsBuilder.extendedBasis par.degree nModuli ctx.moduli [] (1 <<< 62)
  let post ← lift (ScalingFactor.new par.plaintext.value ctx.modulus)
  let mp ← newLeveled b ScalingFactor.one ScalingFactor.one (ctx.moduli ++ ext) post rk.ksk.ciphertextLevel par
  mp.enableRelinearization rk

/-- Lines 191-206: extend, multiply and scale. -/
def product (mp : Multiplicator) (l0 l1 r0 r1 : Poly .ntt) : Res (Poly .ntt × Poly .ntt × Poly .ntt) := do
  let c00 ← math (mp.extenderLhs.scale l0)
  let c01 ← math (mp.extenderLhs.scale l1)
  let c10 ← math (mp.extenderRhs.scale r0)
  let c11 ← math (mp.extenderRhs.scale r1)
  let c0 ← lift (c00.mulAssign c10)
  let c1 ← lift (c00.mulAssign c11)
  let c1 ← lift (c1.addAssign (← lift (c01.mulAssign c10)))
  let c2 ← lift (c01.mulAssign c11)
  return (← math (mp.downScaler.scale c0), ← math (mp.downScaler.scale c1), ← math (mp.downScaler.scale c2))

/-- Lines 208-227: the parts of the result, relinearized if there is a key. -/
def parts (mp : Multiplicator) (c0 c1 c2 : Poly .ntt) : Res (List (Poly .ntt)) :=
  match mp.rk with
  | none => Res.ok [c0, c1, c2]
  | some rk => do
    let a ← rk.ksk.keySwitch (← lift c2.nttToPowerBasis)
    let a ← switchPair a c0 c1
    return [← lift (c0.addAssign a.1), ← lift (c1.addAssign a.2)]

/-- `multiply`, lines 165-243. -/
def multiply (mp : Multiplicator) (lhs rhs : Ciphertext) : Res Ciphertext := do
  lhs.validateFor mp.par
  rhs.validateFor mp.par
  if lhs.level ≠ mp.level then Res.err (.invalidLevel lhs.level mp.level mp.level)
  else if rhs.level ≠ mp.level then Res.err (.invalidLevel rhs.level mp.level mp.level)
  else
    match lhs.c, rhs.c with
    | [l0, l1], [r0, r1] => do
      let x ← mp.product l0 l1 r0 r1
      let ct : Ciphertext := { par := mp.par, seed := none, c := ← mp.parts x.1 x.2.1 x.2.2, level := mp.level }
      if mp.modSwitch then ct.switchDown else return ct
    | _, _ => Res.err (.multiplicationPolynomialCount lhs.c.length rhs.c.length 2)

end Multiplicator
end Fhe
