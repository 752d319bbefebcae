import Verif.Spec.BfvCipher
import Verif.Spec.Scaler
import Verif.Model.BfvMultiplicator
/-!
# Multiplication strategies
-/
namespace Fhe

/-- What a caller of `Multiplicator::new_leveled` chooses: the factors `num / den` by which the operands and the product are scaled, and
the basis in which the product is computed. -/
structure MulStrategy where
  lhsNum : Nat
  lhsDen : Nat
  rhsNum : Nat
  rhsDen : Nat
  postNum : Nat
  postDen : Nat
  basis : List Nat

namespace MulStrategy

/-- A bound on the coefficients of a centered polynomial modulo `Q` after scaling by `num / den`. -/
def height (Q num den : Nat) : Nat := (num * (Q * (2 ^ 55 + 1) / 2 ^ 56) + (2 ^ 61 + 1) * den / 2 ^ 62) / den

/-- The strategy multiplies ciphertexts of the level: the three factors have the product `t / Q`, the accumulators of the scalers have enough
room for them, and either the product of two scaled operands fits the basis, or a multiple of the modulus of the basis becomes, scaled, a multiple of `Q`. -/
structure Sound (σ : MulStrategy) (par : Par) (level : Nat) (ctx mulCtx : Context) : Prop where
  lhs : σ.lhsDen ≠ 0
  rhs : σ.rhsDen ≠ 0
  post : σ.postDen ≠ 0
  factors : σ.postNum * σ.lhsNum * σ.rhsNum * par.modulusAt level = par.plaintext.value * (σ.postDen * σ.lhsDen * σ.rhsDen)
  count : ctx.moduli.length ≤ 64
  countMul : σ.basis.length ≤ 64
  roomLhs : Spec.scalerRoom ctx.moduli ctx.rns.garner σ.lhsNum σ.lhsDen ≤ 2 ^ 65
  roomRhs : Spec.scalerRoom ctx.moduli ctx.rns.garner σ.rhsNum σ.rhsDen ≤ 2 ^ 65
  roomPost : Spec.scalerRoom mulCtx.moduli mulCtx.rns.garner σ.postNum σ.postDen ≤ 2 ^ 65
  fits : 2 ^ 57 * (par.degree * (height (par.modulusAt level) σ.lhsNum σ.lhsDen * height (par.modulusAt level) σ.rhsNum σ.rhsDen)) < σ.basis.prod * (2 ^ 55 - 1) ∨
    σ.postDen * par.modulusAt level ∣ σ.postNum * σ.basis.prod

/-- The call `Multiplicator::new_leveled` for a strategy. -/
def make (b : Build) (σ : MulStrategy) (level : Nat) (par : Par) : Res Multiplicator := do
  let lhs ← lift (ScalingFactor.new σ.lhsNum σ.lhsDen)
  let rhs ← lift (ScalingFactor.new σ.rhsNum σ.rhsDen)
  let post ← lift (ScalingFactor.new σ.postNum σ.postDen)
  Multiplicator.newLeveled b lhs rhs σ.basis post level par

end MulStrategy
end Fhe
