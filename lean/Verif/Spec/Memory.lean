import Verif.Model.Memory
/-!
# The polynomials a program can make

`Made b p`: a release build makes the polynomial `p` by calls of the public functions, in any order and on any arguments (also on polynomials of
different contexts, and with or without variable time).  Not listed: the conversion from a matrix of the crate `ndarray`, which the program can lay
out in memory as it likes.
-/
namespace Fhe.Spec

/-- One row for each modulus of the context, with one entry for each coefficient. -/
def RightShape {r : Rep} (p : Poly r) : Prop := p.coeffs.length = p.ctx.q.length ∧ ∀ row ∈ p.coeffs, row.length = p.ctx.degree

/-- Contexts: those of the constructor and those below them. -/
inductive MadeContext (b : Build) : Context → Prop where
  | new {moduli : List Nat} {degree : Nat} {c : Context} (h : Context.new b moduli degree = some (.ok c)) : MadeContext b c
  | next {c c' : Context} (h : MadeContext b c) (hc : c.next = some c') : MadeContext b c'

/-- Polynomials.  Reading a polynomial from bytes ends with `fromU64` on the values that were read, followed by the change of representation. -/
inductive Made (b : Build) : {r : Rep} → Poly r → Prop where
  | zero {r : Rep} {c : Context} (hc : MadeContext b c) : Made b (Poly.zero r c)
  | random {r : Rep} {c : Context} {rows : List (List Nat)} {p : Poly r} (hc : MadeContext b c) (h : Poly.random r c rows = some p) : Made b p
  | small {c : Context} {variance : Nat} {rng : Nat → Nat} {p : Poly .powerBasis} (hc : MadeContext b c) (h : (Release.smallPowerBasis c variance rng).result = some (.ok p)) : Made b p
  | fromU64 {c : Context} {v : List Nat} {vt : Bool} {p : Poly .powerBasis} (hc : MadeContext b c) (h : (Release.tryFromU64 v c vt).result = some (.ok p)) : Made b p
  | fromU64Ntt {c : Context} {v : List Nat} {vt : Bool} {p : Poly .ntt} (hc : MadeContext b c) (h : Poly.tryFromU64Ntt v c vt = some (.ok p)) : Made b p
  | fromI64 {c : Context} {v : List Int} {vt : Bool} {p : Poly .powerBasis} (hc : MadeContext b c) (h : (Release.tryFromI64 v c vt).result = some (.ok p)) : Made b p
  | allowVt {r : Rep} {p : Poly r} (hp : Made b p) : Made b p.allowVt
  | disallowVt {r : Rep} {p : Poly r} (hp : Made b p) : Made b p.disallowVt
  | intoNtt {p : Poly .powerBasis} {x : Poly .ntt} (hp : Made b p) (h : (Release.intoNtt p).result = some x) : Made b x
  | intoNttShoup {p : Poly .powerBasis} {x : Poly .nttShoup} (hp : Made b p) (h : (Release.intoNttShoup p).result = some x) : Made b x
  | toPowerBasis {p : Poly .ntt} {x : Poly .powerBasis} (hp : Made b p) (h : (Release.nttToPowerBasis p).result = some x) : Made b x
  | shoupToNtt {p : Poly .nttShoup} {x : Poly .ntt} (hp : Made b p) (h : (Release.shoupToNtt p).result = some x) : Made b x
  | add {r : Rep} {p p' x : Poly r} (hp : Made b p) (hp' : Made b p') (h : (Release.addAssign p p').result = some x) : Made b x
  | sub {r : Rep} {p p' x : Poly r} (hp : Made b p) (hp' : Made b p') (h : (Release.subAssign p p').result = some x) : Made b x
  | mul {p p' x : Poly .ntt} (hp : Made b p) (hp' : Made b p') (h : (Release.mulAssign p p').result = some x) : Made b x
  | mulShoup {p x : Poly .ntt} {p' : Poly .nttShoup} (hp : Made b p) (hp' : Made b p') (h : (Release.mulAssignShoup p p').result = some x) : Made b x
  | mulScalar {r : Rep} {p x : Poly r} {s : Nat} (hp : Made b p) (h : (Release.mulScalar p s).result = some x) : Made b x
  | neg {r : Rep} {p x : Poly r} (hp : Made b p) (h : (Release.polyNeg p).result = some x) : Made b x
  | substitute {r : Rep} {p x : Poly r} {e : SubstExponent} (hp : Made b p) (h : (Release.substitute p e).result = some x) : Made b x
  | inversePowerOfX {p x : Poly .powerBasis} {k : Nat} (hp : Made b p) (h : (Release.multiplyInversePowerOfX p k).result = some x) : Made b x
  | switchDown {p x : Poly .powerBasis} (hp : Made b p) (h : (Release.switchDown p).result = some (.ok x)) : Made b x
  | switchDownTo {p x : Poly .powerBasis} {c : Context} (hp : Made b p) (h : (Release.switchDownTo p c).result = some (.ok x)) : Made b x
  | scale {r : Rep} {p x : Poly r} {src dst : Context} {f : ScalingFactor} {s : Scaler} (hs : MadeContext b src) (hd : MadeContext b dst)
      (hn : Scaler.new src dst f = some (.ok s)) (hp : Made b p) (h : (Release.scale s p).result = some (.ok x)) : Made b x
  | dot {ps ps' : List (Poly .ntt)} {x : Poly .ntt} (hp : ∀ p ∈ ps, Made b p) (hp' : ∀ p ∈ ps', Made b p) (h : Memory.dotProduct ps ps' = .returned (.ok x)) : Made b x

end Fhe.Spec
