import Verif.Spec.BfvKeys
import Verif.Model.BfvEval
/-!
# What evaluation keys stand for
-/
namespace Fhe
open Nega

/-- The evaluation key belongs to the secret `s`, for ciphertexts of level `i` and with keys of level `j`: the key stored for an exponent is a
Galois key of that exponent, with errors of at most `e`; the exponent of a rotation by `t` columns is `3^t`; and the `l`-th monomial is
`-X^(N - 2^l)`, the inverse of `X^(2^l)`. -/
structure EvaluationKey.IsFor (par : Par) (s : IntPoly par.degree) (k : EvaluationKey) (i j e : Nat) : Prop where
  par_eq : k.par = par
  level : k.ciphertextLevel = i
  keyLevel : k.keyLevel = j
  le : j ≤ i
  lt : i < par.moduli.length
  rot : ∀ t x, k.rot.lookup t = some x ↔ 1 ≤ t ∧ t < par.degree / 2 ∧ x = 3 ^ t % (2 * par.degree)
  gk : ∀ x g, k.gk.lookup x = some g → g.IsFor par s x i j e
  monomials : ∀ l < Nat.log2 par.degree, ∃ p ctx, k.monomials[l]? = some p ∧ par.contextAtLevel i = Res.ok ctx ∧
    ∃ f : IntPoly par.degree, p.IsMod ctx f ∧ ∀ t, f t = if t.val = par.degree - 2 ^ l then -1 else 0

/-- A bound on the errors of the key switches with any of the keys. -/
def EvaluationKey.ErrorAtMost (par : Par) (k : EvaluationKey) (S e B : Nat) : Prop := ∀ x g, k.gk.lookup x = some g → g.ksk.errorBound par S e ≤ B

/-- What a user can ask of a builder. -/
inductive EvaluationRequest where
  | expansion (level : Nat) | innerSum | rows | columns (step : Nat)

/-- The builder after a call on it: a call that returns an error leaves it as it was. -/
def keepOnError (s : EvaluationKeyBuilder) : Res EvaluationKeyBuilder → Panics EvaluationKeyBuilder
  | some (.ok s') => some s'
  | some (.error _) => some s
  | none => none

/-- One call on a builder. -/
def EvaluationKeyBuilder.request (s : EvaluationKeyBuilder) : EvaluationRequest → Panics EvaluationKeyBuilder
  | .expansion level => keepOnError s (s.enableExpansion level)
  | .innerSum => keepOnError s s.enableInnerSum
  | .rows => keepOnError s s.enableRowRotation
  | .columns step => keepOnError s (s.enableColumnRotation step)

/-- A sequence of calls on a builder; after an error the user goes on. -/
def EvaluationKeyBuilder.requests (s : EvaluationKeyBuilder) (rs : List EvaluationRequest) : Panics EvaluationKeyBuilder := rs.foldlM EvaluationKeyBuilder.request s

/-- The level of expansion in force after the requests: the last one that is at most `log2 N`. -/
def lastExpansion (N : Nat) (rs : List EvaluationRequest) : Nat :=
  rs.foldl (fun acc r => match r with | .expansion level => if level ≤ Nat.log2 N then level else acc | _ => acc) 0

/-- The exponents of the Galois keys that the requests call for. -/
def Requested (N : Nat) (rs : List EvaluationRequest) (x : Nat) : Prop :=
  (∃ t, EvaluationRequest.columns t ∈ rs ∧ 1 ≤ t ∧ t < N / 2 ∧ x = 3 ^ t % (2 * N)) ∨
  ((EvaluationRequest.rows ∈ rs ∨ EvaluationRequest.innerSum ∈ rs) ∧ x = 2 * N - 1) ∨
  (EvaluationRequest.innerSum ∈ rs ∧ ∃ k, 2 ^ k < N / 2 ∧ x = 3 ^ 2 ^ k % (2 * N)) ∨
  ∃ l < lastExpansion N rs, x = N / 2 ^ l + 1

/-- What the `j`-th ciphertext of an expansion to `2^l` ciphertexts is to hold: the coefficients `j`, `j + 2^l`, `j + 2 · 2^l`, … of the message at
the positions `0`, `2^l`, `2 · 2^l`, …, all times `2^l`. -/
def expandMsg {N t : Nat} (l j : Nat) (m : Nega N (ZMod t)) : Nega N (ZMod t) := fun p =>
  if h : 2 ^ l ∣ p.val ∧ j + p.val < N then 2 ^ l * m ⟨j + p.val, h.2⟩ else 0

end Fhe
