import Verif.Model.BfvEval
/-!
# Permission to compute in variable time
-/
namespace Fhe

/-- For each part of a ciphertext, whether it permits computations in variable time. -/
def Ciphertext.flags (x : Ciphertext) : List Bool := x.c.map fun p => p.vt

/-- Whether all the parts of a ciphertext permit computations in variable time. -/
def Ciphertext.permits (x : Ciphertext) : Bool := x.flags.all id

/-- Whether all the polynomials of a key-switching key, in both halves, permit computations in variable time. -/
def KeySwitchingKey.permits (k : KeySwitchingKey) : Bool := k.c0.all (fun p => p.vt) && k.c1.all fun p => p.vt

/-- The Galois keys and monomials of an evaluation key all permit computations in variable time. -/
def EvaluationKey.Permits (k : EvaluationKey) : Prop := (∀ x ∈ k.gk, x.2.ksk.permits = true) ∧ ∀ p ∈ k.monomials, p.vt = true

/-- None of the polynomials permits computations in variable time. -/
def NonePermits {r : Rep} (l : List (Poly r)) : Prop := ∀ p ∈ l, p.vt = false

end Fhe
