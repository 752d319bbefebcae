import Verif.Model.BfvDot
/-!
# What an operation answers

An operation that can refuse its arguments has a list of reasons for doing so, each with the error that names it.
-/
namespace Fhe

/-- The answer is the error of the first reason that applies, and a result exactly if none does; never a panic. -/
def Answers {α : Type} (r : Res α) : List (Prop × FheError) → Prop
  | [] => ∃ a, r = Res.ok a
  | (reason, error) :: rest => (reason → r = Res.err error) ∧ (¬ reason → Answers r rest)

/-- What can be wrong with a pair of a scalar product whose first ciphertext has parameters `par`, level `i` and `L` parts; `level` tells the levels of the
plaintexts. -/
def pairReasons (par : Par) (i L : Nat) (level : Plaintext → Nat) (x : Ciphertext × Plaintext) : List (Prop × FheError) :=
  [(x.1.par.ptrEq par = false, .parameterMismatch .ciphertext .parameters), (x.1.level ≠ i, .invalidLevel x.1.level i i),
   (x.2.par.ptrEq par = false, .parameterMismatch .plaintext .parameters), (level x.2 ≠ i, .invalidLevel (level x.2) i i),
   (x.1.c.length ≠ L, .dotProductPolynomialCount x.1.c.length L)]

end Fhe
