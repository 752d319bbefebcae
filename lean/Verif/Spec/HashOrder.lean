import Verif.Model.BfvEval
/-!
# Specification: hash tables and the order in which they are iterated

The standard hash tables and sets keep their entries in an order that differs from one run to the next, even for the same entries.  The model
keeps them as lists.  Here is what it means for two keys to be the same up to that order, the constructor of evaluation keys with the order
in which it goes through its set of exponents as an argument, and the function that makes the predefined parameters with the order in which it
goes through its table.
-/
namespace Fhe
open Res

/-- `k'` is `k` with its hash tables in another order. -/
structure EvaluationKey.SameTables (k k' : EvaluationKey) : Prop where
  par : k'.par = k.par
  ciphertextLevel : k'.ciphertextLevel = k.ciphertextLevel
  keyLevel : k'.keyLevel = k.keyLevel
  gk : k'.gk.Perm k.gk
  rot : k'.rot.Perm k.rot
  monomials : k'.monomials = k.monomials

/-- `EvaluationKeyBuilder::build`, `evaluation_key.rs` lines 429-491, where the set of exponents, `indices` of lines 439-462, is iterated in the
given order in lines 477-488.  Each key uses the randomness of its exponent. -/
def EvaluationKeyBuilder.buildIn (order : List Nat) (b : Build) (g : Prg) (s : EvaluationKeyBuilder) (seeds : Nat → Seed) (rngs : Nat → Nat → Nat → Nat) : Res EvaluationKey := do
  let ctx ← s.sk.par.contextAtLevel s.ciphertextLevel
  let monomials ← EvaluationKey.makeMonomials s.sk.par.degree ctx
  let gk ← order.mapM fun x => do return (x, ← GaloisKey.new b g s.sk x s.ciphertextLevel s.keyLevel (seeds x) (rngs x))
  return { par := s.sk.par, ciphertextLevel := s.ciphertextLevel, keyLevel := s.keyLevel, gk, rot := s.rot, monomials }

/-- `default_parameters_128`, `parameters.rs` lines 218-290, where the hash table `n_and_qs` of lines 223-250 is iterated in the given order before
it is sorted by degree in line 254. -/
def defaultParametersIn (table : List (Nat × List Nat)) (b : Build) (bits : Nat) : Res (List BfvParameters) := do
  lift (check (bits < 64))
  let l ← lift ((table.mergeSort fun x y => decide (x.1 ≤ y.1)).mapM (defaultEntry b bits))
  if l.filterMap id = [] then Res.err (.noDefaultParameters bits) else return l.filterMap id

end Fhe
