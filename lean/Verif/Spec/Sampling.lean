import Verif.Model.Util
/-!
# Streams made of finitely many random words
-/
namespace Fhe

/-- A stream that begins with the given words. -/
def wordsOf {W : Nat} (w : Fin W → Fin (2 ^ 64)) : Nat → Nat := fun i => if h : i < W then w ⟨i, h⟩ else 0

/-- The `i`-th entry of the vector sampled from the given words. -/
def entry (n v : Nat) {W : Nat} (w : Fin W → Fin (2 ^ 64)) (i : Nat) : Int :=
  match sampleVecCbd n v (wordsOf w) with
  | some (.ok (l, _)) => l.getD i 0
  | _ => 0

end Fhe
