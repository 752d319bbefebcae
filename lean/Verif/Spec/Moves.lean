import Verif.Spec.BfvEval
/-!
# Sequences of rotations

What property C96 says of programs that rotate a ciphertext several times, with the methods of one evaluation key.
-/
namespace Fhe

/-- A call of `rotates_rows`, or of `rotates_columns_by`. -/
inductive Move where
  | rows
  | columns (t : Nat)

namespace Move

/-- The call. -/
def apply (k : EvaluationKey) (ct : Ciphertext) : Move → Res Ciphertext
  | rows => k.rotatesRows ct
  | columns t => k.rotatesColumnsBy ct t

/-- The evaluation key says that it supports the call. -/
def Supported (k : EvaluationKey) : Move → Prop
  | rows => k.supportsRowRotation = true
  | columns t => k.supportsColumnRotationBy t = true

/-- The calls, one after the other. -/
def applyAll (k : EvaluationKey) : List Move → Ciphertext → Res Ciphertext
  | [], ct => Res.ok ct
  | x :: l, ct => do
    let ct' ← x.apply k ct
    applyAll k l ct'

/-- By how many columns the calls rotate in all. -/
def steps : List Move → Nat
  | [] => 0
  | rows :: l => steps l
  | columns t :: l => t + steps l

/-- How many of the calls exchange the rows. -/
def swaps : List Move → Nat
  | [] => 0
  | rows :: l => swaps l + 1
  | columns _ :: l => swaps l

/-- Where slot `i` comes from, when the two rows of `N / 2` slots have been exchanged `swaps` times and rotated to the left by `steps`. -/
def source (N steps swaps i : Nat) : Nat := (i / (N / 2) + swaps) % 2 * (N / 2) + (i % (N / 2) + steps) % (N / 2)

end Move
end Fhe
