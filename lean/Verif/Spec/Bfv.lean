import Verif.Spec.Rq
import Verif.Model.BfvPlain
/-!
# What BFV objects stand for
-/
namespace Fhe
open Nega

/-- Messages: the ring `(Z/t)[X]/(X^N + 1)`, `t` the plaintext modulus, `N` the degree. -/
abbrev BfvParameters.Msg (par : BfvParameters) := Nega par.degree (ZMod par.plaintext.value)

/-- The coefficients of a message, by their representatives in `0..t`. -/
def msgCoeffs {N t : Nat} (m : Nega N (ZMod t)) : List Nat := List.ofFn fun j => (m j).val

/-- The plaintext object, of parameters `par`, holds the message `m` at the given level: its polynomial is a valid one of that
level's context and its coefficients are the representatives in `0..t` of those of `m`. -/
structure Plaintext.Holds (par : Par) (pt : Plaintext) (level : Nat) (m : par.Msg) : Prop where
  par_eq : pt.par = par
  ctx : par.contextAtLevel level = Res.ok pt.polyNtt.ctx
  valid : pt.polyNtt.Valid
  coeffs : (do (← pt.polyNtt.nttToPowerBasis).toBigUint) = some (msgCoeffs m)

/-- The product of the ciphertext moduli in use at a level. -/
def BfvParameters.modulusAt (par : BfvParameters) (level : Nat) : Nat := (par.moduli.take (par.moduli.length - level)).prod

/-- The power of the root of unity that belongs to a slot.  The slots form a matrix of two rows of `N/2` columns; slot `i` of the
first row belongs to `3^i`, slot `i` of the second to `-3^i` modulo `2N`. -/
def slotPower (N i : Nat) : Nat := if i < N / 2 then 3 ^ i % (2 * N) else 2 * N - 3 ^ (i - N / 2) % (2 * N)

/-- The value of a message in a slot. -/
def slotValue {N t : Nat} (ζ : ZMod t) (m : Nega N (ZMod t)) (i : Nat) : ZMod t := ∑ j : Fin N, m j * ζ ^ (slotPower N i * j.val)

/-- A list padded with zeroes, or cut, to `n` entries. -/
def padTo (n : Nat) (v : List Nat) : List Nat := (List.range n).map fun i => v.getD i 0

end Fhe
