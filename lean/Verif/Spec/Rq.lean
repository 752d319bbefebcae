import Verif.Spec.Nega
import Verif.Model.Rq
/-!
# What it means for a polynomial object to represent a ring element
-/
namespace Fhe
open Nega

/-- The ring `(Z/Q)[X]/(X^N + 1)` of a context: `Q` is the product of its moduli, `N` its degree. -/
abbrev Context.Elem (c : Context) := Nega c.degree (ZMod c.modulus)

/-- The object is one that the public API hands out: no lazy coefficients, one row per modulus, one column per coefficient,
reduced entries, and the precomputed table present exactly in the `NttShoup` representation, with entries `⌊x 2^64 / q⌋`. -/
structure Poly.Valid {r : Rep} (p : Poly r) : Prop where
  notLazy : p.hasLazy = false
  rows : p.coeffs.length = p.ctx.moduli.length
  columns : ∀ row ∈ p.coeffs, row.length = p.ctx.degree
  reduced : ∀ (i q : Nat) (row : List Nat), p.ctx.moduli[i]? = some q → p.coeffs[i]? = some row → ∀ x ∈ row, x < q
  shoup : p.shoup = if r = .nttShoup then some (List.zipWith (fun row q => row.map fun x => x * 2 ^ 64 / q) p.coeffs p.ctx.moduli) else none

/-- `p`, of context `c`, is valid and represents `f`: converting it to the power basis and then to big integers, as a user of
the API would, yields the coefficients of `f`. -/
structure Represents (c : Context) {r : Rep} (p : Poly r) (f : c.Elem) : Prop where
  ctx : p.ctx = c
  valid : p.Valid
  coeffs : (do (← p.toPowerBasis).toBigUint) = some (List.ofFn fun j : Fin c.degree => (f j).val)

end Fhe
