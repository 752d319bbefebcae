import Verif.Model.BfvCipher
/-!
# `fhe/src/bfv/ops/dot_product.rs`: dot products of ciphertexts and plaintexts

The iterators are lists.
-/
namespace Fhe
open Res

/-- `fma_at!`, `dot_product.rs` lines 16-23.  The accesses are unchecked; here an access out of bounds is a panic, so a result shows that there
is none. -/
def fmaAt (x y out : List Nat) (idx : Nat) : Panics (List Nat) := do
  let v ← add128 (← out[idx]?) (← mul128 (← x[idx]?) (← y[idx]?))
  return out.set idx v

/-- `fma`, `dot_product.rs` lines 11-48: 16 indices at a time, then the rest. -/
def fmaUnrolled (out x y : List Nat) : Panics (List Nat) := do
  let n := out.length
  check (x.length = n)
  check (y.length = n)
  let r := n / 16
  let out ← (List.range r).foldlM (fun out i => (List.range 16).foldlM (fun out k => fmaAt x y out (16 * i + k)) out) out
  (List.range (n % 16)).foldlM (fun out i => fmaAt x y out (16 * r + i)) out

/-- `izip!(acc.outer_iter_mut(), l)` with an update, lines 137 and 139-143: entries beyond the length of `l` are left untouched. -/
def zipUpdate {α β : Type} (f : α → β → Panics α) : List α → List β → Panics (List α)
  | a :: as, b :: bs => do
    let a' ← f a b
    let as' ← zipUpdate f as bs
    return a' :: as'
  | as, _ => some as

/-- The body of the loop over the pairs, `dot_product.rs` lines 136-153: the accumulators are indexed by part, modulus and coefficient. -/
def dotAccumulate (acc : List (List (List Nat))) (ct : Ciphertext) (pt : Plaintext) : Panics (List (List (List Nat))) :=
  zipUpdate (fun acci (ci : Poly .ntt) => zipUpdate (fun accij (x : List Nat × List Nat) => fmaUnrolled accij x.1 x.2) acci (ci.coeffs.zip pt.polyNtt.coeffs)) acc ct.c

/-- `TryConvertFrom<Array2<u64>> for Poly<Ntt>`, `/repo/crates/fhe-math/src/rq/convert.rs` lines 265-285; the columns are those of the first
row. -/
def Poly.tryFromArray2Ntt (a : List (List Nat)) (ctx : Context) (vt : Bool) : Except MathError (Poly .ntt) :=
  if a.length ≠ ctx.q.length ∨ (a.headD []).length ≠ ctx.degree then .error (.invalidCoefficientShape a.length (a.headD []).length ctx.q.length ctx.degree)
  else .ok { ctx, vt, coeffs := a, shoup := none, hasLazy := false }

/-- The reduction of the accumulators of a part, `dot_product.rs` lines 158-178; `izip!` with the moduli. -/
def dotReducePart (ctx : Context) (degree : Nat) (vt : Bool) (acci : List (List Nat)) : Res (Poly .ntt) := do
  let coeffs ← lift (zipUpdate (fun out (x : List Nat × Modulus) => zipUpdate (fun _ a => if vt then x.2.reduceU128Vt a else x.2.reduceU128 a) out x.1)
    (zeroRows ctx.moduli.length degree) (acci.zip ctx.q))
  math (some (Poly.tryFromArray2Ntt coeffs ctx vt))

/-- `1u128 << (2 * qi.leading_zeros())`, `dot_product.rs` line 107; the shift amount must be below 128. -/
def dotLimit (qi : Nat) : Panics Nat := do
  check (2 * lz64 qi < 128)
  return shl128 1 (2 * lz64 qi)

/-- The validation of the pairs, `dot_product.rs` lines 91-101. -/
def dotValidate (first : Ciphertext) (ctx : Context) : List (Ciphertext × Plaintext) → Res Unit
  | [] => Res.ok ()
  | (ct, pt) :: rest => do
    ct.validateForContext first.par first.level ctx
    pt.validateForContext first.par first.level ctx
    if ct.c.length ≠ first.c.length then Res.err (.dotProductPolynomialCount ct.c.length first.c.length)
    else dotValidate first ctx rest

/-- `dot_product_scalar`, `dot_product.rs` lines 54-187.  `cti.get_unchecked(i)` (line 119) is a panic here if there is no part `i`. -/
def dotProductScalar (cts : List Ciphertext) (pts : List Plaintext) : Res Ciphertext :=
  if cts.length = 0 ∨ pts.length = 0 then Res.err .dotProductEmptyInput
  else if cts.length ≠ pts.length then Res.err (.dotProductOperandCount cts.length pts.length)
  else match cts with
  | [] => Res.err .dotProductEmptyInput
  | first :: _ => do
    first.validateFor first.par
    let ctx ← first.par.contextAtLevel first.level
    let vt := (cts.zip pts).all fun x => x.1.c.all (fun p => p.vt) && x.2.polyNtt.vt
    dotValidate first ctx (cts.zip pts)
    let maxAcc ← lift (ctx.moduli.mapM dotLimit)
    let minOfMax ← lift maxAcc.min?
    if cts.length > minOfMax then do
      let c ← (List.range first.c.length).mapM fun i => do
        let parts ← lift (cts.mapM fun ct => ct.c[i]?)
        math (Poly.dotProduct parts (pts.map Plaintext.polyNtt))
      return { par := first.par, seed := none, c, level := first.level }
    else do
      let acc ← lift ((cts.zip pts).foldlM (fun acc x => dotAccumulate acc x.1 x.2) (List.replicate first.c.length (zeroRows ctx.moduli.length first.par.degree)))
      let c ← acc.mapM (dotReducePart ctx first.par.degree vt)
      return { par := first.par, seed := none, c, level := first.level }

end Fhe
