import Verif.Model.BfvEval
/-!
# Wiping secrets: the implementations of `Zeroize`

The `zeroize` crate is modelled by what it documents: integers become 0, slices and boxed slices are wiped entry by entry and
keep their length, a `Vec` is wiped and then emptied.  That the writes reach the memory (they are volatile) and that no other
copy of the data exists is not modelled.  `Drop` of a secret key, a plaintext and a vector of plaintexts
(`secret_key.rs` lines 34-38, `plaintext.rs` lines 40-44, `plaintext_vec.rs` line 18), and of `Zeroizing`, calls these functions.
-/
namespace Fhe

/-- `zeroize` of a slice of integers, `zeroize` crate.  Used in `/repo/crates/fhe-math/src/rq/mod.rs` lines 152 and 239 and
`/repo/crates/fhe/src/bfv/keys/secret_key.rs` line 30. -/
def wipe (l : List Nat) : List Nat := l.map fun _ => 0

/-- `zeroize_shoup`, `fhe-math/src/rq/mod.rs` lines 233-241.  The arrays are in standard layout, so that `as_slice_mut` is `Some`. -/
def Poly.zeroizeShoup {r : Rep} (p : Poly r) : Poly r := { p with shoup := p.shoup.map fun rows => rows.map wipe }

/-- `zeroize`, `fhe-math/src/rq/mod.rs` lines 149-156. -/
def Poly.zeroize {r : Rep} (p : Poly r) : Poly r := ({ p with coeffs := p.coeffs.map wipe } : Poly r).zeroizeShoup

/-- `zeroize`, `secret_key.rs` lines 27-32. -/
def SecretKey.zeroize (sk : SecretKey) : SecretKey := { sk with coeffs := sk.coeffs.map fun _ => 0 }

/-- `zeroize`, `plaintext.rs` lines 34-38. -/
def Plaintext.zeroize (pt : Plaintext) : Plaintext := { pt with polyNtt := pt.polyNtt.zeroize }

/-- `derive(Zeroize)`, `plaintext_vec.rs` line 18: the vector is wiped and emptied.  The second component is what is left in the
buffer that the vector keeps. -/
def PlaintextVec.zeroize (pts : List Plaintext) : List Plaintext × List Plaintext := ([], pts.map Plaintext.zeroize)

/-- `zeroize`, `evaluation_key.rs` lines 325-329. -/
def EvaluationKeyBuilder.zeroize (b : EvaluationKeyBuilder) : EvaluationKeyBuilder := { b with sk := b.sk.zeroize }

end Fhe
