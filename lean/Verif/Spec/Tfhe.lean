import Verif.Model.Tfhe
import Verif.Spec.Ntt
import Mathlib.RingTheory.RootsOfUnity.PrimitiveRoots
/-!
# What is assumed of the external crate `tfhe_ntt`

A plan for size `N` modulo `p` evaluates at the odd powers of a primitive `2N`-th root of unity, in bit-reversed order, with
canonical results; and `inv` followed by `normalize` undoes this.  Nothing is assumed about which root it is.
-/
namespace Fhe.Spec

/-- `plan` is a plan for size `N` modulo `p` that evaluates at the odd powers of `ψ`.  Entries below `2p` are accepted:
the crate calls `forward_vt_lazy` on the output of `lazy_reduce_vec` (`rq/mod.rs` lines 571-574). -/
structure PlanFor (p N : Nat) (ψ : ZMod p) (plan : TfhePlan) : Prop where
  size : plan.size = N
  primitive : IsPrimitiveRoot ψ (2 * N)
  fwd : ∀ a : List Nat, a.length = N → (∀ x ∈ a, x < 2 * p) → ∃ r, plan.fwd a = some r ∧ r.length = N ∧
    ∀ i (hi : i < r.length), r[i] < p ∧ (r[i] : ZMod p) = polyEval a (ψ ^ (2 * bitRev N.log2 i + 1))
  inv : ∀ a r : List Nat, a.length = N → (∀ x ∈ a, x < p) → plan.fwd a = some r → ((plan.inv r).bind plan.normalize) = some a

/-- The operator `op` of a `tfhe-ntt` build and the operator `op'` of a native build compute the same transforms modulo `p` on
vectors of length `N`: the forward ones on entries below `2p`, the backward ones on reduced entries; the lazy forward
transforms may return different representatives, below `4p`, of the same residues. -/
structure SameTransforms (p N : Nat) (op : TfheOperator) (op' : NttOperator) : Prop where
  forward : ∀ a : List Nat, a.length = N → (∀ x ∈ a, x < 2 * p) → ∃ r, op.forward a = some r ∧ op'.forward a = some r
  forwardVt : ∀ a : List Nat, a.length = N → (∀ x ∈ a, x < 2 * p) → ∃ r, op.forwardVt a = some r ∧ op'.forwardVt a = some r
  forwardVtLazy : ∀ a : List Nat, a.length = N → (∀ x ∈ a, x < 2 * p) → ∃ r r', op.forwardVtLazy a = some r ∧ op'.forwardVtLazy a = some r' ∧
    r.map (· % p) = r'.map (· % p) ∧ (∀ x ∈ r, x < 4 * p) ∧ ∀ x ∈ r', x < 4 * p
  backward : ∀ a : List Nat, a.length = N → (∀ x ∈ a, x < p) → ∃ r, op.backward a = some r ∧ op'.backward a = some r
  backwardVt : ∀ a : List Nat, a.length = N → (∀ x ∈ a, x < p) → ∃ r, op.backwardVt a = some r ∧ op'.backwardVt a = some r

end Fhe.Spec
