import Verif.Model.Ntt
/-!
# `fhe-math/src/ntt/tfhe.rs`: the transforms of a build with the feature `tfhe-ntt`

Citations are to `/repo/crates/fhe-math/src/ntt/tfhe.rs`.  `Plan` belongs to the external crate `tfhe_ntt`, whose code is not
in the repository: a plan is an arbitrary record of functions here, and what is assumed of it is the separate specification
`Spec.PlanFor` in `Spec/Tfhe.lean`.
-/
namespace Fhe

/-- The part of `tfhe_ntt::prime64::Plan` that is called: `ntt_size`, `fwd`, `inv` and `normalize` (lines 53, 64, 65, 80, 97,
114).  The functions work in place on a slice; here they return the new contents. -/
structure TfhePlan where
  size : Nat
  fwd : List Nat → Panics (List Nat)
  inv : List Nat → Panics (List Nat)
  normalize : List Nat → Panics (List Nat)

/-- `struct NttOperator`, lines 8-12. -/
structure TfheOperator where
  plan : Option TfhePlan
  native : NttOperator

namespace TfheOperator

/-- `PartialEq::eq`, lines 14-30: the plans are not compared. -/
def eq (x y : TfheOperator) : Bool := decide (x.native = y.native)

/-- `NttOperator::new`, lines 40-48.  `tryNew` is `Plan::try_new`. -/
def new (tryNew : Nat → Nat → Option TfhePlan) (dbg : Bool) (rng : Nat → Nat) (p : Modulus) (size : Nat) : Panics (Option TfheOperator) := do
  match ← NttOperator.new dbg rng p size with
  | none => return none
  | some native => return some { plan := tryNew size p.p, native }

/-- `forward`, lines 52-58. -/
def forward (op : TfheOperator) (a : List Nat) : Panics (List Nat) :=
  match op.plan with
  | some plan => plan.fwd a
  | none => op.native.forward a

/-- `backward`, lines 62-69. -/
def backward (op : TfheOperator) (a : List Nat) : Panics (List Nat) :=
  match op.plan with
  | some plan => do
    let a ← plan.inv a
    plan.normalize a
  | none => op.native.backward a

/-- `slice::from_raw_parts_mut(a_ptr, n)` where `a_ptr` points to the entries `a`, lines 79, 96 and 113: reading beyond them is
undefined behaviour, `none`.  Entries after the first `n`, if any, stay as they are. -/
def onSlice (n : Nat) (f : List Nat → Panics (List Nat)) (a : List Nat) : Panics (List Nat) := do
  check (n ≤ a.length)
  return (← f (a.take n)) ++ a.drop n

/-- `forward_vt_lazy`, lines 77-86. -/
def forwardVtLazy (op : TfheOperator) (a : List Nat) : Panics (List Nat) :=
  match op.plan with
  | some plan => onSlice plan.size plan.fwd a
  | none => op.native.forwardVtLazy a

/-- `forward_vt`, lines 94-103. -/
def forwardVt (op : TfheOperator) (a : List Nat) : Panics (List Nat) :=
  match op.plan with
  | some plan => onSlice plan.size plan.fwd a
  | none => op.native.forwardVt a

/-- `backward_vt`, lines 111-121. -/
def backwardVt (op : TfheOperator) (a : List Nat) : Panics (List Nat) :=
  match op.plan with
  | some plan => onSlice plan.size (fun a => do
      let a ← plan.inv a
      plan.normalize a) a
  | none => op.native.backwardVt a

end TfheOperator
end Fhe
