import Verif.Model.BfvEval
import Verif.Model.BfvMultiplicator
/-!
# Operations that change an object in place

The other files model `fn f(&mut self, …)` as a function that returns the new value of `self`, and say nothing about `self` after a failure.
Here the same functions of `/repo/crates/fhe/src/bfv/ciphertext.rs`, `/repo/crates/fhe/src/bfv/ops/mod.rs`, `/repo/crates/fhe/src/bfv/ops/mul.rs`,
`/repo/crates/fhe/src/bfv/keys/relinearization_key.rs`, `/repo/crates/fhe/src/bfv/keys/evaluation_key.rs` and `/repo/crates/fhe-math/src/rq/mod.rs`
are modelled with every assignment to the object in the order in which the code makes them, so that one can see what is left when a later step
returns an error or panics.
-/
namespace Fhe

/-- How an operation fails: it returns `Err(e)`, or it panics.  For example `switch_down`, `/repo/crates/fhe/src/bfv/ciphertext.rs` lines 148-161.
-/
inductive Failure where
  | err (e : FheError)
  | panic
deriving DecidableEq, Repr

/-- An operation on an object of type `σ`: from the object before it to the outcome and the object after it, also when the outcome is a failure.
For example `switch_down`, `/repo/crates/fhe/src/bfv/ciphertext.rs` lines 148-161. -/
abbrev InPlace (σ α : Type) := ExceptT Failure (StateM σ) α

namespace InPlace
variable {σ α : Type}

/-- The outcome of an operation and the object after it.  It models a call, not code. -/
def exec (x : InPlace σ α) (s : σ) : Except Failure α × σ := x.run.run s

/-- A computation that does not touch the object.  For example the checks before the assignments, `/repo/crates/fhe/src/bfv/ciphertext.rs` lines
148-153. -/
def eval (x : Res α) : InPlace σ α :=
  match x.run with
  | some (.ok a) => pure a
  | some (.error e) => throw (.err e)
  | none => throw .panic

/-- `assert!(c)`.  For example `/repo/crates/fhe/src/bfv/ops/mod.rs` line 56. -/
def assert (c : Prop) [Decidable c] : InPlace σ Unit := eval (lift (check c))

end InPlace

namespace Ciphertext
open InPlace

/-- `ct[i] = f(ct[i].clone())?`: the part is written only when its new value is there.  For example `/repo/crates/fhe/src/bfv/ciphertext.rs` lines
154-157. -/
def replacePart (i : Nat) (f : Poly .ntt → Res (Poly .ntt)) : InPlace Ciphertext Unit := do
  let ct ← get
  let x ← eval (lift ct.c[i]?)
  let y ← eval (f x)
  modify fun ct => { ct with c := ct.c.set i y }

/-- `ct[i] += …` and the like, which work on the part itself: `wreck` is whatever the part holds if they panic halfway.  For example
`/repo/crates/fhe/src/bfv/ops/mod.rs` lines 63 and 96 and `/repo/crates/fhe/src/bfv/keys/relinearization_key.rs` lines 97-98. -/
def updatePart (wreck : Poly .ntt) (i : Nat) (f : Poly .ntt → Panics (Poly .ntt)) : InPlace Ciphertext Unit := do
  let ct ← get
  let x ← eval (lift ct.c[i]?)
  match f x with
  | some y => modify fun ct => { ct with c := ct.c.set i y }
  | none => do
    modify fun ct => { ct with c := ct.c.set i wreck }
    throw .panic

/-- A loop over the parts from the `i`-th on.  For example `/repo/crates/fhe/src/bfv/ciphertext.rs` line 154 and
`/repo/crates/fhe/src/bfv/ops/mod.rs` lines 63, 158 and 223. -/
def forParts (step : Nat → InPlace Ciphertext Unit) : (left i : Nat) → InPlace Ciphertext Unit
  | 0, _ => pure ()
  | left + 1, i => do
    step i
    forParts step left (i + 1)

/-- `switch_down`, `ciphertext.rs` lines 148-161. -/
def switchDownIn : InPlace Ciphertext Unit := do
  let ct ← get
  if ct.level ≥ (← eval (lift ct.par.maxLevel)) then throw (.err (.math .noMoreContext))
  else do
    modify fun ct => { ct with seed := none }
    forParts (fun i => replacePart i switchPoly) ct.c.length 0
    modify fun ct => { ct with level := ct.level + 1 }

/-- The loop of `switch_to_level`, `ciphertext.rs` lines 179-181.  Every round raises the level, so `left` rounds suffice when the target is `left` levels away. -/
def switchWhile (target : Nat) : (left : Nat) → InPlace Ciphertext Unit
  | 0 => pure ()
  | left + 1 => do
    if (← get).level < target then do
      switchDownIn
      switchWhile target left
    else pure ()

/-- `switch_to_level`, `ciphertext.rs` lines 164-183. -/
def switchToLevelIn (target : Nat) : InPlace Ciphertext Unit := do
  let ct ← get
  let max ← eval (lift ct.par.maxLevel)
  if target < ct.level then throw (.err (.invalidLevel target ct.level max))
  else if target > max then throw (.err (.invalidLevel target ct.level max))
  else switchWhile target (target - ct.level)

/-- `AddAssign<&Ciphertext>`, `ops/mod.rs` lines 54-69. -/
def addIn (wreck : Poly .ntt) (rhs : Ciphertext) : InPlace Ciphertext Unit := do
  let ct ← get
  assert (ct.par.ptrEq rhs.par)
  if ct.c = [] then set rhs
  else if rhs.c ≠ [] then do
    assert (ct.level = rhs.level)
    assert (ct.c.length = rhs.c.length)
    forParts (fun i => do updatePart wreck i ((← eval (lift rhs.c[i]?)) |> fun y x => x.addAssign y)) ct.c.length 0
    modify fun ct => { ct with seed := none }
  else pure ()

/-- `SubAssign<&Ciphertext>`, `ops/mod.rs` lines 149-164. -/
def subIn (wreck : Poly .ntt) (rhs : Ciphertext) : InPlace Ciphertext Unit := do
  let ct ← get
  assert (ct.par.ptrEq rhs.par)
  if ct.c = [] then set (← eval (lift rhs.neg))
  else if rhs.c ≠ [] then do
    assert (ct.level = rhs.level)
    assert (ct.c.length = rhs.c.length)
    forParts (fun i => do updatePart wreck i ((← eval (lift rhs.c[i]?)) |> fun y x => x.subAssign y)) ct.c.length 0
    modify fun ct => { ct with seed := none }
  else pure ()

/-- `AddAssign<&Plaintext>`, `ops/mod.rs` lines 89-99. -/
def addPlainIn (wreck : Poly .ntt) (pt : Plaintext) : InPlace Ciphertext Unit := do
  let ct ← get
  assert (ct.par.ptrEq pt.par)
  assert (ct.c ≠ [])
  assert (ct.level = (← eval (lift pt.level)))
  let poly ← eval (lift pt.toPoly)
  updatePart wreck 0 fun x => x.addAssign poly
  modify fun ct => { ct with seed := none }

/-- `SubAssign<&Plaintext>`, `ops/mod.rs` lines 184-194. -/
def subPlainIn (wreck : Poly .ntt) (pt : Plaintext) : InPlace Ciphertext Unit := do
  let ct ← get
  assert (ct.par.ptrEq pt.par)
  assert (ct.c ≠ [])
  assert (ct.level = (← eval (lift pt.level)))
  let poly ← eval (lift pt.toPoly)
  updatePart wreck 0 fun x => x.subAssign poly
  modify fun ct => { ct with seed := none }

/-- `MulAssign<&Plaintext>`, `ops/mod.rs` lines 229-238. -/
def mulPlainIn (wreck : Poly .ntt) (pt : Plaintext) : InPlace Ciphertext Unit := do
  let ct ← get
  assert (ct.par.ptrEq pt.par)
  if ct.c ≠ [] then do
    assert (ct.level = (← eval (lift pt.level)))
    forParts (fun i => updatePart wreck i fun x => x.mulAssign pt.polyNtt) ct.c.length 0
  modify fun ct => { ct with seed := none }

end Ciphertext

open InPlace

/-- `relinearizes`, `relinearization_key.rs` lines 69-102. -/
def RelinearizationKey.relinearizesIn (k : RelinearizationKey) (wreck : Poly .ntt) : InPlace Ciphertext Unit := do
  let ct ← get
  eval (ct.validateFor k.ksk.par)
  match ct.c with
  | [x0, x1, x2] =>
    if ct.level ≠ k.ksk.ciphertextLevel then throw (.err (.invalidLevel ct.level k.ksk.ciphertextLevel k.ksk.ciphertextLevel))
    else do
      let c2 ← eval (lift x2.nttToPowerBasis)
      let a ← eval (k.ksk.keySwitch c2)
      let a ← eval (switchPair a x0 x1)
      Ciphertext.updatePart wreck 0 fun x => x.addAssign a.1
      Ciphertext.updatePart wreck 1 fun x => x.addAssign a.2
      modify fun ct => ct.truncate 2
  | _ => throw (.err (.invalidPolynomialCount .relinearization ct.c.length 3))

/-- `switch_down` of a polynomial, `mod.rs` lines 433-492: `wreck` is what a panic halfway leaves. -/
def Poly.switchDownIn (wreck : Poly .powerBasis) : InPlace (Poly .powerBasis) Unit := do
  match (← get).switchDown with
  | none => do set wreck; throw .panic
  | some (.error e) => throw (.err (.math e))
  | some (.ok p) => set p

/-- The loop of `switch_down_to`, `mod.rs` lines 500-502. -/
def Poly.switchDownLoopIn (wreck : Poly .powerBasis) : Nat → InPlace (Poly .powerBasis) Unit
  | 0 => pure ()
  | n + 1 => do
    Poly.switchDownIn wreck
    Poly.switchDownLoopIn wreck n

/-- `switch_down_to`, `mod.rs` lines 498-507. -/
def Poly.switchDownToIn (wreck : Poly .powerBasis) (target : Context) : InPlace (Poly .powerBasis) Unit := do
  match (← get).ctx.niterationsTo target with
  | .error e => throw (.err (.math e))
  | .ok n => do
    Poly.switchDownLoopIn wreck n
    if (← get).ctx ≠ target then throw (.err (.math .contextNotReachable)) else pure ()

/-- `enable_relinearization`, `mul.rs` lines 141-151. -/
def Multiplicator.enableRelinearizationIn (rk : RelinearizationKey) : InPlace Multiplicator Unit := do
  let mp ← get
  let rkCtx ← eval (mp.par.contextAtLevel rk.ksk.ciphertextLevel)
  if rkCtx ≠ mp.baseCtx then throw (.err (.parameterMismatch .relinearizationKey .multiplicator))
  else modify fun mp => { mp with rk := some rk }

/-- `enable_mod_switching`, `mul.rs` lines 155-162. -/
def Multiplicator.enableModSwitchingIn : InPlace Multiplicator Unit := do
  let mp ← get
  let last ← eval (do mp.par.contextAtLevel (← lift mp.par.maxLevel))
  if last = mp.baseCtx then throw (.err (.math .noMoreContext))
  else modify fun mp => { mp with modSwitch := true }

/-- `enable_expansion`, `evaluation_key.rs` lines 386-398. -/
def EvaluationKeyBuilder.enableExpansionIn (level : Nat) : InPlace EvaluationKeyBuilder Unit := do
  let max := Nat.log2 (← get).sk.par.degree
  if level > max then throw (.err (.invalidLevel level 0 max)) else modify fun s => { s with expansionLevel := level }

/-- `enable_column_rotation`, `evaluation_key.rs` lines 414-426. -/
def EvaluationKeyBuilder.enableColumnRotationIn (i : Nat) : InPlace EvaluationKeyBuilder Unit := do
  let s ← get
  match s.rot.lookup i with
  | some exponent => modify fun s => { s with columns := setInsert s.columns exponent }
  | none => do throw (.err (.invalidRotationStep i 1 (← eval (lift (subU (s.sk.par.degree / 2) 1)))))

end Fhe
