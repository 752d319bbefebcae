import Verif.Spec.BfvEval
import Verif.Spec.BfvRgsw
import Verif.Model.BfvMul
import Verif.Model.BfvMultiplicator
/-!
# Computations on ciphertexts

What a user of the library writes: any composition of the operations on ciphertexts, starting from given ciphertexts.  `Circuit i` are the
computations whose result is a ciphertext of level `i`.  Three interpretations are given: what the calls return, what polynomial it should
hold, and what slots it should hold.
-/
namespace Fhe
open Nega

/-- Computations; the index is the level of the result.  Inputs, plaintexts and RGSW ciphertexts are numbered at each level. -/
inductive Circuit : Nat → Type
  /-- the `k`-th given ciphertext of level `i` -/
  | input (i k : Nat) : Circuit i
  /-- `&a + &b` -/
  | add (a b : Circuit i) : Circuit i
  /-- `&a - &b` -/
  | sub (a b : Circuit i) : Circuit i
  /-- `-&a` -/
  | neg (a : Circuit i) : Circuit i
  /-- `&a + &pt` -/
  | addPlain (a : Circuit i) (k : Nat) : Circuit i
  /-- `&a - &pt` -/
  | subPlain (a : Circuit i) (k : Nat) : Circuit i
  /-- `&pt - &a` -/
  | plainSub (k : Nat) (a : Circuit i) : Circuit i
  /-- `&a * &pt` -/
  | mulPlain (a : Circuit i) (k : Nat) : Circuit i
  /-- `let mut c = &a * &b; rk.relinearizes(&mut c)` -/
  | mul (a b : Circuit i) : Circuit i
  /-- `multiplicator.multiply(&a, &b)` -/
  | multiply (a b : Circuit i) : Circuit i
  /-- `&a * &rgsw` -/
  | external (a : Circuit i) (k : Nat) : Circuit i
  /-- `ek.rotates_rows(&a)` -/
  | rotateRows (a : Circuit i) : Circuit i
  /-- `ek.rotates_columns_by(&a, steps)` -/
  | rotateColumns (a : Circuit i) (steps : Nat) : Circuit i
  /-- `ek.computes_inner_sum(&a)` -/
  | innerSum (a : Circuit i) : Circuit i
  /-- `let mut c = a; c.switch_down()` -/
  | switchDown (a : Circuit i) : Circuit (i + 1)

/-- The objects a computation refers to: at each level ciphertexts, plaintexts, RGSW ciphertexts, and keys. -/
structure Circuit.Env where
  ct : Nat → Nat → Ciphertext
  pt : Nat → Nat → Plaintext
  rgsw : Nat → Nat → RgswCiphertext
  rk : Nat → RelinearizationKey
  mp : Nat → Multiplicator
  ek : Nat → EvaluationKey

/-- The messages and the noises of these objects: those of the ciphertexts with bounds on the noise, of the plaintexts and of the RGSW
ciphertexts; a bound on the errors in the keys, and at each level a bound on the error of switching with the Galois keys. -/
structure Circuit.Data (par : Par) where
  msg : Nat → Nat → par.Msg
  noise : Nat → Nat → Nat
  plain : Nat → Nat → par.Msg
  rgsw : Nat → Nat → par.Msg
  secret : Nat
  keyError : Nat
  galoisError : Nat → Nat

namespace Circuit

/-- The calls that a computation makes. -/
def eval (E : Env) : {i : Nat} → Circuit i → Res Ciphertext
  | _, .input i k => Res.ok (E.ct i k)
  | _, .add a b => do lift ((← a.eval E).add (← b.eval E))
  | _, .sub a b => do lift ((← a.eval E).sub (← b.eval E))
  | _, .neg a => do lift (← a.eval E).neg
  | i, .addPlain a k => do lift ((← a.eval E).addPlain (E.pt i k))
  | i, .subPlain a k => do lift ((← a.eval E).subPlain (E.pt i k))
  | i, .plainSub k a => do lift (Ciphertext.plainSub (E.pt i k) (← a.eval E))
  | i, .mulPlain a k => do lift ((← a.eval E).mulPlain (E.pt i k))
  | i, .mul a b => do (E.rk i).relinearizes (← lift ((← a.eval E).mul (← b.eval E)))
  | i, .multiply a b => do (E.mp i).multiply (← a.eval E) (← b.eval E)
  | i, .external a k => do lift ((← a.eval E).mulRgsw (E.rgsw i k))
  | i, .rotateRows a => do (E.ek i).rotatesRows (← a.eval E)
  | i, .rotateColumns a steps => do (E.ek i).rotatesColumnsBy (← a.eval E) steps
  | i, .innerSum a => do (E.ek i).computesInnerSum (← a.eval E)
  | _, .switchDown a => do (← a.eval E).switchDown

/-- What polynomial the result should hold.  Rotations are substitutions of a power of `X`; the inner sum of a polynomial is the constant
`N m₀`. -/
def value {par : Par} (D : Data par) : {i : Nat} → Circuit i → par.Msg
  | _, .input i k => D.msg i k
  | _, .add a b => a.value D + b.value D
  | _, .sub a b => a.value D - b.value D
  | _, .neg a => -a.value D
  | i, .addPlain a k => a.value D + D.plain i k
  | i, .subPlain a k => a.value D - D.plain i k
  | i, .plainSub k a => D.plain i k - a.value D
  | i, .mulPlain a k => a.value D * D.plain i k
  | _, .mul a b => a.value D * b.value D
  | _, .multiply a b => a.value D * b.value D
  | i, .external a k => a.value D * D.rgsw i k
  | _, .rotateRows a => Nega.subst (2 * par.degree - 1) (a.value D)
  | _, .rotateColumns a steps => Nega.subst (3 ^ steps) (a.value D)
  | _, .innerSum a => const (par.degree * coeff (a.value D) 0)
  | _, .switchDown a => a.value D

/-- What slots the result should hold, given those of the ciphertexts, of the plaintexts and of the RGSW ciphertexts: `N` numbers modulo `t`. -/
def slots (N t : Nat) (ct pt rgsw : Nat → Nat → List Nat) : {i : Nat} → Circuit i → List Nat
  | _, .input i k => ct i k
  | _, .add a b => List.zipWith (fun x y => (x + y) % t) (a.slots N t ct pt rgsw) (b.slots N t ct pt rgsw)
  | _, .sub a b => List.zipWith (fun x y => (x + t - y) % t) (a.slots N t ct pt rgsw) (b.slots N t ct pt rgsw)
  | _, .neg a => (a.slots N t ct pt rgsw).map fun x => (t - x) % t
  | i, .addPlain a k => List.zipWith (fun x y => (x + y) % t) (a.slots N t ct pt rgsw) (pt i k)
  | i, .subPlain a k => List.zipWith (fun x y => (x + t - y) % t) (a.slots N t ct pt rgsw) (pt i k)
  | i, .plainSub k a => List.zipWith (fun x y => (x + t - y) % t) (pt i k) (a.slots N t ct pt rgsw)
  | i, .mulPlain a k => List.zipWith (fun x y => x * y % t) (a.slots N t ct pt rgsw) (pt i k)
  | _, .mul a b => List.zipWith (fun x y => x * y % t) (a.slots N t ct pt rgsw) (b.slots N t ct pt rgsw)
  | _, .multiply a b => List.zipWith (fun x y => x * y % t) (a.slots N t ct pt rgsw) (b.slots N t ct pt rgsw)
  | i, .external a k => List.zipWith (fun x y => x * y % t) (a.slots N t ct pt rgsw) (rgsw i k)
  | _, .rotateRows a => (List.range N).map fun c => (a.slots N t ct pt rgsw).getD (swapRows N c) 0
  | _, .rotateColumns a steps => (List.range N).map fun c => (a.slots N t ct pt rgsw).getD (Fhe.rotateColumns N steps c) 0
  | _, .innerSum a => List.replicate N ((a.slots N t ct pt rgsw).sum % t)
  | _, .switchDown a => a.slots N t ct pt rgsw

/-- The noise of a product by a key with errors `e`, of ciphertexts of two parts with noises at most `V` and `V'`: with the height `H` of an
operand, that is the bound on the message over the integers, `N (H V' + H' V) + (N V V' + t Q/2 (1 + NS + (NS)²)) / Q`, and what the
relinearization adds. -/
def productNoise (par : Par) (rk : RelinearizationKey) (i S e V V' : Nat) : Nat :=
  let Q := par.modulusAt i
  let height := fun V => (par.plaintext.value * (Q * (2 ^ 55 + 1) / 2 ^ 56 * geom (par.degree * S) 2) + V) / Q
  par.degree * (height V * V' + height V' * V) + (par.degree * V * V' + par.plaintext.value * ((2 ^ 61 + 1) * Q / 2 ^ 62 * geom (par.degree * S) 3)) / Q +
    par.plaintext.value * rk.ksk.errorBound par S e

/-- A bound on the noise of the result. -/
def noise (E : Env) {par : Par} (D : Data par) : {i : Nat} → Circuit i → Nat
  | _, .input i k => D.noise i k
  | _, .add a b => a.noise E D + b.noise E D
  | _, .sub a b => a.noise E D + b.noise E D
  | _, .neg a => a.noise E D
  | _, .addPlain a _ => a.noise E D + par.plaintext.value
  | _, .subPlain a _ => a.noise E D + par.plaintext.value
  | _, .plainSub _ a => a.noise E D + par.plaintext.value
  | _, .mulPlain a _ => par.degree * a.noise E D * par.plaintext.value
  | i, .mul a b => productNoise par (E.rk i) i D.secret D.keyError (a.noise E D) (b.noise E D)
  | i, .multiply a b => productNoise par (E.rk i) i D.secret D.keyError (a.noise E D) (b.noise E D)
  | i, .external a k => par.degree * a.noise E D * par.plaintext.value +
      par.plaintext.value * (par.degree * ((E.rgsw i k).ksk0.digitSum + (E.rgsw i k).ksk1.digitSum) * D.keyError)
  | i, .rotateRows a => a.noise E D + par.plaintext.value * D.galoisError i
  | i, .rotateColumns a _ => a.noise E D + par.plaintext.value * D.galoisError i
  | i, .innerSum a => par.degree * a.noise E D + (par.degree - 1) * (par.plaintext.value * D.galoisError i)
  | i + 1, .switchDown a =>
      let q := par.moduli.getD (par.moduli.length - 1 - i) 0
      (a.noise E D + par.plaintext.value * (q / 2 * geom (par.degree * D.secret) 2)) / q

/-- What is needed of the objects that a computation refers to: ciphertexts have two parts and encrypt their messages, with the given bound
on the noise; keys belong to the secret and to the level; evaluation keys support what they are used for; there is a level to switch to. -/
def Admissible (b : Build) (E : Env) {par : Par} (s : IntPoly par.degree) (D : Data par) : {i : Nat} → Circuit i → Prop
  | _, .input i k => ∃ v, (E.ct i k).Encrypts par s i (D.msg i k) v ∧ (E.ct i k).c.length = 2 ∧ v.Bounded (D.noise i k)
  | _, .add x y => x.Admissible b E s D ∧ y.Admissible b E s D
  | _, .sub x y => x.Admissible b E s D ∧ y.Admissible b E s D
  | _, .neg x => x.Admissible b E s D
  | i, .addPlain x k => x.Admissible b E s D ∧ (E.pt i k).Holds par i (D.plain i k) ∧ par.plaintext.value ≤ par.modulusAt i
  | i, .subPlain x k => x.Admissible b E s D ∧ (E.pt i k).Holds par i (D.plain i k) ∧ par.plaintext.value ≤ par.modulusAt i
  | i, .plainSub k x => x.Admissible b E s D ∧ (E.pt i k).Holds par i (D.plain i k) ∧ par.plaintext.value ≤ par.modulusAt i
  | i, .mulPlain x k => x.Admissible b E s D ∧ (E.pt i k).Holds par i (D.plain i k)
  | i, .mul x y => x.Admissible b E s D ∧ y.Admissible b E s D ∧ ∃ j, (E.rk i).IsFor par s i j D.keyError
  | i, .multiply x y => x.Admissible b E s D ∧ y.Admissible b E s D ∧ (∃ j, (E.rk i).IsFor par s i j D.keyError) ∧ Multiplicator.default b (E.rk i) = Res.ok (E.mp i)
  | i, .external x k => x.Admissible b E s D ∧ (E.rgsw i k).Encrypts par s i (D.rgsw i k) D.keyError
  | i, .rotateRows x => x.Admissible b E s D ∧ (∃ j, (E.ek i).IsFor par s i j D.keyError) ∧ (E.ek i).ErrorAtMost par D.secret D.keyError (D.galoisError i) ∧
      (E.ek i).supportsRowRotation = true
  | i, .rotateColumns x steps => x.Admissible b E s D ∧ (∃ j, (E.ek i).IsFor par s i j D.keyError) ∧ (E.ek i).ErrorAtMost par D.secret D.keyError (D.galoisError i) ∧
      (E.ek i).supportsColumnRotationBy steps = true
  | i, .innerSum x => x.Admissible b E s D ∧ (∃ j, (E.ek i).IsFor par s i j D.keyError) ∧ (E.ek i).ErrorAtMost par D.secret D.keyError (D.galoisError i) ∧
      (E.ek i).supportsInnerSum = some true
  | i + 1, .switchDown x => x.Admissible b E s D ∧ i + 1 < par.moduli.length

end Circuit

/-- The message is the one that decodes to the given slots. -/
def HasSlots (par : Par) (m : par.Msg) (x : List Nat) : Prop :=
  ∃ (pt : Plaintext) (level lv : Nat), pt.Holds par level m ∧ pt.encoding = some ⟨.simd, lv⟩ ∧ pt.decodeU64 none = Res.ok x

end Fhe
