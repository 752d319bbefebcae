import Verif.Model.BfvEval
import Verif.Model.BfvRgsw
/-!
# Derived equalities

`#[derive(PartialEq)]` compares the fields in order.  An `Arc` is compared by what it points to, so the address of the parameters does not matter;
the equality of polynomials ignores the timing flag.
-/
namespace Fhe

/-- `PartialEq for HashMap`: as many entries, and every entry of the first has an equal one under the same key in the second.  The fields `gk` and
`rot_to_gk_exponent`, `/repo/crates/fhe/src/bfv/keys/evaluation_key.rs` lines 22-33. -/
def mapBeq {α : Type} (eq : α → α → Bool) (m m' : List (Nat × α)) : Bool :=
  decide (m.length = m'.length) && m.all fun x => match m'.lookup x.1 with
    | some v => eq x.2 v
    | none => false

/-- `PartialEq for Vec`.  For example the field `c`, `/repo/crates/fhe/src/bfv/ciphertext.rs` lines 17-30. -/
def vecBeq {α : Type} (eq : α → α → Bool) (l l' : List α) : Bool := decide (l.length = l'.length) && (l.zip l').all fun x => eq x.1 x.2

/-- `PartialEq for PublicKey` (derived), `/repo/crates/fhe/src/bfv/keys/public_key.rs` line 18. -/
def PublicKey.beq (a b : PublicKey) : Bool := decide (a.par.toBfvParameters = b.par.toBfvParameters) && a.c.beq b.c

/-- `PartialEq for RelinearizationKey` (derived), `/repo/crates/fhe/src/bfv/keys/relinearization_key.rs` line 22. -/
def RelinearizationKey.beq (a b : RelinearizationKey) : Bool := a.ksk.beq b.ksk

/-- `PartialEq for GaloisKey` (derived), `/repo/crates/fhe/src/bfv/keys/galois_key.rs` line 18; `SubstitutionExponent` derives `PartialEq` too,
`/repo/crates/fhe-math/src/rq/mod.rs` line 87. -/
def GaloisKey.beq (a b : GaloisKey) : Bool := decide (a.element = b.element) && a.ksk.beq b.ksk

/-- `PartialEq for EvaluationKey` (derived), `/repo/crates/fhe/src/bfv/keys/evaluation_key.rs` line 22. -/
def EvaluationKey.beq (a b : EvaluationKey) : Bool :=
  decide (a.par.toBfvParameters = b.par.toBfvParameters) && decide (a.ciphertextLevel = b.ciphertextLevel) && decide (a.keyLevel = b.keyLevel) &&
    mapBeq GaloisKey.beq a.gk b.gk && mapBeq (fun x y => decide (x = y)) a.rot b.rot && vecBeq Poly.beq a.monomials b.monomials

/-- `PartialEq for RGSWCiphertext` (derived), `/repo/crates/fhe/src/bfv/rgsw_ciphertext.rs` line 20. -/
def RgswCiphertext.beq (a b : RgswCiphertext) : Bool := a.ksk0.beq b.ksk0 && a.ksk1.beq b.ksk1

end Fhe
