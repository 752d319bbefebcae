import Verif.Model.Rq
/-!
# Results of the `fhe` crate

Models `/repo/crates/fhe/src/errors.rs`.  A function of the crate that returns `Result<T>` and may also panic is modelled
by a value of `Res T`: `Res.ok x` is `Ok(x)`, `Res.err e` is `Err(e)` and `Res.panic` is a panic.
-/
namespace Fhe

/-- `ParameterSource`, `errors.rs` lines 69-84. -/
inductive ParameterSource where
  | ciphertext | plaintext | parameters | secretKey | inputSecretKey | outputSecretKey | publicKey | polynomial
  | keySwitchingKey | relinearizationKey | multiplicator
deriving DecidableEq, Repr

/-- `CiphertextOperation`, `errors.rs` lines 115-123. -/
inductive CiphertextOperation where
  | galois | evaluationKey | relinearization | multipartyKeySwitch
deriving DecidableEq, Repr

/-- `EvaluationOperation`, `errors.rs` lines 185-193. -/
inductive EvaluationOperation where
  | innerSum | rowRotation | columnRotation (step : Nat) | expansion (level : Nat)
deriving DecidableEq, Repr

/-- `EvaluationKeyComponent`, `errors.rs` lines 195-202. -/
inductive EvaluationKeyComponent where
  | galoisExponent (step : Nat) | galoisKey (element : Nat) | expansionMonomial (level : Nat)
deriving DecidableEq, Repr

/-- `enum EncodingEnum`, `/repo/crates/fhe/src/bfv/encoding.rs` lines 8-11. -/
inductive EncodingKind where
  | poly | simd
deriving DecidableEq, Repr

/-- `struct Encoding`, `/repo/crates/fhe/src/bfv/encoding.rs` lines 20-24. -/
structure Encoding where
  kind : EncodingKind
  level : Nat
deriving DecidableEq, Repr

/-- `enum Error` and the enums it contains, `errors.rs` lines 14-470: the variants that the modelled functions return.  The
`source` of an invalid modulus is left out (it is always `InvalidModulus(modulus)`). -/
inductive FheError where
  | math (e : MathError)
  | parameterMismatch (left right : ParameterSource)
  | invalidLevel (level minLevel maxLevel : Nat)
  -- `CiphertextError`
  | tooFewPolynomials (actual minimum : Nat)
  | ciphertextContextMismatch (level : Nat)
  | invalidPolynomialCount (operation : CiphertextOperation) (actual expected : Nat)
  | multiplicationPolynomialCount (left right expected : Nat)
  -- `PlaintextError`
  | plaintextContextMismatch (level : Nat)
  | missingEncoding
  | plaintextNttUnavailable
  | tooManyValues (actual maximum : Nat)
  | valueTooLargeForU64
  -- `EncodingError`
  | encodingMismatch (found expected : Encoding)
  | simdUnavailable
  -- `EvaluationKeyError`
  | keySwitchingNotSupported
  | unsupported (operation : EvaluationOperation)
  | missing (component : EvaluationKeyComponent)
  | emptyKeySwitchingComponents
  | invalidRotationStep (step min max : Nat)
  | invalidExpansionSize (size degree : Nat)
  -- `DotProductError`
  | dotProductEmptyInput
  | dotProductOperandCount (ciphertexts plaintexts : Nat)
  | dotProductPolynomialCount (actual expected : Nat)
  -- `MultipartyError`
  | noShares
  | invalidCrpCount (actual expected : Nat)
  | missingRoundOneShare
  -- `SerializationError`
  | decode
  | missingField
  | wrongPolynomialCount (isC1 : Bool) (expected actual : Nat)
  | inconsistentKeySwitchingLevels
  | invalidPublicKeyLevel (actual expected : Nat)
  | invalidDecompositionLevels (ciphertextLevel keyLevel expected : Nat)
  | invalidSeedLength (actual expected : Nat)
  | invalidSecretKeyCount (actual expected : Nat)
  | invalidCiphertextCount (actual : Nat) (seedPresent : Bool)
  -- `ParametersError`
  | invalidDegree (degree : Nat)
  | invalidPlaintextModulus (modulus : Nat)
  | invalidCiphertextModulus (index modulus : Nat)
  | invalidModulusSize (index size : Nat)
  | notEnoughPrimes (size degree needed available : Nat)
  | duplicateModuli (modulus : Nat) (indices : List Nat)
  | moduliNotCoprime (modulus1 modulus2 gcd : Nat)
  | ciphertextModulusNotNttFriendly (index modulus degree : Nat)
  | plaintextExceedsCiphertext (plaintext ciphertext : Nat)
  | plaintextNotCoprime (plaintext ciphertext index gcd : Nat)
  | invalidParametersVariance (variance : Nat)
  | conflictingModuli
  | missingModuli
  | noDefaultParameters (bits : Nat)
deriving DecidableEq, Repr

/-- A computation that returns `Result<α>` or panics.  `Result`, `/repo/crates/fhe/src/errors.rs` line 12. -/
abbrev Res (α : Type) := ExceptT FheError Option α

/-- `Ok(a)`.  `Result`, `/repo/crates/fhe/src/errors.rs` line 12. -/
def Res.ok {α : Type} (a : α) : Res α := ExceptT.mk (some (.ok a))
/-- `Err(e)`.  `Result`, `/repo/crates/fhe/src/errors.rs` line 12. -/
def Res.err {α : Type} (e : FheError) : Res α := ExceptT.mk (some (.error e))
/-- A panic.  For example `/repo/crates/fhe/src/bfv/ops/mod.rs` line 19. -/
def Res.panic {α : Type} : Res α := ExceptT.mk none

/-- A computation that returns no `Result`, as part of one that does.  For example the addition of two parts, `/repo/crates/fhe/src/bfv/ops/mod.rs`
line 63. -/
def lift {α : Type} : Panics α → Res α
  | none => Res.panic
  | some a => Res.ok a

/-- `x?` for a result of `fhe-math`: the error is wrapped in `Error::MathError`.  `/repo/crates/fhe/src/errors.rs` line 21. -/
def math {α : Type} : Panics (Except MathError α) → Res α
  | none => Res.panic
  | some (.error e) => Res.err (.math e)
  | some (.ok a) => Res.ok a

/-- `x.unwrap()` for a result of `fhe-math`.  For example `/repo/crates/fhe/src/bfv/ops/mod.rs` lines 295-298. -/
def unwrapMath {α : Type} : Panics (Except MathError α) → Panics α
  | some (.ok a) => some a
  | _ => none

/-- `x.unwrap()` for a result of this crate.  For example `/repo/crates/fhe/src/bfv/ops/mod.rs` lines 295-298. -/
def Res.unwrap {α : Type} (x : Res α) : Panics α :=
  match x.run with
  | some (.ok a) => some a
  | _ => none

namespace Res
variable {α β : Type}

theorem pure_eq (a : α) : (pure a : Res α) = Res.ok a := rfl
theorem ok_bind (a : α) (f : α → Res β) : (Res.ok a >>= f) = f a := rfl
theorem err_bind (e : FheError) (f : α → Res β) : ((Res.err e : Res α) >>= f) = Res.err e := rfl
theorem panic_bind (f : α → Res β) : ((Res.panic : Res α) >>= f) = Res.panic := rfl
theorem lift_some (a : α) : lift (some a) = Res.ok a := rfl
theorem lift_none : lift (none : Panics α) = Res.panic := rfl
theorem math_ok (a : α) : math (some (.ok a)) = Res.ok a := rfl
theorem math_err (e : MathError) : (math (some (.error e)) : Res α) = Res.err (.math e) := rfl
theorem unwrapMath_ok (a : α) : unwrapMath (some (.ok a)) = some a := rfl
theorem unwrap_ok (a : α) : (Res.ok a).unwrap = some a := rfl
theorem ok_inj {a b : α} : Res.ok a = Res.ok b ↔ a = b := by
  constructor
  · intro h
    have h' : (some (Except.ok a) : Option (Except FheError α)) = some (Except.ok b) := h
    simpa using h'
  · rintro rfl; rfl
theorem err_ne_ok {e : FheError} {a : α} : (Res.err e : Res α) ≠ Res.ok a := by
  intro h
  have h' : (some (Except.error e) : Option (Except FheError α)) = some (Except.ok a) := h
  simp at h'
theorem panic_ne_ok {a : α} : (Res.panic : Res α) ≠ Res.ok a := by
  intro h
  have h' : (none : Option (Except FheError α)) = some (Except.ok a) := h
  simp at h'
theorem err_inj {e e' : FheError} : (Res.err e : Res α) = Res.err e' ↔ e = e' := by
  constructor
  · intro h
    have h' : (some (Except.error e) : Option (Except FheError α)) = some (Except.error e') := h
    simpa using h'
  · rintro rfl; rfl
/-- A result is `Ok`, `Err` or a panic. -/
theorem cases (x : Res α) : (∃ a, x = Res.ok a) ∨ (∃ e, x = Res.err e) ∨ x = Res.panic := by
  have : ∀ y : Option (Except FheError α), (∃ a, y = some (.ok a)) ∨ (∃ e, y = some (.error e)) ∨ y = none := by
    rintro (_ | _ | _) <;> simp
  exact this x
theorem bind_eq_ok {x : Res α} {f : α → Res β} {b : β} : (x >>= f) = Res.ok b ↔ ∃ a, x = Res.ok a ∧ f a = Res.ok b := by
  rcases cases x with ⟨a, rfl⟩ | ⟨e, rfl⟩ | rfl
  · rw [ok_bind]
    exact ⟨fun h => ⟨a, rfl, h⟩, fun ⟨a', h, h'⟩ => by rw [ok_inj] at h; rw [h]; exact h'⟩
  · rw [err_bind]
    exact ⟨fun h => absurd h err_ne_ok, fun ⟨a', h, h'⟩ => absurd h err_ne_ok⟩
  · rw [panic_bind]
    exact ⟨fun h => absurd h panic_ne_ok, fun ⟨a', h, h'⟩ => absurd h panic_ne_ok⟩
theorem lift_eq_ok {x : Panics α} {a : α} : lift x = Res.ok a ↔ x = some a := by
  cases x with
  | none => simp [lift_none, panic_ne_ok]
  | some b => simp [lift_some, ok_inj]
theorem math_eq_ok {x : Panics (Except MathError α)} {a : α} : math x = Res.ok a ↔ x = some (.ok a) := by
  rcases x with _ | _ | b
  · exact ⟨fun h => absurd h panic_ne_ok, fun h => by simp at h⟩
  · exact ⟨fun h => absurd h err_ne_ok, fun h => by simp at h⟩
  · rw [math_ok, ok_inj]; simp

end Res

end Fhe
