import Verif.Model.Wire
/-!
# The message formats

The declarations of `/repo/crates/fhe/src/proto/bfv.proto` and `/repo/crates/fhe-math/src/proto/rq.proto`, as the sets of field lists that
fit them.
-/
namespace Fhe.Wire

/-- The value of a field declared as a number. -/
def Value.Number (v : Value) : Prop := ∃ n, v = .varint n
/-- The value of a field declared as bytes. -/
def Value.Bytes (v : Value) : Prop := ∃ p, v = .len p
/-- The value of a field declared as repeated numbers: one of them, or any number of them together. -/
def Value.Numbers (v : Value) : Prop := v.Number ∨ ∃ p l, v = .len p ∧ readPacked p.length p = some l
/-- The value of a field declared as a message: bytes which are such a message. -/
def Value.Message (format : List Nat → Prop) (v : Value) : Prop := ∃ p, v = .len p ∧ format p

/-- The declared fields of a message: what may stand in the field of that number. -/
abbrev Decl := Nat → Option (Value → Prop)

/-- The bytes are a list of fields in which all of the declared ones have values as declared. -/
def Fits (d : Decl) (depth : Nat) (bytes : List Nat) : Prop := ∃ fs, readFields bytes.length depth bytes = some fs ∧ ∀ f ∈ fs, ∀ ok, d f.1 = some ok → ok f.2

/-- The bytes are lists of fields which are the same up to fields that are not declared. -/
def SameFields (d : Decl) (depth : Nat) (bytes bytes' : List Nat) : Prop :=
  ∃ fs fs', readFields bytes.length depth bytes = some fs ∧ readFields bytes'.length depth bytes' = some fs' ∧ fs.filter (fun f => (d f.1).isSome) = fs'.filter (fun f => (d f.1).isSome)

/-- `message Rq`. -/
def rqDecl : Decl
  | 1 => some Value.Number
  | 2 => some Value.Number
  | 3 => some Value.Bytes
  | 4 => some Value.Number
  | _ => none

/-- `message Ciphertext`. -/
def ciphertextDecl : Decl
  | 1 => some Value.Bytes
  | 2 => some Value.Bytes
  | 3 => some Value.Number
  | _ => none

/-- `message KeySwitchingKey`. -/
def keySwitchingKeyDecl : Decl
  | 1 => some Value.Bytes
  | 2 => some Value.Bytes
  | 3 => some Value.Bytes
  | 4 => some Value.Number
  | 5 => some Value.Number
  | 6 => some Value.Number
  | _ => none

/-- `message RGSWCiphertext`. -/
def rgswDecl : Decl
  | 1 => some (Value.Message (Fits keySwitchingKeyDecl 99))
  | 2 => some (Value.Message (Fits keySwitchingKeyDecl 99))
  | _ => none

/-- `message RelinearizationKey`. -/
def relinearizationKeyDecl : Decl
  | 1 => some (Value.Message (Fits keySwitchingKeyDecl 99))
  | _ => none

/-- `message GaloisKey`, within another. -/
def galoisKeyDecl : Decl
  | 1 => some (Value.Message (Fits keySwitchingKeyDecl 98))
  | 2 => some Value.Number
  | _ => none

/-- `message EvaluationKey`. -/
def evaluationKeyDecl : Decl
  | 2 => some (Value.Message (Fits galoisKeyDecl 99))
  | 3 => some Value.Number
  | 4 => some Value.Number
  | _ => none

/-- `message Parameters`. -/
def parametersDecl : Decl
  | 1 => some Value.Number
  | 2 => some Value.Numbers
  | 3 => some Value.Number
  | 4 => some Value.Number
  | 5 => some Value.Bytes
  | _ => none

/-- `message PublicKey`. -/
def publicKeyDecl : Decl
  | 1 => some (Value.Message (Fits ciphertextDecl 99))
  | _ => none

/-- `message SecretKey`. -/
def secretKeyDecl : Decl
  | 1 => some Value.Numbers
  | _ => none

end Fhe.Wire
