import Verif.Model.BfvParams
/-!
# BFV plaintexts

Models `/repo/crates/fhe/src/bfv/plaintext.rs` and `/repo/crates/fhe/src/bfv/plaintext_vec.rs`.  `zeroize` on drop has no
observable effect and is not modelled.
-/
namespace Fhe

/-- `Arc<BfvParameters>`: the parameters and the address of the allocation, which `Arc::ptr_eq` compares.  Simplification: addresses are numbers;
that two handles with equal addresses hold equal parameters is a hypothesis where it matters.  The field `par` of the objects, for example
`/repo/crates/fhe/src/bfv/ciphertext.rs` lines 18-30. -/
structure Par extends BfvParameters where
  addr : Nat
deriving DecidableEq, Repr

/-- `Arc::ptr_eq`.  Used for example in `/repo/crates/fhe/src/bfv/ciphertext.rs` lines 84 and 102 and `/repo/crates/fhe/src/bfv/plaintext.rs` lines
57 and 75. -/
def Par.ptrEq (a b : Par) : Bool := a.addr = b.addr

/-- `struct Plaintext`, `plaintext.rs` lines 24-31. -/
structure Plaintext where
  par : Par
  encoding : Option Encoding
  polyNtt : Poly .ntt
deriving DecidableEq, Repr

/-- `enum PlaintextCoefficients`, `plaintext.rs` lines 18-21. -/
inductive PlaintextCoefficients where
  | small (values : List Nat)
  | large (values : List Nat)
deriving DecidableEq, Repr

/-- `v[..n].to_vec()`: panics when `v` is shorter.  Used in `/repo/crates/fhe/src/bfv/plaintext.rs` line 115 and
`/repo/crates/fhe/src/bfv/keys/secret_key.rs` lines 231 and 244. -/
def prefixOf (v : List Nat) (n : Nat) : Panics (List Nat) := do
  check (n ≤ v.length)
  return v.take n

/-- `value.to_u64().unwrap()`.  Used in `/repo/crates/fhe/src/bfv/plaintext.rs` line 125. -/
def toU64Unwrap (x : Nat) : Panics Nat := do
  check (x < 2 ^ 64)
  return x

/-- `value.to_u64().ok_or(ValueTooLargeForU64)`.  Used in `/repo/crates/fhe/src/bfv/plaintext.rs` lines 392 and 419 and
`/repo/crates/fhe/src/bfv/plaintext_vec.rs` line 125. -/
def toU64OrErr (x : Nat) : Res Nat := if x < 2 ^ 64 then Res.ok x else Res.err .valueTooLargeForU64

namespace Plaintext

/-- `level`, `plaintext.rs` lines 210-214. -/
def level (pt : Plaintext) : Panics Nat := subU pt.par.moduli.length pt.polyNtt.ctx.moduli.length

/-- `validate_context`, `plaintext.rs` lines 84-101. -/
def validateContext (pt : Plaintext) (expectedLevel : Nat) (expectedCtx : Context) : Res Unit := do
  let level ← lift pt.level
  if level ≠ expectedLevel then Res.err (.invalidLevel level expectedLevel expectedLevel)
  else if pt.polyNtt.ctx ≠ expectedCtx then Res.err (.plaintextContextMismatch expectedLevel)
  else Res.ok ()

/-- `validate_for`, `plaintext.rs` lines 55-66. -/
def validateFor (pt : Plaintext) (par : Par) : Res Unit :=
  if pt.par.ptrEq par = false then Res.err (.parameterMismatch .plaintext .parameters)
  else do
    let level ← lift pt.level
    pt.validateContext level (← par.contextAtLevel level)

/-- `validate_for_context`, `plaintext.rs` lines 68-81. -/
def validateForContext (pt : Plaintext) (par : Par) (expectedLevel : Nat) (expectedCtx : Context) : Res Unit :=
  if pt.par.ptrEq par = false then Res.err (.parameterMismatch .plaintext .parameters)
  else pt.validateContext expectedLevel expectedCtx

/-- The guard of the first arm of `coefficients`, `plaintext.rs` lines 106-112. -/
def fitsFirst (m : Modulus) (moduli : List Nat) : Bool :=
  match moduli.head? with
  | some q => m.p < q
  | none => false

/-- `coefficients`, `plaintext.rs` lines 103-134. -/
def coefficients (pt : Plaintext) : Panics PlaintextCoefficients := do
  let poly ← pt.polyNtt.nttToPowerBasis
  match pt.par.plaintext.small with
  | some m =>
    if fitsFirst m pt.polyNtt.ctx.moduli then do
      let values ← prefixOf poly.toU64 pt.par.degree
      return .small (← m.reduceVec values)
    else do
      let values ← pt.par.plaintext.reduceVec (← poly.toBigUint)
      return .small (← values.mapM toU64Unwrap)
  | none => return .large (← pt.par.plaintext.reduceVec (← poly.toBigUint))

/-- `resolve_encoding`, `plaintext.rs` lines 136-153. -/
def resolveEncoding (pt : Plaintext) (encoding : Option Encoding) : Res Encoding :=
  match pt.encoding, encoding with
  | none, none => Res.err .missingEncoding
  | some stored, some provided => if stored ≠ provided then Res.err (.encodingMismatch provided stored) else Res.ok stored
  | some stored, none => Res.ok stored
  | none, some provided => Res.ok provided

/-- `decode_simd_u64`, `plaintext.rs` lines 155-170. -/
def decodeSimdU64 (pt : Plaintext) (values : List Nat) : Res (List Nat) :=
  match pt.par.nttOperator with
  | none => Res.err .simdUnavailable
  | some op => do
    let values ← lift (op.forward values)
    lift (pt.par.indexMap.mapM fun index => values[index]?)

/-- The polynomial of lines 176-193 of `plaintext.rs`. -/
def scaledPoly (par : Par) (lvl : ContextLevel) : PlaintextCoefficients → Panics (Poly .powerBasis)
  | .small values =>
    match par.plaintext.small with
    | none => none
    | some m => do
      let qModT ← toU64Unwrap lvl.cp.qModT
      unwrapMath (Poly.tryFromU64 (← m.scalarMulVec values qModT) lvl.ctx false)
  | .large values => do
    unwrapMath (Poly.tryFromBigUint (← par.plaintext.scalarMulVec values lvl.cp.qModT) lvl.ctx false)

/-- `to_poly`, `plaintext.rs` lines 172-198. -/
def toPoly (pt : Plaintext) : Panics (Poly .ntt) := do
  let lvl ← (pt.par.contextLevelAt (← pt.level)).unwrap
  let m ← scaledPoly pt.par lvl (← pt.coefficients)
  (← m.intoNtt).mulAssignShoup lvl.cp.delta

/-- `zero`, `plaintext.rs` lines 199-208. -/
def zero (encoding : Encoding) (par : Par) : Res Plaintext := do
  let ctx ← par.contextAtLevel encoding.level
  return { par, encoding := some encoding, polyNtt := Poly.zero .ntt ctx }

/-- `PartialEq`, `plaintext.rs` lines 219-239 (the parameters are compared by value). -/
def beq (a c : Plaintext) : Bool :=
  a.par.toBfvParameters = c.par.toBfvParameters && a.polyNtt.beq c.polyNtt &&
    (if a.encoding.isSome ∧ c.encoding.isSome then decide (a.encoding = c.encoding) else true)

/-- `TryConvertFrom<&Plaintext> for Poly<PowerBasis>`, `plaintext.rs` lines 242-267. -/
def toPowerBasis (pt : Plaintext) (ctx : Context) (vt : Bool) : Panics (Except MathError (Poly .powerBasis)) := do
  match (pt.par.contextAtLevel (← pt.level)).run with
  | none => none
  | some (.error _) => return .error .contextNotReachable
  | some (.ok c) =>
    if ctx ≠ c then return .error .polynomialContextMismatch
    else return .ok (← ({ pt.polyNtt with vt := vt } : Poly .ntt).nttToPowerBasis)

end Plaintext

/-! ## Vectors of plaintexts -/

namespace PlaintextVec

/-- `value[start..end]` with the bounds of lines 57-59 of `plaintext_vec.rs`. -/
def chunk (value : List Nat) (degree index : Nat) : Panics (List Nat) := do
  check (index * degree ≤ min value.length (index * degree + degree))
  return (value.take (min value.length (index * degree + degree))).drop (index * degree)

/-- `try_encode_with`, `plaintext_vec.rs` lines 38-69.  (`div_ceil` by zero panics.) -/
def tryEncodeWith (value : List Nat) (encoding : Encoding) (par : Par) (encodeChunk : List Nat → Context → Res (Poly .ntt)) : Res (List Plaintext) :=
  if encoding.kind = .simd ∧ par.nttOperator = none then Res.err .simdUnavailable
  else do
    let ctx ← par.contextAtLevel encoding.level
    lift (check (par.degree ≠ 0))
    (List.range (max ((value.length + par.degree - 1) / par.degree) 1)).mapM fun index => do
      let polyNtt ← encodeChunk (← lift (chunk value par.degree index)) ctx
      return { par, encoding := some encoding, polyNtt }

/-- The loop of lines 82-84 of `plaintext_vec.rs`: the values go to the positions of the index map. -/
def scatter : (value map coefficients : List Nat) → Panics (List Nat)
  | [], _, coefficients => some coefficients
  | _ :: _, [], _ => none
  | v :: vs, i :: is, coefficients => do
    check (i < coefficients.length)
    scatter vs is (coefficients.set i v)

/-- Lines 78-95 of `plaintext_vec.rs`; `vt` tells whether a `VariableTime` token is given. -/
def chunkCoefficients (value : List Nat) (kind : EncodingKind) (par : Par) (vt : Bool) : Res (List Nat) :=
  match kind with
  | .poly => lift (Poly.copyPrefix (List.replicate par.degree 0) value)
  | .simd => do
    let coefficients ← lift (scatter value par.indexMap (List.replicate par.degree 0))
    match par.nttOperator with
    | none => Res.err .plaintextNttUnavailable
    | some op => lift (if vt then op.backwardVt coefficients else op.backward coefficients)

/-- `encode_u64_chunk`, `plaintext_vec.rs` lines 71-103. -/
def encodeU64Chunk (kind : EncodingKind) (par : Par) (vt : Bool) (value : List Nat) (ctx : Context) : Res (Poly .ntt) := do
  let coefficients ← chunkCoefficients value kind par vt
  let poly ← math (Poly.tryFromU64 coefficients ctx vt)
  lift poly.intoNtt

/-- `encode_biguint_chunk`, `plaintext_vec.rs` lines 105-132. -/
def encodeBigUintChunk (kind : EncodingKind) (par : Par) (value : List Nat) (ctx : Context) : Res (Poly .ntt) :=
  match kind with
  | .poly => do
    let coefficients ← lift (Poly.copyPrefix (List.replicate par.degree 0) value)
    let poly ← math (Poly.tryFromBigUint coefficients ctx false)
    lift poly.intoNtt
  | .simd => do encodeU64Chunk kind par false (← value.mapM toU64OrErr) ctx

/-- `try_encode_vt` and `try_encode` for `&[u64]`, `plaintext_vec.rs` lines 135-148 and 157-164. -/
def tryEncodeU64 (value : List Nat) (encoding : Encoding) (par : Par) (vt : Bool) : Res (List Plaintext) :=
  tryEncodeWith value encoding par (encodeU64Chunk encoding.kind par vt)

/-- `try_encode` for `&[BigUint]`, `plaintext_vec.rs` lines 150-155. -/
def tryEncodeBigUint (value : List Nat) (encoding : Encoding) (par : Par) : Res (List Plaintext) :=
  tryEncodeWith value encoding par (encodeBigUintChunk encoding.kind par)

end PlaintextVec

namespace Plaintext

/-- `try_encode` for `&[u64]` and `try_encode_vt`, `plaintext.rs` lines 311-345 (and the wrappers for arrays and vectors, lines
271-289). -/
def tryEncodeU64 (value : List Nat) (encoding : Encoding) (par : Par) (vt : Bool) : Res Plaintext :=
  if value.length > par.degree then Res.err (.tooManyValues value.length par.degree)
  else do
    let v ← PlaintextVec.tryEncodeU64 value encoding par vt
    lift v[0]?

/-- `try_encode` for `&[BigUint]`, `plaintext.rs` lines 291-309. -/
def tryEncodeBigUint (value : List Nat) (encoding : Encoding) (par : Par) : Res Plaintext :=
  if value.length > par.degree then Res.err (.tooManyValues value.length par.degree)
  else do
    let v ← PlaintextVec.tryEncodeBigUint value encoding par
    lift v[0]?

/-- `try_encode` for `&[i64]`, `plaintext.rs` lines 347-372.  `x % m` of `BigInt` followed by the correction of the sign is the
remainder in `0..m`. -/
def tryEncodeI64 (value : List Int) (encoding : Encoding) (par : Par) : Res Plaintext :=
  match par.plaintext.small with
  | some m => do tryEncodeU64 (← lift (m.reduceVecI64 value)) encoding par false
  | none => tryEncodeBigUint (value.map fun x => (x % (par.plaintext.value : Int)).toNat) encoding par

/-- The values of lines 380-383 of `plaintext.rs`. -/
def PlaintextCoefficients.values : PlaintextCoefficients → List Nat
  | .small values => values
  | .large values => values

/-- The values of lines 413-423 of `plaintext.rs`. -/
def PlaintextCoefficients.valuesU64 : PlaintextCoefficients → Res (List Nat)
  | .small values => Res.ok values
  | .large values => values.mapM toU64OrErr

/-- `try_decode` to `Vec<BigUint>`, `plaintext.rs` lines 374-405. -/
def decodeBigUint (pt : Plaintext) (encoding : Option Encoding) : Res (List Nat) := do
  let encoding ← pt.resolveEncoding encoding
  let values := PlaintextCoefficients.values (← lift pt.coefficients)
  match encoding.kind with
  | .poly => return values
  | .simd => pt.decodeSimdU64 (← values.mapM toU64OrErr)

/-- `try_decode` to `Vec<u64>`, `plaintext.rs` lines 407-432. -/
def decodeU64 (pt : Plaintext) (encoding : Option Encoding) : Res (List Nat) := do
  let encoding ← pt.resolveEncoding encoding
  let values ← PlaintextCoefficients.valuesU64 (← lift pt.coefficients)
  match encoding.kind with
  | .poly => return values
  | .simd => pt.decodeSimdU64 values

/-- The closure of lines 449-456 of `plaintext.rs`; `to_i64().unwrap()` panics out of the range of `i64`. -/
def centerBig (t value : Nat) : Panics Int := do
  let x : Int := if value ≥ t / 2 then (value : Int) - t else value
  check (-(2 ^ 63) ≤ x ∧ x < 2 ^ 63)
  return x

/-- `try_decode` to `Vec<i64>`, `plaintext.rs` lines 434-463. -/
def decodeI64 (pt : Plaintext) (encoding : Option Encoding) : Res (List Int) :=
  match pt.par.plaintext.small with
  | some m => do lift (m.centerVec (← pt.decodeU64 encoding))
  | none => do lift ((← pt.decodeBigUint encoding).mapM (centerBig pt.par.plaintext.value))

end Plaintext
end Fhe
