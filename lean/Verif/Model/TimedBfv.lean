import Verif.Model.TimedRq
import Verif.Model.Mbfv
/-!
# Traces of the secret-dependent functions of `fhe/src/bfv` and `fhe/src/mbfv`

Release builds, see `Verif/Model/Timed.lean`.  Checks and conversions that read only parameters, levels, contexts, lengths, seeds, public
keys, ciphertexts or common random polynomials are computed `publicly`.
-/
namespace Fhe.Release

/-! ## Results -/

/-- A run that returns `Result<α>`.  `Result`, `/repo/crates/fhe/src/errors.rs` line 12. -/
abbrev TRes (α : Type) := ExceptT FheError Timed α

/-- A run that returns no `Result`, as part of one that does.  For example the addition of two parts, `/repo/crates/fhe/src/bfv/ops/mod.rs` line 63.
-/
def tlift {α : Type} (t : Timed α) : TRes α := ExceptT.mk (t >>= fun a => pure (.ok a))
/-- `x?` for a run of `fhe-math`.  `/repo/crates/fhe/src/errors.rs` line 21. -/
def tmath {α : Type} (t : Timed (Except MathError α)) : TRes α := ExceptT.mk (t >>= fun
  | .error e => pure (.error (.math e))
  | .ok a => pure (.ok a))
/-- A computation on public data only.  For example `/repo/crates/fhe/src/bfv/plaintext.rs` lines 57 and 75. -/
def tpublic {α : Type} (x : Res α) : TRes α := ExceptT.mk (publicly x.run)
/-- `Err(e)`.  `Result`, `/repo/crates/fhe/src/errors.rs` line 12. -/
def terr {α : Type} (e : FheError) : TRes α := ExceptT.mk (pure (.error e))
/-- `x.unwrap()` for a run of `fhe-math`.  For example `/repo/crates/fhe/src/bfv/ops/mod.rs` lines 295-298. -/
def unwrapT {α ε : Type} (t : Timed (Except ε α)) : Timed α := t >>= fun
  | .error _ => panic
  | .ok a => pure a
/-- `l.iter().map(f).collect::<Result<_>>()`: stops at the first error.  For example `/repo/crates/fhe/src/bfv/keys/key_switching_key.rs` lines 191
and 235. -/
def tmapM {α β : Type} (f : α → TRes β) : List α → TRes (List β)
  | [] => do
    let _ ← tlift (branchOn False)
    return []
  | x :: xs => do
    let _ ← tlift (branchOn True)
    let y ← f x
    let ys ← tmapM f xs
    return y :: ys

/-! ## Plaintexts: `/repo/crates/fhe/src/bfv/plaintext.rs` and `plaintext_vec.rs` -/

/-- `v[..n].to_vec()`: the length is compared.  `/repo/crates/fhe/src/bfv/plaintext.rs` line 115 and `/repo/crates/fhe/src/bfv/keys/secret_key.rs`
lines 231 and 244. -/
def prefixOf (v : List Nat) (n : Nat) : Timed (List Nat) := do
  assert (n ≤ v.length)
  return v.take n

/-- `coefficients`, `plaintext.rs` lines 103-134. -/
def coefficients (pt : Plaintext) : Timed PlaintextCoefficients := do
  let poly ← nttToPowerBasis pt.polyNtt
  match pt.par.plaintext.small with
  | some m =>
    if ← branchOn (Plaintext.fitsFirst m pt.polyNtt.ctx.moduli = true) then
      let values ← prefixOf poly.toU64 pt.par.degree
      return .small (← reduceVec m values)
    else
      let values ← bigUint poly.toU64 do
        let values ← pt.par.plaintext.reduceVec (← poly.toBigUint)
        values.mapM toU64Unwrap
      return .small values
  | none =>
    let values ← bigUint poly.toU64 do pt.par.plaintext.reduceVec (← poly.toBigUint)
    return .large values

/-- The polynomial of lines 176-193 of `plaintext.rs`. -/
def scaledPoly (par : Par) (lvl : ContextLevel) : PlaintextCoefficients → Timed (Poly .powerBasis)
  | .small values =>
    match par.plaintext.small with
    | none => panic
    | some m => do
      let qModT ← publicly (toU64Unwrap lvl.cp.qModT)
      unwrapT (tryFromU64 (← scalarMulVec m values qModT) lvl.ctx false)
  | .large values => bigUint values do
      unwrapMath (Poly.tryFromBigUint (← par.plaintext.scalarMulVec values lvl.cp.qModT) lvl.ctx false)

/-- `to_poly`, `plaintext.rs` lines 172-198. -/
def toPoly (pt : Plaintext) : Timed (Poly .ntt) := do
  let level ← publicly pt.level
  let lvl ← publicly (pt.par.contextLevelAt level).unwrap
  let m ← scaledPoly pt.par lvl (← coefficients pt)
  mulAssignShoup (← intoNtt m) lvl.cp.delta

/-- The loop of lines 82-84 of `plaintext_vec.rs`. -/
def scatter : (value map coefficients : List Nat) → Timed (List Nat)
  | [], _, coefficients => do
    let _ ← branchOn False
    return coefficients
  | _ :: _, [], _ => do
    let _ ← branchOn True
    panic
  | v :: vs, i :: is, coefficients => do
    let _ ← branchOn True
    let _ ← fetch coefficients i
    scatter vs is (coefficients.set i v)

/-- Lines 78-95 of `plaintext_vec.rs`. -/
def chunkCoefficients (value : List Nat) (kind : EncodingKind) (par : Par) (vt : Bool) : TRes (List Nat) :=
  match kind with
  | .poly => tlift (copyPrefix (List.replicate par.degree 0) value)
  | .simd => do
    let coefficients ← tlift (scatter value par.indexMap (List.replicate par.degree 0))
    match par.nttOperator with
    | none => terr .plaintextNttUnavailable
    | some op => if ← tlift (branchOn (vt = true)) then tlift (backwardVt op coefficients) else tlift (backward op coefficients)

/-- `encode_u64_chunk`, `plaintext_vec.rs` lines 71-103. -/
def encodeU64Chunk (kind : EncodingKind) (par : Par) (vt : Bool) (value : List Nat) (ctx : Context) : TRes (Poly .ntt) := do
  let coefficients ← chunkCoefficients value kind par vt
  let poly ← tmath (tryFromU64 coefficients ctx vt)
  tlift (intoNtt poly)

/-- `value[start..end]` with the bounds of lines 57-59 of `plaintext_vec.rs`: the bounds are compared. -/
def chunk (value : List Nat) (degree index : Nat) : Timed (List Nat) := do
  assert (index * degree ≤ min value.length (index * degree + degree))
  return (value.take (min value.length (index * degree + degree))).drop (index * degree)

/-- `try_encode` and `try_encode_vt` of vectors of plaintexts, `plaintext_vec.rs` lines 38-69, 135-148 and 157-164. -/
def tryEncodeVec (value : List Nat) (encoding : Encoding) (par : Par) (vt : Bool) : TRes (List Plaintext) :=
  if encoding.kind = .simd ∧ par.nttOperator = none then terr .simdUnavailable
  else do
    let ctx ← tpublic (par.contextAtLevel encoding.level)
    tlift (assert (par.degree ≠ 0))
    tmapM (fun index => do
      let c ← tlift (chunk value par.degree index)
      let polyNtt ← encodeU64Chunk encoding.kind par vt c ctx
      return { par, encoding := some encoding, polyNtt }) (List.range (max ((value.length + par.degree - 1) / par.degree) 1))

/-- `try_encode` for `&[u64]` and `try_encode_vt`, `plaintext.rs` lines 311-345. -/
def tryEncodeU64 (value : List Nat) (encoding : Encoding) (par : Par) (vt : Bool) : TRes Plaintext := do
  if ← tlift (branchOn (value.length > par.degree)) then terr (.tooManyValues value.length par.degree)
  else
    let v ← tryEncodeVec value encoding par vt
    tlift (fetch v 0)

/-- `try_encode` for `&[i64]`, `plaintext.rs` lines 347-372; the arm of a big plaintext modulus computes with big numbers. -/
def tryEncodeI64 (value : List Int) (encoding : Encoding) (par : Par) : TRes Plaintext :=
  match par.plaintext.small with
  | some m => do tryEncodeU64 (← tlift (reduceVecI64 m value)) encoding par false
  | none => ExceptT.mk (bigUint (value.map Int.natAbs) (Plaintext.tryEncodeI64 value encoding par).run)

/-- `decode_simd_u64`, `plaintext.rs` lines 155-170. -/
def decodeSimdU64 (par : Par) (values : List Nat) : TRes (List Nat) :=
  match par.nttOperator with
  | none => terr .simdUnavailable
  | some op => do
    let values ← tlift (forward op values)
    tlift (mapLoop (fun index => fetch values index) par.indexMap)

/-- `try_decode` to `Vec<u64>`, `plaintext.rs` lines 407-432; big values are converted by `BigUint` operations. -/
def decodeU64 (pt : Plaintext) (encoding : Option Encoding) : TRes (List Nat) := do
  let encoding ← tpublic (pt.resolveEncoding encoding)
  let values ← match ← tlift (coefficients pt) with
    | .small values => (pure values : TRes (List Nat))
    | .large values => ExceptT.mk (bigUint values (values.mapM toU64OrErr).run)
  match encoding.kind with
  | .poly => return values
  | .simd => decodeSimdU64 pt.par values

/-- `try_decode` to `Vec<i64>`, `plaintext.rs` lines 434-463. -/
def decodeI64 (pt : Plaintext) (encoding : Option Encoding) : TRes (List Int) :=
  match pt.par.plaintext.small with
  | some m => do tlift (centerVec m (← decodeU64 pt encoding))
  | none => ExceptT.mk (bigUint pt.polyNtt.toU64 (pt.decodeI64 encoding).run)

/-! ## Secret keys: `/repo/crates/fhe/src/bfv/keys/secret_key.rs` -/

/-- `random`, `secret_key.rs` lines 42-45. -/
def randomKey (par : Par) (rng : Nat → Nat) : Timed SecretKey := do
  match ← sampleVecCbd par.degree par.variance rng with
  | .error () => panic
  | .ok (coeffs, _) => return { par, coeffs }

/-- The secret polynomial at a context, `secret_key.rs` lines 66-69, 111-113 and 201-204. -/
def polyAt (sk : SecretKey) (ctx : Context) : TRes (Poly .ntt) := do
  let p ← tmath (tryFromI64 sk.coeffs ctx false)
  tlift (intoNtt p)

/-- `encrypt_poly`, `secret_key.rs` lines 100-134.  The seed is part of the ciphertext, and its expansion is public. -/
def encryptPoly (g : Prg) (sk : SecretKey) (p : Poly .ntt) (seed : Seed) (rng : Nat → Nat) : TRes Ciphertext := do
  let level ← tpublic (sk.par.levelOfContext p.ctx)
  let s ← polyAt sk p.ctx
  let a ← tpublic (lift (g.poly .ntt p.ctx seed))
  let as ← tlift (mulAssign a s)
  let b ← tmath (smallNtt p.ctx sk.par.variance rng)
  let b ← tlift (subAssign b as)
  let b ← tlift (addAssign b p)
  return { par := sk.par, seed := some seed, c := [b.allowVt, a.allowVt], level }

/-- `try_encrypt`, `secret_key.rs` lines 184-192. -/
def tryEncrypt (g : Prg) (sk : SecretKey) (pt : Plaintext) (seed : Seed) (rng : Nat → Nat) : TRes Ciphertext := do
  tpublic (pt.validateFor sk.par)
  let m ← tlift (toPoly pt)
  encryptPoly g sk m seed rng

/-- The loop of `secret_key.rs` lines 212-220. -/
def phaseLoop (s : Poly .ntt) : List (Poly .ntt) → (c si : Poly .ntt) → Timed (Poly .ntt)
  | [], c, _ => do
    let _ ← branchOn False
    return c
  | ci :: rest, c, si => do
    let _ ← branchOn True
    let cis ← mulAssign ci.disallowVt si
    let c ← addAssign c cis
    if ← branchOn (rest = []) then phaseLoop s rest c si
    else
      let si ← mulAssign si s
      phaseLoop s rest c si

/-- `secret_key.rs` lines 200-220. -/
def phase (sk : SecretKey) (ct : Ciphertext) : TRes (Poly .ntt) :=
  match ct.c with
  | [] => tlift panic
  | c0 :: rest => do
    let s ← polyAt sk c0.ctx
    tlift (phaseLoop s rest c0.disallowVt s)

/-- Lines 227-251 of `secret_key.rs`. -/
def finish (b : Build) (par : Par) (d : Poly .powerBasis) (ctx : Context) : TRes (Poly .ntt) :=
  match par.plaintext.small with
  | some t => do
    let v ← tlift (mapLoop (fun x => pure (wadd64 x t.p)) d.toU64)
    let w ← tlift (prefixOf v par.degree)
    let q0 ← tpublic (lift par.moduli[0]?)
    match ← tpublic (lift (Modulus.new b.cfg q0)) with
    | .error _ => terr (.math (.invalidModulus q0))
    | .ok q => do
      let w ← tlift (reduceVec q w)
      let w ← tlift (reduceVec t w)
      let p ← tmath (tryFromU64 w ctx false)
      tlift (intoNtt p)
  | none => ExceptT.mk (bigUint d.toU64 (SecretKey.finish b par d ctx).run)

/-- `try_decrypt`, `secret_key.rs` lines 198-260. -/
def tryDecrypt (b : Build) (sk : SecretKey) (ct : Ciphertext) : TRes Plaintext := do
  tpublic (ct.validateFor sk.par)
  let c ← phase sk ct
  let lvl ← tpublic (sk.par.contextLevelAt ct.level)
  let p ← tlift (nttToPowerBasis c)
  let d ← tmath (scale lvl.cp.scaler p)
  let ctx ← tpublic (lift (ct.c.head?.map (·.ctx)))
  let poly ← finish b sk.par d ctx
  return { par := sk.par, encoding := none, polyNtt := poly }

/-! ## Public keys: `/repo/crates/fhe/src/bfv/keys/public_key.rs` -/

/-- `new`, `public_key.rs` lines 26-37. -/
def newPublicKey (g : Prg) (sk : SecretKey) (seed : Seed) (rng : Nat → Nat) : Timed PublicKey := do
  let zero ← publicly (Plaintext.zero ⟨.poly, 0⟩ sk.par).unwrap
  let c ← unwrapT (tryEncrypt g sk zero seed rng).run
  return { par := sk.par, c := { c with c := c.c.map Poly.disallowVt } }

/-- `try_encrypt`, `public_key.rs` lines 47-97: the public key and its switching to the level of the plaintext are public. -/
def pkEncrypt (pk : PublicKey) (pt : Plaintext) (rngU rng1 rng2 : Nat → Nat) : TRes Ciphertext := do
  tpublic (pt.validateFor pk.par)
  tpublic (pk.c.validateFor pk.par)
  let level ← tpublic (lift pt.level)
  if level < pk.c.level then do
    let max ← tpublic (lift pk.par.maxLevel)
    terr (.invalidLevel level pk.c.level max)
  else do
    let ct ← tpublic (pk.c.switchLoop (level - pk.c.level))
    let ctx ← tpublic (pk.par.contextAtLevel ct.level)
    let u ← tmath (smallNtt ctx pk.par.variance rngU)
    let e1 ← tmath (smallNtt ctx pk.par.variance rng1)
    let e2 ← tmath (smallNtt ctx pk.par.variance rng2)
    let m ← tlift (toPoly pt)
    let p0 ← tpublic (lift ct.c[0]?)
    let c0 ← tlift (mulAssign u p0)
    let c0 ← tlift (addAssign c0 e1)
    let c0 ← tlift (addAssign c0 m)
    let p1 ← tpublic (lift ct.c[1]?)
    let c1 ← tlift (mulAssign u p1)
    let c1 ← tlift (addAssign c1 e2)
    return { par := pk.par, seed := none, c := [c0.allowVt, c1.allowVt], level := ct.level }

/-! ## Key-switching keys: `/repo/crates/fhe/src/bfv/keys/key_switching_key.rs`, `relinearization_key.rs`, `galois_key.rs` -/

/-- The polynomial `b` of lines 172-185 and 215-229 of `key_switching_key.rs`, before variable time is allowed on it. -/
def maskedPart (sk : SecretKey) (s : Poly .ntt) (source : Poly .powerBasis) (c1i : Poly .nttShoup) (gi : Nat) (rng : Nat → Nat) : TRes (Poly .powerBasis) := do
  let as ← tlift (shoupToNtt c1i)
  let as ← tlift (mulAssign as.disallowVt s)
  let as ← tlift (nttToPowerBasis as)
  let b ← tmath (smallPowerBasis as.ctx sk.par.variance rng)
  let b ← tlift (subAssign b as)
  let gs ← tlift (mulScalar source gi)
  tlift (addAssign b gs)

/-- The body of the loops of `generate_c0` and `generate_c0_decomposition`, `key_switching_key.rs` lines 172-190 and 215-234. -/
def component (sk : SecretKey) (s : Poly .ntt) (source : Poly .powerBasis) (c1i : Poly .nttShoup) (gi : Nat) (rng : Nat → Nat) : TRes (Poly .nttShoup) := do
  let b ← maskedPart sk s source c1i gi rng
  tlift (intoNttShoup b.allowVt)

/-- `generate_c0`, `key_switching_key.rs` lines 149-194. -/
def generateC0 (b : Build) (sk : SecretKey) (source : Poly .powerBasis) (c1 : List (Poly .nttShoup)) (rngs : Nat → Nat → Nat) : TRes (List (Poly .nttShoup)) :=
  match c1 with
  | [] => terr .emptyKeySwitchingComponents
  | first :: _ => do
    let s ← polyAt sk first.ctx
    let moduli ← tpublic (lift (Fhe.prefixOf sk.par.moduli c1.length))
    let rns ← tpublic (math (RnsContext.new b.cfg moduli))
    tmapM (fun x => do
      let gi ← tpublic (lift (rns.getGarner x.2))
      component sk s source x.1 gi (rngs x.2)) c1.zipIdx

/-- `generate_c0_decomposition`, `key_switching_key.rs` lines 197-238. -/
def generateC0Decomposition (sk : SecretKey) (source : Poly .powerBasis) (c1 : List (Poly .nttShoup)) (rngs : Nat → Nat → Nat) (logBase : Nat) : TRes (List (Poly .nttShoup)) :=
  match c1 with
  | [] => terr .emptyKeySwitchingComponents
  | first :: _ => do
    let s ← polyAt sk first.ctx
    tmapM (fun x => do
      let gi ← tpublic (lift (KeySwitchingKey.pow64 (x.2 * logBase)))
      component sk s source x.1 gi (rngs x.2)) c1.zipIdx

/-- `new`, `key_switching_key.rs` lines 71-127. -/
def newKsk (b : Build) (g : Prg) (sk : SecretKey) (source : Poly .powerBasis) (ciphertextLevel kskLevel : Nat) (seed : Seed) (rngs : Nat → Nat → Nat) : TRes KeySwitchingKey := do
  let par := sk.par
  let ctxKsk ← tpublic (par.contextAtLevel kskLevel)
  let ctxCiphertext ← tpublic (par.contextAtLevel ciphertextLevel)
  if source.ctx ≠ ctxKsk then terr (.parameterMismatch .polynomial .keySwitchingKey)
  else if ctxKsk.moduli.length = 1 then do
    let q ← tpublic (lift ctxKsk.moduli.head?)
    let log ← tpublic (lift (logModulus q))
    let logBase := log / 2
    let size ← tpublic (lift (divCeil log logBase))
    let c1 ← tpublic (lift (KeySwitchingKey.generateC1 g ctxKsk seed size))
    let c0 ← generateC0Decomposition sk source c1 rngs logBase
    return { par, seed := some seed, c0, c1, ciphertextLevel, ctxCiphertext, kskLevel, ctxKsk, logBase }
  else do
    let c1 ← tpublic (lift (KeySwitchingKey.generateC1 g ctxKsk seed ctxCiphertext.moduli.length))
    let c0 ← generateC0 b sk source c1 rngs
    return { par, seed := some seed, c0, c1, ciphertextLevel, ctxCiphertext, kskLevel, ctxKsk, logBase := 0 }

/-- `new_leveled`, `relinearization_key.rs` lines 34-65. -/
def newRelin (b : Build) (g : Prg) (sk : SecretKey) (ciphertextLevel keyLevel : Nat) (seed : Seed) (rngs : Nat → Nat → Nat) : TRes RelinearizationKey := do
  let ctxKey ← tpublic (sk.par.contextAtLevel keyLevel)
  let ctxCiphertext ← tpublic (sk.par.contextAtLevel ciphertextLevel)
  if ctxKey.moduli.length = 1 then terr .keySwitchingNotSupported
  else do
    let s ← polyAt sk ctxCiphertext
    let s2 ← tlift (mulAssign s s)
    let s2 ← tlift (nttToPowerBasis s2)
    let up ← tpublic (math (switcherNew ctxCiphertext ctxKey))
    let s2 ← tmath (scale up s2)
    let ksk ← newKsk b g sk s2 ciphertextLevel keyLevel seed rngs
    return { ksk }

/-- `new`, `galois_key.rs` lines 26-59. -/
def newGalois (b : Build) (g : Prg) (sk : SecretKey) (exponent ciphertextLevel keyLevel : Nat) (seed : Seed) (rngs : Nat → Nat → Nat) : TRes GaloisKey := do
  let ctxKey ← tpublic (sk.par.contextAtLevel keyLevel)
  let ctxCiphertext ← tpublic (sk.par.contextAtLevel ciphertextLevel)
  let element ← tpublic (math (SubstExponent.new ctxCiphertext exponent))
  let up ← tpublic (math (switcherNew ctxCiphertext ctxKey))
  let s ← tmath (tryFromI64 sk.coeffs ctxCiphertext false)
  let s ← tlift (substitute s element)
  let s ← tmath (scale up s)
  let ksk ← newKsk b g sk s ciphertextLevel keyLevel seed rngs
  return { element, ksk }

/-! ## Shares of several parties: `/repo/crates/fhe/src/mbfv` -/

/-- `PublicKeyShare::new`, `public_key_gen.rs` lines 32-57. -/
def publicKeyShare (sk : SecretKey) (crp : CommonRandomPoly) (rng : Nat → Nat) : TRes PublicKeyShare := do
  let ctx ← tpublic (sk.par.contextAtLevel 0)
  let s ← polyAt sk ctx
  let e ← tmath (smallNtt ctx sk.par.variance rng)
  let p0 ← tlift (polyNeg crp.poly)
  let p0 ← tlift (mulAssign p0.disallowVt s)
  let p0 ← tlift (addAssign p0 e)
  return { par := sk.par, crp, p0Share := p0.allowVt }

/-- `PublicKeySwitchShare::new`, `public_key_switch.rs` lines 33-92. -/
def publicKeySwitchShare (sk : SecretKey) (pk : PublicKey) (ct : Ciphertext) (rngU rng0 rng1 : Nat → Nat) : TRes PublicKeySwitchShare :=
  if sk.par.toBfvParameters ≠ pk.par.toBfvParameters then terr (.parameterMismatch .secretKey .publicKey)
  else if pk.par.toBfvParameters ≠ ct.par.toBfvParameters then terr (.parameterMismatch .publicKey .ciphertext)
  else do
    let pkCt ← tpublic (pk.c.switchUntil ct.level pk.c.par.moduli.length)
    let ctx ← tpublic (sk.par.contextAtLevel ct.level)
    let s ← polyAt sk ctx
    let s := s.disallowVt
    let u ← tmath (smallNtt ctx sk.par.variance rngU)
    let e0 ← tmath (smallNtt ctx sk.par.variance rng0)
    let e1 ← tmath (smallNtt ctx sk.par.variance rng1)
    let h0 ← tpublic (lift pkCt.c[0]?)
    let h0 ← tlift (mulAssign h0.disallowVt u)
    let x1 ← tpublic (lift ct.c[1]?)
    let s ← tlift (mulAssign s x1)
    let h0 ← tlift (addAssign h0 s)
    let h0 ← tlift (addAssign h0 e0)
    let h1 ← tpublic (lift pkCt.c[1]?)
    let h1 ← tlift (mulAssign h1.disallowVt u)
    let h1 ← tlift (addAssign h1 e1)
    let c0 ← tpublic (lift ct.c[0]?)
    return { par := sk.par, c0, h0Share := h0.allowVt, h1Share := h1.allowVt }

/-- `SecretKeySwitchShare::new`, `secret_key_switch.rs` lines 38-95. -/
def secretKeySwitchShare (skIn skOut : SecretKey) (ct : Ciphertext) (rng : Nat → Nat) : TRes SecretKeySwitchShare :=
  if skIn.par.toBfvParameters ≠ skOut.par.toBfvParameters then terr (.parameterMismatch .inputSecretKey .outputSecretKey)
  else if skOut.par.toBfvParameters ≠ ct.par.toBfvParameters then terr (.parameterMismatch .outputSecretKey .ciphertext)
  else if ct.c.length ≠ 2 then terr (.invalidPolynomialCount .multipartyKeySwitch ct.c.length 2)
  else do
    let c0 ← tpublic (lift ct.c[0]?)
    let c1 ← tpublic (lift ct.c[1]?)
    let sIn ← polyAt skIn c0.ctx
    let sOut ← polyAt skOut c0.ctx
    let e ← tmath (smallNtt c0.ctx skIn.par.variance rng)
    let h ← tlift (subAssign sIn sOut)
    let h ← tlift (mulAssign h.disallowVt c1)
    let h ← tlift (addAssign h e)
    return { par := skIn.par, ct, hShare := h }

/-- `DecryptionShare::new`, `secret_key_switch.rs` lines 133-142. -/
def decryptionShare (sk : SecretKey) (ct : Ciphertext) (rng : Nat → Nat) : TRes DecryptionShare := do
  let zero : SecretKey := { par := sk.par, coeffs := List.replicate sk.par.degree 0 }
  let sksShare ← secretKeySwitchShare sk zero ct rng
  return { sksShare }

/-- `RelinKeyGenerator::new`, `relin_key_gen.rs` lines 76-95. -/
def relinKeyGenerator (sk : SecretKey) (crp : List CommonRandomPoly) (rng : Nat → Nat) : TRes RelinKeyGenerator := do
  let ctx ← tpublic (sk.par.contextAtLevel 0)
  if ctx.moduli.length = 1 then terr .keySwitchingNotSupported
  else if crp.length ≠ ctx.moduli.length then terr (.invalidCrpCount crp.length ctx.moduli.length)
  else do
    let u ← tmath (smallNtt ctx sk.par.variance rng)
    return { sk, crp, u }

/-- `generate_h0` of the first round, `relin_key_gen.rs` lines 141-172. -/
def generateH0 (b : Build) (sk : SecretKey) (crp : List CommonRandomPoly) (u : Poly .ntt) (rngs : Nat → Nat → Nat) : TRes (List (Poly .ntt)) := do
  let ctx ← tpublic (sk.par.contextAtLevel 0)
  let s ← polyAt sk ctx
  let moduli ← tpublic (lift (Fhe.prefixOf sk.par.moduli crp.length))
  let rns ← tpublic (math (RnsContext.new b.cfg moduli))
  tmapM (fun x => do
    let w ← tpublic (lift (rns.getGarner x.2))
    let ws ← tlift (mulScalar s w)
    let e ← tmath (smallNtt ctx sk.par.variance (rngs x.2))
    let h ← tlift (polyNeg x.1.poly)
    let h ← tlift (mulAssign h.disallowVt u)
    let h ← tlift (addAssign h ws)
    tlift (addAssign h e)) crp.zipIdx

/-- `generate_h1` of the first round, `relin_key_gen.rs` lines 174-197. -/
def generateH1 (sk : SecretKey) (crp : List CommonRandomPoly) (rngs : Nat → Nat → Nat) : TRes (List (Poly .ntt)) := do
  let ctx ← tpublic (sk.par.contextAtLevel 0)
  let s ← polyAt sk ctx
  tmapM (fun x => do
    let e ← tmath (smallNtt ctx sk.par.variance (rngs x.2))
    let h ← tlift (mulAssign x.1.poly.disallowVt s)
    tlift (addAssign h e)) crp.zipIdx

/-- `round_1`, `relin_key_gen.rs` lines 98-100 and 113-139. -/
def round1 (b : Build) (g : RelinKeyGenerator) (rngs0 rngs1 : Nat → Nat → Nat) : TRes RelinKeyShare := do
  let ctx ← tpublic (g.sk.par.contextAtLevel 0)
  if g.crp.length ≠ ctx.moduli.length then terr (.invalidCrpCount g.crp.length ctx.moduli.length)
  else do
    let h0 ← generateH0 b g.sk g.crp g.u rngs0
    let h1 ← generateH1 g.sk g.crp rngs1
    return { par := g.sk.par, h0, h1 }

/-- `generate_h0` and `generate_h1` of the second round, `relin_key_gen.rs` lines 243-268 and 270-296. -/
def generate2 (ctx : Context) (variance : Nat) (f : Poly .ntt) (r1 : List (Poly .ntt)) (rngs : Nat → Nat → Nat) : TRes (List (Poly .ntt)) :=
  tmapM (fun x => do
    let e ← tmath (smallNtt ctx variance (rngs x.2))
    let h ← tlift (mulAssign x.1.disallowVt f)
    tlift (addAssign h e)) r1.zipIdx

/-- `round_2`, `relin_key_gen.rs` lines 103-109 and 225-241. -/
def round2 (g : RelinKeyGenerator) (r1 : RelinKeyShare) (rngs0 rngs1 : Nat → Nat → Nat) : TRes RelinKeyShare2 := do
  let ctx ← tpublic (g.sk.par.contextAtLevel 0)
  let s ← polyAt g.sk ctx
  let h0 ← generate2 ctx g.sk.par.variance s r1.h0 rngs0
  let us ← tlift (subAssign g.u s)
  let h1 ← generate2 ctx g.sk.par.variance us r1.h1 rngs1
  return { par := g.sk.par, h0, h1, lastRound := some r1 }

end Fhe.Release
