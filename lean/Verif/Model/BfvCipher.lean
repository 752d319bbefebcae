import Verif.Model.BfvPlain
/-!
# BFV ciphertexts, secret and public keys, linear operations

Models `/repo/crates/fhe/src/bfv/ciphertext.rs`, `/repo/crates/fhe/src/bfv/keys/secret_key.rs`,
`/repo/crates/fhe/src/bfv/keys/public_key.rs` and the additive part of `/repo/crates/fhe/src/bfv/ops/mod.rs`.  `zeroize` has no
observable effect and is not modelled.

Randomness: a generator is the stream of the 64-bit words it returns.  Every call that draws a small polynomial gets its own stream, and
a fresh seed is an argument.  What `ChaCha8Rng` makes of a seed is the unknown function `Prg.expand`.
-/
namespace Fhe

/-- `<ChaCha8Rng as SeedableRng>::Seed`: 32 bytes.  The type of the argument in `/repo/crates/fhe-math/src/rq/mod.rs` line 276. -/
abbrev Seed := List Nat

/-- The pseudo-random generator, `Poly::random_from_seed` (`/repo/crates/fhe-math/src/rq/mod.rs` lines 275-292): `expand seed ctx` are the
rows that the hashed seed yields for the context, and `derive seed i` is the `i`-th seed that `KeySwitchingKey::generate_c1` draws
from the generator of `seed`. -/
structure Prg where
  expand : Seed → Context → List (List Nat)
  derive : Seed → Nat → Seed

/-- `Poly::<R>::random_from_seed`.  `/repo/crates/fhe-math/src/rq/mod.rs` lines 276-292. -/
def Prg.poly (g : Prg) (r : Rep) (ctx : Context) (seed : Seed) : Panics (Poly r) := Poly.random r ctx (g.expand seed ctx)

/-- `struct Ciphertext`, `ciphertext.rs` lines 18-30. -/
structure Ciphertext where
  par : Par
  seed : Option Seed
  c : List (Poly .ntt)
  level : Nat
deriving DecidableEq, Repr

namespace Ciphertext

/-- `PartialEq for Ciphertext` (derived), `ciphertext.rs` line 17: the timing flags of the polynomials and the address of the parameters
are ignored. -/
def beq (a b : Ciphertext) : Bool :=
  decide (a.par.toBfvParameters = b.par.toBfvParameters) && decide (a.seed = b.seed) && decide (a.c.length = b.c.length) &&
    (a.c.zip b.c).all (fun x => x.1.beq x.2) && decide (a.level = b.level)

/-- `new`, `ciphertext.rs` lines 51-79. -/
def new (c : List (Poly .ntt)) (par : Par) : Res Ciphertext :=
  if c.length < 2 then Res.err (.tooFewPolynomials c.length 2)
  else do
    let ctx ← lift (c.head?.map (·.ctx))
    let level ← par.levelOfContext ctx
    if c.any (fun ci => ci.ctx ≠ ctx) then Res.err (.ciphertextContextMismatch 0)
    else Res.ok { par, seed := none, c, level }

/-- `validate_context`, `ciphertext.rs` lines 112-138. -/
def validateContext (ct : Ciphertext) (expectedLevel : Nat) (expectedCtx : Context) : Res Unit :=
  if ct.c.length < 2 then Res.err (.tooFewPolynomials ct.c.length 2)
  else if ct.level ≠ expectedLevel then Res.err (.invalidLevel ct.level expectedLevel expectedLevel)
  else if ct.c.any (fun p => p.ctx ≠ expectedCtx) then Res.err (.ciphertextContextMismatch expectedLevel)
  else Res.ok ()

/-- `validate_for`, `ciphertext.rs` lines 83-92. -/
def validateFor (ct : Ciphertext) (par : Par) : Res Unit :=
  if ct.par.ptrEq par = false then Res.err (.parameterMismatch .ciphertext .parameters)
  else do ct.validateContext ct.level (← par.contextAtLevel ct.level)

/-- `validate_for_context`, `ciphertext.rs` lines 96-109. -/
def validateForContext (ct : Ciphertext) (par : Par) (expectedLevel : Nat) (expectedCtx : Context) : Res Unit :=
  if ct.par.ptrEq par = false then Res.err (.parameterMismatch .ciphertext .parameters)
  else ct.validateContext expectedLevel expectedCtx

/-- `truncate`, `ciphertext.rs` lines 141-143. -/
def truncate (ct : Ciphertext) (len : Nat) : Ciphertext := { ct with c := ct.c.take len }

/-- The body of the loop of lines 154-158 of `ciphertext.rs`. -/
def switchPoly (p : Poly .ntt) : Res (Poly .ntt) := do
  let pb ← lift p.nttToPowerBasis
  let pb ← math pb.switchDown
  lift pb.intoNtt

/-- `switch_down`, `ciphertext.rs` lines 148-161. -/
def switchDown (ct : Ciphertext) : Res Ciphertext := do
  if ct.level ≥ (← lift ct.par.maxLevel) then Res.err (.math .noMoreContext)
  else do
    let c ← ct.c.mapM switchPoly
    return { ct with seed := none, c, level := ct.level + 1 }

/-- The loop of lines 179-181 of `ciphertext.rs`, and of lines 66-68 of `public_key.rs`; `left` is the distance to the target. -/
def switchLoop : (left : Nat) → Ciphertext → Res Ciphertext
  | 0, ct => Res.ok ct
  | left + 1, ct => do switchLoop left (← ct.switchDown)

/-- `switch_to_level`, `ciphertext.rs` lines 164-183. -/
def switchToLevel (ct : Ciphertext) (target : Nat) : Res Ciphertext := do
  let max ← lift ct.par.maxLevel
  if target < ct.level then Res.err (.invalidLevel target ct.level max)
  else if target > max then Res.err (.invalidLevel target ct.level max)
  else ct.switchLoop (target - ct.level)

/-- `zero`, `ciphertext.rs` lines 220-227. -/
def zero (par : Par) : Ciphertext := { par, seed := none, c := [], level := 0 }

end Ciphertext

/-! ## Serialization of ciphertexts -/

/-- The message `Ciphertext`, `/repo/crates/fhe/src/proto/bfv.proto` lines 5-9. -/
structure CiphertextMsg where
  c : List (List Nat)
  seed : List Nat
  level : Nat
deriving DecidableEq, Repr

namespace CiphertextMsg

/-- The fields of the message, `proto/bfv.proto` lines 5-9. -/
def toFields (m : CiphertextMsg) : List Wire.Field := Wire.repeatedBytes 1 m.c ++ Wire.bytesField 2 m.seed ++ Wire.scalar 3 m.level

/-- A field that is read, `proto/bfv.proto` lines 5-9. -/
def merge (m : CiphertextMsg) : Wire.Field → Option CiphertextMsg
  | (1, .len p) => some { m with c := m.c ++ [p] }
  | (2, .len p) => some { m with seed := p }
  | (3, .varint n) => some { m with level := Wire.asU32 n }
  | (t, _) => if t ≤ 3 then none else some m

/-- `encode_to_vec`, `ciphertext.rs` line 200. -/
def encode (m : CiphertextMsg) : List Nat := Wire.encode m.toFields
/-- The message without fields.  `CiphertextProto::default()`; the message is `/repo/crates/fhe/src/proto/bfv.proto` lines 5-9. -/
def empty : CiphertextMsg := ⟨[], [], 0⟩
/-- `Message::decode`, `ciphertext.rs` line 206. -/
def decode (bytes : List Nat) : Option CiphertextMsg := Wire.decode merge empty Wire.maxDepth bytes

end CiphertextMsg

namespace Ciphertext

/-- `From<&Ciphertext> for CiphertextProto`, `ciphertext.rs` lines 231-259. -/
def toMsg (ct : Ciphertext) : Panics CiphertextMsg := do
  match ct.c.getLast? with
  | none => return { c := [], seed := [], level := ct.level % 2 ^ 32 }
  | some last => do
    let rest ← ct.c.dropLast.mapM Poly.toBytes
    match ct.seed with
    | some seed => return { c := rest, seed, level := ct.level % 2 ^ 32 }
    | none => return { c := rest ++ [← last.toBytes], seed := [], level := ct.level % 2 ^ 32 }

/-- `try_convert_from`, `ciphertext.rs` lines 262-316. -/
def fromMsg (g : Prg) (m : CiphertextMsg) (par : Par) : Res Ciphertext :=
  if m.c = [] ∨ (m.c.length = 1 ∧ m.seed = []) then Res.err (.invalidCiphertextCount m.c.length (decide (m.seed ≠ [])))
  else do
    let max ← lift par.maxLevel
    if m.level > max then Res.err (.invalidLevel m.level 0 max)
    else do
      let ctx ← par.contextAtLevel m.level
      let c ← m.c.mapM fun x => math (Poly.fromBytes .ntt x ctx)
      if m.seed = [] then return { par, seed := none, c := c.map Poly.allowVt, level := m.level }
      else if m.seed.length ≠ 32 then Res.err (.math (.invalidSeedSize m.seed.length 32))
      else do
        let c1 ← lift (g.poly .ntt ctx m.seed)
        return { par, seed := some m.seed, c := (c ++ [c1]).map Poly.allowVt, level := m.level }

/-- `to_bytes`, `ciphertext.rs` lines 199-201. -/
def toBytes (ct : Ciphertext) : Panics (List Nat) := do return (← ct.toMsg).encode

/-- `from_bytes`, `ciphertext.rs` lines 205-212. -/
def fromBytes (g : Prg) (bytes : List Nat) (par : Par) : Res Ciphertext :=
  match CiphertextMsg.decode bytes with
  | none => Res.err .decode
  | some m => fromMsg g m par

end Ciphertext

/-! ## Secret keys -/

/-- `struct SecretKey`, `secret_key.rs` lines 22-25. -/
structure SecretKey where
  par : Par
  coeffs : List Int
deriving DecidableEq, Repr

namespace SecretKey

/-- `random`, `secret_key.rs` lines 42-45. -/
def random (par : Par) (rng : Nat → Nat) : Panics SecretKey := do
  match ← sampleVecCbd par.degree par.variance rng with
  | .error () => none
  | .ok (coeffs, _) => return { par, coeffs }

/-- The secret polynomial at a context, `secret_key.rs` lines 66-69, 111-113 and 201-204. -/
def polyAt (sk : SecretKey) (ctx : Context) : Res (Poly .ntt) := do
  lift (← math (Poly.tryFromI64 sk.coeffs ctx false)).intoNtt

/-- `encrypt_poly`, `secret_key.rs` lines 100-134. -/
def encryptPoly (g : Prg) (sk : SecretKey) (p : Poly .ntt) (seed : Seed) (rng : Nat → Nat) : Res Ciphertext := do
  let level ← sk.par.levelOfContext p.ctx
  let s ← sk.polyAt p.ctx
  let a ← lift (g.poly .ntt p.ctx seed)
  let as ← lift (a.mulAssign s)
  let b ← math (Poly.smallNtt p.ctx sk.par.variance rng)
  let b ← lift (b.subAssign as)
  let b ← lift (b.addAssign p)
  return { par := sk.par, seed := some seed, c := [b.allowVt, a.allowVt], level }

/-- `try_encrypt`, `secret_key.rs` lines 184-192. -/
def tryEncrypt (g : Prg) (sk : SecretKey) (pt : Plaintext) (seed : Seed) (rng : Nat → Nat) : Res Ciphertext := do
  pt.validateFor sk.par
  sk.encryptPoly g (← lift pt.toPoly) seed rng

/-- The loop of `secret_key.rs` lines 212-220: the parts not yet visited, the sum and the current power of the secret. -/
def phaseLoop (s : Poly .ntt) : List (Poly .ntt) → (c si : Poly .ntt) → Panics (Poly .ntt)
  | [], c, _ => some c
  | ci :: rest, c, si => do
    let cis ← ci.disallowVt.mulAssign si
    let c ← c.addAssign cis
    let si ← if rest = [] then some si else si.mulAssign s
    phaseLoop s rest c si

/-- `secret_key.rs` lines 200-220. -/
def phase (sk : SecretKey) (ct : Ciphertext) : Res (Poly .ntt) :=
  match ct.c with
  | [] => Res.panic
  | c0 :: rest => do
    let s ← sk.polyAt c0.ctx
    lift (phaseLoop s rest c0.disallowVt s)

/-- Lines 227-251 of `secret_key.rs`: from the scaled phase to the polynomial of the plaintext. -/
def finish (b : Build) (par : Par) (d : Poly .powerBasis) (ctx : Context) : Res (Poly .ntt) :=
  match par.plaintext.small with
  | some t => do
    let v ← lift (d.toU64.mapM fun x => add64 x t.p)
    let w ← lift (prefixOf v par.degree)
    let q0 ← lift par.moduli[0]?
    match ← lift (Modulus.new b.cfg q0) with
    | .error _ => Res.err (.math (.invalidModulus q0))
    | .ok q => do
      let w ← lift (q.reduceVec w)
      let w ← lift (t.reduceVec w)
      lift (← math (Poly.tryFromU64 w ctx false)).intoNtt
  | none => do
    let v := (← lift d.toBigUint).map (· + par.plaintext.value)
    let w ← lift (prefixOf v par.degree)
    lift (check (d.ctx.modulus ≠ 0))
    let w ← lift (par.plaintext.reduceVec (w.map (· % d.ctx.modulus)))
    lift (← math (Poly.tryFromBigUint w ctx false)).intoNtt

/-- `try_decrypt`, `secret_key.rs` lines 198-260. -/
def tryDecrypt (b : Build) (sk : SecretKey) (ct : Ciphertext) : Res Plaintext := do
  ct.validateFor sk.par
  let c ← sk.phase ct
  let lvl ← sk.par.contextLevelAt ct.level
  let d ← math (lvl.cp.scaler.scale (← lift c.nttToPowerBasis))
  let ctx ← lift (ct.c.head?.map (·.ctx))
  let poly ← finish b sk.par d ctx
  return { par := sk.par, encoding := none, polyNtt := poly }

/-- The loop of `measure_noise`, `secret_key.rs` lines 76-82. -/
def noiseLoop (s : Poly .ntt) : List (Poly .ntt) → (c si : Poly .ntt) → Panics (Poly .ntt)
  | [], c, _ => some c
  | ci :: rest, c, si => do
    let cis ← ci.disallowVt.mulAssign si
    let c ← c.addAssign cis
    let si ← si.mulAssign s
    noiseLoop s rest c si

/-- `measure_noise`, `secret_key.rs` lines 61-98.  `BigUint::bits` is the bit length. -/
def measureNoise (b : Build) (sk : SecretKey) (ct : Ciphertext) : Res Nat := do
  let m ← lift (← sk.tryDecrypt b ct).toPoly
  match ct.c with
  | [] => Res.panic
  | c0 :: rest => do
    let s ← sk.polyAt c0.ctx
    let c ← lift (noiseLoop s rest c0.disallowVt s)
    let c ← lift (c.subAssign m)
    let l ← lift (← lift c.nttToPowerBasis).toBigUint
    lift (check (∀ x ∈ l, x ≤ c0.ctx.modulus))
    return l.foldl (fun noise x => max noise (min (bitLen x) (bitLen (c0.ctx.modulus - x)))) 0

/-- `From<&SecretKey> for SecretKeyProto`, `secret_key.rs` lines 137-143. -/
def toMsg (sk : SecretKey) : List Int := sk.coeffs

/-- A field of the message `SecretKey` that is read, `proto/bfv.proto` lines 54-56: a list of numbers, together or one by one. -/
def mergeMsg (m : List Int) : Wire.Field → Option (List Int)
  | (1, .len p) => do return m ++ (← Wire.readPacked p.length p).map Wire.unzigzag
  | (1, .varint n) => some (m ++ [Wire.unzigzag n])
  | (t, _) => if t ≤ 1 then none else some m

/-- `encode_to_vec`, `secret_key.rs` line 147. -/
def encodeMsg (m : List Int) : List Nat := Wire.encode (Wire.packed 1 (m.map Wire.zigzag))
/-- `Message::decode`, `secret_key.rs` line 155. -/
def decodeMsg (bytes : List Nat) : Option (List Int) := Wire.decode mergeMsg [] Wire.maxDepth bytes

/-- `from_bytes`, `secret_key.rs` lines 154-174, after the decoding of the message. -/
def fromMsg (m : List Int) (par : Par) : Res SecretKey :=
  if m.length ≠ par.degree then Res.err (.invalidSecretKeyCount m.length par.degree) else Res.ok { par, coeffs := m }

/-- `to_bytes`, `secret_key.rs` lines 146-148. -/
def toBytes (sk : SecretKey) : List Nat := encodeMsg sk.toMsg

/-- `from_bytes`, `secret_key.rs` lines 154-174. -/
def fromBytes (bytes : List Nat) (par : Par) : Res SecretKey :=
  match decodeMsg bytes with
  | none => Res.err .decode
  | some m => fromMsg m par

end SecretKey

/-! ## Public keys -/

/-- `struct PublicKey`, `public_key.rs` lines 19-22. -/
structure PublicKey where
  par : Par
  c : Ciphertext
deriving DecidableEq, Repr

namespace PublicKey

/-- `new`, `public_key.rs` lines 26-37. -/
def new (g : Prg) (sk : SecretKey) (seed : Seed) (rng : Nat → Nat) : Panics PublicKey := do
  let zero ← (Plaintext.zero ⟨.poly, 0⟩ sk.par).unwrap
  let c ← (sk.tryEncrypt g zero seed rng).unwrap
  return { par := sk.par, c := { c with c := c.c.map Poly.disallowVt } }

/-- `try_encrypt`, `public_key.rs` lines 47-97; the three streams are those of `u`, `e1` and `e2`. -/
def tryEncrypt (pk : PublicKey) (pt : Plaintext) (rngU rng1 rng2 : Nat → Nat) : Res Ciphertext := do
  pt.validateFor pk.par
  pk.c.validateFor pk.par
  let level ← lift pt.level
  if level < pk.c.level then Res.err (.invalidLevel level pk.c.level (← lift pk.par.maxLevel))
  else do
    let ct ← pk.c.switchLoop (level - pk.c.level)
    let ctx ← pk.par.contextAtLevel ct.level
    let u ← math (Poly.smallNtt ctx pk.par.variance rngU)
    let e1 ← math (Poly.smallNtt ctx pk.par.variance rng1)
    let e2 ← math (Poly.smallNtt ctx pk.par.variance rng2)
    let m ← lift pt.toPoly
    let c0 ← lift (u.mulAssign (← lift ct.c[0]?))
    let c0 ← lift (c0.addAssign e1)
    let c0 ← lift (c0.addAssign m)
    let c1 ← lift (u.mulAssign (← lift ct.c[1]?))
    let c1 ← lift (c1.addAssign e2)
    return { par := pk.par, seed := none, c := [c0.allowVt, c1.allowVt], level := ct.level }

/-- `From<&PublicKey> for PublicKeyProto`, `public_key.rs` lines 100-106. -/
def toMsg (pk : PublicKey) : Panics (Option CiphertextMsg) := do return some (← pk.c.toMsg)

/-- `from_bytes`, `public_key.rs` lines 117-149, after the decoding of the message. -/
def fromMsg (g : Prg) (m : Option CiphertextMsg) (par : Par) : Res PublicKey :=
  match m with
  | none => Res.err .missingField
  | some m => do
    let c ← Ciphertext.fromMsg g m par
    if c.level ≠ 0 then Res.err (.invalidPublicKeyLevel c.level 0)
    else Res.ok { par, c := { c with c := c.c.map Poly.disallowVt } }

/-- The fields of the message `PublicKey`, `proto/bfv.proto` lines 50-52. -/
def toFields (m : Option CiphertextMsg) : List Wire.Field := m.toList.map fun m => (1, .len m.encode)

/-- A field that is read, `proto/bfv.proto` lines 50-52: a message that occurs again is merged with the previous one. -/
def mergeMsg (m : Option CiphertextMsg) : Wire.Field → Option (Option CiphertextMsg)
  | (1, .len p) => do return some (← Wire.decode CiphertextMsg.merge (m.getD .empty) (Wire.maxDepth - 1) p)
  | (t, _) => if t ≤ 1 then none else some m

/-- `to_bytes`, `public_key.rs` lines 109-111. -/
def toBytes (pk : PublicKey) : Panics (List Nat) := do return Wire.encode (toFields (← pk.toMsg))

/-- `from_bytes`, `public_key.rs` lines 117-149. -/
def fromBytes (g : Prg) (bytes : List Nat) (par : Par) : Res PublicKey :=
  match Wire.decode mergeMsg none Wire.maxDepth bytes with
  | none => Res.err .decode
  | some m => fromMsg g m par

end PublicKey

/-! ## Linear operations (`ops/mod.rs`) -/

namespace Ciphertext

/-- `Neg` for `&Ciphertext` and `Ciphertext`, `ops/mod.rs` lines 205-227. -/
def neg (a : Ciphertext) : Panics Ciphertext := do return { a with seed := none, c := ← a.c.mapM Poly.neg }

/-- `Add` and `AddAssign` of ciphertexts, `ops/mod.rs` lines 15-69; the same results. -/
def add (a b : Ciphertext) : Panics Ciphertext := do
  check (a.par.ptrEq b.par)
  if a.c = [] then return b
  else if b.c = [] then return a
  else do
    check (a.level = b.level)
    check (a.c.length = b.c.length)
    return { a with seed := none, c := ← (a.c.zip b.c).mapM fun x => x.1.addAssign x.2 }

/-- `Sub` and `SubAssign` of ciphertexts, `ops/mod.rs` lines 110-164; the same results. -/
def sub (a b : Ciphertext) : Panics Ciphertext := do
  check (a.par.ptrEq b.par)
  if a.c = [] then b.neg
  else if b.c = [] then return a
  else do
    check (a.level = b.level)
    check (a.c.length = b.c.length)
    return { a with seed := none, c := ← (a.c.zip b.c).mapM fun x => x.1.subAssign x.2 }

/-- `AddAssign<&Plaintext>` and the four `Add` with a plaintext, `ops/mod.rs` lines 71-108. -/
def addPlain (a : Ciphertext) (pt : Plaintext) : Panics Ciphertext := do
  check (a.par.ptrEq pt.par)
  match a.c with
  | [] => none
  | c0 :: rest => do
    check (a.level = (← pt.level))
    let poly ← pt.toPoly
    return { a with seed := none, c := (← c0.addAssign poly) :: rest }

/-- `SubAssign<&Plaintext>` and `Sub` of a plaintext, `ops/mod.rs` lines 166-174, 184-194 and 196-203. -/
def subPlain (a : Ciphertext) (pt : Plaintext) : Panics Ciphertext := do
  check (a.par.ptrEq pt.par)
  match a.c with
  | [] => none
  | c0 :: rest => do
    check (a.level = (← pt.level))
    let poly ← pt.toPoly
    return { a with seed := none, c := (← c0.subAssign poly) :: rest }

/-- `Sub<&Ciphertext> for &Plaintext`, `ops/mod.rs` lines 176-182. -/
def plainSub (pt : Plaintext) (a : Ciphertext) : Panics Ciphertext := do (← a.subPlain pt).neg

/-- `MulAssign<&Plaintext>` and `Mul` with a plaintext, `ops/mod.rs` lines 229-257. -/
def mulPlain (a : Ciphertext) (pt : Plaintext) : Panics Ciphertext := do
  check (a.par.ptrEq pt.par)
  if a.c = [] then return { a with seed := none }
  else do
    check (a.level = (← pt.level))
    return { a with seed := none, c := ← a.c.mapM fun ci => ci.mulAssign pt.polyNtt }

end Ciphertext
end Fhe
