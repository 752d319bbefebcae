import Verif.Model.BfvCipher
/-!
# Key-switching, relinearization and Galois keys

Models `/repo/crates/fhe/src/bfv/keys/key_switching_key.rs`, `relinearization_key.rs` and `galois_key.rs` of the same directory.
`zeroize` of temporaries is not modelled.

A function that takes a generator gets the seed it draws first, and the streams `rngs i` from which its `i`-th small polynomial is
drawn.
-/
namespace Fhe

/-! ## Key-switching keys -/

/-- `struct KeySwitchingKey`, `key_switching_key.rs` lines 22-45. -/
structure KeySwitchingKey where
  par : Par
  seed : Option Seed
  c0 : List (Poly .nttShoup)
  c1 : List (Poly .nttShoup)
  ciphertextLevel : Nat
  ctxCiphertext : Context
  kskLevel : Nat
  ctxKsk : Context
  logBase : Nat
deriving DecidableEq, Repr

/-- `modulus.next_power_of_two().ilog2()` on `u64`, `key_switching_key.rs` lines 93, 330-336 and 404-405: panics when the power is out of
range. -/
def logModulus (q : Nat) : Panics Nat := do
  check (q ≤ 2 ^ 63)
  return RnsScaler.ceilLog2 q

/-- `a.div_ceil(b)`; a zero divisor panics.  Used in `/repo/crates/fhe/src/bfv/keys/key_switching_key.rs` line 97. -/
def divCeil (a b : Nat) : Panics Nat := do
  check (b ≠ 0)
  return (a + b - 1) / b

namespace KeySwitchingKey

/-- `PartialEq for KeySwitchingKey` (derived), `key_switching_key.rs` line 21: the timing flags of the polynomials and the address of the
parameters are ignored. -/
def beq (a b : KeySwitchingKey) : Bool :=
  decide (a.par.toBfvParameters = b.par.toBfvParameters) && decide (a.seed = b.seed) && decide (a.c0.length = b.c0.length) &&
    (a.c0.zip b.c0).all (fun x => x.1.beq x.2) && decide (a.c1.length = b.c1.length) && (a.c1.zip b.c1).all (fun x => x.1.beq x.2) &&
    decide (a.ciphertextLevel = b.ciphertextLevel) && decide (a.ctxCiphertext = b.ctxCiphertext) && decide (a.kskLevel = b.kskLevel) &&
    decide (a.ctxKsk = b.ctxKsk) && decide (a.logBase = b.logBase)

/-- `permits_variable_time_with`, `key_switching_key.rs` lines 48-55. -/
def permitsVt (k : KeySwitchingKey) (p : Poly .powerBasis) : Bool := p.vt && (k.c0 ++ k.c1).all (·.vt)

/-- `configure_accumulators`, `key_switching_key.rs` lines 57-67, for one accumulator. -/
def configure (k : KeySwitchingKey) (p : Poly .powerBasis) (c : Poly .ntt) : Poly .ntt := if k.permitsVt p then c.allowVt else c.disallowVt

/-- `generate_c1`, `key_switching_key.rs` lines 130-146. -/
def generateC1 (g : Prg) (ctx : Context) (seed : Seed) (size : Nat) : Panics (List (Poly .nttShoup)) :=
  (List.range size).mapM fun i => do return (← g.poly .nttShoup ctx (g.derive seed i)).allowVt

/-- The body of the loops of `generate_c0` and `generate_c0_decomposition`, `key_switching_key.rs` lines 172-190 and 215-234: `gi` is the
multiplier of `from`. -/
def component (sk : SecretKey) (s : Poly .ntt) (source : Poly .powerBasis) (c1i : Poly .nttShoup) (gi : Nat) (rng : Nat → Nat) : Res (Poly .nttShoup) := do
  let as ← lift c1i.shoupToNtt
  let as ← lift (as.disallowVt.mulAssign s)
  let as ← lift as.nttToPowerBasis
  let b ← math (Poly.smallPowerBasis as.ctx sk.par.variance rng)
  let b ← lift (b.subAssign as)
  let b ← lift (b.addAssign (← lift (source.mulScalar gi)))
  lift b.allowVt.intoNttShoup

/-- `generate_c0`, `key_switching_key.rs` lines 149-194. -/
def generateC0 (b : Build) (sk : SecretKey) (source : Poly .powerBasis) (c1 : List (Poly .nttShoup)) (rngs : Nat → Nat → Nat) : Res (List (Poly .nttShoup)) :=
  match c1 with
  | [] => Res.err .emptyKeySwitchingComponents
  | first :: _ => do
    let s ← sk.polyAt first.ctx
    let rns ← math (RnsContext.new b.cfg (← lift (prefixOf sk.par.moduli c1.length)))
    c1.zipIdx.mapM fun x => do component sk s source x.1 (← lift (rns.getGarner x.2)) (rngs x.2)

/-- `1u64 << n`: panics when the shift is out of range.  Used in `/repo/crates/fhe/src/bfv/keys/key_switching_key.rs` lines 226 and 341. -/
def pow64 (n : Nat) : Panics Nat := do
  check (n < 64)
  return 2 ^ n

/-- `generate_c0_decomposition`, `key_switching_key.rs` lines 197-238. -/
def generateC0Decomposition (sk : SecretKey) (source : Poly .powerBasis) (c1 : List (Poly .nttShoup)) (rngs : Nat → Nat → Nat) (logBase : Nat) : Res (List (Poly .nttShoup)) :=
  match c1 with
  | [] => Res.err .emptyKeySwitchingComponents
  | first :: _ => do
    let s ← sk.polyAt first.ctx
    c1.zipIdx.mapM fun x => do component sk s source x.1 (← lift (pow64 (x.2 * logBase))) (rngs x.2)

/-- `new`, `key_switching_key.rs` lines 71-127. -/
def new (b : Build) (g : Prg) (sk : SecretKey) (source : Poly .powerBasis) (ciphertextLevel kskLevel : Nat) (seed : Seed) (rngs : Nat → Nat → Nat) : Res KeySwitchingKey := do
  let par := sk.par
  let ctxKsk ← par.contextAtLevel kskLevel
  let ctxCiphertext ← par.contextAtLevel ciphertextLevel
  if source.ctx ≠ ctxKsk then Res.err (.parameterMismatch .polynomial .keySwitchingKey)
  else if ctxKsk.moduli.length = 1 then do
    let log ← lift (logModulus (← lift ctxKsk.moduli.head?))
    let logBase := log / 2
    let c1 ← lift (generateC1 g ctxKsk seed (← lift (divCeil log logBase)))
    let c0 ← generateC0Decomposition sk source c1 rngs logBase
    return { par, seed := some seed, c0, c1, ciphertextLevel, ctxCiphertext, kskLevel, ctxKsk, logBase }
  else do
    let c1 ← lift (generateC1 g ctxKsk seed ctxCiphertext.moduli.length)
    let c0 ← generateC0 b sk source c1 rngs
    return { par, seed := some seed, c0, c1, ciphertextLevel, ctxCiphertext, kskLevel, ctxKsk, logBase := 0 }

/-- The loops of `key_switching_key.rs` lines 255-268, 305-318 and 349-360: the digits, the two halves of the key, the accumulators. -/
def accumulate (ctx : Context) : List (List Nat) → (c0 c1 : List (Poly .nttShoup)) → (a0 a1 : Poly .ntt) → Panics (Poly .ntt × Poly .ntt)
  | d :: ds, c0i :: c0, c1i :: c1, a0, a1 => do
    let c2i ← Poly.constantNttLazyVt d ctx
    let a0 ← a0.addAssign (← c2i.mulAssignShoup c0i)
    let a1 ← a1.addAssign (← c2i.mulAssignShoup c1i)
    accumulate ctx ds c0 c1 a0 a1
  | _, _, _, a0, a1 => some (a0, a1)

/-- The loop of `key_switching_key.rs` lines 341-344. -/
def digits (logBase : Nat) : Nat → List Nat → List (List Nat)
  | 0, _ => []
  | n + 1, v => v.map (· &&& (2 ^ logBase - 1)) :: digits logBase n (v.map (· >>> logBase))

/-- `key_switch_decomposition`, `key_switching_key.rs` lines 323-362. -/
def keySwitchDecomposition (k : KeySwitchingKey) (p : Poly .powerBasis) : Res (Poly .ntt × Poly .ntt) :=
  if p.ctx ≠ k.ctxCiphertext then Res.err (.parameterMismatch .polynomial .keySwitchingKey)
  else do
    let log ← lift (logModulus (← lift p.ctx.moduli.head?))
    let _ ← lift (pow64 k.logBase)
    let count ← lift (divCeil log k.logBase)
    let z := k.configure p (Poly.zero .ntt k.ctxKsk)
    lift (accumulate k.ctxKsk (digits k.logBase count p.coeffs.flatten) k.c0 k.c1 z z)

/-- `key_switch`, `key_switching_key.rs` lines 241-270. -/
def keySwitch (k : KeySwitchingKey) (p : Poly .powerBasis) : Res (Poly .ntt × Poly .ntt) :=
  if k.logBase ≠ 0 then k.keySwitchDecomposition p
  else if p.ctx ≠ k.ctxCiphertext then Res.err (.parameterMismatch .polynomial .keySwitchingKey)
  else
    let z := k.configure p (Poly.zero .ntt k.ctxKsk)
    lift (accumulate k.ctxKsk p.coeffs k.c0 k.c1 z z)

/-- An accumulator at the start of `key_switch_assign`, `key_switching_key.rs` lines 292-302. -/
def resetFor (k : KeySwitchingKey) (c : Poly .ntt) : Poly .ntt :=
  if c.ctx ≠ k.ctxKsk then Poly.zero .ntt k.ctxKsk else { c with coeffs := c.coeffs.map fun row => row.map fun _ => 0 }

/-- `key_switch_assign`, `key_switching_key.rs` lines 273-320. -/
def keySwitchAssign (k : KeySwitchingKey) (p : Poly .powerBasis) (c0 c1 : Poly .ntt) : Res (Poly .ntt × Poly .ntt) :=
  if k.logBase ≠ 0 then k.keySwitchDecomposition p
  else if p.ctx ≠ k.ctxCiphertext then Res.err (.parameterMismatch .polynomial .keySwitchingKey)
  else lift (accumulate k.ctxKsk p.coeffs k.c0 k.c1 (k.configure p (k.resetFor c0)) (k.configure p (k.resetFor c1)))

end KeySwitchingKey

/-- The message `KeySwitchingKey`, `/repo/crates/fhe/src/proto/bfv.proto` lines 16-23. -/
structure KeySwitchingKeyMsg where
  c0 : List (List Nat)
  c1 : List (List Nat)
  seed : List Nat
  ciphertextLevel : Nat
  kskLevel : Nat
  logBase : Nat
deriving DecidableEq, Repr

namespace KeySwitchingKeyMsg

/-- The fields of the message, `proto/bfv.proto` lines 16-23. -/
def toFields (m : KeySwitchingKeyMsg) : List Wire.Field :=
  Wire.repeatedBytes 1 m.c0 ++ Wire.repeatedBytes 2 m.c1 ++ Wire.bytesField 3 m.seed ++ Wire.scalar 4 m.ciphertextLevel ++ Wire.scalar 5 m.kskLevel ++ Wire.scalar 6 m.logBase

/-- A field that is read, `proto/bfv.proto` lines 16-23. -/
def merge (m : KeySwitchingKeyMsg) : Wire.Field → Option KeySwitchingKeyMsg
  | (1, .len p) => some { m with c0 := m.c0 ++ [p] }
  | (2, .len p) => some { m with c1 := m.c1 ++ [p] }
  | (3, .len p) => some { m with seed := p }
  | (4, .varint n) => some { m with ciphertextLevel := Wire.asU32 n }
  | (5, .varint n) => some { m with kskLevel := Wire.asU32 n }
  | (6, .varint n) => some { m with logBase := Wire.asU32 n }
  | (t, _) => if t ≤ 6 then none else some m

/-- The bytes of the message, nested in those of a key.  The message is `/repo/crates/fhe/src/proto/bfv.proto` lines 16-23. -/
def encode (m : KeySwitchingKeyMsg) : List Nat := Wire.encode m.toFields
/-- The message without fields.  `/repo/crates/fhe/src/proto/bfv.proto` lines 16-23. -/
def empty : KeySwitchingKeyMsg := ⟨[], [], [], 0, 0, 0⟩

/-- A field of another message that holds this one, `proto/bfv.proto` lines 12, 13, 26 and 30: a message that occurs again is merged with
the previous one. -/
def mergeInto (depth : Nat) (m : Option KeySwitchingKeyMsg) (payload : List Nat) : Option KeySwitchingKeyMsg :=
  Wire.decode merge (m.getD empty) depth payload

end KeySwitchingKeyMsg

namespace KeySwitchingKey

/-- `From<&KeySwitchingKey> for KeySwitchingKeyProto`, `key_switching_key.rs` lines 366-384; `as u32` truncates. -/
def toMsg (k : KeySwitchingKey) : Panics KeySwitchingKeyMsg := do
  let c1 ← match k.seed with
    | some _ => some []
    | none => k.c1.mapM Poly.toBytes
  return { c0 := ← k.c0.mapM Poly.toBytes, c1, seed := k.seed.getD [], ciphertextLevel := k.ciphertextLevel % 2 ^ 32, kskLevel := k.kskLevel % 2 ^ 32, logBase := k.logBase % 2 ^ 32 }

/-- The expected number of components, `key_switching_key.rs` lines 394-411. -/
def expectedCount (m : KeySwitchingKeyMsg) (par : Par) (ctxCiphertext : Context) : Res Nat :=
  if m.logBase ≠ 0 then do
    let max ← lift par.maxLevel
    if m.kskLevel ≠ max ∨ m.ciphertextLevel ≠ max then Res.err (.invalidDecompositionLevels m.ciphertextLevel m.kskLevel max)
    else do lift (divCeil (← lift (logModulus (← lift par.moduli.head?))) m.logBase)
  else Res.ok ctxCiphertext.moduli.length

/-- `try_convert_from`, `key_switching_key.rs` lines 388-481. -/
def fromMsg (g : Prg) (m : KeySwitchingKeyMsg) (par : Par) : Res KeySwitchingKey := do
  let ctxKsk ← par.contextAtLevel m.kskLevel
  let ctxCiphertext ← par.contextAtLevel m.ciphertextLevel
  let size ← expectedCount m par ctxCiphertext
  if m.c0.length ≠ size then Res.err (.wrongPolynomialCount false size m.c0.length)
  else if m.seed = [] ∧ m.c1.length ≠ size then Res.err (.wrongPolynomialCount true size m.c1.length)
  else if m.seed ≠ [] ∧ m.seed.length ≠ 32 then Res.err (.invalidSeedLength m.seed.length 32)
  else do
    let c1 ← if m.seed ≠ [] then lift (generateC1 g ctxKsk m.seed m.c0.length) else m.c1.mapM fun x => math (Poly.fromBytes .nttShoup x ctxKsk)
    let c0 ← m.c0.mapM fun x => math (Poly.fromBytes .nttShoup x ctxKsk)
    return { par, seed := if m.seed = [] then none else some m.seed, c0 := c0.map Poly.allowVt, c1 := c1.map Poly.allowVt, ciphertextLevel := m.ciphertextLevel, ctxCiphertext,
             kskLevel := m.kskLevel, ctxKsk, logBase := m.logBase }

end KeySwitchingKey

/-- `c0.into_power_basis()`, `switch_down_to`, `into_ntt`: `relinearization_key.rs` lines 89-94, `galois_key.rs` lines 68-75 and 105-111. -/
def Poly.switchDownNtt (p : Poly .ntt) (target : Context) : Res (Poly .ntt) := do
  let pb ← lift p.nttToPowerBasis
  lift (← math (pb.switchDownTo target)).intoNtt

/-- Both halves, if the context of the first differs from that of the ciphertext: `relinearization_key.rs` lines 87-94, `galois_key.rs` lines
66-75 and 103-111. -/
def switchPair (a : Poly .ntt × Poly .ntt) (x0 x1 : Poly .ntt) : Res (Poly .ntt × Poly .ntt) :=
  if a.1.ctx ≠ x0.ctx then do return (← a.1.switchDownNtt x0.ctx, ← a.2.switchDownNtt x1.ctx) else Res.ok a

/-! ## Relinearization keys -/

/-- `struct RelinearizationKey`, `relinearization_key.rs` lines 23-25. -/
structure RelinearizationKey where
  ksk : KeySwitchingKey
deriving DecidableEq, Repr

namespace RelinearizationKey

/-- `new_leveled` and `new_leveled_internal`, `relinearization_key.rs` lines 34-65; `new`, lines 29-31, is the case of the levels 0 and 0. -/
def newLeveled (b : Build) (g : Prg) (sk : SecretKey) (ciphertextLevel keyLevel : Nat) (seed : Seed) (rngs : Nat → Nat → Nat) : Res RelinearizationKey := do
  let ctxKey ← sk.par.contextAtLevel keyLevel
  let ctxCiphertext ← sk.par.contextAtLevel ciphertextLevel
  if ctxKey.moduli.length = 1 then Res.err .keySwitchingNotSupported
  else do
    let s ← sk.polyAt ctxCiphertext
    let s2 ← lift (← lift (s.mulAssign s)).nttToPowerBasis
    let up ← math (switcherNew ctxCiphertext ctxKey)
    let s2 ← math (up.scale s2)
    return { ksk := ← KeySwitchingKey.new b g sk s2 ciphertextLevel keyLevel seed rngs }

/-- `relinearizes`, `relinearization_key.rs` lines 69-102; `relinearizes_poly`, lines 105-110, is `key_switch`.  The seed of the ciphertext is
kept. -/
def relinearizes (k : RelinearizationKey) (ct : Ciphertext) : Res Ciphertext := do
  ct.validateFor k.ksk.par
  match ct.c with
  | [x0, x1, x2] =>
    if ct.level ≠ k.ksk.ciphertextLevel then Res.err (.invalidLevel ct.level k.ksk.ciphertextLevel k.ksk.ciphertextLevel)
    else do
      let a ← k.ksk.keySwitch (← lift x2.nttToPowerBasis)
      let a ← switchPair a x0 x1
      return { ct with c := [← lift (x0.addAssign a.1), ← lift (x1.addAssign a.2)] }
  | _ => Res.err (.invalidPolynomialCount .relinearization ct.c.length 3)

/-- `From<&RelinearizationKey>`, `relinearization_key.rs` lines 114-118. -/
def toMsg (k : RelinearizationKey) : Panics (Option KeySwitchingKeyMsg) := do return some (← k.ksk.toMsg)

/-- `try_convert_from`, `relinearization_key.rs` lines 122-134, and `from_bytes`, lines 150-157, after the decoding of the message. -/
def fromMsg (g : Prg) (m : Option KeySwitchingKeyMsg) (par : Par) : Res RelinearizationKey :=
  match m with
  | none => Res.err .missingField
  | some m => do return { ksk := ← KeySwitchingKey.fromMsg g m par }

/-- The fields of the message `RelinearizationKey`, `proto/bfv.proto` lines 25-27. -/
def toFields (m : Option KeySwitchingKeyMsg) : List Wire.Field := m.toList.map fun m => (1, .len m.encode)

/-- A field that is read, `proto/bfv.proto` lines 25-27. -/
def mergeMsg (m : Option KeySwitchingKeyMsg) : Wire.Field → Option (Option KeySwitchingKeyMsg)
  | (1, .len p) => do return some (← KeySwitchingKeyMsg.mergeInto (Wire.maxDepth - 1) m p)
  | (t, _) => if t ≤ 1 then none else some m

/-- `to_bytes`, `relinearization_key.rs` lines 138-140. -/
def toBytes (k : RelinearizationKey) : Panics (List Nat) := do return Wire.encode (toFields (← k.toMsg))

/-- `from_bytes`, `relinearization_key.rs` lines 150-157. -/
def fromBytes (g : Prg) (bytes : List Nat) (par : Par) : Res RelinearizationKey :=
  match Wire.decode mergeMsg none Wire.maxDepth bytes with
  | none => Res.err .decode
  | some m => fromMsg g m par

end RelinearizationKey

/-! ## Galois keys -/

/-- `struct GaloisKey`, `galois_key.rs` lines 19-22. -/
structure GaloisKey where
  element : SubstExponent
  ksk : KeySwitchingKey
deriving DecidableEq, Repr

namespace GaloisKey

/-- `new`, `galois_key.rs` lines 26-59. -/
def new (b : Build) (g : Prg) (sk : SecretKey) (exponent ciphertextLevel keyLevel : Nat) (seed : Seed) (rngs : Nat → Nat → Nat) : Res GaloisKey := do
  let ctxKey ← sk.par.contextAtLevel keyLevel
  let ctxCiphertext ← sk.par.contextAtLevel ciphertextLevel
  let element ← math (SubstExponent.new ctxCiphertext exponent)
  let up ← math (switcherNew ctxCiphertext ctxKey)
  let s ← math (Poly.tryFromI64 sk.coeffs ctxCiphertext false)
  let s ← lift (s.substitute element)
  let s ← math (up.scale s)
  return { element, ksk := ← KeySwitchingKey.new b g sk s ciphertextLevel keyLevel seed rngs }

/-- `validate_ciphertext`, `galois_key.rs` lines 117-135; returns the two parts. -/
def validateCiphertext (k : GaloisKey) (ct : Ciphertext) : Res (Poly .ntt × Poly .ntt) := do
  ct.validateFor k.ksk.par
  match ct.c with
  | [x0, x1] =>
    if ct.level ≠ k.ksk.ciphertextLevel then Res.err (.invalidLevel ct.level k.ksk.ciphertextLevel k.ksk.ciphertextLevel)
    else Res.ok (x0, x1)
  | _ => Res.err (.invalidPolynomialCount .galois ct.c.length 2)

/-- `relinearize`, `galois_key.rs` lines 62-86. -/
def relinearize (k : GaloisKey) (ct : Ciphertext) : Res Ciphertext := do
  let x ← k.validateCiphertext ct
  let c2 ← lift (← lift (x.2.substitute k.element)).nttToPowerBasis
  let a ← k.ksk.keySwitch c2
  let a ← switchPair a x.1 x.2
  let c0 ← lift (a.1.addAssign (← lift (x.1.substitute k.element)))
  return { par := ct.par, seed := none, c := [c0, a.2], level := k.ksk.ciphertextLevel }

/-- The two accumulators, `galois_key.rs` lines 92-97 and 102-108: those of `out` when they fit, set to zero. -/
def outParts (out : List (Poly .ntt)) (x : Poly .ntt × Poly .ntt) : Poly .ntt × Poly .ntt :=
  let clear (p : Poly .ntt) : Poly .ntt := { p with coeffs := p.coeffs.map fun row => row.map fun _ => 0 }
  match out with
  | [o0, o1] => if o0.ctx ≠ x.1.ctx ∨ o1.ctx ≠ x.2.ctx then (Poly.zero .ntt x.1.ctx, Poly.zero .ntt x.2.ctx) else (clear o0, clear o1)
  | _ => (Poly.zero .ntt x.1.ctx, Poly.zero .ntt x.2.ctx)

/-- `relinearize_into`, `galois_key.rs` lines 89-115.  Returns the new value of `out`; what `out` holds after an error is not
modelled. -/
def relinearizeInto (k : GaloisKey) (ct out : Ciphertext) : Res Ciphertext := do
  let x ← k.validateCiphertext ct
  let o := outParts out.c x
  let c2 ← lift (← lift (x.2.substitute k.element)).nttToPowerBasis
  let a ← k.ksk.keySwitchAssign c2 o.1 o.2
  let a ← switchPair a x.1 x.2
  let c0 ← lift (a.1.addAssign (← lift (x.1.substitute k.element)))
  return { par := ct.par, seed := none, c := [c0, a.2], level := k.ksk.ciphertextLevel }

/-- `From<&GaloisKey>`, `galois_key.rs` lines 139-144. -/
def toMsg (k : GaloisKey) : Panics (Nat × Option KeySwitchingKeyMsg) := do return (k.element.exponent % 2 ^ 32, some (← k.ksk.toMsg))

/-- The fields of the message `GaloisKey`, `proto/bfv.proto` lines 29-32. -/
def toFields (m : Nat × Option KeySwitchingKeyMsg) : List Wire.Field := (m.2.toList.map fun m => (1, .len m.encode)) ++ Wire.scalar 2 m.1

/-- A field that is read, `proto/bfv.proto` lines 29-32. -/
def mergeMsg (depth : Nat) (m : Nat × Option KeySwitchingKeyMsg) : Wire.Field → Option (Nat × Option KeySwitchingKeyMsg)
  | (1, .len p) => do return (m.1, some (← KeySwitchingKeyMsg.mergeInto depth m.2 p))
  | (2, .varint n) => some (Wire.asU32 n, m.2)
  | (t, _) => if t ≤ 2 then none else some m

/-- `try_convert_from`, `galois_key.rs` lines 148-165. -/
def fromMsg (g : Prg) (m : Nat × Option KeySwitchingKeyMsg) (par : Par) : Res GaloisKey :=
  match m.2 with
  | none => Res.err .missingField
  | some ksk => do
    let ksk ← KeySwitchingKey.fromMsg g ksk par
    let ctx ← par.contextAtLevel ksk.ciphertextLevel
    let element ← math (SubstExponent.new ctx m.1)
    return { element, ksk }

end GaloisKey
end Fhe
