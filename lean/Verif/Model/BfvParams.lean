import Verif.Model.Result
import Mathlib.Data.Nat.Digits.Defs
import Mathlib.Logic.Function.Basic
/-!
# BFV parameters

Models `/repo/crates/fhe/src/bfv/parameters.rs` (line numbers below are of that file unless another one is named) and
`/repo/crates/fhe/src/bfv/context/*.rs`.
-/
namespace Fhe

/-! ## The plaintext modulus -/

/-- `struct PlaintextModulus`, lines 29-32. -/
structure PlaintextModulus where
  value : Nat
  small : Option Modulus
deriving DecidableEq, Repr

namespace PlaintextModulus

/-- `try_new`, lines 35-48. -/
def tryNew (cfg : Bool) (value : Nat) : Res PlaintextModulus :=
  if value < 2 ^ 64 then do
    match ← lift (Modulus.new cfg value) with
    | .error _ => Res.err (.invalidPlaintextModulus value)
    | .ok m => return { value, small := some m }
  else return { value, small := none }

/-- `reduce_vec`, lines 62-64 (`%` panics for the modulus zero). -/
def reduceVec (t : PlaintextModulus) (v : List Nat) : Panics (List Nat) := do
  check (t.value ≠ 0 ∨ v = [])
  return v.map (· % t.value)

/-- `scalar_mul_vec`, lines 66-69. -/
def scalarMulVec (t : PlaintextModulus) (a : List Nat) (b : Nat) : Panics (List Nat) := do
  check (t.value ≠ 0 ∨ a = [])
  return a.map fun x => x * b % t.value

/-- `ntt_operator`, lines 71-75. -/
def nttOperator (b : Build) (t : PlaintextModulus) (degree : Nat) : Panics (Option NttOperator) :=
  match t.small with
  | none => some none
  | some m => NttOperator.new b.dbg (b.rng m.p) m degree

/-- `upper_half_threshold`, lines 77-79. -/
def upperHalfThreshold (t : PlaintextModulus) : Nat := (t.value + 1) >>> 1

end PlaintextModulus

/-! ## Precomputed data -/

/-- `struct CipherPlainContext`, `context/cipher_plain_context.rs` lines 9-28. -/
structure CipherPlainContext where
  delta : Poly .nttShoup
  qModT : Nat
  plainThreshold : Nat
  scaler : Scaler
  plaintextCtx : Context
  ciphertextCtx : Context
deriving DecidableEq, Repr

/-- `struct MultiplicationParameters`, lines 792-798. -/
structure MulParams where
  extender : Scaler
  downScaler : Scaler
  src : Context
  dst : Context
deriving DecidableEq, Repr

/-- `MultiplicationParameters::new`, lines 801-813. -/
def MulParams.new (src dst : Context) (up down : ScalingFactor) : Res MulParams := do
  let extender ← math (Scaler.new src dst up)
  let downScaler ← math (Scaler.new dst src down)
  return { extender, downScaler, src, dst }

/-- `struct ContextLevel`, `context/level.rs` lines 9-19. -/
structure ContextLevel where
  ctx : Context
  cp : CipherPlainContext
  level : Nat
  mul : MulParams
deriving DecidableEq, Repr

/-- `can_switch_down`, `context/level.rs` lines 44-46. -/
def ContextLevel.canSwitchDown (l : ContextLevel) : Bool := decide (l.ctx.moduli.length > 1)
/-- `max_level`, `context/level.rs` lines 50-52. -/
def ContextLevel.maxLevel (l : ContextLevel) : Panics Nat := do subU (← add64 l.level l.ctx.moduli.length) 1

/-- `struct BfvParameters`, lines 88-111. -/
structure BfvParameters where
  degree : Nat
  moduli : List Nat
  moduliSizes : List Nat
  variance : Nat
  levels : List ContextLevel
  nttOperator : Option NttOperator
  plaintext : PlaintextModulus
  indexMap : List Nat
deriving DecidableEq, Repr

namespace BfvParameters

/-- `max_level`, lines 161-163. -/
def maxLevel (par : BfvParameters) : Panics Nat := subU par.levels.length 1

/-- `context_level_at`, lines 202-210. -/
def contextLevelAt (par : BfvParameters) (level : Nat) : Res ContextLevel :=
  match par.levels[level]? with
  | some l => Res.ok l
  | none => do Res.err (.invalidLevel level 0 (← lift par.maxLevel))

/-- `context_at_level`, lines 166-175. -/
def contextAtLevel (par : BfvParameters) (level : Nat) : Res Context :=
  match par.levels[level]? with
  | some l => Res.ok l.ctx
  | none => do Res.err (.invalidLevel level 0 (← lift par.maxLevel))

/-- `level_of_context`, lines 178-193.  (The pointer comparison is a fast path of the equality of contexts.) -/
def levelOfContext (par : BfvParameters) (ctx : Context) : Res Nat :=
  if par.moduli.length < ctx.moduli.length then Res.err (.math .contextNotReachable)
  else
    match par.levels[par.moduli.length - ctx.moduli.length]? with
    | none => Res.err (.math .contextNotReachable)
    | some l => if l.ctx = ctx then Res.ok (par.moduli.length - ctx.moduli.length) else Res.err (.math .contextNotReachable)

end BfvParameters

/-! ## The builder -/

/-- `struct BfvParametersBuilder`, lines 319-325; the defaults are those of `new`, lines 339-347. -/
structure ParamsBuilder where
  degree : Nat := 0
  plaintext : Nat := 0
  variance : Nat := 10
  moduli : List Nat := []
  moduliSizes : List Nat := []
deriving DecidableEq, Repr

namespace ParamsBuilder

/-- `set_degree`, lines 351-354. -/
def setDegree (s : ParamsBuilder) (degree : Nat) : ParamsBuilder := { s with degree }
/-- `set_plaintext_modulus` and `set_plaintext_modulus_biguint`, lines 357-366. -/
def setPlaintext (s : ParamsBuilder) (plaintext : Nat) : ParamsBuilder := { s with plaintext }
/-- `set_moduli_sizes`, lines 371-374. -/
def setModuliSizes (s : ParamsBuilder) (moduliSizes : List Nat) : ParamsBuilder := { s with moduliSizes }
/-- `set_moduli`, lines 379-382. -/
def setModuli (s : ParamsBuilder) (moduli : List Nat) : ParamsBuilder := { s with moduli }
/-- `set_variance`, lines 385-388. -/
def setVariance (s : ParamsBuilder) (variance : Nat) : ParamsBuilder := { s with variance }

/-- The inner loop of `generate_moduli`, lines 408-426: the largest prime below `ub` that is not in `acc`.  The guard
`prime < ub` makes the recursion well-founded; `C09_generate_prime` shows that it always holds.  `needed` and `available` are
what lines 418-419 look up. -/
def freshPrime (size degree needed available : Nat) (acc : List Nat) (ub : Nat) : Res Nat := do
  match ← lift (generatePrime size (2 * degree) ub) with
  | none => Res.err (.notEnoughPrimes size degree needed available)
  | some prime =>
    if prime ∉ acc then return prime
    else if _h : prime < ub then freshPrime size degree needed available acc prime
    else Res.panic
termination_by ub

/-- `generate_moduli`, lines 391-431, from index `i` on.  `required` is `required_counts` and `generated` is `generated_counts`; a size without an
entry counts as zero. -/
def generateModuli (degree : Nat) (required : Nat → Nat) : (sizes : List Nat) → (i : Nat) → (acc : List Nat) → (generated : Nat → Nat) → Res (List Nat)
  | [], _, acc, _ => Res.ok acc
  | size :: sizes, i, acc, generated =>
    if size > 62 ∨ size < 10 then Res.err (.invalidModulusSize i size)
    else do
      let prime ← freshPrime size degree (required size) (generated size) acc (1 <<< size)
      generateModuli degree required sizes (i + 1) (acc ++ [prime]) (Function.update generated size (generated size + 1))

/-- `gcd`, lines 433-438. -/
def gcd (a b : Nat) : Nat := if _h : b ≠ 0 then gcd b (a % b) else a
termination_by b
decreasing_by exact Nat.mod_lt _ (Nat.pos_of_ne_zero _h)

/-- `validate_configuration`, lines 440-469. -/
def validateConfiguration (s : ParamsBuilder) : Res Unit :=
  if ¬ (8 ≤ s.degree ∧ s.degree ≤ 65536) ∨ ¬ s.degree.isPowerOfTwo then Res.err (.invalidDegree s.degree)
  else if ¬ (1 ≤ s.variance ∧ s.variance ≤ 32) then Res.err (.invalidParametersVariance s.variance)
  else if s.moduli ≠ [] ∧ s.moduliSizes ≠ [] then Res.err .conflictingModuli
  else if s.moduli = [] ∧ s.moduliSizes = [] then Res.err .missingModuli
  else Res.ok ()

/-- The first loop of `validate_moduli`, lines 472-492. -/
def validateEach (cfg : Bool) (moduli : List Nat) : (rest : List Nat) → (index : Nat) → Res Unit
  | [], _ => Res.ok ()
  | m :: ms, index => do
    match ← lift (Modulus.new cfg m) with
    | .error _ => Res.err (.invalidCiphertextModulus index m)
    | .ok _ =>
      if ((List.range moduli.length).filter fun i => moduli[i]? = some m).length > 1 then
        Res.err (.duplicateModuli m ((List.range moduli.length).filter fun i => moduli[i]? = some m))
      else validateEach cfg moduli ms (index + 1)

/-- The inner loop of the second loop of `validate_moduli`, lines 495-504. -/
def validateCoprimeWith (m : Nat) : List Nat → Res Unit
  | [] => Res.ok ()
  | m' :: ms => if gcd m m' ≠ 1 then Res.err (.moduliNotCoprime m m' (gcd m m')) else validateCoprimeWith m ms

/-- The second loop of `validate_moduli`, lines 494-505. -/
def validateCoprime : List Nat → Res Unit
  | [] => Res.ok ()
  | m :: ms => do
    validateCoprimeWith m ms
    validateCoprime ms

/-- The third loop of `validate_moduli`, lines 507-517. -/
def validateNttFriendly (degree : Nat) : (rest : List Nat) → (index : Nat) → Res Unit
  | [], _ => Res.ok ()
  | m :: ms, index =>
    if m % (2 * degree) ≠ 1 ∨ isPrime m = false then Res.err (.ciphertextModulusNotNttFriendly index m degree)
    else validateNttFriendly degree ms (index + 1)

/-- The last loop of `validate_moduli`, lines 532-549. -/
def validatePlaintextCoprime (plaintext : Nat) : (rest : List Nat) → (index : Nat) → Res Unit
  | [], _ => Res.ok ()
  | m :: ms, index =>
    if gcd (plaintext % m) m ≠ 1 then Res.err (.plaintextNotCoprime plaintext m index (gcd (plaintext % m) m))
    else validatePlaintextCoprime plaintext ms (index + 1)

/-- `validate_moduli`, lines 471-552. -/
def validateModuli (cfg : Bool) (degree : Nat) (moduli : List Nat) (plaintext : Nat) : Res Unit := do
  validateEach cfg moduli moduli 0
  validateCoprime moduli
  validateNttFriendly degree moduli 0
  if plaintext ≥ moduli.prod then Res.err (.plaintextExceedsCiphertext plaintext moduli.prod)
  else validatePlaintextCoprime plaintext moduli 0

/-- The loop of lines 584-590: how many moduli the plaintext context takes. -/
def plaintextCount (tBits : Nat) : (sizes : List Nat) → (accumulated count : Nat) → Nat
  | [], _, count => count
  | size :: sizes, accumulated, count =>
    if accumulated + size ≥ tBits + 60 then count + 1 else plaintextCount tBits sizes (accumulated + size) (count + 1)

/-- The loop of lines 608-621: the residues of `delta`. -/
def deltaRests (cfg : Bool) (t : Nat) : List Nat → Res (List Nat)
  | [] => Res.ok []
  | m :: ms => do
    match ← lift (Modulus.new cfg m) with
    | .error _ => Res.err (.math (.invalidModulus m))
    | .ok q => do
      let negT ← lift (q.neg (t % m))
      match ← lift (q.inv negT) with
      | none => Res.err (.math (.nonInvertible negT m))
      | some inv => do
        let rest ← deltaRests cfg t ms
        return inv :: rest

/-- The body of the loop of lines 604-655, for the first `k` moduli. -/
def bridge (b : Build) (t : PlaintextModulus) (degree : Nat) (plaintextCtx : Context) (moduli : List Nat) (k : Nat) :
    Res CipherPlainContext := do
  let levelModuli := moduli.take k
  let ciphertextCtx ← math (Context.new b levelModuli degree)
  let rests ← deltaRests b.cfg t.value levelModuli
  let rns ← math (RnsContext.new b.cfg levelModuli)
  let d ← lift (rns.lift rests)
  let delta ← math (Poly.tryFromBigUint [d] ciphertextCtx true)
  let delta ← lift delta.intoNttShoup
  let factor ← lift (ScalingFactor.new t.value rns.modulus)
  let scaler ← math (Scaler.new ciphertextCtx plaintextCtx factor)
  return { delta, qModT := rns.modulus % t.value, plainThreshold := t.upperHalfThreshold, scaler, plaintextCtx, ciphertextCtx }

/-- The loop of lines 661-676: `needed` primes of 62 bits outside `moduli`, with the guard of `freshPrime`. -/
def extendedBasis (degree needed : Nat) (moduli acc : List Nat) (ub : Nat) : Res (List Nat) :=
  if acc.length = needed then Res.ok acc
  else do
    match ← lift (generatePrime 62 (2 * degree) ub) with
    | none => Res.err (.notEnoughPrimes 62 degree needed acc.length)
    | some prime =>
      if _h : prime < ub then
        extendedBasis degree needed moduli (if prime ∉ acc ∧ prime ∉ moduli then acc ++ [prime] else acc) prime
      else Res.panic
termination_by ub

/-- The closure of lines 683-708. -/
def contextLevel (b : Build) (t degree : Nat) (moduli moduliSizes basis : List Nat) (cp : CipherPlainContext) (level : Nat) :
    Res ContextLevel := do
  let k ← lift (subU moduliSizes.length level)
  let modulusSize := (moduliSizes.take k).sum
  let n := (modulusSize + 60 + 61) / 62
  lift (check (n ≤ basis.length))
  let ctx ← math (Context.new b (moduli.take k ++ basis.take n) degree)
  let down ← lift (ScalingFactor.new t cp.ciphertextCtx.modulus)
  let mul ← MulParams.new cp.ciphertextCtx ctx ScalingFactor.one down
  return { ctx := cp.ciphertextCtx, cp, level, mul }

/-- Lines 680-709. -/
def contextLevels (b : Build) (t degree : Nat) (moduli moduliSizes basis : List Nat) :
    List CipherPlainContext → (level : Nat) → Res (List ContextLevel)
  | [], _ => Res.ok []
  | cp :: cps, level => do
    let l ← contextLevel b t degree moduli moduliSizes basis cp level
    let ls ← contextLevels b t degree moduli moduliSizes basis cps (level + 1)
    return l :: ls

/-- `v[i] = x`.  Used in `/repo/crates/fhe/src/bfv/parameters.rs` lines 721-722. -/
def setAt (v : List Nat) (i x : Nat) : Panics (List Nat) := do
  check (i < v.length)
  return v.set i x

/-- The loop of lines 718-726, `left` iterations from `i` on. -/
def indexMapLoop (degree rowSize m : Nat) : (left i pos : Nat) → List Nat → Panics (List Nat)
  | 0, _, _, map => some map
  | left + 1, i, pos, map => do
    let index1 := (← subU pos 1) >>> 1
    let index2 := (← subU (← subU m pos) 1) >>> 1
    let map ← setAt map i (revBits 64 index1 >>> (lz64 degree + 1))
    let map ← setAt map (rowSize ||| i) (revBits 64 index2 >>> (lz64 degree + 1))
    let pos ← mul64 pos 3
    indexMapLoop degree rowSize m left (i + 1) (pos &&& (m - 1)) map

/-- Lines 713-726. -/
def indexMap (degree : Nat) : Panics (List Nat) :=
  indexMapLoop degree (degree >>> 1) (degree <<< 1) (degree >>> 1) 0 1 (List.replicate degree 0)

/-- The number of moduli of the plaintext context, lines 581-592. -/
def plaintextModuliCount (t : Nat) (moduliSizes : List Nat) : Nat :=
  min (max (plaintextCount (bitLen t) moduliSizes 0 0) 1) moduliSizes.length

/-- `build`, lines 560-738, from line 573 on, where the moduli are known and valid. -/
def assemble (b : Build) (degree variance : Nat) (t : PlaintextModulus) (moduli : List Nat) : Res BfvParameters := do
  let moduliSizes := moduli.map fun m => 64 - lz64 m
  let plaintextCtx ← math (Context.new b (moduli.take (plaintextModuliCount t.value moduliSizes)) degree)
  let nttOperator ← lift (t.nttOperator b degree)
  let bridges ← (List.range moduli.length).mapM fun i => bridge b t degree plaintextCtx moduli (i + 1)
  let basis ← extendedBasis degree (moduli.length + 1) moduli [] (1 <<< 62)
  let levels ← contextLevels b t.value degree moduli moduliSizes basis bridges.reverse 0
  let indexMap ← lift (indexMap degree)
  return { degree, moduli, moduliSizes, variance, levels, nttOperator, plaintext := t, indexMap }

/-- Lines 566-570: the given moduli, or generated ones. -/
def chooseModuli (s : ParamsBuilder) : Res (List Nat) :=
  if s.moduliSizes ≠ [] then generateModuli s.degree (fun size => s.moduliSizes.count size) s.moduliSizes 0 [] (fun _ => 0) else Res.ok s.moduli

/-- `build`, lines 560-738. -/
def build (b : Build) (s : ParamsBuilder) : Res BfvParameters := do
  s.validateConfiguration
  let t ← PlaintextModulus.tryNew b.cfg s.plaintext
  let moduli ← s.chooseModuli
  validateModuli b.cfg s.degree moduli t.value
  assemble b s.degree s.variance t moduli

end ParamsBuilder

/-! ## Serialization -/

/-- The `oneof plaintext_modulus` of the message `Parameters`, `/repo/crates/fhe/src/proto/bfv.proto`.  Lines 43-46. -/
inductive PlaintextMsg where
  | word (value : Nat)
  | big (bytes : List Nat)
deriving DecidableEq, Repr

/-- The message `Parameters`, `/repo/crates/fhe/src/proto/bfv.proto`.  Lines 40-48. -/
structure ParamsMsg where
  degree : Nat
  moduli : List Nat
  plaintext : Option PlaintextMsg
  variance : Nat
deriving DecidableEq, Repr

namespace ParamsMsg

/-- The fields of the message, `/repo/crates/fhe/src/proto/bfv.proto` lines 40-48.  The modulus of the plaintexts is encoded even if it is zero. -/
def toFields (m : ParamsMsg) : List Wire.Field :=
  Wire.scalar 1 m.degree ++ Wire.packed 2 m.moduli ++
    (match m.plaintext with
      | none => []
      | some (.word value) => [(3, .varint value)]
      | some (.big bytes) => [(5, .len bytes)]) ++ Wire.scalar 4 m.variance

/-- A field that is read, `/repo/crates/fhe/src/proto/bfv.proto` lines 40-48. -/
def merge (m : ParamsMsg) : Wire.Field → Option ParamsMsg
  | (1, .varint n) => some { m with degree := Wire.asU32 n }
  | (2, .len p) => do return { m with moduli := m.moduli ++ (← Wire.readPacked p.length p) }
  | (2, .varint n) => some { m with moduli := m.moduli ++ [n] }
  | (3, .varint n) => some { m with plaintext := some (.word n) }
  | (4, .varint n) => some { m with variance := Wire.asU32 n }
  | (5, .len p) => some { m with plaintext := some (.big p) }
  | (t, _) => if t ≤ 5 then none else some m

end ParamsMsg

/-- The message made by `to_bytes`, lines 741-757.  `BigUint::to_bytes_le` gives the
digits in base 256, the least significant first (for a nonzero value); `as u32` truncates. -/
def BfvParameters.toMsg (par : BfvParameters) : ParamsMsg :=
  { degree := par.degree % 2 ^ 32
    moduli := par.moduli
    variance := par.variance % 2 ^ 32
    plaintext :=
      match par.plaintext.small with
      | some m => some (.word m.p)
      | none => some (.big (Nat.digits 256 par.plaintext.value)) }

/-- `try_deserialize`, lines 769-787, after the decoding of the message. -/
def BfvParameters.fromMsg (b : Build) (m : ParamsMsg) : Res BfvParameters :=
  match m.plaintext with
  | none => Res.err .missingField
  | some pt =>
    let value := match pt with
      | .word value => value
      | .big bytes => Nat.ofDigits 256 bytes
    ParamsBuilder.build b (({} : ParamsBuilder).setDegree m.degree |>.setPlaintext value |>.setModuli m.moduli |>.setVariance m.variance)

/-- `to_bytes`, lines 741-759. -/
def BfvParameters.toBytes (par : BfvParameters) : List Nat := Wire.encode par.toMsg.toFields

/-- `try_deserialize`, lines 761-789. -/
def BfvParameters.fromBytes (b : Build) (bytes : List Nat) : Res BfvParameters :=
  match Wire.decode ParamsMsg.merge ⟨0, [], none, 0⟩ Wire.maxDepth bytes with
  | none => Res.err .decode
  | some m => fromMsg b m

/-! ## Default parameters -/

/-- The table of lines 223-254, sorted by the degree. -/
def defaultTable : List (Nat × List Nat) :=
  [ (1024, [0x7e00001]),
    (2048, [0x3fffffff000001]),
    (4096, [0xffffee001, 0xffffc4001, 0x1ffffe0001]),
    (8192, [0x7fffffd8001, 0x7fffffc8001, 0xfffffffc001, 0xffffff6c001, 0xfffffebc001]),
    (16384, [0xfffffffd8001, 0xfffffffa0001, 0xfffffff00001, 0x1fffffff68001, 0x1fffffff50001, 0x1ffffffee8001,
      0x1ffffffea0001, 0x1ffffffe88001, 0x1ffffffe48001]) ]

/-- `.ok()` of a result.  `/repo/crates/fhe/src/bfv/parameters.rs` line 275. -/
def Res.okOrNone {α : Type} (x : Res α) : Panics (Option α) :=
  match x.run with
  | none => none
  | some (.error _) => some none
  | some (.ok a) => some (some a)

/-- The closure of lines 259-285: the parameters for one line of the table.  The shift by `64 - plaintext_nbits` panics for
`plaintext_nbits = 0`. -/
def defaultEntry (b : Build) (bits : Nat) (e : Nat × List Nat) : Panics (Option BfvParameters) := do
  let shift ← subU 64 bits
  check (shift < 64)
  match ← generatePrime bits (2 * e.1) ((2 ^ 64 - 1) >>> shift) with
  | none => return none
  | some t =>
    if (e.2.map fun m => 64 - lz64 m).sum ≥ bits then
      (ParamsBuilder.build b (({} : ParamsBuilder).setDegree e.1 |>.setPlaintext t |>.setModuli e.2)).okOrNone
    else return none

/-- `default_parameters_128`, lines 218-295. -/
def defaultParameters128 (b : Build) (bits : Nat) : Res (List BfvParameters) := do
  lift (check (bits < 64))
  let l ← lift (defaultTable.mapM (defaultEntry b bits))
  if l.filterMap id = [] then Res.err (.noDefaultParameters bits) else return l.filterMap id

end Fhe
