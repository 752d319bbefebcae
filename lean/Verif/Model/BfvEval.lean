import Verif.Model.BfvKeys
/-!
# Evaluation keys

Models `/repo/crates/fhe/src/bfv/keys/evaluation_key.rs`.

A `HashMap` is a list of pairs, of which the first with a given key counts; a `HashSet` is a list without repetitions.  Rust iterates over
both in an arbitrary order; here it is that of the list, and the randomness that the generation of a Galois key consumes is given as a
function of the exponent of the key, so that the order does not matter.
-/
namespace Fhe

/-- `HashMap::insert`.  Used in `/repo/crates/fhe/src/bfv/keys/evaluation_key.rs` lines 283, 478 and 525. -/
def mapInsert {α : Type} (m : List (Nat × α)) (k : Nat) (v : α) : List (Nat × α) := (k, v) :: m.filter fun x => decide (x.1 ≠ k)

/-- `HashSet::insert`.  Used in `/repo/crates/fhe/src/bfv/keys/evaluation_key.rs` lines 416, 442, 447, 456 and 462. -/
def setInsert (s : List Nat) (k : Nat) : List Nat := if k ∈ s then s else s ++ [k]

/-- The values of `i` in the loops `let mut i = 1; while i < bound { …; i *= 2 }`, `evaluation_key.rs` lines 44-51, 67-84 and 448-458.  The
loop runs at most `bound` times. -/
def doublings (bound : Nat) : (fuel i : Nat) → List Nat
  | 0, _ => []
  | fuel + 1, i => if i < bound then i :: doublings bound fuel (i * 2) else []

/-- `struct EvaluationKey`, `evaluation_key.rs` lines 23-37. -/
structure EvaluationKey where
  par : Par
  ciphertextLevel : Nat
  keyLevel : Nat
  gk : List (Nat × GaloisKey)
  rot : List (Nat × Nat)
  monomials : List (Poly .nttShoup)
deriving DecidableEq, Repr

namespace EvaluationKey

/-- `construct_rot_to_gk_exponent`, `evaluation_key.rs` lines 278-286. -/
def constructRot (b : Build) (par : Par) : Panics (List (Nat × Nat)) := do
  match ← Modulus.new b.cfg (2 * par.degree) with
  | .error _ => none
  | .ok q => (List.range (par.degree / 2 - 1)).mapM fun i => do return (i + 1, ← q.pow 3 (i + 1))

/-- `validate_ciphertext`, `evaluation_key.rs` lines 258-276. -/
def validateCiphertext (k : EvaluationKey) (ct : Ciphertext) : Res Unit := do
  ct.validateFor k.par
  if ct.c.length ≠ 2 then Res.err (.invalidPolynomialCount .evaluationKey ct.c.length 2)
  else if ct.level ≠ k.ciphertextLevel then Res.err (.invalidLevel ct.level k.ciphertextLevel k.ciphertextLevel)
  else Res.ok ()

/-- `supports_inner_sum`, `evaluation_key.rs` lines 43-53. -/
def supportsInnerSum (k : EvaluationKey) : Panics Bool := do
  let found ← (doublings (k.par.degree / 2) (k.par.degree / 2) 1).mapM fun i => do return (k.gk.lookup (← k.rot.lookup i)).isSome
  return (k.gk.lookup (k.par.degree * 2 - 1)).isSome && found.all id

/-- `self.gk.get(&element).ok_or(…)?`.  `/repo/crates/fhe/src/bfv/keys/evaluation_key.rs` lines 89-90, 121-122, 229-230. -/
def getKey (k : EvaluationKey) (element : Nat) : Res GaloisKey :=
  match k.gk.lookup element with
  | some g => Res.ok g
  | none => Res.err (.missing (.galoisKey element))

/-- The loop of `computes_inner_sum`, `evaluation_key.rs` lines 64-84. -/
def innerLoop (k : EvaluationKey) : List Nat → (out tmp : Ciphertext) → Res (Ciphertext × Ciphertext)
  | [], out, tmp => Res.ok (out, tmp)
  | i :: is, out, tmp =>
    match k.rot.lookup i with
    | none => Res.err (.missing (.galoisExponent i))
    | some exponent => do
      let g ← k.getKey exponent
      let tmp ← g.relinearizeInto out tmp
      let out ← lift (out.add tmp)
      innerLoop k is out tmp

/-- `computes_inner_sum`, `evaluation_key.rs` lines 56-100. -/
def computesInnerSum (k : EvaluationKey) (ct : Ciphertext) : Res Ciphertext := do
  k.validateCiphertext ct
  if (← lift k.supportsInnerSum) = false then Res.err (.unsupported .innerSum)
  else do
    let x ← k.innerLoop (doublings (ct.par.degree / 2) (ct.par.degree / 2) 1) ct (Ciphertext.zero ct.par)
    let g ← k.getKey (k.par.degree * 2 - 1)
    let tmp ← g.relinearizeInto x.1 x.2
    lift (x.1.add tmp)

/-- `supports_row_rotation`, `evaluation_key.rs` lines 105-107. -/
def supportsRowRotation (k : EvaluationKey) : Bool := (k.gk.lookup (k.par.degree * 2 - 1)).isSome

/-- `rotates_rows`, `evaluation_key.rs` lines 110-131. -/
def rotatesRows (k : EvaluationKey) (ct : Ciphertext) : Res Ciphertext := do
  k.validateCiphertext ct
  if k.supportsRowRotation = false then Res.err (.unsupported .rowRotation)
  else do
    let g ← k.getKey (k.par.degree * 2 - 1)
    g.relinearizeInto ct (Ciphertext.zero ct.par)

/-- `supports_column_rotation_by`, `evaluation_key.rs` lines 136-142. -/
def supportsColumnRotationBy (k : EvaluationKey) (i : Nat) : Bool :=
  match k.rot.lookup i with
  | some exponent => (k.gk.lookup exponent).isSome
  | none => false

/-- `rotates_columns_by`, `evaluation_key.rs` lines 145-170. -/
def rotatesColumnsBy (k : EvaluationKey) (ct : Ciphertext) (i : Nat) : Res Ciphertext := do
  k.validateCiphertext ct
  if k.supportsColumnRotationBy i = false then Res.err (.unsupported (.columnRotation i))
  else
    match k.rot.lookup i with
    | none => do Res.err (.invalidRotationStep i 1 (← lift (subU (k.par.degree / 2) 1)))
    | some exponent => do
      let g ← k.getKey exponent
      g.relinearizeInto ct (Ciphertext.zero ct.par)

/-- `supports_expansion`, `evaluation_key.rs` lines 174-186.  `degree >> l` is only computed for `l` below the requested level, and a `usize`
shift of 64 or more would panic. -/
def supportsExpansion (k : EvaluationKey) (level : Nat) : Panics Bool :=
  if level = 0 then some true
  else if k.keyLevel = k.par.moduli.length then some false
  else do
    let found ← (List.range level).mapM fun l => do
      check (l < 64)
      return (k.gk.lookup ((k.par.degree >>> l) + 1)).isSome
    return decide (level ≤ Nat.log2 k.par.degree) && found.all id

/-- `target[0] *= monomial; target[1] *= monomial`, `evaluation_key.rs` lines 242-243. -/
def mulMonomial (ct : Ciphertext) (monomial : Poly .nttShoup) : Panics Ciphertext :=
  match ct.c with
  | c0 :: c1 :: rest => do return { ct with c := (← c0.mulAssignShoup monomial) :: (← c1.mulAssignShoup monomial) :: rest }
  | _ => none

/-- The loop of `expands`, `evaluation_key.rs` lines 235-246, over the entries of `low` from `i` on.  Returns `low`, the written part of
`high` — an entry that is not written holds the empty ciphertext — and `sub`. -/
def expandRow (g : GaloisKey) (monomial : Poly .nttShoup) (size step : Nat) : (i : Nat) → List Ciphertext → (sub : Ciphertext) → Res (List Ciphertext × List Ciphertext × Ciphertext)
  | _, [], sub => Res.ok ([], [], sub)
  | i, x :: xs, sub => do
    let sub ← g.relinearizeInto x sub
    let high ← if step ||| i < size then do lift (mulMonomial (← lift (x.sub sub)) monomial) else Res.ok (Ciphertext.zero x.par)
    let low ← lift (x.add sub)
    let rest ← expandRow g monomial size step (i + 1) xs sub
    return (low :: rest.1, high :: rest.2.1, rest.2.2)

/-- The loop of `expands`, `evaluation_key.rs` lines 219-247: `left` rounds, the next of which is `l`, on the first `2^l` entries of `out`. -/
def expandLoop (k : EvaluationKey) (size : Nat) : (left l : Nat) → List Ciphertext → (sub : Ciphertext) → Res (List Ciphertext)
  | 0, _, out, _ => Res.ok out
  | left + 1, l, out, sub =>
    match k.monomials[l]? with
    | none => Res.err (.missing (.expansionMonomial l))
    | some monomial => do
      let g ← k.getKey ((k.par.degree >>> l) + 1)
      let x ← expandRow g monomial size (2 ^ l) 0 out sub
      expandLoop k size left (l + 1) (x.1 ++ x.2.1) x.2.2

/-- `expands`, `evaluation_key.rs` lines 192-256. -/
def expands (k : EvaluationKey) (ct : Ciphertext) (size : Nat) : Res (List Ciphertext) := do
  k.validateCiphertext ct
  if size = 0 then Res.err (.invalidExpansionSize size k.par.degree)
  else if size > k.par.degree then Res.err (.invalidExpansionSize size k.par.degree)
  else do
    let level := RnsScaler.ceilLog2 size
    if level = 0 then Res.ok [ct]
    else if (← lift (k.supportsExpansion level)) then do
      let out ← k.expandLoop size level 0 [ct] (Ciphertext.zero ct.par)
      return out.take size
    else Res.err (.unsupported (.expansion level))

/-- `v[i] = x` on a vector of `i64`.  `/repo/crates/fhe/src/bfv/keys/evaluation_key.rs` lines 468 and 532. -/
def setI64 (v : List Int) (i : Nat) (x : Int) : Panics (List Int) := do
  check (i < v.length)
  return v.set i x

/-- The monomials `-X^(N - 2^l)`, `evaluation_key.rs` lines 464-475 and 527-538. -/
def makeMonomials (degree : Nat) (ctx : Context) : Res (List (Poly .nttShoup)) :=
  (List.range (Nat.log2 degree)).mapM fun l => do
    let at' ← lift (subU degree (2 ^ l))
    let v ← lift (setI64 (List.replicate degree 0) at' (-1))
    let p ← math (Poly.tryFromI64 v ctx true)
    lift p.intoNttShoup

end EvaluationKey

/-- `struct EvaluationKeyBuilder`, `evaluation_key.rs` lines 314-323. -/
structure EvaluationKeyBuilder where
  sk : SecretKey
  ciphertextLevel : Nat
  keyLevel : Nat
  innerSum : Bool
  rowRotation : Bool
  expansionLevel : Nat
  columns : List Nat
  rot : List (Nat × Nat)
deriving DecidableEq, Repr

namespace EvaluationKeyBuilder

/-- `new`, `evaluation_key.rs` lines 335-346. -/
def new (b : Build) (sk : SecretKey) : Res EvaluationKeyBuilder := do
  let rot ← lift (EvaluationKey.constructRot b sk.par)
  return { sk, ciphertextLevel := 0, keyLevel := 0, innerSum := false, rowRotation := false, expansionLevel := 0, columns := [], rot }

/-- `new_leveled`, `evaluation_key.rs` lines 353-383. -/
def newLeveled (b : Build) (sk : SecretKey) (ciphertextLevel keyLevel : Nat) : Res EvaluationKeyBuilder := do
  let max ← lift sk.par.maxLevel
  if ciphertextLevel > max then Res.err (.invalidLevel ciphertextLevel 0 max)
  else if keyLevel > ciphertextLevel then Res.err (.invalidLevel keyLevel 0 ciphertextLevel)
  else do
    let rot ← lift (EvaluationKey.constructRot b sk.par)
    return { sk, ciphertextLevel, keyLevel, innerSum := false, rowRotation := false, expansionLevel := 0, columns := [], rot }

/-- `enable_expansion`, `evaluation_key.rs` lines 386-398. -/
def enableExpansion (s : EvaluationKeyBuilder) (level : Nat) : Res EvaluationKeyBuilder :=
  let max := Nat.log2 s.sk.par.degree
  if level > max then Res.err (.invalidLevel level 0 max) else Res.ok { s with expansionLevel := level }

/-- `enable_inner_sum`, `evaluation_key.rs` lines 401-404. -/
def enableInnerSum (s : EvaluationKeyBuilder) : Res EvaluationKeyBuilder := Res.ok { s with innerSum := true }

/-- `enable_row_rotation`, `evaluation_key.rs` lines 407-410. -/
def enableRowRotation (s : EvaluationKeyBuilder) : Res EvaluationKeyBuilder := Res.ok { s with rowRotation := true }

/-- `enable_column_rotation`, `evaluation_key.rs` lines 414-426. -/
def enableColumnRotation (s : EvaluationKeyBuilder) (i : Nat) : Res EvaluationKeyBuilder :=
  match s.rot.lookup i with
  | some exponent => Res.ok { s with columns := setInsert s.columns exponent }
  | none => do Res.err (.invalidRotationStep i 1 (← lift (subU (s.sk.par.degree / 2) 1)))

/-- The set of exponents of `build`, `evaluation_key.rs` lines 439-463. -/
def indices (s : EvaluationKeyBuilder) : Res (List Nat) := do
  let degree := s.sk.par.degree
  let set := if s.rowRotation then setInsert s.columns (degree * 2 - 1) else s.columns
  let set ← if s.innerSum then do
      let steps ← (doublings (degree / 2) (degree / 2) 1).mapM fun i =>
        match s.rot.lookup i with
        | some exponent => Res.ok exponent
        | none => Res.err (.missing (.galoisExponent i))
      Res.ok (steps.foldl setInsert (setInsert set (degree * 2 - 1)))
    else Res.ok set
  return ((List.range s.expansionLevel).map fun l => (degree >>> l) + 1).foldl setInsert set

/-- `build`, `evaluation_key.rs` lines 429-491. -/
def build (b : Build) (g : Prg) (s : EvaluationKeyBuilder) (seeds : Nat → Seed) (rngs : Nat → Nat → Nat → Nat) : Res EvaluationKey := do
  let set ← s.indices
  let ctx ← s.sk.par.contextAtLevel s.ciphertextLevel
  let monomials ← EvaluationKey.makeMonomials s.sk.par.degree ctx
  let gk ← set.mapM fun x => do return (x, ← GaloisKey.new b g s.sk x s.ciphertextLevel s.keyLevel (seeds x) (rngs x))
  return { par := s.sk.par, ciphertextLevel := s.ciphertextLevel, keyLevel := s.keyLevel, gk, rot := s.rot, monomials }

end EvaluationKeyBuilder

/-- The message `EvaluationKey`, `/repo/crates/fhe/src/proto/bfv.proto`.  Lines 34-38. -/
structure EvaluationKeyMsg where
  gk : List (Nat × Option KeySwitchingKeyMsg)
  ciphertextLevel : Nat
  keyLevel : Nat
deriving DecidableEq, Repr

namespace EvaluationKey

/-- `From<&EvaluationKey>`, `evaluation_key.rs` lines 494-504. -/
def toMsg (k : EvaluationKey) : Panics EvaluationKeyMsg := do
  return { gk := ← k.gk.mapM fun x => x.2.toMsg, ciphertextLevel := k.ciphertextLevel % 2 ^ 32, keyLevel := k.keyLevel % 2 ^ 32 }

/-- The loop of `try_convert_from`, `evaluation_key.rs` lines 508-525. -/
def readKeys (g : Prg) (par : Par) (ciphertextLevel keyLevel : Nat) : List (Nat × Option KeySwitchingKeyMsg) → List (Nat × GaloisKey) → Res (List (Nat × GaloisKey))
  | [], acc => Res.ok acc
  | m :: ms, acc => do
    let key ← GaloisKey.fromMsg g m par
    if key.ksk.ciphertextLevel ≠ ciphertextLevel then Res.err (.invalidLevel key.ksk.ciphertextLevel ciphertextLevel ciphertextLevel)
    else if key.ksk.kskLevel ≠ keyLevel then Res.err (.invalidLevel key.ksk.kskLevel keyLevel keyLevel)
    else readKeys g par ciphertextLevel keyLevel ms (mapInsert acc key.element.exponent key)

/-- `try_convert_from`, `evaluation_key.rs` lines 507-549. -/
def fromMsg (b : Build) (g : Prg) (m : EvaluationKeyMsg) (par : Par) : Res EvaluationKey := do
  let gk ← readKeys g par m.ciphertextLevel m.keyLevel m.gk []
  let ctx ← par.contextAtLevel m.ciphertextLevel
  let monomials ← makeMonomials par.degree ctx
  let rot ← lift (constructRot b par)
  return { par, ciphertextLevel := m.ciphertextLevel, keyLevel := m.keyLevel, gk, rot, monomials }

/-- The fields of the message, `proto/bfv.proto` lines 34-38. -/
def toFields (m : EvaluationKeyMsg) : List Wire.Field :=
  (m.gk.map fun x => (2, .len (Wire.encode (GaloisKey.toFields x)))) ++ Wire.scalar 3 m.ciphertextLevel ++ Wire.scalar 4 m.keyLevel

/-- A field that is read, `proto/bfv.proto` lines 34-38. -/
def mergeMsg (m : EvaluationKeyMsg) : Wire.Field → Option EvaluationKeyMsg
  | (2, .len p) => do return { m with gk := m.gk ++ [← Wire.decode (GaloisKey.mergeMsg (Wire.maxDepth - 2)) (0, none) (Wire.maxDepth - 1) p] }
  | (3, .varint n) => some { m with ciphertextLevel := Wire.asU32 n }
  | (4, .varint n) => some { m with keyLevel := Wire.asU32 n }
  | (t, _) => if 2 ≤ t ∧ t ≤ 4 then none else some m

/-- `to_bytes`, `evaluation_key.rs` lines 294-296. -/
def toBytes (k : EvaluationKey) : Panics (List Nat) := do return Wire.encode (toFields (← k.toMsg))

/-- `from_bytes`, `evaluation_key.rs` lines 302-309. -/
def fromBytes (b : Build) (g : Prg) (bytes : List Nat) (par : Par) : Res EvaluationKey :=
  match Wire.decode mergeMsg ⟨[], 0, 0⟩ Wire.maxDepth bytes with
  | none => Res.err .decode
  | some m => fromMsg b g m par

end EvaluationKey
end Fhe
