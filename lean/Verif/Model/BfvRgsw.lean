import Verif.Model.BfvKeys
/-!
# RGSW ciphertexts

Models `/repo/crates/fhe/src/bfv/rgsw_ciphertext.rs`.  `zeroize` of temporaries is not modelled.
-/
namespace Fhe

/-- `struct RGSWCiphertext`, `rgsw_ciphertext.rs` lines 20-24. -/
structure RgswCiphertext where
  ksk0 : KeySwitchingKey
  ksk1 : KeySwitchingKey
deriving DecidableEq, Repr

/-- `try_encrypt` of `FheEncrypter<Plaintext, RGSWCiphertext>`, `rgsw_ciphertext.rs` lines 97-119.  Each of the two keys gets the seed it draws
and the streams of its small polynomials. -/
def SecretKey.tryEncryptRgsw (b : Build) (g : Prg) (sk : SecretKey) (pt : Plaintext) (seed0 seed1 : Seed) (rngs0 rngs1 : Nat → Nat → Nat) : Res RgswCiphertext := do
  pt.validateFor sk.par
  let level ← lift pt.level
  let ctx ← sk.par.contextAtLevel level
  let m ← lift pt.polyNtt.nttToPowerBasis
  let ms ← sk.polyAt ctx
  let ms ← lift (ms.mulAssign pt.polyNtt)
  let ms ← lift ms.nttToPowerBasis
  let ksk0 ← KeySwitchingKey.new b g sk m level level seed0 rngs0
  let ksk1 ← KeySwitchingKey.new b g sk ms level level seed1 rngs1
  return { ksk0, ksk1 }

/-- `Mul<&RGSWCiphertext> for &Ciphertext`, `rgsw_ciphertext.rs` lines 125-155; the product in the other order, lines 161-163, calls it.  The
parameters are compared by value. -/
def Ciphertext.mulRgsw (ct : Ciphertext) (r : RgswCiphertext) : Panics Ciphertext := do
  check (ct.par.toBfvParameters = r.ksk0.par.toBfvParameters)
  check (ct.level = r.ksk0.ciphertextLevel)
  match ct.c with
  | [x0, x1] => do
    let ct0 ← x0.nttToPowerBasis
    let ct1 ← x1.nttToPowerBasis
    let z := Poly.zero .ntt r.ksk0.ctxKsk
    let a ← (r.ksk0.keySwitchAssign ct0 z z).unwrap
    let z' := Poly.zero .ntt r.ksk1.ctxKsk
    let a' ← (r.ksk1.keySwitchAssign ct1 z' z').unwrap
    return { par := ct.par, seed := none, c := [← a.1.addAssign a'.1, ← a.2.addAssign a'.2], level := ct.level }
  | _ => none

/-- The message `RGSWCiphertext`, `/repo/crates/fhe/src/proto/bfv.proto`: a field that is absent is `none`.  Lines 11-14. -/
structure RgswMsg where
  ksk0 : Option KeySwitchingKeyMsg
  ksk1 : Option KeySwitchingKeyMsg
deriving DecidableEq, Repr

namespace RgswCiphertext

/-- `From<&RGSWCiphertext> for RGSWCiphertextProto`, `rgsw_ciphertext.rs` lines 31-36. -/
def toMsg (r : RgswCiphertext) : Panics RgswMsg := do return { ksk0 := some (← r.ksk0.toMsg), ksk1 := some (← r.ksk1.toMsg) }

/-- `try_convert_from`, `rgsw_ciphertext.rs` lines 40-70; `from_bytes`, lines 76-83, after the decoding of the message. -/
def fromMsg (g : Prg) (m : RgswMsg) (par : Par) : Res RgswCiphertext :=
  match m.ksk0 with
  | none => Res.err .missingField
  | some m0 => do
    let ksk0 ← KeySwitchingKey.fromMsg g m0 par
    match m.ksk1 with
    | none => Res.err .missingField
    | some m1 => do
      let ksk1 ← KeySwitchingKey.fromMsg g m1 par
      if ksk0.kskLevel ≠ ksk0.ciphertextLevel ∨ ksk0.ciphertextLevel ≠ ksk1.ciphertextLevel ∨ ksk1.ciphertextLevel ≠ ksk1.kskLevel then
        Res.err .inconsistentKeySwitchingLevels
      else Res.ok { ksk0, ksk1 }

/-- The fields of the message, `proto/bfv.proto` lines 11-14. -/
def toFields (m : RgswMsg) : List Wire.Field := (m.ksk0.toList.map fun m => (1, .len m.encode)) ++ m.ksk1.toList.map fun m => (2, .len m.encode)

/-- A field that is read, `proto/bfv.proto` lines 11-14. -/
def mergeMsg (m : RgswMsg) : Wire.Field → Option RgswMsg
  | (1, .len p) => do return { m with ksk0 := some (← KeySwitchingKeyMsg.mergeInto (Wire.maxDepth - 1) m.ksk0 p) }
  | (2, .len p) => do return { m with ksk1 := some (← KeySwitchingKeyMsg.mergeInto (Wire.maxDepth - 1) m.ksk1 p) }
  | (t, _) => if t ≤ 2 then none else some m

/-- `to_bytes`, `rgsw_ciphertext.rs` lines 87-89. -/
def toBytes (r : RgswCiphertext) : Panics (List Nat) := do return Wire.encode (toFields (← r.toMsg))

/-- `from_bytes`, `rgsw_ciphertext.rs` lines 76-83. -/
def fromBytes (g : Prg) (bytes : List Nat) (par : Par) : Res RgswCiphertext :=
  match Wire.decode mergeMsg ⟨none, none⟩ Wire.maxDepth bytes with
  | none => Res.err .decode
  | some m => fromMsg g m par

end RgswCiphertext
end Fhe
