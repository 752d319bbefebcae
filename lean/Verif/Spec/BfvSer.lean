import Verif.Spec.BfvEval
import Verif.Spec.BfvRgsw
/-!
# Messages and well-formed keys

What arrives from the network is a list of bytes; `prost` decodes it to a message, whose fields are any values of their types.
-/
namespace Fhe

/-- Fields of the types of `rq.proto`: bytes, and a degree of 32 bits. -/
structure RqMsg.OK (m : RqMsg) : Prop where
  bytes : ∀ x ∈ m.coefficients, x < 2 ^ 8
  degree : m.degree < 2 ^ 32

/-- The parts of a ciphertext message are bytes. -/
def CiphertextMsg.OK (m : CiphertextMsg) : Prop := ∀ x ∈ m.c, IsBytes x

/-- All fields of the message of a key-switching key are of the right types. -/
structure KeySwitchingKeyMsg.OK (m : KeySwitchingKeyMsg) : Prop where
  parts : ∀ x ∈ m.c0 ++ m.c1, IsBytes x
  logBase : m.logBase < 2 ^ 32

/-- A well-formed key-switching key: its levels exist; it has one pair of polynomials for every modulus of its ciphertexts, or, if it
decomposes in base `2^logBase`, both levels have one modulus and there are as many pairs as digits; all polynomials are valid ones of the level
of the key; and if it carries a seed, the second halves are what the generator makes of it. -/
structure KeySwitchingKey.WellFormed (g : Prg) (par : Par) (k : KeySwitchingKey) : Prop where
  par_eq : k.par = par
  ctx : par.contextAtLevel k.ciphertextLevel = Res.ok k.ctxCiphertext
  ctxKsk : par.contextAtLevel k.kskLevel = Res.ok k.ctxKsk
  base : k.logBase < 2 ^ 32
  count : (k.logBase = 0 ∧ k.c0.length = k.ctxCiphertext.moduli.length) ∨
    (k.logBase ≠ 0 ∧ ∃ q, k.ctxCiphertext.moduli = [q] ∧ k.ctxKsk.moduli = [q] ∧ k.c0.length = (RnsScaler.ceilLog2 q + k.logBase - 1) / k.logBase)
  count1 : k.c1.length = k.c0.length
  valid : ∀ p ∈ k.c0 ++ k.c1, p.Valid ∧ p.ctx = k.ctxKsk
  seed : ∀ seed, k.seed = some seed → seed.length = 32 ∧ ∀ (i : Nat) (p : Poly .nttShoup), k.c1[i]? = some p →
    ∃ p', g.poly .nttShoup k.ctxKsk (g.derive seed i) = some p' ∧ p.beq p' = true

/-- A well-formed Galois key: the exponent is that of an automorphism of the ring. -/
structure GaloisKey.WellFormed (g : Prg) (par : Par) (k : GaloisKey) : Prop where
  ksk : k.ksk.WellFormed g par
  element : SubstExponent.new k.ksk.ctxCiphertext k.element.exponent = some (.ok k.element)
  range : k.element.exponent % 2 = 1 ∧ k.element.exponent < 2 * par.degree

/-- A well-formed evaluation key: Galois keys at its levels, stored under their exponents, and the tables of its parameters. -/
structure EvaluationKey.WellFormed (b : Build) (g : Prg) (par : Par) (k : EvaluationKey) : Prop where
  par_eq : k.par = par
  lt : k.ciphertextLevel < par.moduli.length
  key : k.keyLevel < 2 ^ 32
  nodup : (k.gk.map Prod.fst).Nodup
  gk : ∀ x gk, k.gk.lookup x = some gk → gk.WellFormed g par ∧ gk.element.exponent = x ∧ gk.ksk.ciphertextLevel = k.ciphertextLevel ∧ gk.ksk.kskLevel = k.keyLevel
  rot : EvaluationKey.constructRot b par = some k.rot
  monomials : ∃ ctx, par.contextAtLevel k.ciphertextLevel = Res.ok ctx ∧ EvaluationKey.makeMonomials par.degree ctx = Res.ok k.monomials

/-- A well-formed RGSW ciphertext: two keys with all four levels equal. -/
structure RgswCiphertext.WellFormed (g : Prg) (par : Par) (r : RgswCiphertext) : Prop where
  fst : r.ksk0.WellFormed g par
  snd : r.ksk1.WellFormed g par
  levels : r.ksk0.kskLevel = r.ksk0.ciphertextLevel ∧ r.ksk1.ciphertextLevel = r.ksk0.ciphertextLevel ∧ r.ksk1.kskLevel = r.ksk0.ciphertextLevel

end Fhe
