import Verif.Spec.BfvCipher
/-!
# The same objects in programs built differently

Two builds may use different roots of unity (`Build`), so that their internal representations of one polynomial differ.
-/
namespace Fhe

/-- The polynomials have the same moduli and the same coefficients. -/
structure Poly.Agree {r r' : Rep} (p : Poly r) (q : Poly r') : Prop where
  moduli : p.ctx.moduli = q.ctx.moduli
  coeffs : (do (← p.toPowerBasis).toBigUint) = (do (← q.toPowerBasis).toBigUint)

/-- The ciphertexts have the same level and consist of the same polynomials. -/
structure Ciphertext.Agree (ct ct' : Ciphertext) : Prop where
  level : ct.level = ct'.level
  parts : List.Forall₂ (fun p q => p.Agree q) ct.c ct'.c

/-- The parameters have the same degree, plaintext modulus, moduli and variance. -/
structure BfvParameters.Agree (par par' : BfvParameters) : Prop where
  degree : par.degree = par'.degree
  plaintext : par.plaintext.value = par'.plaintext.value
  moduli : par.moduli = par'.moduli
  variance : par.variance = par'.variance

end Fhe
