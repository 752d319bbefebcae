import Verif.Model.BfvKeys
import Verif.Model.BfvDot
/-!
# `fhe/src/mbfv`: multiparty key generation, key switching and decryption

A function that takes a generator gets the streams from which its small polynomials are drawn.  `zeroize` of temporaries is not modelled.
The iterators of shares are lists.
-/
namespace Fhe
open Res

/-- `impl Aggregate<Result<S>> for A`, `/repo/crates/fhe/src/mbfv/aggregate.rs` lines 12-22: the first error among the shares is returned. -/
def aggregateResults {S A : Type} (fromShares : List S → Res A) (shares : List (Except FheError S)) : Res A :=
  match shares.mapM id with
  | .error e => Res.err e
  | .ok l => fromShares l

/-! ## Common random polynomials -/

/-- `struct CommonRandomPoly`, `crp.rs` lines 11-13. -/
structure CommonRandomPoly where
  poly : Poly .ntt
deriving DecidableEq, Repr

/-- `new_leveled`, `crp.rs` lines 35-43 (and `new`, lines 17-19, at level 0); `rows` are the vectors that the sampler returns. -/
def CommonRandomPoly.newLeveled (par : Par) (level : Nat) (rows : List (List Nat)) : Res CommonRandomPoly := do
  let ctx ← par.contextAtLevel level
  return { poly := ← lift (Poly.random .ntt ctx rows) }

/-- `new_vec`, `crp.rs` lines 25-32; `rows i` is what the sampler returns for the `i`-th polynomial. -/
def CommonRandomPoly.newVec (par : Par) (rows : Nat → List (List Nat)) : Res (List CommonRandomPoly) :=
  (List.range par.moduli.length).mapM fun i => CommonRandomPoly.newLeveled par 0 (rows i)

/-! ## Public keys -/

/-- `struct PublicKeyShare`, `public_key_gen.rs` lines 15-19. -/
structure PublicKeyShare where
  par : Par
  crp : CommonRandomPoly
  p0Share : Poly .ntt
deriving DecidableEq, Repr

/-- `new`, `public_key_gen.rs` lines 32-57. -/
def PublicKeyShare.new (sk : SecretKey) (crp : CommonRandomPoly) (rng : Nat → Nat) : Res PublicKeyShare := do
  let ctx ← sk.par.contextAtLevel 0
  let s ← sk.polyAt ctx
  let e ← math (Poly.smallNtt ctx sk.par.variance rng)
  let p0 ← lift crp.poly.neg
  let p0 ← lift (p0.disallowVt.mulAssign s)
  let p0 ← lift (p0.addAssign e)
  return { par := sk.par, crp, p0Share := p0.allowVt }

/-- `impl Aggregate<PublicKeyShare> for PublicKey`, `public_key_gen.rs` lines 60-77. -/
def PublicKeyShare.aggregate : List PublicKeyShare → Res PublicKey
  | [] => Res.err .noShares
  | share :: shares => do
    let p0 ← lift (shares.foldlM (fun p0 sh => p0.addAssign sh.p0Share) share.p0Share)
    let c ← Ciphertext.new [p0, share.crp.poly] share.par
    return { par := share.par, c }

/-! ## Switching to a public key -/

/-- The loop `while pk_ct.level != ct.level`, `public_key_switch.rs` lines 54-56.  The first number bounds the number of rounds; each round
drops a modulus or fails, so the number of moduli is a sufficient bound; running out of it is a panic here. -/
def Ciphertext.switchUntil (target : Nat) : Nat → Ciphertext → Res Ciphertext
  | 0, ct => if ct.level = target then Res.ok ct else Res.panic
  | n + 1, ct => if ct.level = target then Res.ok ct else do Ciphertext.switchUntil target n (← ct.switchDown)

/-- `struct PublicKeySwitchShare`, `public_key_switch.rs` lines 18-24. -/
structure PublicKeySwitchShare where
  par : Par
  c0 : Poly .ntt
  h0Share : Poly .ntt
  h1Share : Poly .ntt
deriving DecidableEq, Repr

/-- `new`, `public_key_switch.rs` lines 33-92; the streams are those of `u`, `e0` and `e1`. -/
def PublicKeySwitchShare.new (sk : SecretKey) (pk : PublicKey) (ct : Ciphertext) (rngU rng0 rng1 : Nat → Nat) : Res PublicKeySwitchShare :=
  if sk.par.toBfvParameters ≠ pk.par.toBfvParameters then Res.err (.parameterMismatch .secretKey .publicKey)
  else if pk.par.toBfvParameters ≠ ct.par.toBfvParameters then Res.err (.parameterMismatch .publicKey .ciphertext)
  else do
    let pkCt ← pk.c.switchUntil ct.level pk.c.par.moduli.length
    let ctx ← sk.par.contextAtLevel ct.level
    let s ← sk.polyAt ctx
    let s := s.disallowVt
    let u ← math (Poly.smallNtt ctx sk.par.variance rngU)
    let e0 ← math (Poly.smallNtt ctx sk.par.variance rng0)
    let e1 ← math (Poly.smallNtt ctx sk.par.variance rng1)
    let h0 ← lift pkCt.c[0]?
    let h0 ← lift (h0.disallowVt.mulAssign u)
    let s ← lift (s.mulAssign (← lift ct.c[1]?))
    let h0 ← lift (h0.addAssign s)
    let h0 ← lift (h0.addAssign e0)
    let h1 ← lift pkCt.c[1]?
    let h1 ← lift (h1.disallowVt.mulAssign u)
    let h1 ← lift (h1.addAssign e1)
    return { par := sk.par, c0 := ← lift ct.c[0]?, h0Share := h0.allowVt, h1Share := h1.allowVt }

/-- `impl Aggregate<PublicKeySwitchShare> for Ciphertext`, `public_key_switch.rs` lines 95-113. -/
def PublicKeySwitchShare.aggregate : List PublicKeySwitchShare → Res Ciphertext
  | [] => Res.err .noShares
  | share :: shares => do
    let h ← lift (shares.foldlM (fun (h : Poly .ntt × Poly .ntt) sh => do return (← h.1.addAssign sh.h0Share, ← h.2.addAssign sh.h1Share)) (share.h0Share, share.h1Share))
    let c0 ← lift (share.c0.addAssign h.1)
    Ciphertext.new [c0, h.2] share.par

/-! ## Switching to another shared key, and decryption -/

/-- `struct SecretKeySwitchShare`, `secret_key_switch.rs` lines 23-29. -/
structure SecretKeySwitchShare where
  par : Par
  ct : Ciphertext
  hShare : Poly .ntt
deriving DecidableEq, Repr

/-- `new`, `secret_key_switch.rs` lines 38-95. -/
def SecretKeySwitchShare.new (skIn skOut : SecretKey) (ct : Ciphertext) (rng : Nat → Nat) : Res SecretKeySwitchShare :=
  if skIn.par.toBfvParameters ≠ skOut.par.toBfvParameters then Res.err (.parameterMismatch .inputSecretKey .outputSecretKey)
  else if skOut.par.toBfvParameters ≠ ct.par.toBfvParameters then Res.err (.parameterMismatch .outputSecretKey .ciphertext)
  else if ct.c.length ≠ 2 then Res.err (.invalidPolynomialCount .multipartyKeySwitch ct.c.length 2)
  else do
    let c0 ← lift ct.c[0]?
    let c1 ← lift ct.c[1]?
    let sIn ← skIn.polyAt c0.ctx
    let sOut ← skOut.polyAt c0.ctx
    let e ← math (Poly.smallNtt c0.ctx skIn.par.variance rng)
    let h ← lift (sIn.subAssign sOut)
    let h ← lift (h.disallowVt.mulAssign c1)
    let h ← lift (h.addAssign e)
    return { par := skIn.par, ct, hShare := h }

/-- `impl Aggregate<SecretKeySwitchShare> for Ciphertext`, `secret_key_switch.rs` lines 98-115. -/
def SecretKeySwitchShare.aggregate : List SecretKeySwitchShare → Res Ciphertext
  | [] => Res.err .noShares
  | share :: shares => do
    let h ← lift (shares.foldlM (fun h sh => h.addAssign sh.hShare) share.hShare)
    let c0 ← lift ((← lift share.ct.c[0]?).addAssign h)
    Ciphertext.new [c0, ← lift share.ct.c[1]?] share.par

/-- `struct DecryptionShare`, `secret_key_switch.rs` lines 123-125. -/
structure DecryptionShare where
  sksShare : SecretKeySwitchShare
deriving DecidableEq, Repr

/-- `new`, `secret_key_switch.rs` lines 133-142. -/
def DecryptionShare.new (sk : SecretKey) (ct : Ciphertext) (rng : Nat → Nat) : Res DecryptionShare := do
  let zero : SecretKey := { par := sk.par, coeffs := List.replicate sk.par.degree 0 }
  return { sksShare := ← SecretKeySwitchShare.new sk zero ct rng }

/-- `impl Aggregate<DecryptionShare> for Plaintext`, `secret_key_switch.rs` lines 145-186. -/
def DecryptionShare.aggregate (shares : List DecryptionShare) : Res Plaintext := do
  let ct ← SecretKeySwitchShare.aggregate (shares.map DecryptionShare.sksShare)
  let c0 ← lift ct.c[0]?
  let c ← lift c0.disallowVt.nttToPowerBasis
  let lvl ← ct.par.contextLevelAt ct.level
  let d ← math (lvl.cp.scaler.scale c)
  let v := (← lift d.toBigUint).map (· + ct.par.plaintext.value)
  let w ← lift (prefixOf v ct.par.degree)
  lift (check (d.ctx.modulus ≠ 0))
  let w ← lift (ct.par.plaintext.reduceVec (w.map (· % d.ctx.modulus)))
  let poly ← lift (← math (Poly.tryFromBigUint w c0.ctx false)).intoNtt
  return { par := ct.par, encoding := none, polyNtt := poly }

/-! ## Relinearization keys -/

/-- `RelinKeyShare<R1>` and `RelinKeyShare<R1Aggregated>`, `relin_key_gen.rs` lines 18-24; `last_round` is `None` in these rounds. -/
structure RelinKeyShare where
  par : Par
  h0 : List (Poly .ntt)
  h1 : List (Poly .ntt)
deriving DecidableEq, Repr

/-- `RelinKeyShare<R2>`, `relin_key_gen.rs` lines 18-24. -/
structure RelinKeyShare2 where
  par : Par
  h0 : List (Poly .ntt)
  h1 : List (Poly .ntt)
  lastRound : Option RelinKeyShare
deriving DecidableEq, Repr

/-- `struct RelinKeyGenerator`, `relin_key_gen.rs` lines 65-69. -/
structure RelinKeyGenerator where
  sk : SecretKey
  crp : List CommonRandomPoly
  u : Poly .ntt
deriving DecidableEq, Repr

/-- `new`, `relin_key_gen.rs` lines 76-95. -/
def RelinKeyGenerator.new (sk : SecretKey) (crp : List CommonRandomPoly) (rng : Nat → Nat) : Res RelinKeyGenerator := do
  let ctx ← sk.par.contextAtLevel 0
  if ctx.moduli.length = 1 then Res.err .keySwitchingNotSupported
  else if crp.length ≠ ctx.moduli.length then Res.err (.invalidCrpCount crp.length ctx.moduli.length)
  else do
    let u ← math (Poly.smallNtt ctx sk.par.variance rng)
    return { sk, crp, u }

/-- `generate_h0` of the first round, `relin_key_gen.rs` lines 141-172. -/
def RelinKeyShare.generateH0 (b : Build) (sk : SecretKey) (crp : List CommonRandomPoly) (u : Poly .ntt) (rngs : Nat → Nat → Nat) : Res (List (Poly .ntt)) := do
  let ctx ← sk.par.contextAtLevel 0
  let s ← sk.polyAt ctx
  let rns ← math (RnsContext.new b.cfg (← lift (prefixOf sk.par.moduli crp.length)))
  crp.zipIdx.mapM fun x => do
    let w ← lift (rns.getGarner x.2)
    let ws ← lift (s.mulScalar w)
    let e ← math (Poly.smallNtt ctx sk.par.variance (rngs x.2))
    let h ← lift x.1.poly.neg
    let h ← lift (h.disallowVt.mulAssign u)
    let h ← lift (h.addAssign ws)
    lift (h.addAssign e)

/-- `generate_h1` of the first round, `relin_key_gen.rs` lines 174-197. -/
def RelinKeyShare.generateH1 (sk : SecretKey) (crp : List CommonRandomPoly) (rngs : Nat → Nat → Nat) : Res (List (Poly .ntt)) := do
  let ctx ← sk.par.contextAtLevel 0
  let s ← sk.polyAt ctx
  crp.zipIdx.mapM fun x => do
    let e ← math (Poly.smallNtt ctx sk.par.variance (rngs x.2))
    let h ← lift (x.1.poly.disallowVt.mulAssign s)
    lift (h.addAssign e)

/-- `RelinKeyShare::<R1>::new` and `round_1`, `relin_key_gen.rs` lines 98-100 and 113-139. -/
def RelinKeyGenerator.round1 (b : Build) (g : RelinKeyGenerator) (rngs0 rngs1 : Nat → Nat → Nat) : Res RelinKeyShare := do
  let expected := (← g.sk.par.contextAtLevel 0).moduli.length
  if g.crp.length ≠ expected then Res.err (.invalidCrpCount g.crp.length expected)
  else do
    let h0 ← RelinKeyShare.generateH0 b g.sk g.crp g.u rngs0
    let h1 ← RelinKeyShare.generateH1 g.sk g.crp rngs1
    return { par := g.sk.par, h0, h1 }

/-- `impl Aggregate<RelinKeyShare<R1>> for RelinKeyShare<R1Aggregated>`, `relin_key_gen.rs` lines 200-222. -/
def RelinKeyShare.aggregate : List RelinKeyShare → Res RelinKeyShare
  | [] => Res.err .noShares
  | share :: shares => do
    let h ← lift (shares.foldlM (fun (h : List (Poly .ntt) × List (Poly .ntt)) sh => do return (← zipUpdate Poly.addAssign h.1 sh.h0, ← zipUpdate Poly.addAssign h.2 sh.h1)) (share.h0, share.h1))
    return { par := share.par, h0 := h.1, h1 := h.2 }

/-- `generate_h0` and `generate_h1` of the second round, `relin_key_gen.rs` lines 243-268 and 270-296: `h ↦ h f + e`. -/
def RelinKeyShare2.generate (ctx : Context) (variance : Nat) (f : Poly .ntt) (r1 : List (Poly .ntt)) (rngs : Nat → Nat → Nat) : Res (List (Poly .ntt)) :=
  r1.zipIdx.mapM fun x => do
    let e ← math (Poly.smallNtt ctx variance (rngs x.2))
    let h ← lift (x.1.disallowVt.mulAssign f)
    lift (h.addAssign e)

/-- `RelinKeyShare::<R2>::new` and `round_2`, `relin_key_gen.rs` lines 103-109 and 225-241. -/
def RelinKeyGenerator.round2 (g : RelinKeyGenerator) (r1 : RelinKeyShare) (rngs0 rngs1 : Nat → Nat → Nat) : Res RelinKeyShare2 := do
  let ctx ← g.sk.par.contextAtLevel 0
  let s ← g.sk.polyAt ctx
  let h0 ← RelinKeyShare2.generate ctx g.sk.par.variance s r1.h0 rngs0
  let us ← lift (g.u.subAssign s)
  let h1 ← RelinKeyShare2.generate ctx g.sk.par.variance us r1.h1 rngs1
  return { par := g.sk.par, h0, h1, lastRound := some r1 }

/-- The `izip!` of lines 314-320 of `relin_key_gen.rs`: stops at the end of the shortest of the four lists. -/
def addPairs : (h0 h1 a0 a1 : List (Poly .ntt)) → Panics (List (Poly .ntt) × List (Poly .ntt))
  | x :: h0, y :: h1, a :: a0, c :: a1 => do
    let x ← x.addAssign a
    let y ← y.addAssign c
    let r ← addPairs h0 h1 a0 a1
    return (x :: r.1, y :: r.2)
  | h0, h1, _, _ => some (h0, h1)

/-- `impl Aggregate<RelinKeyShare<R2>> for RelinearizationKey`, `relin_key_gen.rs` lines 299-352. -/
def RelinKeyShare2.aggregate : List RelinKeyShare2 → Res RelinearizationKey
  | [] => Res.err .noShares
  | share :: shares => do
    let ctx ← share.par.contextAtLevel 0
    match share.lastRound with
    | none => Res.err .missingRoundOneShare
    | some r1 => do
      let h ← lift (shares.foldlM (fun (h : List (Poly .ntt) × List (Poly .ntt)) sh => addPairs h.1 h.2 sh.h0 sh.h1) (share.h0, share.h1))
      let c0 ← lift (zipUpdate Poly.addAssign h.1 h.2)
      let c0 ← lift (c0.mapM Poly.nttToShoup)
      let c1 ← lift (r1.h1.mapM Poly.nttToShoup)
      return { ksk := { par := share.par, seed := none, c0, c1, ciphertextLevel := 0, ctxCiphertext := ctx, kskLevel := 0, ctxKsk := ctx, logBase := 0 } }

end Fhe
