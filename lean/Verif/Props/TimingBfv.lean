import Verif.Lemmas.TimedSpec
import Verif.Props.BfvCipher
/-!
# C77: encoding, encrypting, decoding and the shares of several parties are constant time

Neither the message, nor the secret key, nor the randomness has an influence on what an attacker who measures time sees
(`Verif/Model/Timed.lean`): the trace is fixed by the parameters, the encoding, the lengths, the seed (which is part of the ciphertext), the
public key, the common random polynomials and the ciphertexts that a share is for.

The statements about messages need a plaintext modulus below the first ciphertext modulus; with a larger one the code computes with big
numbers, which the model takes to reveal everything.
-/
namespace Fhe.Props
open Release ParamsBuilder

variable {b : Build} {par : Par} {st : ParamsBuilder}

/-! ## Messages -/

/-- Encoding unsigned messages. -/
theorem C77_encode (par : Par) (e : Encoding) (n : Nat) :
    ConstantTime (fun v => (Release.tryEncodeU64 v e par false).run) (fun v => (Plaintext.tryEncodeU64 v e par false).run) (·.length = n) ∧
    ConstantTime (fun v => (Release.tryEncodeVec v e par false).run) (fun v => (PlaintextVec.tryEncodeU64 v e par false).run) (·.length = n) :=
  ⟨.of (fun _ => tryEncodeU64_agrees _ _ _ _) fun _ _ h h' => tryEncodeU64_indist (h.trans h'.symm) e par,
   .of (fun _ => tryEncodeVec_agrees _ _ _ _) fun _ _ h h' => tryEncodeVec_indist (h.trans h'.symm) e par⟩

/-- Encoding signed messages. -/
theorem C77_encode_signed (hb : b.OK) (h : build b st = Res.ok par.toBfvParameters) (hs : par.plaintext.value < 2 ^ 64) (e : Encoding) (n : Nat) :
    ConstantTime (fun v => (Release.tryEncodeI64 v e par).run) (fun v => (Plaintext.tryEncodeI64 v e par).run) (·.length = n) := by
  obtain ⟨_, hw, -⟩ := build_inv hb h
  refine .of (fun _ => tryEncodeI64_agrees _ _ _) fun _ _ h h' => tryEncodeI64_indist (h.trans h'.symm) e par ?_
  rcases hw.plaintext with ⟨m, -, -, h3⟩ | ⟨h1, -⟩
  · rw [h3]; simp
  · omega

/-- Decoding: the admissible plaintexts agree with `pt₀` in parameters, encoding, level and timing flag. -/
theorem C77_decode (hb : b.OK) (h : build b st = Res.ok par.toBfvParameters) {q : Nat} (hq : par.moduli.head? = some q) (ht : par.plaintext.value < q)
    {pt₀ : Plaintext} {i : Nat} {m : par.Msg} (h₀ : pt₀.Holds par i m) (e : Option Encoding) :
    ConstantTime (fun pt => (Release.decodeU64 pt e).run) (fun pt => (pt.decodeU64 e).run) (SamePlain pt₀) ∧
    ConstantTime (fun pt => (Release.decodeI64 pt e).run) (fun pt => (pt.decodeI64 e).run) (SamePlain pt₀) := by
  obtain ⟨_, hw, -⟩ := build_inv hb h
  have key : ∀ pt, SamePlain pt₀ pt → WordSized pt.par pt.polyNtt.ctx := fun pt hp => by
    rw [← hp.par, ← hp.poly.ctx, h₀.par_eq]
    exact wordSized hw hq ht h₀.ctx
  exact ⟨.of (fun _ => decodeU64_agrees _ _) fun _ _ h h' => decodeU64_indist (h.common h') (key _ h) e,
    .of (fun _ => decodeI64_agrees _ _) fun _ _ h h' => decodeI64_indist (h.common h') (key _ h) e⟩

/-! ## Keys and encryption -/

/-- Sampling a secret key. -/
theorem C77_secret_key (par : Par) : ConstantTime (Release.randomKey par) (SecretKey.random par) (fun _ => True) :=
  .of (randomKey_agrees par) fun x y _ _ => randomKey_indist par x y

/-- Secret-key encryption of a plaintext: the secrets are the key, the plaintext and the randomness. -/
theorem C77_encrypt (hb : b.OK) (h : build b st = Res.ok par.toBfvParameters) {q : Nat} (hq : par.moduli.head? = some q) (ht : par.plaintext.value < q)
    (g : Prg) (seed : Seed) {pt₀ : Plaintext} {i : Nat} {m : par.Msg} (h₀ : pt₀.Holds par i m) :
    ConstantTime (fun x : SecretKey × Plaintext × (Nat → Nat) => (Release.tryEncrypt g x.1 x.2.1 seed x.2.2).run)
      (fun x => (x.1.tryEncrypt g x.2.1 seed x.2.2).run) (fun x => x.1.par = par ∧ x.1.coeffs.length = par.degree ∧ SamePlain pt₀ x.2.1) := by
  obtain ⟨_, hw, -⟩ := build_inv hb h
  refine .of (fun _ => tryEncrypt_agrees _ _ _ _ _) fun x y hx hy =>
    tryEncrypt_indist g ⟨hx.1.trans hy.1.symm, hx.2.1.trans hy.2.1.symm⟩ (hx.2.2.common hy.2.2) ?_ seed _ _
  rw [← hx.2.2.par, ← hx.2.2.poly.ctx, h₀.par_eq]
  exact wordSized hw hq ht h₀.ctx

/-- Encoding and encrypting a message: the secrets are the key, the message (of `n` values) and the randomness. -/
theorem C77_encode_encrypt (hb : b.OK) (h : build b st = Res.ok par.toBfvParameters) {q : Nat} (hq : par.moduli.head? = some q) (ht : par.plaintext.value < q)
    (g : Prg) (seed : Seed) (e : Encoding) (n : Nat) :
    ConstantTime (fun x : SecretKey × List Nat × (Nat → Nat) => (do
        let pt ← Release.tryEncodeU64 x.2.1 e par false
        Release.tryEncrypt g x.1 pt seed x.2.2 : TRes Ciphertext).run)
      (fun x => (do
        let pt ← Plaintext.tryEncodeU64 x.2.1 e par false
        x.1.tryEncrypt g pt seed x.2.2 : Res Ciphertext).run)
      (fun x => x.1.par = par ∧ x.1.coeffs.length = par.degree ∧ x.2.1.length = n) := by
  obtain ⟨_, hw, -⟩ := build_inv hb h
  refine .of_values (fun x => (tryEncodeU64_agrees _ _ _ _).bind fun _ => tryEncrypt_agrees _ _ _ _ _) fun x y z z' hx hy hz _ =>
    encode_bind (hx.2.2.trans hy.2.2.symm) e par (fun c hc => wordSized hw hq ht hc) (fun pt pt' hp hws =>
      tryEncrypt_indist g ⟨hx.1.trans hy.1.symm, hx.2.1.trans hy.2.1.symm⟩ hp hws seed _ _) hz

/-- Public-key encryption of a plaintext: the secrets are the plaintext and the randomness. -/
theorem C77_public_encrypt (hb : b.OK) (h : build b st = Res.ok par.toBfvParameters) {q : Nat} (hq : par.moduli.head? = some q) (ht : par.plaintext.value < q)
    (pk : PublicKey) {pt₀ : Plaintext} {i : Nat} {m : par.Msg} (h₀ : pt₀.Holds par i m) :
    ConstantTime (fun x : Plaintext × (Nat → Nat) × (Nat → Nat) × (Nat → Nat) => (Release.pkEncrypt pk x.1 x.2.1 x.2.2.1 x.2.2.2).run)
      (fun x => (pk.tryEncrypt x.1 x.2.1 x.2.2.1 x.2.2.2).run) (fun x => SamePlain pt₀ x.1) := by
  obtain ⟨_, hw, -⟩ := build_inv hb h
  refine .of (fun _ => pkEncrypt_agrees _ _ _ _ _) fun x y hx hy => pkEncrypt_indist pk (hx.common hy) ?_ _ _ _ _ _ _
  rw [← hx.par, ← hx.poly.ctx, h₀.par_eq]
  exact wordSized hw hq ht h₀.ctx

/-- Encoding a message and encrypting it with a public key. -/
theorem C77_encode_public_encrypt (hb : b.OK) (h : build b st = Res.ok par.toBfvParameters) {q : Nat} (hq : par.moduli.head? = some q) (ht : par.plaintext.value < q)
    (pk : PublicKey) (e : Encoding) (n : Nat) :
    ConstantTime (fun x : List Nat × (Nat → Nat) × (Nat → Nat) × (Nat → Nat) => (do
        let pt ← Release.tryEncodeU64 x.1 e par false
        Release.pkEncrypt pk pt x.2.1 x.2.2.1 x.2.2.2 : TRes Ciphertext).run)
      (fun x => (do
        let pt ← Plaintext.tryEncodeU64 x.1 e par false
        pk.tryEncrypt pt x.2.1 x.2.2.1 x.2.2.2 : Res Ciphertext).run)
      (fun x => x.1.length = n) := by
  obtain ⟨_, hw, -⟩ := build_inv hb h
  refine .of_values (fun x => (tryEncodeU64_agrees _ _ _ _).bind fun _ => pkEncrypt_agrees _ _ _ _ _) fun x y z z' hx hy hz _ =>
    encode_bind (hx.trans hy.symm) e par (fun c hc => wordSized hw hq ht hc) (fun pt pt' hp hws => pkEncrypt_indist pk hp hws _ _ _ _ _ _) hz

/-- Generating a public key: the secrets are the key and the randomness. -/
theorem C77_public_key (hb : b.OK) (h : build b st = Res.ok par.toBfvParameters) {q : Nat} (hq : par.moduli.head? = some q) (ht : par.plaintext.value < q)
    (g : Prg) (seed : Seed) :
    ConstantTime (fun x : SecretKey × (Nat → Nat) => Release.newPublicKey g x.1 seed x.2) (fun x => PublicKey.new g x.1 seed x.2)
      (fun x => x.1.par = par ∧ x.1.coeffs.length = par.degree) := by
  obtain ⟨_, hw, -⟩ := build_inv hb h
  refine .of (fun _ => newPublicKey_agrees _ _ _ _) fun x y hx hy =>
    newPublicKey_indist g ⟨hx.1.trans hy.1.symm, hx.2.trans hy.2.symm⟩ seed _ _ fun pt hz => ?_
  obtain ⟨pt', h1, h2, -⟩ := C35_zero hb h (e := ⟨.poly, 0⟩) (List.length_pos_of_ne_nil hw.ne_nil)
  rw [hx.1, h1, Res.ok_inj] at hz
  subst hz
  rw [h2.par_eq]
  exact wordSized hw hq ht h2.ctx

/-! ## Shares of several parties -/

/-- The shares of a public key, of key switching to a public key and to another secret key, and of decryption: the secrets are the keys and the
randomness. -/
theorem C77_shares (par : Par) (N : Nat) (crp : CommonRandomPoly) (pk : PublicKey) (ct : Ciphertext) :
    ConstantTime (fun x : SecretKey × (Nat → Nat) => (Release.publicKeyShare x.1 crp x.2).run) (fun x => (PublicKeyShare.new x.1 crp x.2).run)
      (fun x => x.1.par = par ∧ x.1.coeffs.length = N) ∧
    ConstantTime (fun x : SecretKey × (Nat → Nat) × (Nat → Nat) × (Nat → Nat) => (Release.publicKeySwitchShare x.1 pk ct x.2.1 x.2.2.1 x.2.2.2).run)
      (fun x => (PublicKeySwitchShare.new x.1 pk ct x.2.1 x.2.2.1 x.2.2.2).run) (fun x => x.1.par = par ∧ x.1.coeffs.length = N) ∧
    ConstantTime (fun x : SecretKey × SecretKey × (Nat → Nat) => (Release.secretKeySwitchShare x.1 x.2.1 ct x.2.2).run)
      (fun x => (SecretKeySwitchShare.new x.1 x.2.1 ct x.2.2).run)
      (fun x => x.1.par = par ∧ x.1.coeffs.length = N ∧ x.2.1.par = par ∧ x.2.1.coeffs.length = N) ∧
    ConstantTime (fun x : SecretKey × (Nat → Nat) => (Release.decryptionShare x.1 ct x.2).run) (fun x => (DecryptionShare.new x.1 ct x.2).run)
      (fun x => x.1.par = par ∧ x.1.coeffs.length = N) :=
  ⟨.of (fun _ => publicKeyShare_agrees _ _ _) fun _ _ h h' => publicKeyShare_indist ⟨h.1.trans h'.1.symm, h.2.trans h'.2.symm⟩ crp _ _,
   .of (fun _ => publicKeySwitchShare_agrees _ _ _ _ _ _) fun _ _ h h' =>
     publicKeySwitchShare_indist ⟨h.1.trans h'.1.symm, h.2.trans h'.2.symm⟩ pk ct _ _ _ _ _ _,
   .of (fun _ => secretKeySwitchShare_agrees _ _ _ _) fun _ _ h h' =>
     secretKeySwitchShare_indist ⟨h.1.trans h'.1.symm, h.2.1.trans h'.2.1.symm⟩ ⟨h.2.2.1.trans h'.2.2.1.symm, h.2.2.2.trans h'.2.2.2.symm⟩ ct _ _,
   .of (fun _ => decryptionShare_agrees _ _ _) fun _ _ h h' => decryptionShare_indist ⟨h.1.trans h'.1.symm, h.2.trans h'.2.symm⟩ ct _ _⟩

/-- Both rounds of the generation of a relinearization key by several parties: the secrets are the key, the ephemeral secret and the
randomness. -/
theorem C77_relin_shares (b : Build) (par : Par) (N : Nat) (crp : List CommonRandomPoly) (g₀ : RelinKeyGenerator) (r1 : RelinKeyShare) :
    ConstantTime (fun x : SecretKey × (Nat → Nat) => (Release.relinKeyGenerator x.1 crp x.2).run) (fun x => (RelinKeyGenerator.new x.1 crp x.2).run)
      (fun x => x.1.par = par ∧ x.1.coeffs.length = N) ∧
    ConstantTime (fun x : RelinKeyGenerator × (Nat → Nat → Nat) × (Nat → Nat → Nat) => (Release.round1 b x.1 x.2.1 x.2.2).run)
      (fun x => (x.1.round1 b x.2.1 x.2.2).run) (fun x => SameGenerator g₀ x.1) ∧
    ConstantTime (fun x : RelinKeyGenerator × (Nat → Nat → Nat) × (Nat → Nat → Nat) => (Release.round2 x.1 r1 x.2.1 x.2.2).run)
      (fun x => (x.1.round2 r1 x.2.1 x.2.2).run) (fun x => SameGenerator g₀ x.1) :=
  ⟨.of (fun _ => relinKeyGenerator_agrees _ _ _) fun _ _ h h' => relinKeyGenerator_indist ⟨h.1.trans h'.1.symm, h.2.trans h'.2.symm⟩ crp _ _,
   .of (fun _ => round1_agrees _ _ _ _) fun _ _ h h' => round1_indist b (h.common h') _ _ _ _,
   .of (fun _ => round2_agrees _ _ _ _) fun _ _ h h' => round2_indist (h.common h') r1 _ _ _ _⟩

/-- Two different messages under two different keys with different randomness are encrypted with one trace. -/
example : ∃ (par : Par) (sk sk' : SecretKey) (ct ct' : Ciphertext) (tr : List Event), par.moduli = [97, 113, 193] ∧
    (do let pt ← Release.tryEncodeU64 [1, 2, 16] ⟨.poly, 0⟩ par false
        Release.tryEncrypt exPrg sk pt (List.replicate 32 7) exRng : TRes Ciphertext).run = ⟨some (.ok ct), tr⟩ ∧
    (do let pt ← Release.tryEncodeU64 [5, 4, 3] ⟨.poly, 0⟩ par false
        Release.tryEncrypt exPrg sk' pt (List.replicate 32 7) (fun _ => 0) : TRes Ciphertext).run = ⟨some (.ok ct'), tr⟩ := by
  obtain ⟨par, h, hd, ht, hm, -, h0, -, -⟩ := exParams
  have hz : IsStream fun _ => 0 := fun _ => by norm_num
  obtain ⟨sk, s, -, hk, hs⟩ := C37_secret_key luckyBuild_ok h exRng_ok
  obtain ⟨sk', s', -, hk', hs'⟩ := C37_secret_key luckyBuild_ok h hz
  obtain ⟨m, -, -, -, hu⟩ := C35_poly luckyBuild_ok h (level := 0) (by rw [hm]; decide) (by rw [h0, ht]; decide) (v := [1, 2, 16]) (by rw [hd]; decide) (by rw [ht]; decide)
  obtain ⟨m', -, -, -, hu'⟩ := C35_poly luckyBuild_ok h (level := 0) (by rw [hm]; decide) (by rw [h0, ht]; decide) (v := [5, 4, 3]) (by rw [hd]; decide) (by rw [ht]; decide)
  obtain ⟨pt, p1, e2, -⟩ := hu (by decide) false
  obtain ⟨pt', p1', e2', -⟩ := hu' (by decide) false
  obtain ⟨ct, v, f1, -⟩ := C37_encrypt luckyBuild_ok h hk exPrg_ok (by rw [h0, ht]; decide) e2 (seed := List.replicate 32 7) rfl exRng_ok
  obtain ⟨ct', v', f1', -⟩ := C37_encrypt luckyBuild_ok h hk' exPrg_ok (by rw [h0, ht]; decide) e2' (seed := List.replicate 32 7) rfl hz
  obtain ⟨tr, htr⟩ := C77_encode_encrypt luckyBuild_ok h (q := 97) (by rw [hm]; rfl) (by rw [ht]; decide) exPrg (List.replicate 32 7) ⟨.poly, 0⟩ 3
  refine ⟨par, sk, sk', ct, ct', tr, hm, ?_, ?_⟩
  · refine htr (sk, [1, 2, 16], exRng) ⟨hk.par_eq, hk.length, rfl⟩ _ ?_
    show (Plaintext.tryEncodeU64 [1, 2, 16] ⟨.poly, 0⟩ par false >>= fun pt => sk.tryEncrypt exPrg pt (List.replicate 32 7) exRng) = Res.ok ct
    rw [p1, Res.ok_bind, f1]
  · refine htr (sk', [5, 4, 3], fun _ => 0) ⟨hk'.par_eq, hk'.length, rfl⟩ _ ?_
    show (Plaintext.tryEncodeU64 [5, 4, 3] ⟨.poly, 0⟩ par false >>= fun pt => sk'.tryEncrypt exPrg pt (List.replicate 32 7) fun _ => 0) = Res.ok ct'
    rw [p1', Res.ok_bind, f1']

end Fhe.Props
