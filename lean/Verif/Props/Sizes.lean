import Verif.Lemmas.Sizes
import Verif.Props.Wire
import Verif.Lemmas.Robust
/-!
# Property C79: the sizes of the messages

Someone who sees only how many bytes an object takes on the wire learns what `Verif/Spec/Sizes.lean` lists: the parameters, the levels, the number of
parts and of keys.  The size of a ciphertext does not depend on the message, the key or the noise, and the size of a key not on the secret.  The
size of a secret key is fixed too, but only for a variance of at most 31.
-/
namespace Fhe.Props
open Nega Poly ParamsBuilder Wire

variable {b : Build} {par : Par} {st : ParamsBuilder} {s : IntPoly par.degree} {sk : SecretKey} {g : Prg} {i j : Nat} {m : par.Msg}

/-! ## Polynomials and ciphertexts -/

/-- C79: the size of a polynomial is determined by the moduli and the degree. -/
theorem C79_poly {c : Context} {moduli : List Nat} {degree : Nat} {r : Rep} (hb : b.OK) (hc : Context.new b moduli degree = some (.ok c)) (hd : degree ≤ 2 ^ 31) {p : Poly r} {f : c.Elem}
    (hp : Represents c p f) : ∃ bytes, p.toBytes = some bytes ∧ bytes.length = Sizes.poly moduli degree := by
  obtain ⟨n, hdeg, hw, hmod⟩ := Context.new_inv hb hc
  have hn : n ≤ 31 := (Nat.pow_le_pow_iff_right (by norm_num)).1 (hdeg ▸ hd)
  obtain ⟨bytes, h1, h2⟩ := size_enc (r := r) (vt := p.vt) hw hn f
  refine ⟨bytes, by rw [(represents_iff hw).1 hp]; exact h1, ?_⟩
  rw [h2, hmod, hw.level.degree, ← hdeg]

/-- C79: the size of a ciphertext is determined by its level, the number of its parts, and whether it has a seed. -/
theorem C79_ciphertext (hb : b.OK) (h : build b st = Res.ok par.toBfvParameters) (h32 : par.moduli.length ≤ 2 ^ 32) {ct : Ciphertext} (hct : ct.WellFormed g par) :
    ∃ bytes, ct.toBytes = some bytes ∧ bytes.length = Sizes.ciphertext par.toBfvParameters ct.level ct.c.length ct.seed.isSome := by
  obtain ⟨n, hw, -⟩ := build_inv hb h
  obtain ⟨msg, h1, h2⟩ := Ciphertext.size_eq hw h32 hct
  exact ⟨msg.encode, by unfold Ciphertext.toBytes; rw [h1]; rfl, h2⟩

/-- C79: hence a ciphertext made with a secret key has the same size for every key, message, seed and noise: one polynomial and the seed. -/
theorem C79_encrypt (hb : b.OK) (h : build b st = Res.ok par.toBfvParameters) (h32 : par.moduli.length ≤ 2 ^ 32) (hk : sk.IsKey par s) (hg : g.OK) (hQ : par.plaintext.value ≤ par.modulusAt i)
    {pt : Plaintext} (hpt : pt.Holds par i m) {seed : Seed} (hs : seed.length = 32) {rng : Nat → Nat} (hr : IsStream rng) :
    ∃ ct bytes, sk.tryEncrypt g pt seed rng = Res.ok ct ∧ ct.toBytes = some bytes ∧ bytes.length = Sizes.ciphertext par.toBfvParameters i 2 true := by
  obtain ⟨ct, v, h1, h2, -, h4, h5, h6⟩ := C37_encrypt hb h hk hg hQ hpt hs hr
  obtain ⟨bytes, e1, e2⟩ := C79_ciphertext hb h h32 h6
  refine ⟨ct, bytes, h1, e1, ?_⟩
  rw [e2, h2.level_eq, h4, h5]; rfl

/-- C79: and one made with a public key is always two polynomials. -/
theorem C79_encrypt_public (hb : b.OK) (h : build b st = Res.ok par.toBfvParameters) (h32 : par.moduli.length ≤ 2 ^ 32) (hk : sk.IsKey par s) (hg : g.OK) (hQ : par.plaintext.value ≤ par.modulusAt i)
    {seed : Seed} (hs : seed.length = 32) {rng : Nat → Nat} (hr : IsStream rng) {pt : Plaintext} (hpt : pt.Holds par i m) {rngU rng1 rng2 : Nat → Nat} (hU : IsStream rngU) (h1 : IsStream rng1)
    (h2 : IsStream rng2) :
    ∃ pk ct bytes, PublicKey.new g sk seed rng = some pk ∧ pk.tryEncrypt pt rngU rng1 rng2 = Res.ok ct ∧ ct.toBytes = some bytes ∧ bytes.length = Sizes.ciphertext par.toBfvParameters i 2 false := by
  obtain ⟨pk, v, e1, e2, e3, -, e4, -, -⟩ := C37_public_key hb h hk hg hs hr
  obtain ⟨S, hS⟩ := exists_bounded s
  obtain ⟨V, hV⟩ := exists_bounded v
  obtain ⟨ct, v', f1, f2, f3, f4, -⟩ := C37_public_encrypt hb h e2 e3 e4 hS (V := max V (par.plaintext.value * (1 + par.degree * S))) (hV.mono (le_max_left _ _)) (le_max_right _ _) hQ hpt hU h1 h2
  obtain ⟨bytes, g1, g2⟩ := C79_ciphertext hb h h32 (C47_wellFormed (g := g) hb h f2 f4)
  refine ⟨pk, ct, bytes, e1, f1, g1, ?_⟩
  rw [g2, f2.level_eq, f3, f4]; rfl

/-- C79: the size of a public key. -/
theorem C79_public_key (hb : b.OK) (h : build b st = Res.ok par.toBfvParameters) (h32 : par.moduli.length ≤ 2 ^ 32) (hk : sk.IsKey par s) (hg : g.OK)
    {seed : Seed} (hs : seed.length = 32) {rng : Nat → Nat} (hr : IsStream rng) :
    ∃ pk bytes, PublicKey.new g sk seed rng = some pk ∧ pk.toBytes = some bytes ∧ bytes.length = Sizes.publicKey par.toBfvParameters true := by
  obtain ⟨n, hw, -⟩ := build_inv hb h
  obtain ⟨pk, v, e1, e2, e3, -, e4, e5, e6⟩ := C37_public_key hb h hk hg hs hr
  obtain ⟨msg, f1, f2⟩ := Ciphertext.size_eq hw h32 e6
  refine ⟨pk, Wire.encode (PublicKey.toFields (some msg)), e1, by unfold PublicKey.toBytes PublicKey.toMsg; rw [f1]; rfl, ?_⟩
  unfold PublicKey.toFields
  rw [Option.toList_some, List.map_singleton, Wire.length_len (by norm_num), f2, e3.level_eq, e4, e5]
  rfl

/-! ## Evaluation keys -/

/-- C79: the size of a relinearization key, generated or read, is determined by its levels, its number of pairs and whether it has a seed. -/
theorem C79_relinearization (hb : b.OK) (h : build b st = Res.ok par.toBfvParameters) (h32 : par.moduli.length ≤ 2 ^ 32) {k : RelinearizationKey} (hk : k.ksk.WellFormed g par) :
    ∃ bytes, k.toBytes = some bytes ∧ bytes.length =
      Sizes.relinearizationKey (Sizes.keySwitchingKey par.toBfvParameters k.ksk.ciphertextLevel k.ksk.kskLevel k.ksk.logBase k.ksk.c0.length k.ksk.seed.isSome) := by
  obtain ⟨n, hw, -⟩ := build_inv hb h
  obtain ⟨msg, f1, f2⟩ := KeySwitchingKey.size_eq hw h32 hk
  refine ⟨Wire.encode (RelinearizationKey.toFields (some msg)), by unfold RelinearizationKey.toBytes RelinearizationKey.toMsg; rw [f1]; rfl, ?_⟩
  unfold RelinearizationKey.toFields
  rw [Option.toList_some, List.map_singleton, Wire.length_len (by norm_num), f2]
  rfl

/-- C79: a generated relinearization key has the same size for every secret key, seed and noise. -/
theorem C79_relinearization_generated (hb : b.OK) (h : build b st = Res.ok par.toBfvParameters) (h64 : par.moduli.length ≤ 64) (hk : sk.IsKey par s) (hg : g.OK) {seed : Seed}
    (hs : seed.length = 32) {rngs : Nat → Nat → Nat} (hr : ∀ i, IsStream (rngs i)) (hi : i < par.moduli.length) (hij : j ≤ i) (hj : j + 1 < par.moduli.length) :
    ∃ k bytes, RelinearizationKey.newLeveled b g sk i j seed rngs = Res.ok k ∧ k.toBytes = some bytes ∧ bytes.length = Sizes.relinearizationKey (Sizes.generatedKey par.toBfvParameters i j) := by
  obtain ⟨n, hw, -⟩ := build_inv hb h
  obtain ⟨k, e1, e2⟩ := C55_relin_generated hb h h64 hk hg hs hr hi hij hj
  obtain ⟨bytes, f1, f2⟩ := C79_relinearization hb h (by omega) e2
  obtain ⟨src, e3⟩ := RelinearizationKey.new_inv e1
  exact ⟨k, bytes, e1, f1, by rw [f2, KeySwitchingKey.generated_size hw hk.par_eq e3 e2]⟩

/-- C79: the size of an evaluation key, generated or read. -/
theorem C79_evaluation (hb : b.OK) (h : build b st = Res.ok par.toBfvParameters) (h32 : par.moduli.length ≤ 2 ^ 32) {k : EvaluationKey} (hk : k.WellFormed b g par) :
    ∃ bytes, k.toBytes = some bytes ∧ bytes.length = Sizes.evaluationKey (k.gk.map fun x =>
      Sizes.galoisKey (Sizes.keySwitchingKey par.toBfvParameters k.ciphertextLevel k.keyLevel x.2.ksk.logBase x.2.ksk.c0.length x.2.ksk.seed.isSome) x.1) k.ciphertextLevel k.keyLevel := by
  obtain ⟨n, hw, -⟩ := build_inv hb h
  have hmem : ∀ x ∈ k.gk, k.gk.lookup x.1 = some x.2 := fun x hx => lookup_of_mem hk.nodup hx
  obtain ⟨ms, h1, h2⟩ := mapM_exists (f := fun x : Nat × GaloisKey => x.2.toMsg) (l := k.gk) (fun x y => (Wire.encode (GaloisKey.toFields y)).length =
      Sizes.galoisKey (Sizes.keySwitchingKey par.toBfvParameters k.ciphertextLevel k.keyLevel x.2.ksk.logBase x.2.ksk.c0.length x.2.ksk.seed.isSome) x.1) fun x hx => by
    obtain ⟨e1, e2, e3, e4⟩ := hk.gk x.1 x.2 (hmem x hx)
    obtain ⟨msg, f1, f2⟩ := GaloisKey.size_eq hw h32 e1
    exact ⟨msg, f1, by rw [f2, e2, e3, e4]⟩
  refine ⟨_, by unfold EvaluationKey.toBytes EvaluationKey.toMsg; rw [h1]; rfl, ?_⟩
  have d1 : k.ciphertextLevel % 2 ^ 32 = k.ciphertextLevel := Nat.mod_eq_of_lt (by have := hk.lt; omega)
  have d2 : k.keyLevel % 2 ^ 32 = k.keyLevel := Nat.mod_eq_of_lt hk.key
  unfold EvaluationKey.toFields Sizes.evaluationKey
  simp only [Wire.length_encode_append]
  rw [Wire.size_scalar (by norm_num), Wire.size_scalar (by norm_num), d1, d2]
  have e : (ms.map fun x => ((2, Value.len (Wire.encode (GaloisKey.toFields x))) : Field)) = (ms.map fun x => Wire.encode (GaloisKey.toFields x)).map fun p => (2, Value.len p) := by
    rw [List.map_map]; rfl
  rw [e, Wire.length_lens (by norm_num), List.map_map, List.map_map]
  congr 3
  exact map_of_forall₂ (h2.imp fun x y h => by simp only [Function.comp_apply, h])

/-- C79: an evaluation key that is built has a size determined by its levels and the exponents that were requested. -/
theorem C79_evaluation_generated (hb : b.OK) (h : build b st = Res.ok par.toBfvParameters) (h64 : par.moduli.length ≤ 64) (hk : sk.IsKey par s) (hg : g.OK) (hi : i < par.moduli.length)
    (hij : j ≤ i) (rs : List EvaluationRequest) {seeds : Nat → Seed} (hs : ∀ x, (seeds x).length = 32) {rngs : Nat → Nat → Nat → Nat} (hr : ∀ x i, IsStream (rngs x i)) :
    ∃ (bd bd' : EvaluationKeyBuilder) (k : EvaluationKey) (bytes xs : List Nat), EvaluationKeyBuilder.newLeveled b sk i j = Res.ok bd ∧ bd.requests rs = some bd' ∧ bd'.build b g seeds rngs = Res.ok k ∧
      k.toBytes = some bytes ∧ xs.Nodup ∧ (∀ x, x ∈ xs ↔ Requested par.degree rs x) ∧
      bytes.length = Sizes.evaluationKey (xs.map fun x => Sizes.galoisKey (Sizes.generatedKey par.toBfvParameters i j) x) i j := by
  obtain ⟨n, hw, -⟩ := build_inv hb h
  obtain ⟨bd, bd', k, e1, e2, e3, e4⟩ := C55_evaluation_generated hb h h64 hk hg hi hij rs hs hr
  obtain ⟨bd1, bd1', k1, f1, f2, f3, f4, f5, -⟩ := C50_build hb h h64 hk hg hi hij rs seeds hr
  rw [e1, Res.ok_inj] at f1
  subst f1
  rw [e2, Option.some_inj] at f2
  subst f2
  rw [e3, Res.ok_inj] at f3
  subst f3
  have e6 : EvaluationKeyBuilder.After par sk i j rs bd' := by
    obtain ⟨bd1, g1, g2⟩ := EvaluationKeyBuilder.newLeveled_eq (sk := sk) hw hk.par_eq hi hij
    obtain ⟨bd1', g3, g4⟩ := g2.requests hw hk.par_eq (rs' := rs)
    rw [e1, Res.ok_inj] at g1
    subst g1
    rw [e2, Option.some_inj] at g3
    subst g3
    exact g4
  obtain ⟨bytes, k1, k2⟩ := C79_evaluation hb h (by omega) e4
  refine ⟨bd, bd', k, bytes, k.gk.map Prod.fst, e1, e2, e3, k1, e4.nodup, fun x => ?_, ?_⟩
  · rw [← f5]
    constructor
    · intro hx
      obtain ⟨y, hy, rfl⟩ := List.mem_map.1 hx
      rw [lookup_of_mem e4.nodup hy]; rfl
    · intro hx
      obtain ⟨gk, hgk⟩ := Option.isSome_iff_exists.1 hx
      exact List.mem_map.2 ⟨(x, gk), mem_of_lookup hgk, rfl⟩
  · rw [k2, f4.level, f4.keyLevel, List.map_map]
    congr 1
    refine List.map_congr_left fun x hx => ?_
    obtain ⟨g1, -, g3, g4⟩ := e4.gk x.1 x.2 (lookup_of_mem e4.nodup hx)
    have g5 := EvaluationKeyBuilder.build_ksk e3 hx
    rw [e6.sk_eq, e6.level, e6.keyLevel] at g5
    obtain ⟨src, g6⟩ := GaloisKey.new_inv g5
    have g7 := KeySwitchingKey.generated_size hw hk.par_eq g6 g1.ksk
    rw [g3, g4, f4.level, f4.keyLevel] at g7
    rw [g7]
    rfl

/-- C79: hence two evaluation keys built by the same requests have the same size, whatever the two secret keys, seeds and noises, and in whatever order the requests were made. -/
theorem C79_evaluation_same (hb : b.OK) (h : build b st = Res.ok par.toBfvParameters) (h64 : par.moduli.length ≤ 64) {s' : IntPoly par.degree} {sk' : SecretKey} (hk : sk.IsKey par s) (hk' : sk'.IsKey par s')
    (hg : g.OK) (hi : i < par.moduli.length) (hij : j ≤ i) {rs rs' : List EvaluationRequest} (hrs : ∀ x, Requested par.degree rs x ↔ Requested par.degree rs' x) {seeds seeds' : Nat → Seed}
    (hs : ∀ x, (seeds x).length = 32) (hs' : ∀ x, (seeds' x).length = 32) {rngs rngs' : Nat → Nat → Nat → Nat} (hr : ∀ x i, IsStream (rngs x i)) (hr' : ∀ x i, IsStream (rngs' x i)) :
    ∃ (bd1 bd2 bd1' bd2' : EvaluationKeyBuilder) (k k' : EvaluationKey) (bytes bytes' : List Nat),
      (EvaluationKeyBuilder.newLeveled b sk i j = Res.ok bd1 ∧ bd1.requests rs = some bd2 ∧ bd2.build b g seeds rngs = Res.ok k ∧ k.toBytes = some bytes) ∧
      (EvaluationKeyBuilder.newLeveled b sk' i j = Res.ok bd1' ∧ bd1'.requests rs' = some bd2' ∧ bd2'.build b g seeds' rngs' = Res.ok k' ∧ k'.toBytes = some bytes') ∧ bytes.length = bytes'.length := by
  obtain ⟨bd1, bd2, k, bytes, xs, e1, e2, e3, e4, e5, e6, e7⟩ := C79_evaluation_generated hb h h64 hk hg hi hij rs hs hr
  obtain ⟨bd1', bd2', k', bytes', xs', f1, f2, f3, f4, f5, f6, f7⟩ := C79_evaluation_generated hb h h64 hk' hg hi hij rs' hs' hr'
  refine ⟨bd1, bd2, bd1', bd2', k, k', bytes, bytes', ⟨e1, e2, e3, e4⟩, ⟨f1, f2, f3, f4⟩, ?_⟩
  rw [e7, f7]
  have hp : xs.Perm xs' := (List.perm_ext_iff_of_nodup e5 f5).2 fun x => by rw [e6, f6, hrs]
  unfold Sizes.evaluationKey
  rw [((hp.map _).map _).sum_eq]

/-- C79: the size of an RGSW ciphertext, generated or read. -/
theorem C79_rgsw (hb : b.OK) (h : build b st = Res.ok par.toBfvParameters) (h32 : par.moduli.length ≤ 2 ^ 32) {r : RgswCiphertext} (hr : r.WellFormed g par) :
    ∃ bytes, r.toBytes = some bytes ∧ bytes.length =
      Sizes.rgsw (Sizes.keySwitchingKey par.toBfvParameters r.ksk0.ciphertextLevel r.ksk0.kskLevel r.ksk0.logBase r.ksk0.c0.length r.ksk0.seed.isSome)
        (Sizes.keySwitchingKey par.toBfvParameters r.ksk1.ciphertextLevel r.ksk1.kskLevel r.ksk1.logBase r.ksk1.c0.length r.ksk1.seed.isSome) := by
  obtain ⟨n, hw, -⟩ := build_inv hb h
  obtain ⟨m0, f1, f2⟩ := KeySwitchingKey.size_eq hw h32 hr.fst
  obtain ⟨m1, f3, f4⟩ := KeySwitchingKey.size_eq hw h32 hr.snd
  refine ⟨Wire.encode (RgswCiphertext.toFields ⟨some m0, some m1⟩), by unfold RgswCiphertext.toBytes RgswCiphertext.toMsg; rw [f1, f3]; rfl, ?_⟩
  unfold RgswCiphertext.toFields
  rw [Option.toList_some, Option.toList_some, List.map_singleton, List.map_singleton, Wire.length_encode_append, Wire.length_len (by norm_num), Wire.length_len (by norm_num), f2, f4]
  rfl

/-- C79: an RGSW encryption has the same size for every key and message. -/
theorem C79_rgsw_generated (hb : b.OK) (h : build b st = Res.ok par.toBfvParameters) (h32 : par.moduli.length ≤ 2 ^ 32) (hk : sk.IsKey par s) (hg : g.OK) {pt : Plaintext} (hpt : pt.Holds par i m)
    {seed0 seed1 : Seed} (h0 : seed0.length = 32) (h1 : seed1.length = 32) {rngs0 rngs1 : Nat → Nat → Nat} (hr0 : ∀ i, IsStream (rngs0 i)) (hr1 : ∀ i, IsStream (rngs1 i)) :
    ∃ r bytes, sk.tryEncryptRgsw b g pt seed0 seed1 rngs0 rngs1 = Res.ok r ∧ r.toBytes = some bytes ∧
      bytes.length = Sizes.rgsw (Sizes.generatedKey par.toBfvParameters i i) (Sizes.generatedKey par.toBfvParameters i i) := by
  obtain ⟨n, hw, -⟩ := build_inv hb h
  obtain ⟨r, e1, e2⟩ := C55_rgsw_generated hb h hk hg hpt h0 h1 hr0 hr1
  obtain ⟨bytes, f1, f2⟩ := C79_rgsw hb h h32 e2
  obtain ⟨i', src0, src1, e3, e4, e5⟩ := SecretKey.rgsw_inv e1
  obtain ⟨r', e6, e7, -⟩ := C45_encrypt hb h hk hg hpt seed0 seed1 hr0 hr1
  rw [e1, Res.ok_inj] at e6
  subst e6
  obtain rfl : i' = i := (KeySwitchingKey.new_shape hk.par_eq e4).1.symm.trans e7.fst.level
  exact ⟨r, bytes, e1, f1, by rw [f2, KeySwitchingKey.generated_size hw hk.par_eq e4 e2.fst, KeySwitchingKey.generated_size hw hk.par_eq e5 e2.snd]⟩

/-! ## Secret keys -/

/-- C79: the size of a generated secret key tells how many of its coefficients are 64: of the possible values only this one takes two bytes. -/
theorem C79_secret_key_count (hb : b.OK) (h : build b st = Res.ok par.toBfvParameters) {rng : Nat → Nat} (hr : IsStream rng) :
    ∃ sk, SecretKey.random par rng = some sk ∧ sk.toBytes.length = Sizes.bytesField (par.degree + sk.coeffs.count 64) := by
  obtain ⟨n, hw, -⟩ := build_inv hb h
  obtain ⟨sk, s, h1, h2, h3⟩ := C37_secret_key hb h hr
  have hv := hw.variance
  have hpos : 0 < par.degree := by rw [hw.degree]; positivity
  refine ⟨sk, h1, ?_⟩
  rw [SecretKey.size_eq sk (by intro h0; have := h2.length; rw [h0, List.length_nil] at this; omega), sum_number (fun x hx => ?_), h2.length]
  obtain ⟨j, hj, rfl⟩ := List.getElem_of_mem hx
  have hs := h2.poly
  have hj' : j < par.degree := by rw [← h2.length]; exact hj
  have h4 := h3 ⟨j, hj'⟩
  rw [hs] at h4
  change |sk.coeffs.getD j 0| ≤ _ at h4
  rw [List.getD_eq_getElem _ _ hj, abs_le] at h4
  push_cast at h4
  constructor <;> omega

/-- C79: hence it is determined by the degree, for a variance of at most 31: then no coefficient is 64. -/
theorem C79_secret_key (hb : b.OK) (h : build b st = Res.ok par.toBfvParameters) (hv : par.variance ≤ 31) {rng : Nat → Nat} (hr : IsStream rng) :
    ∃ sk, SecretKey.random par rng = some sk ∧ sk.toBytes.length = Sizes.secretKey par.degree := by
  obtain ⟨sk, s, h1, h2, h3⟩ := C37_secret_key hb h hr
  obtain ⟨sk', h1', h4⟩ := C79_secret_key_count hb h hr
  rw [h1, Option.some_inj] at h1'
  subst h1'
  refine ⟨sk, h1, ?_⟩
  rw [h4, List.count_eq_zero_of_not_mem fun hx => ?_]
  · rfl
  obtain ⟨j, hj, hx⟩ := List.getElem_of_mem hx
  have hs := h2.poly
  have hj' : j < par.degree := by rw [← h2.length]; exact hj
  have h4 := h3 ⟨j, hj'⟩
  rw [hs] at h4
  change |sk.coeffs.getD j 0| ≤ _ at h4
  rw [List.getD_eq_getElem _ _ hj, hx, abs_le] at h4
  push_cast at h4
  omega

/-- C79: but with the variance 32, which the parameters allow, the sizes of two secret keys can differ. -/
theorem C79_secret_key_differ (hb : b.OK) (h : build b st = Res.ok par.toBfvParameters) (hv : par.variance = 32) :
    ∃ rng rng' sk sk', IsStream rng ∧ IsStream rng' ∧ SecretKey.random par rng = some sk ∧ SecretKey.random par rng' = some sk' ∧ sk.toBytes.length ≠ sk'.toBytes.length := by
  obtain ⟨n, hw, -⟩ := build_inv hb h
  have hpos : 0 < par.degree := by rw [hw.degree]; positivity
  obtain ⟨d, hd⟩ : ∃ d, par.degree = d + 1 := ⟨par.degree - 1, by omega⟩
  have hr : IsStream fun i => if i = 0 then 2 ^ 64 - 1 else 0 := fun i => by
    show (if i = 0 then 2 ^ 64 - 1 else 0) < 2 ^ 64
    split <;> norm_num
  have hr' : IsStream fun _ => 0 := fun _ => by norm_num
  obtain ⟨sk, e1, e2⟩ := C79_secret_key_count hb h hr
  obtain ⟨sk', f1, f2⟩ := C79_secret_key_count hb h hr'
  refine ⟨_, _, sk, sk', hr, hr', e1, f1, ?_⟩
  have hrandom : ∀ rng, SecretKey.random par rng = some ⟨par, (cbdPairLoop 32 rng (d + 1) 0).1⟩ := fun rng => by
    unfold SecretKey.random sampleVecCbd
    rw [hv, if_neg (by norm_num), if_neg (by norm_num), hd]; rfl
  have c1 : sk.coeffs = 64 :: List.replicate d 0 := by
    have hz := cbdPairLoop_zero (rng := fun i => if i = 0 then 2 ^ 64 - 1 else 0) (k := d) (pos := 2) fun i hi => if_neg (by omega)
    rw [hrandom, Option.some_inj] at e1
    rw [← e1, ← hz]
    dsimp only
    rw [cbdPairLoop]
    refine congrArg (· :: _) ?_
    decide +kernel
  have c2 : sk'.coeffs = List.replicate (d + 1) 0 := by
    have hz := cbdPairLoop_zero (rng := fun _ => 0) (k := d + 1) (pos := 0) fun i hi => rfl
    rw [hrandom, Option.some_inj] at f1
    rw [← f1]
    exact hz
  rw [e2, f2, c1, c2, List.count_cons_self, List.count_replicate, List.count_replicate]
  have hmono : Sizes.number (par.degree + 0) ≤ Sizes.number (par.degree + 1) := by
    unfold Sizes.number
    rw [Nat.log2_eq_log_two, Nat.log2_eq_log_two]
    have := Nat.log_mono_right (b := 2) (show par.degree + 0 ≤ par.degree + 1 by omega)
    have := Nat.div_le_div_right (c := 7) this
    omega
  simp only [Sizes.bytesField]
  simp at hmono ⊢
  omega

/-! ## Examples -/

/-- The two ciphertexts of the example parameters, of different messages, take 64 bytes each: 30 for the polynomial, of which 22 are its eight coefficients of 7, 7 and 8 bits, and 34
for the seed.  A relinearization key takes three such polynomials and a seed. -/
example : ∃ (par : Par) (sk : SecretKey) (ct ct' : Ciphertext) (k : RelinearizationKey) (bytes bytes' bytes'' : List Nat), build luckyBuild exBuilder = Res.ok par.toBfvParameters ∧ ct ≠ ct' ∧
    ct.toBytes = some bytes ∧ ct'.toBytes = some bytes' ∧ RelinearizationKey.newLeveled luckyBuild exPrg sk 0 0 (List.replicate 32 3) (fun _ => exRng) = Res.ok k ∧ k.toBytes = some bytes'' ∧
    bytes.length = 64 ∧ bytes'.length = 64 ∧ bytes''.length = 126 := by
  obtain ⟨par, sk, s, pt, pt', m, m', ct, ct', v, v', h, hd, ht, hm, hrel, hk, hs, e2, e2', em, em', f1, f1', f2, f2', f3, f3', f4, f4', f5, f6, h0, hvar⟩ := exCipher
  have h32 : par.moduli.length ≤ 2 ^ 32 := by rw [hm]; norm_num
  have hQ : par.plaintext.value ≤ par.modulusAt 0 := by rw [ht, h0]; norm_num
  obtain ⟨c, bytes, g1, g2, g3⟩ := C79_encrypt luckyBuild_ok h h32 hk exPrg_ok hQ e2 (seed := List.replicate 32 7) (by decide) exRng_ok
  obtain ⟨c', bytes', g1', g2', g3'⟩ := C79_encrypt luckyBuild_ok h h32 hk exPrg_ok hQ e2' (seed := List.replicate 32 9) (by decide) exRng_ok
  obtain ⟨k, bytes'', k1, k2, k3⟩ := C79_relinearization_generated (i := 0) (j := 0) luckyBuild_ok h (by rw [hm]; decide) hk exPrg_ok (seed := List.replicate 32 3) (by decide)
    (rngs := fun _ => exRng) (fun _ => exRng_ok) (by rw [hm]; decide) le_rfl (by rw [hm]; decide)
  have hs : c.seed ≠ c'.seed := by
    obtain ⟨x, -, y1, -, -, -, y2, -⟩ := C37_encrypt luckyBuild_ok h hk exPrg_ok hQ e2 (seed := List.replicate 32 7) (by decide) exRng_ok
    obtain ⟨x', -, y1', -, -, -, y2', -⟩ := C37_encrypt luckyBuild_ok h hk exPrg_ok hQ e2' (seed := List.replicate 32 9) (by decide) exRng_ok
    rw [g1, Res.ok_inj] at y1
    rw [g1', Res.ok_inj] at y1'
    rw [y1, y1', y2, y2']
    decide
  refine ⟨par, sk, c, c', k, bytes, bytes', bytes'', h, fun e => hs (by rw [e]), g2, g2', k1, k2, ?_, ?_, ?_⟩
  · rw [g3]; unfold Sizes.ciphertext Sizes.polyAt; rw [hm, hd]; decide
  · rw [g3']; unfold Sizes.ciphertext Sizes.polyAt; rw [hm, hd]; decide
  · rw [k3]; unfold Sizes.generatedKey Sizes.digitBits Sizes.pairs Sizes.keySwitchingKey Sizes.polyAt; rw [hm, hd]; decide +kernel

end Fhe.Props
