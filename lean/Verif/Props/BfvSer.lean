import Verif.Props.BfvEval
import Verif.Props.BfvRgsw
import Verif.Lemmas.BfvSer
/-!
# Properties C28, C47, C55: messages from the network, and serialization of keys

The fields of a decoded message are arbitrary values of their types (`Spec/BfvSer.lean`).
-/
namespace Fhe.Props
open Nega Poly ParamsBuilder

variable {b : Build} {par : Par} {st : ParamsBuilder} {s : IntPoly par.degree} {sk : SecretKey} {g : Prg} {i j : Nat}

/-! ## C28: polynomials -/

/-- C28: reading any message never panics; what is accepted has the requested context and permission, and is a valid polynomial with reduced
coefficients in the representations `Ntt` and `NttShoup`. -/
theorem C28_total {c : Context} {moduli : List Nat} {degree : Nat} (hb : b.OK) (hc : Context.new b moduli degree = some (.ok c)) {m : RqMsg} (hm : m.OK) (r : Rep) (vt : Bool) :
    fromRq r m c vt ≠ none ∧ ∀ p, fromRq r m c vt = some (.ok p) → p.ctx = c ∧ p.vt = vt ∧ (r ≠ .powerBasis → p.Valid) := by
  obtain ⟨f, e1, hw, -⟩ := Context.new_inv hb hc
  subst e1
  rcases fromRq_total hw hm.bytes hm.degree r vt with ⟨e, he⟩ | ⟨p, he, h1, h2, -, h3⟩
  · rw [he]; exact ⟨by simp, fun p hp => by simp at hp⟩
  · rw [he]
    refine ⟨by simp, fun p' hp => ?_⟩
    simp only [Option.some.injEq, Except.ok.injEq] at hp
    subst hp
    exact ⟨h1, h2, h3⟩

/-! ## C47: ciphertexts -/

/-- C47: reading any message as a ciphertext never panics, and what is accepted is well-formed: it has the given parameters, a valid level, at
least two parts, all of them valid polynomials of the level, and the last part is the expansion of the seed if there is one. -/
theorem C47_total (hb : b.OK) (h : build b st = Res.ok par.toBfvParameters) (hg : g.OK) {m : CiphertextMsg} (hm : m.OK) :
    Ciphertext.fromMsg g m par ≠ Res.panic ∧ ∀ ct, Ciphertext.fromMsg g m par = Res.ok ct → ct.WellFormed g par := by
  obtain ⟨n, hw, -⟩ := build_inv hb h
  rcases Ciphertext.fromMsg_total hw hg hm with ⟨e, he⟩ | ⟨ct, he, h1⟩
  · rw [he]; exact ⟨Res.noPanic_err _, fun _ h => absurd h Res.err_ne_ok⟩
  · rw [he]; exact ⟨Res.noPanic_ok _, fun ct' h => by rw [Res.ok_inj] at h; subst h; exact h1⟩

/-! ## C55: relinearization keys -/

/-- C55: reading any message as a public key never panics, and what is accepted is well-formed and of level zero. -/
theorem C55_public_key_total (hb : b.OK) (h : build b st = Res.ok par.toBfvParameters) (hg : g.OK) {m : Option CiphertextMsg} (hm : ∀ x, m = some x → x.OK) :
    PublicKey.fromMsg g m par ≠ Res.panic ∧ ∀ pk, PublicKey.fromMsg g m par = Res.ok pk → pk.par = par ∧ pk.c.WellFormed g par ∧ pk.c.level = 0 := by
  obtain ⟨n, hw, -⟩ := build_inv hb h
  unfold PublicKey.fromMsg
  cases m with
  | none => exact ⟨Res.noPanic_err _, fun _ h => absurd h Res.err_ne_ok⟩
  | some m =>
    simp only []
    rcases Ciphertext.fromMsg_total hw hg (hm m rfl) with ⟨e, he⟩ | ⟨ct, he, h1⟩
    · rw [he, Res.err_bind]; exact ⟨Res.noPanic_err _, fun _ h => absurd h Res.err_ne_ok⟩
    · rw [he, Res.ok_bind]
      by_cases h0 : ct.level ≠ 0
      · rw [if_pos h0]; exact ⟨Res.noPanic_err _, fun _ h => absurd h Res.err_ne_ok⟩
      · rw [if_neg h0]
        refine ⟨Res.noPanic_ok _, fun pk h => ?_⟩
        rw [Res.ok_inj] at h
        subst h
        exact ⟨rfl, h1.disallowVt, by simpa using h0⟩

/-- C55: reading any message as a relinearization key never panics, and what is accepted is well-formed. -/
theorem C55_relin_total (hb : b.OK) (h : build b st = Res.ok par.toBfvParameters) (hg : g.OK) {m : Option KeySwitchingKeyMsg} (hm : ∀ x, m = some x → x.OK) :
    RelinearizationKey.fromMsg g m par ≠ Res.panic ∧ ∀ k, RelinearizationKey.fromMsg g m par = Res.ok k → k.ksk.WellFormed g par := by
  obtain ⟨n, hw, -⟩ := build_inv hb h
  unfold RelinearizationKey.fromMsg
  cases m with
  | none => exact ⟨Res.noPanic_err _, fun _ h => absurd h Res.err_ne_ok⟩
  | some m =>
    simp only []
    rcases KeySwitchingKey.fromMsg_total hw hg (hm m rfl) with ⟨e, he⟩ | ⟨k, he, h1, -⟩
    · rw [he, Res.err_bind]; exact ⟨Res.noPanic_err _, fun _ h => absurd h Res.err_ne_ok⟩
    · rw [he, Res.ok_bind]; exact ⟨Res.noPanic_ok _, fun k' h => by rw [Res.pure_eq, Res.ok_inj] at h; subst h; exact h1⟩

/-- C55: a well-formed relinearization key is read back equal, and it relinearizes for the same secret keys with the same errors. -/
theorem C55_relin_roundtrip (hb : b.OK) (h : build b st = Res.ok par.toBfvParameters) (h32 : par.moduli.length ≤ 2 ^ 32) {k : RelinearizationKey} (hk : k.ksk.WellFormed g par) :
    ∃ msg k', k.toMsg = some msg ∧ RelinearizationKey.fromMsg g msg par = Res.ok k' ∧ k'.ksk.beq k.ksk = true ∧ k'.ksk.par = par ∧ k'.ksk.WellFormed g par ∧
      ∀ (s : IntPoly par.degree) (i j e : Nat), k.IsFor par s i j e → k'.IsFor par s i j e := by
  obtain ⟨n, hw, -⟩ := build_inv hb h
  obtain ⟨msg, e1, e2, -⟩ := KeySwitchingKey.roundtrip_eq hw hk h32
  refine ⟨some msg, ⟨k.ksk.allowVt⟩, ?_, ?_, KeySwitchingKey.allowVt_beq _, hk.par_eq, hk.allowVt, fun s i j e hf => ?_⟩
  · unfold RelinearizationKey.toMsg; rw [e1]; rfl
  · unfold RelinearizationKey.fromMsg; simp only []; rw [e2]; rfl
  · exact KeySwitchingKey.IsFor.beq hw hf (KeySwitchingKey.allowVt_beq _) hk.par_eq

/-- C55: generated relinearization keys are well-formed. -/
theorem C55_relin_generated (hb : b.OK) (h : build b st = Res.ok par.toBfvParameters) (h64 : par.moduli.length ≤ 64) (hk : sk.IsKey par s) (hg : g.OK) {seed : Seed} (hs : seed.length = 32)
    {rngs : Nat → Nat → Nat} (hr : ∀ i, IsStream (rngs i)) (hi : i < par.moduli.length) (hij : j ≤ i) (hj : j + 1 < par.moduli.length) :
    ∃ k, RelinearizationKey.newLeveled b g sk i j seed rngs = Res.ok k ∧ k.ksk.WellFormed g par := by
  obtain ⟨n, hw, -⟩ := build_inv hb h
  obtain ⟨k, e1, e2, e3, e4, -, e5⟩ := RelinearizationKey.newLeveled_eq hw h64 hk hg hi hij hj seed hr
  exact ⟨k, e1, KeySwitchingKey.IsFor.wellFormed hw e2 e3 hs e4 (by simp [e5, hj])⟩

/-! ## C55: Galois keys -/

/-- C55: reading any message as a Galois key never panics, and what is accepted is well-formed. -/
theorem C55_galois_total (hb : b.OK) (h : build b st = Res.ok par.toBfvParameters) (hg : g.OK) {m : Nat × Option KeySwitchingKeyMsg} (hm : ∀ x, m.2 = some x → x.OK) :
    GaloisKey.fromMsg g m par ≠ Res.panic ∧ ∀ k, GaloisKey.fromMsg g m par = Res.ok k → k.WellFormed g par ∧ k.element.exponent = m.1 % (2 * par.degree) := by
  obtain ⟨n, hw, -⟩ := build_inv hb h
  rcases GaloisKey.fromMsg_total hw hg hm with ⟨e, he⟩ | ⟨k, he, h1⟩
  · rw [he]; exact ⟨Res.noPanic_err _, fun _ h => absurd h Res.err_ne_ok⟩
  · rw [he]; exact ⟨Res.noPanic_ok _, fun k' h => by rw [Res.ok_inj] at h; subst h; exact h1⟩

/-- C55: a well-formed Galois key is read back equal, and it is a key of the same automorphism for the same secret keys with the same errors. -/
theorem C55_galois_roundtrip (hb : b.OK) (h : build b st = Res.ok par.toBfvParameters) (h32 : par.moduli.length ≤ 2 ^ 32) {k : GaloisKey} (hk : k.WellFormed g par) :
    ∃ msg k', k.toMsg = some msg ∧ GaloisKey.fromMsg g msg par = Res.ok k' ∧ k'.element = k.element ∧ k'.ksk.beq k.ksk = true ∧ k'.WellFormed g par ∧
      ∀ (s : IntPoly par.degree) (x i j e : Nat), k.IsFor par s x i j e → k'.IsFor par s x i j e := by
  obtain ⟨n, hw, -⟩ := build_inv hb h
  obtain ⟨msg, e1, e2, -⟩ := GaloisKey.roundtrip_eq hw hk h32
  exact ⟨msg, k.allowVt, e1, e2, rfl, KeySwitchingKey.allowVt_beq _, hk.allowVt, fun s x i j e hf => hf.allowVt hw hk.ksk.par_eq⟩

/-- C55: generated Galois keys are well-formed. -/
theorem C55_galois_generated (hb : b.OK) (h : build b st = Res.ok par.toBfvParameters) (h64 : par.moduli.length ≤ 64) (hk : sk.IsKey par s) (hg : g.OK) {seed : Seed} (hs : seed.length = 32)
    {rngs : Nat → Nat → Nat} (hr : ∀ i, IsStream (rngs i)) {x : Nat} (hx : x % 2 = 1) (hi : i < par.moduli.length) (hij : j ≤ i) (hj : j + 1 = par.moduli.length → i = j) :
    ∃ k, GaloisKey.new b g sk x i j seed rngs = Res.ok k ∧ k.WellFormed g par ∧ k.element.exponent = x % (2 * par.degree) := by
  obtain ⟨n, hw, -⟩ := build_inv hb h
  obtain ⟨k, e1, e2, e3, e4, -, e5⟩ := GaloisKey.new_eq hw h64 hk hg hi hij hj hx seed hr
  exact ⟨k, e1, GaloisKey.IsFor.wellFormed hw e2 e3 hs e4 e5⟩

/-! ## C55: evaluation keys -/

/-- C55: reading any message as an evaluation key never panics, and what is accepted is well-formed, with Galois keys exactly for the exponents
in the message. -/
theorem C55_evaluation_total (hb : b.OK) (h : build b st = Res.ok par.toBfvParameters) (hg : g.OK) {m : EvaluationKeyMsg} (hm : ∀ x ∈ m.gk, ∀ k, x.2 = some k → k.OK) (hk : m.keyLevel < 2 ^ 32) :
    EvaluationKey.fromMsg b g m par ≠ Res.panic ∧ ∀ k, EvaluationKey.fromMsg b g m par = Res.ok k → k.WellFormed b g par ∧ k.ciphertextLevel = m.ciphertextLevel ∧ k.keyLevel = m.keyLevel ∧
      ∀ x, (k.gk.lookup x).isSome = true ↔ ∃ y ∈ m.gk, x = y.1 % (2 * par.degree) := by
  obtain ⟨n, hw, -⟩ := build_inv hb h
  rcases EvaluationKey.fromMsg_total hw hg hm hk with ⟨e, he⟩ | ⟨k, he, h1⟩
  · rw [he]; exact ⟨Res.noPanic_err _, fun _ h => absurd h Res.err_ne_ok⟩
  · rw [he]; exact ⟨Res.noPanic_ok _, fun k' h => by rw [Res.ok_inj] at h; subst h; exact h1⟩

/-- C55: a well-formed evaluation key is read back with the same parameters, levels and tables and with equal Galois keys, and it is an
evaluation key for the same secret keys with the same errors. -/
theorem C55_evaluation_roundtrip (hb : b.OK) (h : build b st = Res.ok par.toBfvParameters) (h32 : par.moduli.length ≤ 2 ^ 32) {k : EvaluationKey} (hk : k.WellFormed b g par) :
    ∃ msg k', k.toMsg = some msg ∧ EvaluationKey.fromMsg b g msg par = Res.ok k' ∧ k'.par = par ∧ k'.ciphertextLevel = k.ciphertextLevel ∧ k'.keyLevel = k.keyLevel ∧ k'.rot = k.rot ∧
      k'.monomials = k.monomials ∧
      (∀ x, (k'.gk.lookup x = none ∧ k.gk.lookup x = none) ∨ ∃ gk gk', k.gk.lookup x = some gk ∧ k'.gk.lookup x = some gk' ∧ gk'.element = gk.element ∧ gk'.ksk.beq gk.ksk = true) ∧
      k'.WellFormed b g par ∧ ∀ (s : IntPoly par.degree) (i j e : Nat), k.IsFor par s i j e → k'.IsFor par s i j e := by
  obtain ⟨n, hw, -⟩ := build_inv hb h
  obtain ⟨msg, gk', e1, e2, e3, e4, -⟩ := EvaluationKey.roundtrip_eq hw hk h32
  refine ⟨msg, _, e1, e2, hk.par_eq, rfl, rfl, rfl, rfl, fun x => ?_, ?_, fun s i j e hf => ?_⟩
  · simp only [e4]
    rcases k.gk.lookup x with _ | gk
    · exact .inl ⟨rfl, rfl⟩
    · exact .inr ⟨gk, gk.allowVt, rfl, rfl, rfl, KeySwitchingKey.allowVt_beq _⟩
  · refine ⟨hk.par_eq, hk.lt, hk.key, e3, fun x gk hx => ?_, hk.rot, hk.monomials⟩
    simp only [e4, Option.map_eq_some_iff] at hx
    obtain ⟨gk0, h1, rfl⟩ := hx
    obtain ⟨f1, f2, f3, f4⟩ := hk.gk x gk0 h1
    exact ⟨f1.allowVt, f2, f3, f4⟩
  · refine ⟨hk.par_eq, hf.level, hf.keyLevel, hf.le, hf.lt, hf.rot, fun x gk hx => ?_, hf.monomials⟩
    simp only [e4, Option.map_eq_some_iff] at hx
    obtain ⟨gk0, h1, rfl⟩ := hx
    exact (hf.gk x gk0 h1).allowVt hw (hk.gk x gk0 h1).1.ksk.par_eq

/-- C55: evaluation keys built by the builder are well-formed. -/
theorem C55_evaluation_generated (hb : b.OK) (h : build b st = Res.ok par.toBfvParameters) (h64 : par.moduli.length ≤ 64) (hk : sk.IsKey par s) (hg : g.OK) (hi : i < par.moduli.length)
    (hij : j ≤ i) (rs : List EvaluationRequest) {seeds : Nat → Seed} (hs : ∀ x, (seeds x).length = 32) {rngs : Nat → Nat → Nat → Nat} (hr : ∀ x i, IsStream (rngs x i)) :
    ∃ bd bd' k, EvaluationKeyBuilder.newLeveled b sk i j = Res.ok bd ∧ bd.requests rs = some bd' ∧ bd'.build b g seeds rngs = Res.ok k ∧ k.WellFormed b g par := by
  obtain ⟨n, hw, -⟩ := build_inv hb h
  obtain ⟨bd, e1, e2⟩ := EvaluationKeyBuilder.newLeveled_eq (sk := sk) hw hk.par_eq hi hij
  obtain ⟨bd', e3, e4⟩ := e2.requests hw hk.par_eq (rs' := rs)
  rw [List.nil_append] at e4
  obtain ⟨k, e5, e6, e7, e8, e9, e10, ctx, e11, e12⟩ := EvaluationKeyBuilder.build_eq hw h64 hk hg hi hij e4 seeds hr
  refine ⟨bd, bd', k, e1, e3, e5, e6.par_eq, by rw [e6.level]; exact hi, by rw [e6.keyLevel]; omega, e9, fun x gk hx => ?_, e10, ctx, by rw [e6.level]; exact e11, e12⟩
  obtain ⟨f1, f2, -, f3⟩ := e8 x gk hx
  obtain ⟨g1, g2⟩ := GaloisKey.IsFor.wellFormed hw (e6.gk x gk hx) f1 (hs x) f2 f3
  refine ⟨g1, ?_, by rw [(e6.gk x gk hx).switches.level, e6.level], by rw [(e6.gk x gk hx).switches.keyLevel, e6.keyLevel]⟩
  rw [g2]
  exact Nat.mod_eq_of_lt (EvaluationKeyBuilder.requested_lt hw ((e7 x).1 (by rw [hx]; rfl)))

/-! ## C55: RGSW ciphertexts -/

/-- C55: reading any message as an RGSW ciphertext never panics, and what is accepted is well-formed. -/
theorem C55_rgsw_total (hb : b.OK) (h : build b st = Res.ok par.toBfvParameters) (hg : g.OK) {m : RgswMsg} (hm : ∀ k, m.ksk0 = some k ∨ m.ksk1 = some k → k.OK) :
    RgswCiphertext.fromMsg g m par ≠ Res.panic ∧ ∀ r, RgswCiphertext.fromMsg g m par = Res.ok r → r.WellFormed g par := by
  obtain ⟨n, hw, -⟩ := build_inv hb h
  rcases RgswCiphertext.fromMsg_total hw hg hm with ⟨e, he⟩ | ⟨k, he, h1⟩
  · rw [he]; exact ⟨Res.noPanic_err _, fun _ h => absurd h Res.err_ne_ok⟩
  · rw [he]; exact ⟨Res.noPanic_ok _, fun k' h => by rw [Res.ok_inj] at h; subst h; exact h1⟩

/-- C55: a well-formed RGSW ciphertext is read back equal, and it encrypts the same message with the same errors. -/
theorem C55_rgsw_roundtrip (hb : b.OK) (h : build b st = Res.ok par.toBfvParameters) (h32 : par.moduli.length ≤ 2 ^ 32) {r : RgswCiphertext} (hr : r.WellFormed g par) :
    ∃ msg r', r.toMsg = some msg ∧ RgswCiphertext.fromMsg g msg par = Res.ok r' ∧ r'.ksk0.beq r.ksk0 = true ∧ r'.ksk1.beq r.ksk1 = true ∧ r'.WellFormed g par ∧
      ∀ (s : IntPoly par.degree) (i : Nat) (m : par.Msg) (e : Nat), r.Encrypts par s i m e → r'.Encrypts par s i m e := by
  obtain ⟨n, hw, -⟩ := build_inv hb h
  obtain ⟨msg, e1, e2, -⟩ := RgswCiphertext.roundtrip_eq hw hr h32
  refine ⟨msg, r.allowVt, e1, e2, KeySwitchingKey.allowVt_beq _, KeySwitchingKey.allowVt_beq _, ⟨hr.fst.allowVt, hr.snd.allowVt, hr.levels⟩, fun s i m e hf => ⟨?_, ?_⟩⟩
  · exact KeySwitchingKey.IsFor.beq hw hf.fst (KeySwitchingKey.allowVt_beq _) hr.fst.par_eq
  · exact KeySwitchingKey.IsFor.beq hw hf.snd (KeySwitchingKey.allowVt_beq _) hr.snd.par_eq

/-- C55: RGSW encryptions are well-formed. -/
theorem C55_rgsw_generated (hb : b.OK) (h : build b st = Res.ok par.toBfvParameters) (hk : sk.IsKey par s) (hg : g.OK) {pt : Plaintext} {m : par.Msg} (hpt : pt.Holds par i m)
    {seed0 seed1 : Seed} (h0 : seed0.length = 32) (h1 : seed1.length = 32) {rngs0 rngs1 : Nat → Nat → Nat} (hr0 : ∀ i, IsStream (rngs0 i)) (hr1 : ∀ i, IsStream (rngs1 i)) :
    ∃ r : RgswCiphertext, sk.tryEncryptRgsw b g pt seed0 seed1 rngs0 rngs1 = Res.ok r ∧ r.WellFormed g par := by
  obtain ⟨n, hw, -⟩ := build_inv hb h
  obtain ⟨l, hl, hc⟩ := ParWF.contextAtLevel_iff.1 hpt.ctx
  obtain ⟨r, e1, e2, e3⟩ := SecretKey.tryEncryptRgsw_eq hw (AtLevel.ofGet hw hl) hk hg hpt seed0 seed1 hr0 hr1
  obtain ⟨f1, f2, -, f3⟩ := e3 (r.ksk0, seed0) (by simp)
  obtain ⟨k1, k2, -, k3⟩ := e3 (r.ksk1, seed1) (by simp)
  exact ⟨r, e1, KeySwitchingKey.IsFor.wellFormed hw e2.fst f1 h0 f2 f3, KeySwitchingKey.IsFor.wellFormed hw e2.snd k1 h1 k2 k3,
    by rw [e2.fst.level, e2.fst.keyLevel, e2.snd.level, e2.snd.keyLevel]; exact ⟨rfl, rfl, rfl⟩⟩

/-! ## C55: what is rejected -/

/-- C55: a relinearization key (and, by `C55_nested`, every other key) is rejected if a level does not exist, if a decomposition base is given
for a level with several moduli, if the number of polynomials is not that of the level, or if the seed does not have 32 bytes. -/
theorem C55_relin_rejects (hb : b.OK) (h : build b st = Res.ok par.toBfvParameters) (m : KeySwitchingKeyMsg) :
    RelinearizationKey.fromMsg g none par = Res.err .missingField ∧
    (par.moduli.length ≤ m.kskLevel ∨ par.moduli.length ≤ m.ciphertextLevel → ∃ e, RelinearizationKey.fromMsg g (some m) par = Res.err e) ∧
    (m.kskLevel < par.moduli.length → m.ciphertextLevel < par.moduli.length → m.logBase ≠ 0 → (m.kskLevel + 1 ≠ par.moduli.length ∨ m.ciphertextLevel + 1 ≠ par.moduli.length) →
      RelinearizationKey.fromMsg g (some m) par = Res.err (.invalidDecompositionLevels m.ciphertextLevel m.kskLevel (par.moduli.length - 1))) ∧
    (m.kskLevel < par.moduli.length → m.ciphertextLevel < par.moduli.length → m.logBase = 0 →
      (m.c0.length ≠ par.moduli.length - m.ciphertextLevel →
        RelinearizationKey.fromMsg g (some m) par = Res.err (.wrongPolynomialCount false (par.moduli.length - m.ciphertextLevel) m.c0.length)) ∧
      (m.c0.length = par.moduli.length - m.ciphertextLevel → m.seed = [] → m.c1.length ≠ par.moduli.length - m.ciphertextLevel →
        RelinearizationKey.fromMsg g (some m) par = Res.err (.wrongPolynomialCount true (par.moduli.length - m.ciphertextLevel) m.c1.length)) ∧
      (m.c0.length = par.moduli.length - m.ciphertextLevel → m.seed ≠ [] → m.seed.length ≠ 32 → RelinearizationKey.fromMsg g (some m) par = Res.err (.invalidSeedLength m.seed.length 32))) := by
  obtain ⟨n, hw, -⟩ := build_inv hb h
  have hmax := maxLevel_eq hw
  have key : ∀ e, KeySwitchingKey.fromMsg g m par = Res.err e → RelinearizationKey.fromMsg g (some m) par = Res.err e := fun e he => by
    unfold RelinearizationKey.fromMsg; simp only []; rw [he, Res.err_bind]
  refine ⟨rfl, fun hl => ?_, fun h1 h2 h3 h4 => key _ ?_, fun h1 h2 h3 => ?_⟩
  · suffices ∃ e, KeySwitchingKey.fromMsg g m par = Res.err e from this.imp key
    unfold KeySwitchingKey.fromMsg
    rcases contextAtLevel_cases hw m.kskLevel with ⟨l, ha⟩ | ⟨-, e, he⟩
    · rw [ha.contextAt, Res.ok_bind]
      rcases contextAtLevel_cases hw m.ciphertextLevel with ⟨l', ha'⟩ | ⟨-, e, he⟩
      · have := ha.lt; have := ha'.lt; omega
      · exact ⟨e, by rw [he, Res.err_bind]⟩
    · exact ⟨e, by rw [he, Res.err_bind]⟩
  · obtain ⟨l, ha⟩ := AtLevel.ofLt (par := par) hw h1
    obtain ⟨l', ha'⟩ := AtLevel.ofLt (par := par) hw h2
    unfold KeySwitchingKey.fromMsg KeySwitchingKey.expectedCount
    rw [ha.contextAt, Res.ok_bind, ha'.contextAt, Res.ok_bind, if_pos h3, hmax, Res.lift_some, Res.ok_bind, if_pos (by omega), Res.err_bind]
  · obtain ⟨l, ha⟩ := AtLevel.ofLt (par := par) hw h1
    obtain ⟨l', ha'⟩ := AtLevel.ofLt (par := par) hw h2
    have hlen : l'.ctx.moduli.length = par.moduli.length - m.ciphertextLevel := ha'.length
    have hk : ∀ e, (if m.c0.length ≠ par.moduli.length - m.ciphertextLevel then Res.err (.wrongPolynomialCount false (par.moduli.length - m.ciphertextLevel) m.c0.length)
        else if m.seed = [] ∧ m.c1.length ≠ par.moduli.length - m.ciphertextLevel then Res.err (.wrongPolynomialCount true (par.moduli.length - m.ciphertextLevel) m.c1.length)
        else if m.seed ≠ [] ∧ m.seed.length ≠ 32 then Res.err (.invalidSeedLength m.seed.length 32) else Res.ok ()) = Res.err e →
        RelinearizationKey.fromMsg g (some m) par = Res.err e := fun e he => by
      refine key e ?_
      unfold KeySwitchingKey.fromMsg KeySwitchingKey.expectedCount
      rw [ha.contextAt, Res.ok_bind, ha'.contextAt, Res.ok_bind, if_neg (by simp [h3]), Res.ok_bind, hlen]
      by_cases c1 : m.c0.length ≠ par.moduli.length - m.ciphertextLevel
      · rw [if_pos c1] at he ⊢; rw [Res.err_inj] at he ⊢; exact he
      rw [if_neg c1] at he ⊢
      by_cases c2 : m.seed = [] ∧ m.c1.length ≠ par.moduli.length - m.ciphertextLevel
      · rw [if_pos c2] at he ⊢; rw [Res.err_inj] at he ⊢; exact he
      rw [if_neg c2] at he ⊢
      by_cases c3 : m.seed ≠ [] ∧ m.seed.length ≠ 32
      · rw [if_pos c3] at he ⊢; rw [Res.err_inj] at he ⊢; exact he
      rw [if_neg c3] at he
      exact absurd he.symm Res.err_ne_ok
    refine ⟨fun g1 => hk _ (by rw [if_pos g1]), fun g1 g2 g3 => hk _ (by rw [if_neg (by simp [g1]), if_pos ⟨g2, g3⟩]),
      fun g1 g2 g3 => hk _ (by rw [if_neg (by simp [g1]), if_neg (by simp [g2]), if_pos ⟨g2, g3⟩])⟩

/-- C55: the other keys contain key-switching keys: they are rejected if one of these is missing or rejected; a Galois key if its exponent is
even; an evaluation key if a Galois key is not at its levels; and an RGSW ciphertext if the levels of its keys are not all equal. -/
theorem C55_nested (hb : b.OK) (h : build b st = Res.ok par.toBfvParameters) :
    (∀ x, GaloisKey.fromMsg g (x, none) par = Res.err .missingField) ∧
    (∀ x m e, RelinearizationKey.fromMsg g (some m) par = Res.err e → GaloisKey.fromMsg g (x, some m) par = Res.err e) ∧
    (∀ x m k, RelinearizationKey.fromMsg g (some m) par = Res.ok k → x % 2 = 0 → ∃ e, GaloisKey.fromMsg g (x, some m) par = Res.err (.math e)) ∧
    (∀ m : EvaluationKeyMsg, (∃ x ∈ m.gk, ∀ k, GaloisKey.fromMsg g x par = Res.ok k → k.ksk.ciphertextLevel ≠ m.ciphertextLevel ∨ k.ksk.kskLevel ≠ m.keyLevel) →
      ∀ k, EvaluationKey.fromMsg b g m par ≠ Res.ok k) ∧
    (∀ m : EvaluationKeyMsg, par.moduli.length ≤ m.ciphertextLevel → ∀ k, EvaluationKey.fromMsg b g m par ≠ Res.ok k) ∧
    (∀ m, RgswCiphertext.fromMsg g ⟨none, m⟩ par = Res.err .missingField) ∧
    (∀ m k, RelinearizationKey.fromMsg g (some m) par = Res.ok k → RgswCiphertext.fromMsg g ⟨some m, none⟩ par = Res.err .missingField) ∧
    (∀ m m' e, RelinearizationKey.fromMsg g (some m) par = Res.err e → RgswCiphertext.fromMsg g ⟨some m, m'⟩ par = Res.err e) ∧
    (∀ m k m' e, RelinearizationKey.fromMsg g (some m) par = Res.ok k → RelinearizationKey.fromMsg g (some m') par = Res.err e → RgswCiphertext.fromMsg g ⟨some m, some m'⟩ par = Res.err e) ∧
    (∀ m k m' k', RelinearizationKey.fromMsg g (some m) par = Res.ok k → RelinearizationKey.fromMsg g (some m') par = Res.ok k' →
      (k.ksk.kskLevel ≠ k.ksk.ciphertextLevel ∨ k'.ksk.ciphertextLevel ≠ k.ksk.ciphertextLevel ∨ k'.ksk.kskLevel ≠ k'.ksk.ciphertextLevel) →
      RgswCiphertext.fromMsg g ⟨some m, some m'⟩ par = Res.err .inconsistentKeySwitchingLevels) := by
  obtain ⟨n, hw, -⟩ := build_inv hb h
  have kerr : ∀ m e, RelinearizationKey.fromMsg g (some m) par = Res.err e → KeySwitchingKey.fromMsg g m par = Res.err e := fun m e he => by
    unfold RelinearizationKey.fromMsg at he
    simp only [Res.bind_eq_err] at he
    rcases he with he | ⟨k, -, he⟩
    · exact he
    · exact absurd he.symm Res.err_ne_ok
  have kok : ∀ m k, RelinearizationKey.fromMsg g (some m) par = Res.ok k → KeySwitchingKey.fromMsg g m par = Res.ok k.ksk := fun m k he => by
    unfold RelinearizationKey.fromMsg at he
    simp only [Res.bind_eq_ok] at he
    obtain ⟨k', h1, h2⟩ := he
    rw [Res.pure_eq, Res.ok_inj] at h2
    subst h2
    exact h1
  refine ⟨fun x => rfl, fun x m e he => ?_, fun x m k he hx => ?_, fun m hm k hk => ?_, fun m hm k hk => ?_, fun m => rfl, fun m k hk => ?_, fun m m' e he => ?_, fun m k m' e hk he => ?_,
    fun m k m' k' hk hk' hl => ?_⟩
  · unfold GaloisKey.fromMsg; simp only []; rw [kerr _ _ he, Res.err_bind]
  · have hk := kok _ _ he
    obtain ⟨h1, c, h2⟩ := KeySwitchingKey.fromMsg_level hk
    obtain ⟨l, ha, hl⟩ := AtLevel.ofContext hw h2
    unfold GaloisKey.fromMsg
    simp only []
    rw [hk, Res.ok_bind, h1, h2, Res.ok_bind, SubstExponent.new_even (hl ▸ ha.wf) hx, Res.math_err, Res.err_bind]
    exact ⟨_, rfl⟩
  · obtain ⟨x, hx, hall⟩ := hm
    unfold EvaluationKey.fromMsg at hk
    simp only [Res.bind_eq_ok] at hk
    obtain ⟨gk, h1, -⟩ := hk
    obtain ⟨k', g1, g2, g3⟩ := EvaluationKey.readKeys_inv h1 x hx
    rcases hall k' g1 with h | h
    · exact h g2
    · exact h g3
  · unfold EvaluationKey.fromMsg at hk
    simp only [Res.bind_eq_ok] at hk
    obtain ⟨gk, -, ctx, h2, -⟩ := hk
    obtain ⟨l, ha, -⟩ := AtLevel.ofContext hw h2
    have := ha.lt
    omega
  · unfold RgswCiphertext.fromMsg; simp only []; rw [kok _ _ hk, Res.ok_bind]
  · unfold RgswCiphertext.fromMsg; simp only []; rw [kerr _ _ he, Res.err_bind]
  · unfold RgswCiphertext.fromMsg; simp only []; rw [kok _ _ hk, Res.ok_bind]; rw [kerr _ _ he, Res.err_bind]
  · unfold RgswCiphertext.fromMsg; simp only []; rw [kok _ _ hk, Res.ok_bind]; rw [kok _ _ hk', Res.ok_bind, if_pos (by omega)]

/-! ## C55: what is not checked -/

/-- C55, a limitation of the code: the decomposition base of a key is not checked.  For every parameter set there is a message that is accepted
as a relinearization key of the last level, with which the relinearization of any ciphertext of that level panics, instead of answering with
an error. -/
theorem C55_unchecked_base (hb : b.OK) (h : build b st = Res.ok par.toBfvParameters) (h32 : par.moduli.length ≤ 2 ^ 32) :
    ∃ (k : RelinearizationKey) (msg : Option KeySwitchingKeyMsg), RelinearizationKey.fromMsg g msg par = Res.ok k ∧ k.ksk.WellFormed g par ∧
      ∀ ct : Ciphertext, ct.validateFor par = Res.ok () → ct.c.length = 3 → ct.level + 1 = par.moduli.length → (∀ p ∈ ct.c, p.Valid) → k.relinearizes ct = Res.panic := by
  obtain ⟨n, hw, -⟩ := build_inv hb h
  have hpos := List.length_pos_of_ne_nil hw.ne_nil
  obtain ⟨l, ha⟩ := AtLevel.ofLt (par := par) hw (i := par.moduli.length - 1) (by omega)
  obtain ⟨q, hq⟩ : ∃ q, l.ctx.moduli = [q] := List.length_eq_one_iff.1 (by rw [ha.length]; omega)
  have hmod := ha.wf.supported.range q (by rw [hq]; simp)
  have hlog : RnsScaler.ceilLog2 q ≤ 62 ∧ 1 ≤ RnsScaler.ceilLog2 q := by
    obtain ⟨g1, g2⟩ := RnsScaler.ceilLog2_spec (a := q) (by omega)
    constructor
    · by_contra hc
      have : 2 ^ 63 ≤ 2 ^ RnsScaler.ceilLog2 q := Nat.pow_le_pow_right (by norm_num) (by omega)
      omega
    · by_contra hc
      rw [show RnsScaler.ceilLog2 q = 0 by omega] at g1
      omega
  have hz := isMod_encI (r := .nttShoup) (vt := true) ha.wf ha.deg (0 : IntPoly par.degree)
  generalize encI l.ctx .nttShoup true (0 : IntPoly par.degree) = z at hz
  obtain ⟨k, hkd⟩ : ∃ k : KeySwitchingKey, k = ⟨par, none, [z], [z], par.moduli.length - 1, l.ctx, par.moduli.length - 1, l.ctx, 64⟩ := ⟨_, rfl⟩
  have hk : k.WellFormed g par := by
    subst hkd
    refine ⟨rfl, ha.contextAt, ha.contextAt, by norm_num, .inr ⟨by norm_num, q, hq, hq, ?_⟩, rfl, ?_, fun seed hs => by simp at hs⟩
    · show 1 = (RnsScaler.ceilLog2 q + 64 - 1) / 64
      omega
    · intro p hp
      simp only [List.cons_append, List.nil_append, List.mem_cons, List.not_mem_nil, or_false, or_self] at hp
      subst hp
      exact ⟨hz.valid, hz.ctx⟩
  obtain ⟨msg, e1, e2, -⟩ := KeySwitchingKey.roundtrip_eq hw hk h32
  refine ⟨⟨k.allowVt⟩, some msg, by unfold RelinearizationKey.fromMsg; simp only []; rw [e2]; rfl, hk.allowVt, fun ct hv h3 hl hval => ?_⟩
  have hkp : k.allowVt.par = par := hk.par_eq
  have hkl : k.allowVt.ciphertextLevel = par.moduli.length - 1 := by rw [hkd]; rfl
  have hkc : k.allowVt.ctxCiphertext = l.ctx := by rw [hkd]; rfl
  have hkb : k.allowVt.logBase = 64 := by rw [hkd]; rfl
  obtain ⟨-, -, -, f4⟩ := ((C48_validate hb h ct).2).1 hv
  obtain ⟨x0, x1, x2, hx⟩ : ∃ x0 x1 x2, ct.c = [x0, x1, x2] := List.length_eq_three.1 h3
  have hc2 : x2.ctx = l.ctx := by
    have := f4 x2 (by rw [hx]; simp)
    rw [show ct.level = par.moduli.length - 1 by omega, ha.contextAt, Res.ok_inj] at this
    exact this.symm
  obtain ⟨F, hF, -⟩ := exists_encI ha.wf ha.deg hc2 (hval x2 (by rw [hx]; simp))
  unfold RelinearizationKey.relinearizes
  rw [hkp, hv, Res.ok_bind, hx]
  simp only []
  rw [if_neg (by rw [hkl]; omega), hF, nttToPowerBasis_encI ha.wf, Res.lift_some, Res.ok_bind]
  have : k.allowVt.keySwitch (encI l.ctx .powerBasis x2.vt F) = Res.panic := by
    unfold KeySwitchingKey.keySwitch KeySwitchingKey.keySwitchDecomposition
    rw [if_pos (by rw [hkb]; norm_num), hkc, hkb]
    have hctx : (encI l.ctx .powerBasis x2.vt F).ctx = l.ctx := rfl
    rw [if_neg (by rw [hctx]; simp), hctx, hq]
    simp only [List.head?_cons, Res.lift_some, Res.ok_bind]
    unfold logModulus
    rw [check_eq (show q ≤ 2 ^ 63 by omega)]
    simp only [Option.bind_eq_bind, Option.bind_some, Option.pure_def, Res.lift_some, Res.ok_bind]
    rfl
  rw [this, Res.panic_bind]

/-! ## Witnesses -/

example : ∃ (par : Par) (sk : SecretKey) (s : IntPoly par.degree), sk.IsKey par s ∧
    (∃ k k' msg, RelinearizationKey.newLeveled luckyBuild exPrg sk 1 0 (List.replicate 32 3) (fun _ => exRng) = Res.ok k ∧ k.toMsg = some msg ∧ RelinearizationKey.fromMsg exPrg msg par = Res.ok k' ∧
      k'.ksk.c0.length = 2 ∧ k'.IsFor par s 1 0 2) ∧
    (∃ k k' msg, GaloisKey.new luckyBuild exPrg sk 19 2 2 (List.replicate 32 3) (fun _ => exRng) = Res.ok k ∧ k.toMsg = some msg ∧ GaloisKey.fromMsg exPrg msg par = Res.ok k' ∧ k'.element.exponent = 3) ∧
    (∃ bd bd' k k' msg, EvaluationKeyBuilder.newLeveled luckyBuild sk 0 0 = Res.ok bd ∧ bd.requests [.columns 3, .innerSum] = some bd' ∧
      bd'.build luckyBuild exPrg (fun _ => List.replicate 32 3) (fun _ _ => exRng) = Res.ok k ∧ k.toMsg = some msg ∧ EvaluationKey.fromMsg luckyBuild exPrg msg par = Res.ok k') ∧
    (∃ pt r r' msg, sk.tryEncryptRgsw luckyBuild exPrg pt (List.replicate 32 3) (List.replicate 32 4) (fun _ => exRng) (fun _ => exRng) = Res.ok r ∧ r.toMsg = some msg ∧
      RgswCiphertext.fromMsg exPrg msg par = Res.ok r') ∧
    ∃ k msg ct, RelinearizationKey.fromMsg exPrg msg par = Res.ok k ∧ ct.WellFormed exPrg par ∧ k.relinearizes ct = Res.panic := by
  obtain ⟨par, sk, s, pt, pt', m, m', ct, ct', v, v', h, hd, ht, hm, hrel, hk, hs, e2, e2', em, em', f1, f1', f2, f2', f3, f3', f4, f4', f5, f6, h0, hvar⟩ := exCipher
  have hb := luckyBuild_ok
  have h64 : par.moduli.length ≤ 64 := by rw [hm]; decide
  have h32 : par.moduli.length ≤ 2 ^ 32 := by rw [hm]; decide
  refine ⟨par, sk, s, hk, ?_, ?_, ?_, ?_, ?_⟩
  · obtain ⟨k, g1, g2⟩ := C55_relin_generated (i := 1) (j := 0) hb h h64 hk exPrg_ok (seed := List.replicate 32 3) rfl (rngs := fun _ => exRng) (fun _ => exRng_ok) (by rw [hm]; decide) (by omega) (by rw [hm]; decide)
    obtain ⟨msg, k', k1, k2, k3, k4, k5, k6⟩ := C55_relin_roundtrip hb h h32 g2
    obtain ⟨k0, g3, g4, -⟩ := (C41_new (i := 1) (j := 0) hb h h64 hk exPrg_ok (List.replicate 32 3) (rngs := fun _ => exRng) (fun _ => exRng_ok)).1 (by rw [hm]; decide) (by omega) (by rw [hm]; decide)
    rw [g1, Res.ok_inj] at g3
    subst g3
    rw [hvar] at g4
    have hf := k6 s 1 0 _ g4
    refine ⟨k, k', msg, g1, k1, k2, ?_, hf⟩
    obtain ⟨n, hw, -⟩ := build_inv hb h
    rcases k5.count with ⟨-, hc⟩ | ⟨-, q, hq, hq', -⟩
    · rw [hc]
      have h1 := k5.ctx
      obtain ⟨l, ha, hl⟩ := AtLevel.ofContext hw h1
      rw [← hl, ha.length, hm, hf.level]
      rfl
    · exfalso
      obtain ⟨l, ha, hl⟩ := AtLevel.ofContext hw k5.ctxKsk
      have := ha.length
      rw [hl, hq', hm, hf.keyLevel] at this
      simp at this
  · obtain ⟨k, g1, g2, g3⟩ := C55_galois_generated (x := 19) (i := 2) (j := 2) hb h h64 hk exPrg_ok (seed := List.replicate 32 3) rfl (rngs := fun _ => exRng) (fun _ => exRng_ok) rfl (by rw [hm]; decide) (by omega)
      (by omega)
    obtain ⟨msg, k', k1, k2, k3, -⟩ := C55_galois_roundtrip hb h h32 g2
    exact ⟨k, k', msg, g1, k1, k2, by rw [k3, g3, hd]⟩
  · obtain ⟨bd, bd', k, g1, g2, g3, g4⟩ := C55_evaluation_generated (i := 0) (j := 0) hb h h64 hk exPrg_ok (by rw [hm]; decide) (by omega) [.columns 3, .innerSum] (seeds := fun _ => List.replicate 32 3) (fun _ => rfl)
      (rngs := fun _ _ => exRng) (fun _ _ => exRng_ok)
    obtain ⟨msg, k', k1, k2, -⟩ := C55_evaluation_roundtrip hb h h32 g4
    exact ⟨bd, bd', k, k', msg, g1, g2, g3, k1, k2⟩
  · obtain ⟨r, g1, g2⟩ := C55_rgsw_generated hb h hk exPrg_ok e2 (seed0 := List.replicate 32 3) (seed1 := List.replicate 32 4) rfl rfl (rngs0 := fun _ => exRng) (rngs1 := fun _ => exRng) (fun _ => exRng_ok) (fun _ => exRng_ok)
    obtain ⟨msg, k', k1, k2, -⟩ := C55_rgsw_roundtrip hb h h32 g2
    exact ⟨pt, r, k', msg, g1, k1, k2⟩
  · obtain ⟨k, msg, g1, -, g2⟩ := C55_unchecked_base (g := exPrg) hb h h32
    obtain ⟨n, hw, -⟩ := build_inv hb h
    obtain ⟨l, ha⟩ := AtLevel.ofLt (par := par) hw (i := 2) (by rw [hm]; decide)
    have hz := isMod_encI (r := .ntt) (vt := true) ha.wf ha.deg (0 : IntPoly par.degree)
    generalize encI l.ctx .ntt true (0 : IntPoly par.degree) = z at hz
    have hall : ∀ p ∈ [z, z, z], p.Valid ∧ p.ctx = l.ctx := fun p hp => by
      simp only [List.mem_cons, List.not_mem_nil, or_false, or_self] at hp
      subst hp
      exact ⟨hz.valid, hz.ctx⟩
    refine ⟨k, msg, ⟨par, none, [z, z, z], 2⟩, g1, ⟨rfl, by rw [hm]; norm_num, by simp, fun p hp => ⟨(hall p hp).1, by rw [(hall p hp).2]; exact ha.contextAt⟩, fun _ hs => by simp at hs⟩, g2 _ ?_ rfl (by rw [hm]; rfl) fun p hp => (hall p hp).1⟩
    exact ((C48_validate hb h _).2).2 ⟨by simp [Par.ptrEq], by rw [hm]; norm_num, by simp, fun p hp => by rw [(hall p hp).2]; exact ha.contextAt⟩

end Fhe.Props
