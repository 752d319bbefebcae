import Verif.Spec.Answers
import Verif.Props.Robust
import Verif.Props.BfvMultiplicator
/-!
# C93: operations refuse exactly what they cannot do, and say why
-/
namespace Fhe.Props
open Nega Poly ParamsBuilder Ciphertext

variable {b : Build} {par : Par} {st : ParamsBuilder} {s : IntPoly par.degree} {sk : SecretKey} {i j e : Nat} {ct ct' : Ciphertext} {m : par.Msg}

theorem validateFor_foreign (h : ct.par.ptrEq par = false) : ct.validateFor par = Res.err (.parameterMismatch .ciphertext .parameters) := by
  unfold Ciphertext.validateFor
  rw [if_pos h]

/-- C93: switching to the next level is refused at the last level only; switching to a given level, if there is no such level or it is an earlier
one; the error names the levels that could have been asked for. -/
theorem C93_switch (hb : b.OK) (h : build b st = Res.ok par.toBfvParameters) (hct : ct.Usable par) :
    Answers ct.switchDown [(ct.level + 1 = par.moduli.length, .math .noMoreContext)] ∧
    ∀ target, Answers (ct.switchToLevel target) [(target < ct.level ∨ par.moduli.length ≤ target, .invalidLevel target ct.level (par.moduli.length - 1))] := by
  obtain ⟨n, hw, -⟩ := build_inv hb h
  obtain ⟨m, v, he⟩ := hct.encrypts hw 0
  have hlev := hct.level
  refine ⟨⟨fun hl => C46_last hb h hct.par_eq (by omega), fun hl => ?_⟩, fun target => ⟨fun ht => C46_rejects hb h hct.par_eq ht, fun ht => ?_⟩⟩
  · obtain ⟨r, v', q, δ, e1, -⟩ := C46_switch_down hb h he (by omega)
    exact ⟨r, e1⟩
  · obtain ⟨V, hV⟩ := IntPoly.exists_bound v
    obtain ⟨r, v', e1, -⟩ := C46_switch_to_level hb h he (target := target) (by omega) (by omega) (S := 0) (fun t => by simp) hV
    exact ⟨r, e1⟩

/-- C93: relinearization with a key for level `i` refuses ciphertexts of other parameters, without exactly three parts, or of another level. -/
theorem C93_relinearize (hb : b.OK) (h : build b st = Res.ok par.toBfvParameters) {k : RelinearizationKey} (hk : k.IsFor par s i j e) (hct : ct.Usable par ∨ ct.par.ptrEq par = false) :
    Answers (k.relinearizes ct) [(ct.par.ptrEq par = false, .parameterMismatch .ciphertext .parameters), (ct.c.length ≠ 3, .invalidPolynomialCount .relinearization ct.c.length 3),
      (ct.level ≠ i, .invalidLevel ct.level i i)] := by
  obtain ⟨n, hw, -⟩ := build_inv hb h
  obtain ⟨E, hE, -⟩ := hk.switches
  refine ⟨fun hf => ?_, fun hf => ?_⟩
  · unfold RelinearizationKey.relinearizes
    rw [hE.par_eq, validateFor_foreign hf, Res.err_bind]
  · have hu := hct.resolve_right hf
    refine ⟨fun h3 => ?_, fun h3 => ⟨fun hl => ?_, fun hl => ?_⟩⟩
    · unfold RelinearizationKey.relinearizes
      rw [hE.par_eq, hu.validateFor hw, Res.ok_bind]
      split
      · rename_i x0 x1 x2 hx
        exact absurd (by rw [hx]; rfl) h3
      · rfl
    · unfold RelinearizationKey.relinearizes
      rw [hE.par_eq, hu.validateFor hw, Res.ok_bind]
      split
      · rw [hk.level, if_pos hl]
      · rename_i hx
        exfalso
        rw [not_not] at h3
        obtain ⟨x, y, z, hc⟩ := List.length_eq_three.1 h3
        exact hx x y z hc
    · rw [not_not] at h3 hl
      obtain ⟨m, v, he⟩ := hu.encrypts hw s
      rw [hl] at he
      obtain ⟨r, W, e1, -⟩ := C41_relinearize hb h hk he h3
      exact ⟨r, e1⟩

/-- C93: the operations of an evaluation key for level `i` refuse ciphertexts of other parameters, without exactly two parts, or of another level;
operations the key does not support; and expansions to no ciphertext or to more than the degree. -/
theorem C93_evaluate (hb : b.OK) (h : build b st = Res.ok par.toBfvParameters) {k : EvaluationKey} (hk : k.IsFor par s i j e) (hct : ct.Usable par ∨ ct.par.ptrEq par = false) :
    Answers (k.rotatesRows ct) [(ct.par.ptrEq par = false, .parameterMismatch .ciphertext .parameters), (ct.c.length ≠ 2, .invalidPolynomialCount .evaluationKey ct.c.length 2),
      (ct.level ≠ i, .invalidLevel ct.level i i), (k.supportsRowRotation = false, .unsupported .rowRotation)] ∧
    (∀ t, Answers (k.rotatesColumnsBy ct t) [(ct.par.ptrEq par = false, .parameterMismatch .ciphertext .parameters), (ct.c.length ≠ 2, .invalidPolynomialCount .evaluationKey ct.c.length 2),
      (ct.level ≠ i, .invalidLevel ct.level i i), (k.supportsColumnRotationBy t = false, .unsupported (.columnRotation t))]) ∧
    Answers (k.computesInnerSum ct) [(ct.par.ptrEq par = false, .parameterMismatch .ciphertext .parameters), (ct.c.length ≠ 2, .invalidPolynomialCount .evaluationKey ct.c.length 2),
      (ct.level ≠ i, .invalidLevel ct.level i i), (k.supportsInnerSum = some false, .unsupported .innerSum)] ∧
    ∀ size, Answers (k.expands ct size) [(ct.par.ptrEq par = false, .parameterMismatch .ciphertext .parameters), (ct.c.length ≠ 2, .invalidPolynomialCount .evaluationKey ct.c.length 2),
      (ct.level ≠ i, .invalidLevel ct.level i i), (size = 0 ∨ par.degree < size, .invalidExpansionSize size par.degree),
      (k.supportsExpansion (RnsScaler.ceilLog2 size) = some false, .unsupported (.expansion (RnsScaler.ceilLog2 size)))] := by
  obtain ⟨n, hw, -⟩ := build_inv hb h
  have key : (ct.par.ptrEq par = false → k.validateCiphertext ct = Res.err (.parameterMismatch .ciphertext .parameters)) ∧ (¬ ct.par.ptrEq par = false →
      (ct.c.length ≠ 2 → k.validateCiphertext ct = Res.err (.invalidPolynomialCount .evaluationKey ct.c.length 2)) ∧ (¬ ct.c.length ≠ 2 →
      (ct.level ≠ i → k.validateCiphertext ct = Res.err (.invalidLevel ct.level i i)) ∧ (¬ ct.level ≠ i → Accepted par i ct ∧ ct.Usable par))) := by
    unfold EvaluationKey.validateCiphertext
    rw [hk.par_eq]
    refine ⟨fun hf => by rw [validateFor_foreign hf, Res.err_bind], fun hf => ?_⟩
    have hu := hct.resolve_right hf
    rw [hu.validateFor hw, Res.ok_bind]
    refine ⟨fun h2 => by rw [if_pos h2], fun h2 => ⟨fun hl => by rw [if_neg h2, hk.level, if_pos hl], fun hl => ?_⟩⟩
    rw [not_not] at h2 hl
    exact ⟨⟨hu.validateFor hw, h2, hl⟩, hu⟩
  have hopen : Accepted par i ct ∧ ct.Usable par → _ := fun ha => (C50_operations hb h hk (fun _ => ha.2.par_eq) fun p hp => (ha.2.valid p hp).1).2 ha.1
  have lift4 : ∀ {α : Type} {r : Res α} {rest : List (Prop × FheError)}, (∀ e, k.validateCiphertext ct = Res.err e → r = Res.err e) → (Accepted par i ct ∧ ct.Usable par → Answers r rest) →
      Answers r ((ct.par.ptrEq par = false, .parameterMismatch .ciphertext .parameters) :: (ct.c.length ≠ 2, .invalidPolynomialCount .evaluationKey ct.c.length 2) ::
        (ct.level ≠ i, .invalidLevel ct.level i i) :: rest) := fun h1 h2 =>
    ⟨fun hf => h1 _ (key.1 hf), fun hf => ⟨fun hl => h1 _ ((key.2 hf).1 hl), fun hl => ⟨fun hi => h1 _ (((key.2 hf).2 hl).1 hi), fun hi => h2 (((key.2 hf).2 hl).2 hi)⟩⟩⟩
  refine ⟨lift4 (fun e he => ?_) fun ha => ?_, fun t => lift4 (fun e he => ?_) fun ha => ?_, lift4 (fun e he => ?_) fun ha => ?_, fun size => lift4 (fun e he => ?_) fun ha => ?_⟩
  · unfold EvaluationKey.rotatesRows; rw [he, Res.err_bind]
  · rcases (hopen ha).2.1 with ⟨h1, h2⟩ | ⟨h1, h2⟩
    · exact ⟨fun hc => by (rw [h1] at hc; cases hc), fun _ => h2⟩
    · exact ⟨fun _ => h2, fun hc => absurd h1 hc⟩
  · unfold EvaluationKey.rotatesColumnsBy; rw [he, Res.err_bind]
  · rcases (hopen ha).2.2.1 t with ⟨h1, h2⟩ | ⟨h1, h2⟩
    · exact ⟨fun hc => by (rw [h1] at hc; cases hc), fun _ => h2⟩
    · exact ⟨fun _ => h2, fun hc => absurd h1 hc⟩
  · unfold EvaluationKey.computesInnerSum; rw [he, Res.err_bind]
  · rcases (hopen ha).1 with ⟨h1, h2⟩ | ⟨h1, h2⟩
    · exact ⟨fun hc => by (rw [h1] at hc; cases hc), fun _ => h2⟩
    · exact ⟨fun _ => h2, fun hc => absurd h1 hc⟩
  · unfold EvaluationKey.expands; rw [he, Res.err_bind]
  · refine ⟨(hopen ha).2.2.2.2 size, fun hs => ?_⟩
    rcases (hopen ha).2.2.2.1 size (by omega) (by omega) with ⟨h1, r, h2, -⟩ | ⟨h1, h2⟩
    · exact ⟨fun hc => by (rw [h1] at hc; cases hc), fun _ => ⟨r, h2⟩⟩
    · exact ⟨fun _ => h2, fun hc => absurd h1 hc⟩

/-- C93: multiplication refuses factors of other parameters, of another level than that of its key, or without exactly two parts each.  Switching to
the next level after each product is refused at the last level only, and is the only difference it makes. -/
theorem C93_multiply (hb : b.OK) (h : build b st = Res.ok par.toBfvParameters) (hcount : par.moduli.length ≤ 31) (hsum : par.moduli.sum ≤ 2 ^ 65) {rk : RelinearizationKey} (hk : rk.IsFor par s i j e)
    {mp : Multiplicator} (hmp : Multiplicator.default b rk = Res.ok mp) (hct : ct.Usable par ∨ ct.par.ptrEq par = false) (hct' : ct'.Usable par ∨ ct'.par.ptrEq par = false) :
    Answers mp.enableModSwitching [(i + 1 = par.moduli.length, .math .noMoreContext)] ∧
    ∀ mp', mp' = mp ∨ mp.enableModSwitching = Res.ok mp' →
      Answers (mp'.multiply ct ct') [(ct.par.ptrEq par = false, .parameterMismatch .ciphertext .parameters), (ct'.par.ptrEq par = false, .parameterMismatch .ciphertext .parameters),
        (ct.level ≠ i, .invalidLevel ct.level i i), (ct'.level ≠ i, .invalidLevel ct'.level i i),
        (ct.c.length ≠ 2 ∨ ct'.c.length ≠ 2, .multiplicationPolynomialCount ct.c.length ct'.c.length 2)] := by
  obtain ⟨n, hw, -⟩ := build_inv hb h
  obtain ⟨E, hE, -⟩ := hk.switches
  have hlv : i < par.moduli.length := by
    obtain ⟨l, hl, -⟩ := ParWF.contextAtLevel_iff.1 hE.ctx
    rw [hk.level] at hl
    exact (AtLevel.ofGet hw hl).lt
  obtain ⟨l, ha⟩ := AtLevel.ofLt (par := par) hw hlv
  obtain ⟨ext, -, -, hms0, hf⟩ := (Multiplicator.default_inv hw hcount hsum ha hE.par_eq hk.level).1 mp hmp
  obtain ⟨l', ha'⟩ := AtLevel.ofLt (par := par) (i := par.moduli.length - 1) hw (by omega)
  have hen : mp.enableModSwitching = (if l'.ctx = mp.baseCtx then Res.err (.math .noMoreContext) else Res.ok { mp with modSwitch := true }) := by
    unfold Multiplicator.enableModSwitching
    rw [hf.par_eq, BfvParameters.maxLevel, hw.length, subU_eq (by omega), Res.lift_some, Res.ok_bind, ha'.contextAt, Res.ok_bind]
    rfl
  have hbase : l'.ctx = mp.baseCtx ↔ i + 1 = par.moduli.length := by
    rw [hf.base]
    constructor
    · intro he
      by_contra hne
      exact ha'.ctx_ne ha (by omega) he
    · intro he
      obtain rfl : i = par.moduli.length - 1 := by omega
      rw [ha.unique ha']
  refine ⟨⟨fun hl => by rw [hen, if_pos (hbase.2 hl)], fun hl => ⟨_, by rw [hen, if_neg fun hc => hl (hbase.1 hc)]⟩⟩, fun mp' hmp' => ?_⟩
  have hpar : mp'.par = par ∧ mp'.level = i := by
    rcases hmp' with rfl | hmp'
    · exact ⟨hf.par_eq, hf.level⟩
    · rw [hen] at hmp'
      split at hmp'
      · exact absurd hmp' Res.err_ne_ok
      · rw [← Res.ok_inj.1 hmp']; exact ⟨hf.par_eq, hf.level⟩
  refine ⟨fun hf => ?_, fun hf => ⟨fun hf' => ?_, fun hf' => ⟨fun hl => ?_, fun hl => ⟨fun hl' => ?_, fun hl' => ⟨fun h2 => ?_, fun h2 => ?_⟩⟩⟩⟩⟩
  · unfold Multiplicator.multiply
    rw [hpar.1, validateFor_foreign hf, Res.err_bind]
  · unfold Multiplicator.multiply
    rw [hpar.1, (hct.resolve_right hf).validateFor hw, Res.ok_bind, validateFor_foreign hf', Res.err_bind]
  · unfold Multiplicator.multiply
    rw [hpar.1, (hct.resolve_right hf).validateFor hw, Res.ok_bind, (hct'.resolve_right hf').validateFor hw, Res.ok_bind, hpar.2, if_pos hl]
  · unfold Multiplicator.multiply
    rw [hpar.1, (hct.resolve_right hf).validateFor hw, Res.ok_bind, (hct'.resolve_right hf').validateFor hw, Res.ok_bind, hpar.2, if_neg hl, if_pos hl']
  · unfold Multiplicator.multiply
    rw [hpar.1, (hct.resolve_right hf).validateFor hw, Res.ok_bind, (hct'.resolve_right hf').validateFor hw, Res.ok_bind, hpar.2, if_neg hl, if_neg hl']
    split
    · rename_i hx hy
      rw [hx, hy] at h2
      simp at h2
    · rfl
  · rw [not_or, not_not, not_not] at h2
    rw [not_not] at hl hl'
    obtain ⟨m, v, he⟩ := (hct.resolve_right hf).encrypts hw s
    obtain ⟨m', v', he'⟩ := (hct'.resolve_right hf').encrypts hw s
    rw [hl] at he
    rw [hl'] at he'
    obtain ⟨S, hS⟩ := IntPoly.exists_bound s
    obtain ⟨V, hV⟩ := IntPoly.exists_bound v
    obtain ⟨V', hV'⟩ := IntPoly.exists_bound v'
    obtain ⟨r, v'', e1, -, -, -, -, e2⟩ := (C39_default hb h hcount hsum hk).2 mp hmp he he' h2.1 h2.2 hS hV hV'
    rcases hmp' with rfl | hmp'
    · exact ⟨r, e1⟩
    · have hi : i + 1 < par.moduli.length := by
        have : ¬ i + 1 = par.moduli.length := fun hc => by
          rw [hen, if_pos (hbase.2 hc)] at hmp'
          exact Res.err_ne_ok hmp'
        omega
      obtain ⟨mp2, r', -, -, f1, f2, -⟩ := e2 hi
      rw [hmp', Res.ok_inj] at f1
      subst f1
      exact ⟨r', f2⟩

/-- C93: a secret key refuses to decrypt, and to measure the noise of, ciphertexts of other parameters only; and secret and public keys refuse to encrypt
plaintexts of other parameters only. -/
theorem C93_crypt (hb : b.OK) (h : build b st = Res.ok par.toBfvParameters) (hcount : par.moduli.length ≤ 31) (hsum : par.moduli.sum ≤ 2 ^ 65)
    (hQ : ∀ i < par.moduli.length, par.plaintext.value ≤ par.modulusAt i) (hk : sk.IsKey par s) (hct : ct.Usable par ∨ ct.par.ptrEq par = false) {g : Prg} (hg : g.OK)
    {pt : Plaintext} (hpt : (∃ i m, pt.Holds par i m) ∨ pt.par.ptrEq par = false) {seed : Seed} (h32 : seed.length = 32) {rng rng' rngU rng1 rng2 : Nat → Nat} (hr : IsStream rng) (hr' : IsStream rng')
    (hU : IsStream rngU) (h1 : IsStream rng1) (h2 : IsStream rng2) {pk : PublicKey} (hpk : pk.Received g par ∨ ∃ seed', seed'.length = 32 ∧ PublicKey.new g sk seed' rng' = some pk) :
    Answers (sk.tryDecrypt b ct) [(ct.par.ptrEq par = false, .parameterMismatch .ciphertext .parameters)] ∧
    Answers (sk.measureNoise b ct) [(ct.par.ptrEq par = false, .parameterMismatch .ciphertext .parameters)] ∧
    Answers (sk.tryEncrypt g pt seed rng) [(pt.par.ptrEq par = false, .parameterMismatch .plaintext .parameters)] ∧
    Answers (pk.tryEncrypt pt rngU rng1 rng2) [(pt.par.ptrEq par = false, .parameterMismatch .plaintext .parameters)] := by
  obtain ⟨n, hw, -⟩ := build_inv hb h
  have hpt0 : pt.par.ptrEq par = false → pt.validateFor par = Res.err (.parameterMismatch .plaintext .parameters) := fun hf => by
    unfold Plaintext.validateFor
    rw [if_pos hf]
  have hdec : ct.par.ptrEq par = false → sk.tryDecrypt b ct = Res.err (.parameterMismatch .ciphertext .parameters) := fun hf => by
    unfold SecretKey.tryDecrypt
    rw [hk.par_eq, validateFor_foreign hf, Res.err_bind]
  have hpkp : pk.par = par := by
    rcases hpk with ⟨bytes, p1, p2⟩ | ⟨seed', h32', hpk⟩
    · exact ((C67_read hb h hg p1).2 pk p2).1
    · obtain ⟨pk', v, e1, e2, -⟩ := C37_public_key hb h hk hg h32' hr'
      rw [hpk, Option.some_inj] at e1
      rw [e1]; exact e2
  have hlt : ∀ {i : Nat} {m : par.Msg}, pt.Holds par i m → i < par.moduli.length := fun {i m} hh => by
    obtain ⟨l, hl, -⟩ := ParWF.contextAtLevel_iff.1 hh.ctx
    exact (AtLevel.ofGet hw hl).lt
  refine ⟨⟨hdec, fun hf => ?_⟩, ⟨fun hf => ?_, fun hf => ?_⟩, ⟨fun hf => ?_, fun hf => ?_⟩, ⟨fun hf => ?_, fun hf => ?_⟩⟩
  · have hu := hct.resolve_right hf
    obtain ⟨⟨pt', m, e1, -⟩, -⟩ := C67_decrypt hb h hcount hsum hk hu (hQ _ hu.level)
    exact ⟨pt', e1⟩
  · unfold SecretKey.measureNoise
    rw [hdec hf, Res.err_bind]
  · have hu := hct.resolve_right hf
    exact (C67_decrypt hb h hcount hsum hk hu (hQ _ hu.level)).2
  · unfold SecretKey.tryEncrypt
    rw [hk.par_eq, hpt0 hf, Res.err_bind]
  · obtain ⟨i, m, hh⟩ := hpt.resolve_right hf
    obtain ⟨r, v, e1, -⟩ := C37_encrypt hb h hk hg (hQ i (hlt hh)) hh h32 hr
    exact ⟨r, e1⟩
  · unfold PublicKey.tryEncrypt
    rw [hpkp, hpt0 hf, Res.err_bind]
  · obtain ⟨i, m, hh⟩ := hpt.resolve_right hf
    rcases hpk with hpk | ⟨seed', h32', hpk⟩
    · obtain ⟨r, e1, -⟩ := C67_encrypt hb h hg hpk (hQ i (hlt hh)) hh hU h1 h2
      exact ⟨r, e1⟩
    · obtain ⟨pk', v, e1, e2, e3, -, e4, -⟩ := C37_public_key hb h hk hg h32' hr'
      rw [hpk, Option.some_inj] at e1
      obtain rfl := e1
      obtain ⟨S, hS⟩ := IntPoly.exists_bound s
      obtain ⟨V, hV⟩ := IntPoly.exists_bound v
      obtain ⟨r, v', f1, -⟩ := C37_public_encrypt hb h e2 e3 e4 hS (V := V + par.plaintext.value * (1 + par.degree * S)) (fun t => (hV t).trans (by push_cast; nlinarith [Nat.zero_le (par.plaintext.value * (1 + par.degree * S))])) (by omega) (hQ i (hlt hh)) hh hU h1 h2
      exact ⟨r, f1⟩

end Fhe.Props
