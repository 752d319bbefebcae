import Verif.Lemmas.Robust
import Verif.Props.Wire
import Verif.Props.BfvCipher
import Verif.Props.BfvDot
import Verif.Props.BfvMul
import Verif.Props.BfvRgsw
import Verif.Props.Mbfv
/-!
# A server that works on bytes it does not trust
-/
namespace Fhe.Props
open Nega ParamsBuilder Ciphertext

variable {b : Build} {st : ParamsBuilder} {par : Par} {g : Prg} {ct ct' : Ciphertext} {i : Nat} {m : par.Msg}

/-- C67: what is read from any bytes can be used: a ciphertext, and the ciphertext of a public key, which is of level zero. -/
theorem C67_read (hb : b.OK) (h : build b st = Res.ok par.toBfvParameters) (hg : g.OK) {bytes : List Nat} (hbytes : IsBytes bytes) :
    (∀ ct, Ciphertext.fromBytes g bytes par = Res.ok ct → ct.Usable par) ∧
    ∀ pk, PublicKey.fromBytes g bytes par = Res.ok pk → pk.par = par ∧ pk.c.Usable par ∧ pk.c.level = 0 := by
  refine ⟨fun ct hct => ?_, fun pk hpk => ?_⟩
  · obtain ⟨h1, h2, h3, h4, -⟩ := (C62_ciphertext_any hb h hg hbytes).2 ct hct
    exact ⟨h1, h2, h3, h4⟩
  · obtain ⟨h0, ⟨h1, h2, h3, h4, -⟩, h5⟩ := (C62_public_key_any hb h hg hbytes).2 pk hpk
    exact ⟨h0, ⟨h1, h2, h3, h4⟩, h5⟩

/-- C67: the assumption on the base of the decomposition is about keys of the last level only.  (There it is needed: C55_unchecked_base.) -/
theorem C67_received (hb : b.OK) (h : build b st = Res.ok par.toBfvParameters) (hg : g.OK) {bytes : List Nat} (hbytes : IsBytes bytes) :
    (∀ k, RelinearizationKey.fromBytes g bytes par = Res.ok k → k.ksk.ciphertextLevel + 1 < par.moduli.length → k.Received g par) ∧
    (∀ k, EvaluationKey.fromBytes b g bytes par = Res.ok k → k.ciphertextLevel + 1 < par.moduli.length → k.Received b g par) ∧
    ∀ x, RgswCiphertext.fromBytes g bytes par = Res.ok x → x.ksk0.ciphertextLevel + 1 < par.moduli.length → x.Received g par := by
  obtain ⟨n, hw, -⟩ := build_inv hb h
  refine ⟨fun k hk hl => ⟨⟨bytes, hbytes, hk⟩, ?_⟩, fun k hk hl => ⟨⟨bytes, hbytes, hk⟩, fun x gk hx => ?_⟩, fun x hx hl => ⟨⟨bytes, hbytes, hx⟩, ?_, ?_⟩⟩
  · rw [((C62_relin_any hb h hg hbytes).2 k hk).logBase_eq hw hl]; norm_num
  · obtain ⟨h1, -, h2, -⟩ := ((C62_evaluation_any hb h hg hbytes).2 k hk).gk x gk hx
    rw [h1.ksk.logBase_eq hw (by rw [h2]; exact hl)]; norm_num
  · rw [((C62_rgsw_any hb h hg hbytes).2 x hx).fst.logBase_eq hw hl]; norm_num
  · have hwf := (C62_rgsw_any hb h hg hbytes).2 x hx
    rw [hwf.snd.logBase_eq hw (by rw [hwf.levels.2.1]; exact hl)]; norm_num

/-- C67: switching a usable ciphertext to another level never panics, and what it returns can be used. -/
theorem C67_switch (hb : b.OK) (h : build b st = Res.ok par.toBfvParameters) (hct : ct.Usable par) :
    (ct.switchDown ≠ Res.panic ∧ ∀ r, ct.switchDown = Res.ok r → r.Usable par) ∧
    ∀ target, ct.switchToLevel target ≠ Res.panic ∧ ∀ r, ct.switchToLevel target = Res.ok r → r.Usable par := by
  obtain ⟨n, hw, -⟩ := build_inv hb h
  obtain ⟨m, v, he⟩ := hct.encrypts hw 0
  have hlev := hct.level
  refine ⟨?_, fun target => ?_⟩
  · by_cases hi : ct.level + 1 < par.moduli.length
    · obtain ⟨r, v', q, δ, e1, e2, -⟩ := C46_switch_down hb h he hi
      rw [e1]
      exact ⟨Res.noPanic_ok _, fun r' hr => by rw [← Res.ok_inj.1 hr]; exact e2.usable hw⟩
    · rw [C46_last hb h hct.par_eq (by omega)]
      exact ⟨Res.noPanic_err _, fun r hr => absurd hr Res.err_ne_ok⟩
  · by_cases ht : target < ct.level ∨ par.moduli.length ≤ target
    · rw [C46_rejects hb h hct.par_eq ht]
      exact ⟨Res.noPanic_err _, fun r hr => absurd hr Res.err_ne_ok⟩
    · obtain ⟨V, hV⟩ := IntPoly.exists_bound v
      obtain ⟨r, v', e1, e2, -⟩ := C46_switch_to_level hb h he (target := target) (by omega) (by omega) (S := 0) (fun t => by simp) hV
      rw [e1]
      exact ⟨Res.noPanic_ok _, fun r' hr => by rw [← Res.ok_inj.1 hr]; exact e2.usable hw⟩

/-- C67: relinearization with any key that was read never panics, and what it returns can be used. -/
theorem C67_relinearize (hb : b.OK) (h : build b st = Res.ok par.toBfvParameters) (hg : g.OK) {k : RelinearizationKey} (hk : k.Received g par) (hct : ct.Usable par) :
    k.relinearizes ct ≠ Res.panic ∧ ∀ r, k.relinearizes ct = Res.ok r → r.Usable par ∧ r.c.length = 2 := by
  obtain ⟨n, hw, -⟩ := build_inv hb h
  obtain ⟨⟨bytes, h1, h2⟩, h3⟩ := hk
  exact RelinearizationKey.relinearizes_any hw ((C62_relin_any hb h hg h1).2 k h2) h3 hct

/-- C67: multiplication with any relinearization key that was read, with or without switching, never panics, and what it returns can be used.
The multiplicator itself is made if the search for primes is lucky. -/
theorem C67_multiply (hb : b.OK) (h : build b st = Res.ok par.toBfvParameters) (hg : g.OK) (hcount : par.moduli.length ≤ 31) (hsum : par.moduli.sum ≤ 2 ^ 65) {k : RelinearizationKey}
    (hk : k.Received g par) :
    (b.Lucky → ∃ mp, Multiplicator.default b k = Res.ok mp) ∧
    ∀ mp, Multiplicator.default b k = Res.ok mp → mp.enableModSwitching ≠ Res.panic ∧ ∀ {ct ct' : Ciphertext}, ct.Usable par → ct'.Usable par →
      (mp.multiply ct ct' ≠ Res.panic ∧ ∀ r, mp.multiply ct ct' = Res.ok r → r.Usable par) ∧
      ∀ mp', mp.enableModSwitching = Res.ok mp' → mp'.multiply ct ct' ≠ Res.panic ∧ ∀ r, mp'.multiply ct ct' = Res.ok r → r.Usable par := by
  obtain ⟨n, hw, -⟩ := build_inv hb h
  obtain ⟨⟨bytes, h1, h2⟩, h3⟩ := hk
  have hk' := (C62_relin_any hb h hg h1).2 k h2
  have hlv : k.ksk.ciphertextLevel < par.moduli.length := by
    obtain ⟨l, hl, -⟩ := ParWF.contextAtLevel_iff.1 hk'.ctx
    exact (AtLevel.ofGet hw hl).lt
  obtain ⟨l, ha⟩ := AtLevel.ofLt (par := par) hw hlv
  refine ⟨(Multiplicator.default_inv hw hcount hsum ha hk'.par_eq rfl).2, fun mp hmp => ?_⟩
  obtain ⟨ext, -, -, hms0, hf⟩ := (Multiplicator.default_inv hw hcount hsum ha hk'.par_eq rfl).1 mp hmp
  have hpos : 0 < par.moduli.length := by omega
  obtain ⟨l', ha'⟩ := AtLevel.ofLt (par := par) (i := par.moduli.length - 1) hw (by omega)
  have hen : mp.enableModSwitching = (if l'.ctx = mp.baseCtx then Res.err (.math .noMoreContext) else Res.ok { mp with modSwitch := true }) := by
    unfold Multiplicator.enableModSwitching
    rw [hf.par_eq, BfvParameters.maxLevel, hw.length, subU_eq (by omega), Res.lift_some, Res.ok_bind, ha'.contextAt, Res.ok_bind]
    rfl
  refine ⟨by rw [hen]; split; exacts [Res.noPanic_err _, Res.noPanic_ok _], fun {ct ct'} hct hct' => ?_⟩
  obtain ⟨hms, hl, hp, e1, e2⟩ := Multiplicator.default_any hw hcount hsum hk' h3 hmp hct hct'
  refine ⟨⟨e1, fun r hr => (e2 r hr).1⟩, fun mp' hmp' => ?_⟩
  have : mp' = { mp with modSwitch := true } := by
    rw [hen] at hmp'
    split at hmp'
    · exact absurd hmp' Res.err_ne_ok
    · exact (Res.ok_inj.1 hmp').symm
  rw [this, Multiplicator.multiply_switch_bind hms]
  rcases Res.cases (mp.multiply ct ct') with ⟨r, hr⟩ | ⟨e, hr⟩ | hr
  · rw [hr, Res.ok_bind]
    exact (C67_switch hb h (e2 r hr).1).1
  · rw [hr, Res.err_bind]
    exact ⟨Res.noPanic_err _, fun r hr => absurd hr Res.err_ne_ok⟩
  · exact absurd hr e1

/-- C67: rotations, inner sum and expansion with any evaluation key that was read never panic, and what they return can be used. -/
theorem C67_evaluate (hb : b.OK) (h : build b st = Res.ok par.toBfvParameters) (hg : g.OK) {k : EvaluationKey} (hk : k.Received b g par) (hct : ct.Usable par) :
    (k.rotatesRows ct ≠ Res.panic ∧ ∀ r, k.rotatesRows ct = Res.ok r → r.Usable par) ∧
    (∀ t, k.rotatesColumnsBy ct t ≠ Res.panic ∧ ∀ r, k.rotatesColumnsBy ct t = Res.ok r → r.Usable par) ∧
    (k.computesInnerSum ct ≠ Res.panic ∧ ∀ r, k.computesInnerSum ct = Res.ok r → r.Usable par) ∧
    ∀ size, k.expands ct size ≠ Res.panic ∧ ∀ out, k.expands ct size = Res.ok out → ∀ r ∈ out, r.Usable par := by
  obtain ⟨n, hw, -⟩ := build_inv hb h
  obtain ⟨⟨bytes, h1, h2⟩, h3⟩ := hk
  exact ((C62_evaluation_any hb h hg h1).2 k h2).operations hw h3 hct

/-- C67: encryption with any public key that was read succeeds, and what it returns can be used. -/
theorem C67_encrypt (hb : b.OK) (h : build b st = Res.ok par.toBfvParameters) (hg : g.OK) {pk : PublicKey} (hpk : pk.Received g par) (hQ : par.plaintext.value ≤ par.modulusAt i) {pt : Plaintext}
    (hpt : pt.Holds par i m) {rngU rng1 rng2 : Nat → Nat} (hU : IsStream rngU) (h1 : IsStream rng1) (h2 : IsStream rng2) :
    ∃ r, pk.tryEncrypt pt rngU rng1 rng2 = Res.ok r ∧ r.Usable par ∧ r.level = i ∧ r.c.length = 2 := by
  obtain ⟨n, hw, -⟩ := build_inv hb h
  obtain ⟨bytes, hb1, hb2⟩ := hpk
  obtain ⟨e1, e2, e3⟩ := (C67_read hb h hg hb1).2 pk hb2
  exact PublicKey.tryEncrypt_any hw e1 e2 e3 hQ hpt hU h1 h2

/-- C67: the owner of the secret key can decrypt every usable ciphertext, and measure its noise, without a panic or an error. -/
theorem C67_decrypt (hb : b.OK) (h : build b st = Res.ok par.toBfvParameters) (hcount : par.moduli.length ≤ 31) (hsum : par.moduli.sum ≤ 2 ^ 65) {sk : SecretKey} {s : IntPoly par.degree}
    (hk : sk.IsKey par s) (hct : ct.Usable par) (hQ : par.plaintext.value ≤ par.modulusAt ct.level) :
    (∃ pt m, sk.tryDecrypt b ct = Res.ok pt ∧ pt.Holds par ct.level m) ∧ ∃ k, sk.measureNoise b ct = Res.ok k := by
  obtain ⟨n, hw, -⟩ := build_inv hb h
  exact ⟨tryDecrypt_total hw hcount hsum hk hct.par_eq hct.level hQ hct.parts hct.valid, SecretKey.measureNoise_any hw hcount hsum hk hct hQ⟩

/-- C67: a party can make its share of the decryption of every usable ciphertext of two parts; others are refused. -/
theorem C67_share (hb : b.OK) (h : build b st = Res.ok par.toBfvParameters) {sk sk' : SecretKey} {s s' : IntPoly par.degree} (hk : sk.IsKey par s) (hk' : sk'.IsKey par s') (hct : ct.Usable par)
    {rng : Nat → Nat} (hr : IsStream rng) :
    SecretKeySwitchShare.new sk sk' ct rng ≠ Res.panic ∧ DecryptionShare.new sk ct rng ≠ Res.panic ∧
    (ct.c.length = 2 → (∃ sh, SecretKeySwitchShare.new sk sk' ct rng = Res.ok sh) ∧ ∃ sh, DecryptionShare.new sk ct rng = Res.ok sh) := by
  obtain ⟨n, hw, -⟩ := build_inv hb h
  have key : ∀ {sk' : SecretKey} {s' : IntPoly par.degree}, sk'.IsKey par s' → (ct.c.length ≠ 2 → ∃ e, SecretKeySwitchShare.new sk sk' ct rng = Res.err e) ∧
      (ct.c.length = 2 → ∃ sh, SecretKeySwitchShare.new sk sk' ct rng = Res.ok sh) := fun {sk' s'} hk' => by
    refine ⟨fun h2 => ⟨_, (C53_secret_rejects (ct := ct) rng).2.2 (by rw [hk.par_eq, hk'.par_eq]) (by rw [hk'.par_eq, hct.par_eq]) h2⟩, fun h2 => ?_⟩
    obtain ⟨m, v, he⟩ := hct.encrypts hw (∑ _ : Fin 1, s)
    obtain ⟨share, r, e, e1, -⟩ := C53_secret_key_switch hb h (K := 1) one_pos (sk := fun _ => sk) (s := fun _ => s) (fun _ => hk) (sk' := fun _ => sk') (s' := fun _ => s') (fun _ => hk') he h2 (rng := fun _ => rng)
      (fun _ => hr)
    exact ⟨share 0, e1 0⟩
  have hzero : SecretKey.IsKey par { par := sk.par, coeffs := List.replicate sk.par.degree 0 } 0 := by
    rw [hk.par_eq]
    refine ⟨rfl, List.length_replicate, fun x hx => ?_, Nega.ext fun j => ?_⟩
    · obtain ⟨-, rfl⟩ := List.mem_replicate.1 hx; norm_num
    · show (0 : Int) = (List.replicate par.degree (0 : Int)).getD j 0
      rw [List.getD_replicate _ j.isLt]
  obtain ⟨a1, a2⟩ := key hk'
  obtain ⟨z1, z2⟩ := key hzero
  by_cases h2 : ct.c.length = 2
  · obtain ⟨sh, hsh⟩ := a2 h2
    obtain ⟨sh', hsh'⟩ := z2 h2
    have hd : DecryptionShare.new sk ct rng = Res.ok ⟨sh'⟩ := by
      unfold DecryptionShare.new
      simp only []
      rw [hsh', Res.ok_bind]; rfl
    rw [hsh, hd]
    exact ⟨Res.noPanic_ok _, Res.noPanic_ok _, fun _ => ⟨⟨_, rfl⟩, ⟨_, rfl⟩⟩⟩
  · obtain ⟨e, he⟩ := a1 h2
    obtain ⟨e', he'⟩ := z1 h2
    have hd : DecryptionShare.new sk ct rng = Res.err e' := by
      unfold DecryptionShare.new
      simp only []
      rw [he', Res.err_bind]
    rw [he, hd]
    exact ⟨Res.noPanic_err _, Res.noPanic_err _, fun h => absurd h h2⟩

/-- C67: the dot product of usable ciphertexts with plaintexts never panics, and what it returns can be used. -/
theorem C67_dot (hb : b.OK) (h : build b st = Res.ok par.toBfvParameters) {cts : List Ciphertext} {pts : List Plaintext} (hct : ∀ ct ∈ cts, ct.Usable par) (hpt : ∀ pt ∈ pts, ∃ i m, pt.Holds par i m) :
    dotProductScalar cts pts ≠ Res.panic ∧ ∀ r, dotProductScalar cts pts = Res.ok r → r.Usable par := by
  obtain ⟨n, hw, -⟩ := build_inv hb h
  obtain ⟨r1, r2, r3⟩ := C49_rejects hb h cts pts (fun ct hc => ⟨fun _ => (hct ct hc).par_eq, fun p hp => ((hct ct hc).valid p hp).1⟩) (fun pt hp => by
    obtain ⟨i, m, hh⟩ := hpt pt hp
    refine ⟨fun _ => hh.par_eq, hh.valid, ?_⟩
    obtain ⟨l, hl, hc⟩ := ParWF.contextAtLevel_iff.1 hh.ctx
    have ha := AtLevel.ofGet hw hl
    rw [hh.par_eq, ← hc, ha.length]; omega)
  by_cases h1 : cts = [] ∨ pts = []
  · rw [r1 h1]; exact ⟨Res.noPanic_err _, fun r hr => absurd hr Res.err_ne_ok⟩
  rw [not_or] at h1
  by_cases h2 : cts.length = pts.length
  · obtain ⟨first, rest, hfr⟩ : ∃ first rest, cts = first :: rest := by
      cases cts with
      | nil => exact absurd rfl h1.1
      | cons x xs => exact ⟨x, xs, rfl⟩
    have hfirst := hct first (by rw [hfr]; simp)
    obtain ⟨s1, s2⟩ := r3 first rest hfr hfirst.par_eq h2
    refine ⟨s1, fun r hr => ?_⟩
    obtain ⟨ctx, c1, c2, c3⟩ := s2.1 ⟨r, hr⟩
    obtain ⟨l, hl, hlc⟩ := ParWF.contextAtLevel_iff.1 c1
    have ha := AtLevel.ofGet hw hl
    have hE : ∀ k : Fin cts.length, ∃ (m : par.Msg) (v : IntPoly par.degree), (cts.get k).Encrypts par 0 first.level m v := fun k => by
      have hk := c2 _ (List.get_mem cts k)
      obtain ⟨m, v, he⟩ := (hct _ (List.get_mem cts k)).encrypts hw 0
      rw [hk.2.1] at he
      exact ⟨m, v, he⟩
    have hH : ∀ k : Fin cts.length, ∃ m : par.Msg, (pts.get (k.cast h2)).Holds par first.level m := fun k => by
      obtain ⟨i, m, hh⟩ := hpt _ (List.get_mem pts (k.cast h2))
      obtain ⟨l', hl', hlc'⟩ := ParWF.contextAtLevel_iff.1 hh.ctx
      have ha' := AtLevel.ofGet hw hl'
      have hk := (c3 _ (List.get_mem pts (k.cast h2))).2
      have : i = first.level := by
        by_contra hne
        exact ha'.ctx_ne ha hne (by rw [hlc', hk, hlc])
      exact ⟨m, this ▸ hh⟩
    choose m v hm using hE
    choose m' hm' using hH
    obtain ⟨r', e1, e2, -⟩ := C49_sum hb h (K := cts.length) (ct := cts.get) (pt := fun k => pts.get (k.cast h2)) (L := first.c.length) (List.length_pos_of_ne_nil h1.1) hm hm' fun k => (c2 _ (List.get_mem cts k)).2.2.1
    rw [List.ofFn_get, show List.ofFn (fun k : Fin cts.length => pts.get (k.cast h2)) = pts by
      rw [← List.ofFn_congr h2.symm]; exact List.ofFn_get pts, hr, Res.ok_inj] at e1
    rw [e1]
    exact e2.usable hw
  · rw [r2 h1.1 h1.2 h2]; exact ⟨Res.noPanic_err _, fun r hr => absurd hr Res.err_ne_ok⟩

/-- C67: the operators on usable ciphertexts of the same parameters panic only if levels or numbers of parts do not match, and what they return can
be used. -/
theorem C67_operators (hb : b.OK) (h : build b st = Res.ok par.toBfvParameters) (hcount : par.moduli.length ≤ 31) (hsum : par.moduli.sum ≤ 2 ^ 65) (hct : ct.Usable par) (hct' : ct'.Usable par) :
    (ct.add ct' = none ↔ ct.level ≠ ct'.level ∨ ct.c.length ≠ ct'.c.length) ∧ (ct.sub ct' = none ↔ ct.level ≠ ct'.level ∨ ct.c.length ≠ ct'.c.length) ∧ ct.neg ≠ none ∧
    (ct.c.length ≤ 2 ^ 12 → (ct.mul ct' = none ↔ ct.level ≠ ct'.level)) ∧
    (∀ r, ct.add ct' = some r ∨ ct.sub ct' = some r ∨ ct.neg = some r ∨ (ct.c.length ≤ 2 ^ 12 ∧ ct.mul ct' = some r) → r.Usable par) := by
  obtain ⟨n, hw, -⟩ := build_inv hb h
  obtain ⟨m, v, he⟩ := hct.encrypts hw 0
  obtain ⟨m', v', he'⟩ := hct'.encrypts hw 0
  have hne : ct.c ≠ [] := ne_nil_of_two hct.parts
  have hne' : ct'.c ≠ [] := ne_nil_of_two hct'.parts
  obtain ⟨rn, en, un, -⟩ := C38_neg hb h he
  have hbad := (C48_mismatch ct ct' ⟨par, none, ct.c.head hne⟩).2.1 hne hne'
  have hgood : ct.level = ct'.level → ct.c.length = ct'.c.length → ∃ r r', ct.add ct' = some r ∧ ct.sub ct' = some r' ∧ r.Usable par ∧ r'.Usable par := fun hl hlen => by
    have he'' := he'
    rw [← hl] at he''
    obtain ⟨r, e1, e2, -⟩ := C38_add hb h he he'' hlen
    obtain ⟨r', e3, e4, -⟩ := C38_sub hb h he he'' hlen
    exact ⟨r, r', e1, e3, e2.usable hw, e4.usable hw⟩
  have hmul : ct.c.length ≤ 2 ^ 12 → ct.level = ct'.level → ∃ r, ct.mul ct' = some r ∧ r.Usable par := fun hlen hl => by
    have he'' := he'
    rw [← hl] at he''
    obtain ⟨r, _, _, _, _, _, _, e1, e2, -⟩ := C39_mul hb h hcount hsum he he'' hlen
    exact ⟨r, e1, e2.usable hw⟩
  have hmulbad : ct.level ≠ ct'.level → ct.mul ct' = none := fun hl => by
    refine C39_mismatch hne (.inr hl) ?_
    unfold Ciphertext.beq
    rw [decide_eq_false (p := ct'.level = ct.level) (Ne.symm hl), Bool.and_false]
  refine ⟨⟨fun hn => ?_, fun hn => (hbad hn).1⟩, ⟨fun hn => ?_, fun hn => (hbad hn).2⟩, by rw [en]; simp, fun hlen => ⟨fun hn hl => ?_, hmulbad⟩, fun r hr => ?_⟩
  · by_contra hc
    rw [not_or, not_not, not_not] at hc
    obtain ⟨r, r', e1, -⟩ := hgood hc.1 hc.2
    rw [e1] at hn; cases hn
  · by_contra hc
    rw [not_or, not_not, not_not] at hc
    obtain ⟨r, r', -, e1, -⟩ := hgood hc.1 hc.2
    rw [e1] at hn; cases hn
  · obtain ⟨r, e1, -⟩ := hmul hlen hl
    rw [e1] at hn; cases hn
  · by_cases hc : ct.level ≠ ct'.level ∨ ct.c.length ≠ ct'.c.length
    · rcases hr with hr | hr | hr | ⟨hlen, hr⟩
      · rw [(hbad hc).1] at hr; cases hr
      · rw [(hbad hc).2] at hr; cases hr
      · rw [en, Option.some_inj] at hr; rw [← hr]; exact un.usable hw
      · by_cases hl : ct.level = ct'.level
        · obtain ⟨r', e1, e2⟩ := hmul hlen hl
          rw [e1, Option.some_inj] at hr; rw [← hr]; exact e2
        · rw [hmulbad hl] at hr; cases hr
    · rw [not_or, not_not, not_not] at hc
      obtain ⟨r1, r2, e1, e2, e3, e4⟩ := hgood hc.1 hc.2
      rcases hr with hr | hr | hr | ⟨hlen, hr⟩
      · rw [e1, Option.some_inj] at hr; rw [← hr]; exact e3
      · rw [e2, Option.some_inj] at hr; rw [← hr]; exact e4
      · rw [en, Option.some_inj] at hr; rw [← hr]; exact un.usable hw
      · obtain ⟨r', e1, e2⟩ := hmul hlen hc.1
        rw [e1, Option.some_inj] at hr; rw [← hr]; exact e2

/-- C67: the operators on a usable ciphertext and a plaintext of the same parameters panic only if the levels do not match, and what they return can
be used. -/
theorem C67_plain (hb : b.OK) (h : build b st = Res.ok par.toBfvParameters) (hQ : par.plaintext.value ≤ par.modulusAt i) (hct : ct.Usable par) {pt : Plaintext} (hpt : pt.Holds par i m) :
    (ct.addPlain pt = none ↔ ct.level ≠ i) ∧ (ct.subPlain pt = none ↔ ct.level ≠ i) ∧ (ct.mulPlain pt = none ↔ ct.level ≠ i) ∧ (plainSub pt ct = none ↔ ct.level ≠ i) ∧
    ∀ r, ct.addPlain pt = some r ∨ ct.subPlain pt = some r ∨ ct.mulPlain pt = some r ∨ plainSub pt ct = some r → r.Usable par := by
  obtain ⟨n, hw, -⟩ := build_inv hb h
  obtain ⟨m, v, he⟩ := hct.encrypts hw 0
  have hne : ct.c ≠ [] := ne_nil_of_two hct.parts
  obtain ⟨l, hl, hlc⟩ := ParWF.contextAtLevel_iff.1 hpt.ctx
  have hlev := hpt.level_eq hw (AtLevel.ofGet hw hl)
  by_cases hi : ct.level = i
  · rw [hi] at he
    obtain ⟨w, -, ⟨r1, e1, u1, -⟩, ⟨r2, e2, u2, -⟩, r3, e3, u3, -⟩ := C38_plain hb h hQ he hpt
    obtain ⟨r4, P, e4, -, u4, -⟩ := C38_mul_plain hb h he hpt
    rw [e1, e2, e3, e4]
    refine ⟨by simp [hi], by simp [hi], by simp [hi], by simp [hi], fun r hr => ?_⟩
    simp only [Option.some_inj] at hr
    rcases hr with rfl | rfl | rfl | rfl
    exacts [u1.usable hw, u2.usable hw, u4.usable hw, u3.usable hw]
  · obtain ⟨e1, e2, e3, e4⟩ := (C48_mismatch ct ct pt).2.2.2 hne (by rw [hlev]; simpa using Ne.symm hi)
    rw [e1, e2, e3, e4]
    refine ⟨by simp [hi], by simp [hi], by simp [hi], by simp [hi], fun r hr => ?_⟩
    simp at hr

/-- C67: the external product with an RGSW ciphertext that was read panics only if the levels do not match or the ciphertext does not have two parts,
and what it returns can be used. -/
theorem C67_rgsw (hb : b.OK) (h : build b st = Res.ok par.toBfvParameters) (hg : g.OK) {x : RgswCiphertext} (hx : x.Received g par) (hct : ct.Usable par) :
    (ct.mulRgsw x = none ↔ ct.level ≠ x.ksk0.ciphertextLevel ∨ ct.c.length ≠ 2) ∧ ∀ r, ct.mulRgsw x = some r → r.Usable par ∧ r.c.length = 2 := by
  obtain ⟨n, hw, -⟩ := build_inv hb h
  obtain ⟨⟨bytes, h1, h2⟩, h3, h4⟩ := hx
  have hwf := (C62_rgsw_any hb h hg h1).2 x h2
  obtain ⟨l1, l2, l3⟩ := hwf.levels
  obtain ⟨e, he⟩ := hwf.fst.isFor hw h3 (by omega) 0 (IntPoly.ofMsg 0)
  obtain ⟨e', he'⟩ := hwf.snd.isFor hw h4 (by omega) 0 (IntPoly.ofMsg 0 * 0)
  rw [l1] at he
  rw [l2, l3] at he'
  have hr : x.Encrypts par 0 x.ksk0.ciphertextLevel 0 (max e e') := ⟨he.mono (le_max_left _ _), he'.mono (le_max_right _ _)⟩
  have hp := C45_panics (ct := ct) hb h hr fun p hp => by rw [hct.par_eq]; exact hct.valid p hp
  rw [hct.par_eq] at hp
  have hp' : ct.mulRgsw x = none ↔ ct.level ≠ x.ksk0.ciphertextLevel ∨ ct.c.length ≠ 2 := hp.trans (or_iff_right fun hc => hc rfl)
  refine ⟨hp', fun r hmul => ?_⟩
  have hgood : ¬(ct.level ≠ x.ksk0.ciphertextLevel ∨ ct.c.length ≠ 2) := fun hc => by rw [hp'.2 hc] at hmul; cases hmul
  rw [not_or, not_not, not_not] at hgood
  obtain ⟨m, v, hm⟩ := hct.encrypts hw 0
  rw [hgood.1] at hm
  obtain ⟨o, W, e1, e2, e3, -⟩ := C45_product hb h hr hm hgood.2
  rw [hmul, Option.some_inj] at e1
  rw [e1]; exact ⟨e2.usable hw, e3⟩

/-- C67: every ciphertext a server can come to hold, whatever bytes it was sent and whatever operations it applied, in any order and number, can be
used. -/
theorem C67_held (hb : b.OK) (h : build b st = Res.ok par.toBfvParameters) (hg : g.OK) (hcount : par.moduli.length ≤ 31) (hsum : par.moduli.sum ≤ 2 ^ 65)
    (hQ : ∀ i < par.moduli.length, par.plaintext.value ≤ par.modulusAt i) (hct : ct.Held b g par) : ct.Usable par := by
  obtain ⟨n, hw, -⟩ := build_inv hb h
  have hlt : ∀ {i : Nat} {m : par.Msg} {pt : Plaintext}, pt.Holds par i m → i < par.moduli.length := fun hh => by
    obtain ⟨l, hl, -⟩ := ParWF.contextAtLevel_iff.1 hh.ctx
    exact (AtLevel.ofGet hw hl).lt
  induction hct with
  | read hbytes h1 => exact (C67_read hb h hg hbytes).1 _ h1
  | encrypt hpk hpt hU h1 h2 hr =>
    obtain ⟨r, e1, e2, -⟩ := C67_encrypt hb h hg hpk (hQ _ (hlt hpt)) hpt hU h1 h2
    rw [hr, Res.ok_inj] at e1
    rw [e1]; exact e2
  | switchDown _ hr ih => exact (C67_switch hb h ih).1.2 _ hr
  | switchToLevel _ hr ih => exact ((C67_switch hb h ih).2 _).2 _ hr
  | relinearize hk _ hr ih => exact ((C67_relinearize hb h hg hk ih).2 _ hr).1
  | multiply hk hmp _ _ hr ih ih' => exact (((C67_multiply hb h hg hcount hsum hk).2 _ hmp).2 ih ih').1.2 _ hr
  | multiplySwitch hk hmp hmp' _ _ hr ih ih' => exact ((((C67_multiply hb h hg hcount hsum hk).2 _ hmp).2 ih ih').2 _ hmp').2 _ hr
  | rows hk _ hr ih => exact (C67_evaluate hb h hg hk ih).1.2 _ hr
  | columns hk _ hr ih => exact ((C67_evaluate hb h hg hk ih).2.1 _).2 _ hr
  | innerSum hk _ hr ih => exact (C67_evaluate hb h hg hk ih).2.2.1.2 _ hr
  | expand hk _ hr hmem ih => exact ((C67_evaluate hb h hg hk ih).2.2.2 _).2 _ hr _ hmem
  | dot _ hpt hr ih => exact (C67_dot hb h ih hpt).2 _ hr
  | add _ _ hr ih ih' => exact (C67_operators hb h hcount hsum ih ih').2.2.2.2 _ (.inl hr)
  | sub _ _ hr ih ih' => exact (C67_operators hb h hcount hsum ih ih').2.2.2.2 _ (.inr (.inl hr))
  | neg _ hr ih => exact (C67_operators hb h hcount hsum ih ih).2.2.2.2 _ (.inr (.inr (.inl hr)))
  | mulPlain _ hpt hr ih => exact (C67_plain hb h (hQ _ (hlt hpt)) ih hpt).2.2.2.2 _ (.inr (.inr (.inl hr)))
  | addPlain _ hpt hr ih => exact (C67_plain hb h (hQ _ (hlt hpt)) ih hpt).2.2.2.2 _ (.inl hr)
  | subPlain _ hpt hr ih => exact (C67_plain hb h (hQ _ (hlt hpt)) ih hpt).2.2.2.2 _ (.inr (.inl hr))
  | mul _ _ hlen hr ih ih' => exact (C67_operators hb h hcount hsum ih ih').2.2.2.2 _ (.inr (.inr (.inr ⟨hlen, hr⟩)))
  | mulRgsw _ hx hr ih => exact ((C67_rgsw hb h hg hx ih).2 _ hr).1

/-- C67: on whatever ciphertexts it holds, with whatever keys it was sent, no fallible operation of the server panics: it returns a result or an error.
Ciphertexts it holds can be written, and the owner of the secret key can decrypt them and measure their noise. -/
theorem C67_no_panic (hb : b.OK) (h : build b st = Res.ok par.toBfvParameters) (hg : g.OK) (hcount : par.moduli.length ≤ 31) (hsum : par.moduli.sum ≤ 2 ^ 65)
    (hQ : ∀ i < par.moduli.length, par.plaintext.value ≤ par.modulusAt i) (hct : ct.Held b g par) (hct' : ct'.Held b g par) :
    ct.switchDown ≠ Res.panic ∧ (∀ target, ct.switchToLevel target ≠ Res.panic) ∧ (∀ k : RelinearizationKey, k.Received g par → k.relinearizes ct ≠ Res.panic) ∧
    (∀ (k : RelinearizationKey) (mp : Multiplicator), k.Received g par → Multiplicator.default b k = Res.ok mp → mp.multiply ct ct' ≠ Res.panic ∧ mp.enableModSwitching ≠ Res.panic ∧
      ∀ mp', mp.enableModSwitching = Res.ok mp' → mp'.multiply ct ct' ≠ Res.panic) ∧
    (∀ k : EvaluationKey, k.Received b g par → k.rotatesRows ct ≠ Res.panic ∧ (∀ t, k.rotatesColumnsBy ct t ≠ Res.panic) ∧ k.computesInnerSum ct ≠ Res.panic ∧ ∀ size, k.expands ct size ≠ Res.panic) ∧
    (∀ (cts : List Ciphertext) (pts : List Plaintext), (∀ ct ∈ cts, ct.Held b g par) → (∀ pt ∈ pts, ∃ i m, pt.Holds par i m) → dotProductScalar cts pts ≠ Res.panic) ∧
    ct.toBytes ≠ none ∧
    ∀ (sk : SecretKey) (s : IntPoly par.degree), sk.IsKey par s → (∃ pt, sk.tryDecrypt b ct = Res.ok pt) ∧ ∃ k, sk.measureNoise b ct = Res.ok k := by
  obtain ⟨n, hw, -⟩ := build_inv hb h
  have hu := C67_held hb h hg hcount hsum hQ hct
  have hu' := C67_held hb h hg hcount hsum hQ hct'
  refine ⟨(C67_switch hb h hu).1.1, fun t => ((C67_switch hb h hu).2 t).1, fun k hk => (C67_relinearize hb h hg hk hu).1, fun k mp hk hmp => ?_, fun k hk => ?_,
    fun cts pts hc hp => (C67_dot hb h (fun ct hx => C67_held hb h hg hcount hsum hQ (hc ct hx)) hp).1, ?_, fun sk s hk => ?_⟩
  · obtain ⟨e1, e2⟩ := (C67_multiply hb h hg hcount hsum hk).2 mp hmp
    exact ⟨(e2 hu hu').1.1, e1, fun mp' hmp' => ((e2 hu hu').2 mp' hmp').1⟩
  · obtain ⟨e1, e2, e3, e4⟩ := C67_evaluate hb h hg hk hu
    exact ⟨e1.1, fun t => (e2 t).1, e3.1, fun size => (e4 size).1⟩
  · obtain ⟨bytes, e⟩ := hu.toBytes_any hw (by omega)
    rw [e]; simp
  · obtain ⟨⟨pt, m, e1, -⟩, e2⟩ := C67_decrypt hb h hcount hsum hk hu (hQ _ hu.level)
    exact ⟨⟨pt, e1⟩, e2⟩

/-! ## Relinearization keeps a seed that no longer belongs to the ciphertext -/

/-- C47, false of relinearized ciphertexts that had a seed: the last part is not written, and what is read back has, instead of the second part, the
third part of the ciphertext that was relinearized. -/
theorem C47_relinearized_seed (hb : b.OK) (h : build b st = Res.ok par.toBfvParameters) (h32 : par.moduli.length ≤ 2 ^ 32) {k : RelinearizationKey} {s : IntPoly par.degree} {j e : Nat}
    (hk : k.IsFor par s i j e) (hct : ct.WellFormed g par) {x0 x1 x2 : Poly .ntt} (hc : ct.c = [x0, x1, x2]) {seed : Seed} (hs : ct.seed = some seed) {r : Ciphertext}
    (hr : k.relinearizes ct = Res.ok r) :
    ∃ y0 y1 bytes r', r.c = [y0, y1] ∧ r.toBytes = some bytes ∧ Ciphertext.fromBytes g bytes par = Res.ok r' ∧ r'.beq { r with c := [y0, x2] } = true ∧ (r'.beq r = true ↔ x2.beq y1 = true) := by
  obtain ⟨n, hw, -⟩ := build_inv hb h
  have hu : ct.Usable par := ⟨hct.par_eq, hct.level, hct.parts, hct.valid⟩
  obtain ⟨m, v, he⟩ := hu.encrypts hw s
  have hseed := C41_seed hr
  have hl : ct.level = i := ((C41_rejects hb h hk (fun _ => hct.par_eq) fun p hp => (hct.valid p hp).1).2.1 ⟨r, hr⟩).2.2
  rw [hl] at he
  obtain ⟨r1, W, e1, e2, e3, -⟩ := C41_relinearize hb h hk he (by rw [hc]; rfl)
  rw [hr, Res.ok_inj] at e1
  subst e1
  obtain ⟨y0, y1, hy⟩ := List.length_eq_two.1 e3
  have hru := e2.usable hw
  obtain ⟨g1, g2⟩ := hct.seed seed hs
  have hwf : ({ r with c := [y0, x2] } : Ciphertext).WellFormed g par := by
    refine ⟨hru.par_eq, hru.level, le_refl 2, fun p hp => ?_, fun sd hsd => ?_⟩
    · rcases List.mem_cons.1 hp with rfl | hp
      · exact hru.valid p (by rw [hy]; simp)
      · rw [List.mem_singleton.1 hp]
        have := hct.valid x2 (by rw [hc]; simp)
        refine ⟨this.1, ?_⟩
        rw [hl] at this
        show par.contextAtLevel r.level = _
        rw [e2.level_eq]; exact this.2
    · obtain rfl : seed = sd := by
        have hsd' : r.seed = some sd := hsd
        rw [hseed, hs, Option.some_inj] at hsd'
        exact hsd'
      refine ⟨g1, fun last hlast => ?_⟩
      obtain rfl : x2 = last := by simpa using hlast
      exact g2 x2 (by rw [hc]; rfl)
  obtain ⟨bytes, r', f1, -, f2, f3, f4⟩ := C62_ciphertext hb h h32 hwf
  have hmsg : r.toMsg = ({ r with c := [y0, x2] } : Ciphertext).toMsg := by
    have := Ciphertext.toMsg_last (ct := r) (xs := [y0]) (y := y1) (y' := x2) (hseed.trans hs)
    simp only [List.singleton_append] at this
    rw [← this, ← hy]
  refine ⟨y0, y1, bytes, r', hy, ?_, f2, f3, ?_⟩
  · unfold Ciphertext.toBytes at f1 ⊢
    rw [hmsg]; exact f1
  · unfold Ciphertext.beq at f3 ⊢
    simp only [Bool.and_eq_true, decide_eq_true_eq, List.all_eq_true] at f3 ⊢
    obtain ⟨⟨⟨⟨a1, a2⟩, a3⟩, a4⟩, a5⟩ := f3
    obtain ⟨z0, z1, hz⟩ := List.length_eq_two.1 a3
    rw [hz] at a4 ⊢
    have b1 := a4 (z0, y0) (by simp)
    have b2 := a4 (z1, x2) (by simp)
    rw [hy]
    rw [beq_iff] at b1 b2
    constructor
    · rintro ⟨⟨-, q⟩, -⟩
      have := q (z1, y1) (by simp)
      rw [beq_iff] at this ⊢
      exact b2.symm.trans this
    · intro q
      rw [beq_iff] at q
      refine ⟨⟨⟨⟨a1, a2⟩, rfl⟩, fun x hx => ?_⟩, a5⟩
      simp only [List.zip_cons_cons, List.zip_nil_right, List.mem_cons, List.not_mem_nil, or_false] at hx
      rcases hx with rfl | rfl
      · exact beq_iff.2 b1
      · exact beq_iff.2 (b2.trans q)

/-- C47, false of relinearized ciphertexts that had a seed: for every relinearization key there are bytes that are read as a ciphertext whose
relinearization, written and read back, is another ciphertext. -/
theorem C47_seed_lost (hb : b.OK) (h : build b st = Res.ok par.toBfvParameters) (hg : g.OK) (h32 : par.moduli.length ≤ 2 ^ 32) {k : RelinearizationKey} {s : IntPoly par.degree} {j e : Nat}
    (hk : k.IsFor par s i j e) : ∃ bytes ct r bytes' r', IsBytes bytes ∧ Ciphertext.fromBytes g bytes par = Res.ok ct ∧ k.relinearizes ct = Res.ok r ∧ r.toBytes = some bytes' ∧
      Ciphertext.fromBytes g bytes' par = Res.ok r' ∧ r'.beq r = false := by
  obtain ⟨n, hw, -⟩ := build_inv hb h
  obtain ⟨l, ha, hform⟩ := RelinearizationKey.relinearizes_second hw hk
  obtain ⟨p, p1, p2, p3⟩ := Prg.poly_valid hg ha.wf .ntt (List.replicate 32 0)
  obtain ⟨F2, hF2, -⟩ := exists_encI ha.wf ha.deg p2 p3
  obtain ⟨B, hB⟩ := hform true F2
  have hl : i < par.moduli.length := ha.lt
  by_contra hno
  -- otherwise the second part of the relinearization is the expansion of the seed, whatever the second part was before
  have key : ∀ F1 : IntPoly par.degree, (encI l.ctx .ntt true F2).IsMod l.ctx (F1 + B) := fun F1 => by
    have hwf : (⟨par, some (List.replicate 32 0), [encI l.ctx .ntt true (0 : IntPoly par.degree), encI l.ctx .ntt true F1, encI l.ctx .ntt true F2], i⟩ : Ciphertext).WellFormed g par := by
      refine ⟨rfl, hl, by simp, fun q hq => ?_, fun seed hseed => ?_⟩
      · simp only [List.mem_cons, List.not_mem_nil, or_false] at hq
        rcases hq with rfl | rfl | rfl <;> exact ⟨(isMod_encI ha.wf ha.deg _).valid, ha.contextAt⟩
      · obtain rfl : List.replicate 32 0 = seed := by simpa using hseed
        refine ⟨rfl, fun last hlast => ?_⟩
        obtain rfl : encI l.ctx .ntt true F2 = last := by simpa using hlast
        exact ⟨p, p1, by rw [beq_iff, hF2]; rfl⟩
    obtain ⟨bytes, f1, f2, f3⟩ := hwf.read_back hw h32 fun seed hseed => by
      obtain rfl : List.replicate 32 0 = seed := by simpa using hseed
      unfold IsBytes; decide
    have hct := (C62_ciphertext_any hb h hg f2).2 _ f3
    obtain ⟨r, y0, v, hr, hrc⟩ := hB _ true true 0 F1 hct.par_eq rfl rfl
    obtain ⟨y0', y1, bytes', r', k1, k2, k3, -, k4⟩ := C47_relinearized_seed hb h h32 hk hct rfl rfl hr
    rw [hrc] at k1
    obtain ⟨rfl, rfl⟩ : y0 = y0' ∧ encI l.ctx .ntt v (F1 + B) = y1 := by simpa using k1
    have hbeq : r'.beq r = true := by
      by_contra hne
      exact hno ⟨bytes, _, r, bytes', r', f2, f3, hr, k2, k3, by simpa using hne⟩
    exact KeySwitchingKey.isMod_beq ha.wf ha.deg (k4.1 hbeq) (isMod_encI ha.wf ha.deg _)
  have hpos := ha.pos
  have hdeg : 0 < par.degree := by rw [hw.degree]; positivity
  have hone : 1 < l.ctx.modulus := by
    rw [ha.wf.modulus_eq]
    obtain ⟨q, qs, hq⟩ := List.exists_cons_of_ne_nil ha.wf.supported.ne_nil
    have hmem : q ∈ l.ctx.moduli := by rw [hq]; simp
    have h2 := (ha.wf.supported.prime q hmem).two_le
    have h0 : l.ctx.moduli.prod ≠ 0 := by rw [← ha.wf.modulus_eq, ha.mod]; omega
    have := Nat.le_of_dvd (Nat.pos_of_ne_zero h0) (List.dvd_prod hmem)
    omega
  have e : (0 + B ⟨0, hdeg⟩) % (l.ctx.modulus : Int) = (1 + B ⟨0, hdeg⟩) % (l.ctx.modulus : Int) := (key (fun _ => 0)).congr (by omega) (key (fun _ => 1)) ⟨0, hdeg⟩
  have e := Int.emod_eq_emod_iff_emod_sub_eq_zero.1 e
  rw [show (0 + B ⟨0, hdeg⟩ - (1 + B ⟨0, hdeg⟩) : Int) = -1 by ring] at e
  have := Int.le_of_dvd (by norm_num) ((Int.dvd_neg).2 (Int.dvd_of_emod_eq_zero e))
  omega

/-! ## Concrete cases -/

/-- A server is sent a ciphertext, a relinearization key and an evaluation key, and works on them: it squares, relinearizes and sums. -/
example : ∃ (par : Par) (ct r r' : Ciphertext) (k : RelinearizationKey) (ek : EvaluationKey), build luckyBuild exBuilder = Res.ok par.toBfvParameters ∧ ct.Held luckyBuild exPrg par ∧
    k.Received exPrg par ∧ ek.Received luckyBuild exPrg par ∧ ct.mul ct = some r ∧ k.relinearizes r = Res.ok r' ∧ r'.Held luckyBuild exPrg par ∧ r'.c.length = 2 ∧
    ek.computesInnerSum r' ≠ Res.panic ∧
    ∃ bytes ct r bytes' r', IsBytes bytes ∧ Ciphertext.fromBytes exPrg bytes par = Res.ok ct ∧ k.relinearizes ct = Res.ok r ∧ r.toBytes = some bytes' ∧
      Ciphertext.fromBytes exPrg bytes' par = Res.ok r' ∧ r'.beq r = false := by
  obtain ⟨par, sk, s, pt, pt', m, m', ct, ct', v, v', h, hd, ht, hm, hrel, hk, hs, e2, e2', em, em', f1, f1', f2, f2', f3, f3', f4, f4', f5, f6, h0, hvar⟩ := exCipher
  have hb := luckyBuild_ok
  obtain ⟨n, hw, -⟩ := build_inv hb h
  have h64 : par.moduli.length ≤ 64 := by rw [hm]; decide
  have h32 : par.moduli.length ≤ 2 ^ 32 := by rw [hm]; decide
  have h31 : par.moduli.length ≤ 31 := by rw [hm]; decide
  have h10 : par.moduli.length ≤ 1024 := by rw [hm]; decide
  have hsum : par.moduli.sum ≤ 2 ^ 65 := by rw [hm]; decide
  have hsd : IsBytes (List.replicate 32 3) := by unfold IsBytes; decide
  -- the relinearization key
  obtain ⟨k0, g1, g2, g3, g4, -⟩ := RelinearizationKey.newLeveled_eq (i := 0) (j := 0) hw h64 hk exPrg_ok (by rw [hm]; decide) (by omega) (by rw [hm]; decide) (List.replicate 32 3) (rngs := fun _ => exRng)
    fun _ => exRng_ok
  obtain ⟨k0', g5, g6⟩ := C55_relin_generated (i := 0) (j := 0) hb h h64 hk exPrg_ok (seed := List.replicate 32 3) rfl (rngs := fun _ => exRng) (fun _ => exRng_ok) (by rw [hm]; decide) (by omega) (by rw [hm]; decide)
  rw [g1, Res.ok_inj] at g5
  subst g5
  obtain ⟨bytes, k, k1, k2, k3, -, -, -, k4⟩ := C62_relin hb h h10 g6
  have hkr : k.IsFor par s 0 0 _ := k4 _ _ _ _ g2
  have k2 := k2 fun seed hseed => by rw [g3, Option.some_inj] at hseed; rw [← hseed]; exact hsd
  have hkrec := (C67_received hb h exPrg_ok k2).1 k k3 (by rw [show k.ksk.ciphertextLevel = 0 from hkr.level, hm]; decide)
  -- the evaluation key
  obtain ⟨bd, b1, b2⟩ := EvaluationKeyBuilder.newLeveled_eq (sk := sk) (i := 0) (j := 0) hw hk.par_eq (by rw [hm]; decide) (by omega)
  obtain ⟨bd', b3, b4⟩ := b2.requests hw hk.par_eq (rs' := [.innerSum])
  obtain ⟨ek0, b5, b6, b7, b8, b9, -⟩ := EvaluationKeyBuilder.build_eq hw h64 hk exPrg_ok (by rw [hm]; decide) (by omega) b4 (fun _ => List.replicate 32 3) (rngs := fun _ _ => exRng) fun _ _ => exRng_ok
  obtain ⟨bd1, bd1', ek1, c1, c2, c3, c4⟩ := C55_evaluation_generated (i := 0) (j := 0) hb h h64 hk exPrg_ok (by rw [hm]; decide) (by omega) [.innerSum] (seeds := fun _ => List.replicate 32 3) (fun _ => rfl)
    (rngs := fun _ _ => exRng) (fun _ _ => exRng_ok)
  rw [b1, Res.ok_inj] at c1
  subst c1
  rw [b3, Option.some_inj] at c2
  subst c2
  rw [b5, Res.ok_inj] at c3
  subst c3
  obtain ⟨ebytes, ek, d1, d2, d3, -, d4, -, -, -, -, d5, d6⟩ := C62_evaluation hb h h10 c4
  have hek : ek.IsFor par s 0 0 _ := d6 _ _ _ _ b6
  have d2 := d2 fun x hx seed hseed => by
    have hl : ek0.gk.lookup x.1 = some x.2 := lookup_of_mem b9 hx
    rw [(b8 x.1 x.2 hl).1, Option.some_inj] at hseed
    rw [← hseed]; exact hsd
  have hekrec := (C67_received hb h exPrg_ok d2).2.1 ek d3 (by rw [hek.level, hm]; decide)
  -- the ciphertext
  have hQ : ∀ i < par.moduli.length, par.plaintext.value ≤ par.modulusAt i := fun i hi => by
    rw [hm] at hi
    unfold BfvParameters.modulusAt
    rw [hm, ht]
    simp only [List.length_cons, List.length_nil] at hi
    rcases i with _ | _ | _ | i
    · decide
    · decide
    · decide
    · omega
  have hwf : ({ ct with seed := none } : Ciphertext).WellFormed exPrg par := ⟨f6.par_eq, f6.level, f6.parts, f6.valid, fun _ h => by cases h⟩
  obtain ⟨cbytes, a1, a2, a3⟩ := hwf.read_back hw h32 fun _ h => by cases h
  generalize hx : ({ ({ ct with seed := none } : Ciphertext) with c := ct.c.map Poly.allowVt } : Ciphertext) = x at a3
  have hlev : x.level = 0 := by rw [← hx]; exact f2.level_eq
  have hlen : x.c.length = 2 := by rw [← hx]; show (ct.c.map Poly.allowVt).length = 2; rw [List.length_map]; exact f4
  have hheld : x.Held luckyBuild exPrg par := .read a2 a3
  have hu := C67_held hb h exPrg_ok h31 hsum hQ hheld
  obtain ⟨mx, vx, hx1⟩ := hu.encrypts hw s
  obtain ⟨r, _, _, _, _, _, _, q1, q2, q3, -⟩ := C39_mul hb h h31 hsum hx1 hx1 (by rw [hlen]; norm_num)
  have hl3 : r.c.length = 3 := by rw [q3, hlen]
  rw [hlev] at q2
  obtain ⟨r', W, r1, -, r3, -⟩ := C41_relinearize hb h hkr q2 hl3
  have hheld' : r'.Held luckyBuild exPrg par := .relinearize hkrec (.mul hheld hheld (by rw [hlen]; norm_num) q1) r1
  exact ⟨par, x, r, r', k, ek, h, hheld, hkrec, hekrec, q1, r1, hheld', r3, (C67_no_panic hb h exPrg_ok h31 hsum hQ hheld' hheld').2.2.2.2.1 ek hekrec |>.2.2.1,
    C47_seed_lost hb h exPrg_ok h32 hkr⟩

end Fhe.Props
