import Verif.Lemmas.Joint
import Verif.Props.Secrecy
import Verif.Props.Mbfv
import Verif.Lemmas.Shares
/-!
# Joint public keys, with one honest party and with a party that chooses last
-/
namespace Fhe.Props
open Nega ParamsBuilder Ciphertext Secrecy Poly

variable {b : Build} {st : ParamsBuilder} {par : Par}

/-- C98: with one honest party, and other parties that choose their shares without having seen its share, whoever tells the encryptions of two lists of messages with the joint public key apart also
tells samples of learning with errors from uniformly distributed ones: first one sample whose secret is the key of the honest party, then two samples with the same secret for every ciphertext. The
honest party is at any position, and `fill` is the share it must have for the joint key to be a given one. -/
theorem C98_one_honest (hb : b.OK) (h : build b st = Res.ok par.toBfvParameters) {c : Context} (hc : par.contextAtLevel 0 = Res.ok c) (hQ : par.plaintext.value ≤ par.modulusAt 0) {K k W : Nat}
    {S : Strategy K} (hS : S.Usable par c) (own : Fin K) {pt pt' : Fin k → Plaintext} {m m' : Fin k → par.Msg} (hpt : ∀ j, (pt j).Holds par 0 (m j)) (hpt' : ∀ j, (pt' j).Holds par 0 (m' j))
    (adversary : Res (JointSight K k) → Bool) :
    ∃ (lwe : Coeffs par 0 × Words W × Words W → Coeffs par 0) (fill : Coeffs par 0 → Coeffs par 0 → Coeffs par 0)
      (lwe2 : (Coeffs par 0 × Coeffs par 0) × PublicRandom k W → Fin k → Coeffs par 0 × Coeffs par 0),
      (∀ ω, ∃ a, polyOf c ω.1 = Res.ok a ∧ IsLwe c a (-sample par ω.2.1) (sample par ω.2.2) (lwe ω)) ∧
      (∀ x p, ∃ a q share pk, polyOf c x = Res.ok a ∧ polyOf c p = Res.ok q ∧ shareFrom (fill x p) ⟨a⟩ = Res.ok share ∧
        PublicKeyShare.aggregate (List.ofFn (allShares S own share)) = Res.ok pk ∧ pk.c.c = [q.allowVt, a]) ∧
      (∀ ω j, ∃ a q, polyOf c ω.1.1 = Res.ok a ∧ polyOf c ω.1.2 = Res.ok q ∧ IsLwe c q (sample par (ω.2 j).1) (sample par (ω.2 j).2.1) (lwe2 ω j).1 ∧
        IsLwe c a (sample par (ω.2 j).1) (sample par (ω.2 j).2.2) (lwe2 ω j).2) ∧
      gap (fun ω : (Coeffs par 0 × Words W × Words W) × PublicRandom k W => adversary (jointView S own ω.1.1 (honestShare par ω.1.2) pt ω.2))
          (fun ω : (Coeffs par 0 × Words W × Words W) × PublicRandom k W => adversary (jointView S own ω.1.1 (honestShare par ω.1.2) pt' ω.2)) ≤
        gap (fun ω : (Coeffs par 0 × Words W × Words W) × PublicRandom k W => adversary (jointView S own ω.1.1 (shareFrom (lwe ω.1)) pt ω.2))
          (fun u : (Coeffs par 0 × Coeffs par 0) × PublicRandom k W => adversary (jointView S own u.1.1 (shareFrom u.1.2) pt u.2)) +
        gap (fun ω : (Coeffs par 0 × Coeffs par 0) × PublicRandom k W => adversary (jointFrom S own ω.1.1 (shareFrom (fill ω.1.1 ω.1.2)) pt (lwe2 ω)))
          (fun u : (Coeffs par 0 × Coeffs par 0) × (Fin k → Coeffs par 0 × Coeffs par 0) => adversary (jointFrom S own u.1.1 (shareFrom (fill u.1.1 u.1.2)) pt u.2)) +
        (gap (fun ω : (Coeffs par 0 × Words W × Words W) × PublicRandom k W => adversary (jointView S own ω.1.1 (shareFrom (lwe ω.1)) pt' ω.2))
          (fun u : (Coeffs par 0 × Coeffs par 0) × PublicRandom k W => adversary (jointView S own u.1.1 (shareFrom u.1.2) pt' u.2)) +
        gap (fun ω : (Coeffs par 0 × Coeffs par 0) × PublicRandom k W => adversary (jointFrom S own ω.1.1 (shareFrom (fill ω.1.1 ω.1.2)) pt' (lwe2 ω)))
          (fun u : (Coeffs par 0 × Coeffs par 0) × (Fin k → Coeffs par 0 × Coeffs par 0) => adversary (jointFrom S own u.1.1 (shareFrom (fill u.1.1 u.1.2)) pt' u.2))) := by
  obtain ⟨n, hw, -⟩ := build_inv hb h
  obtain ⟨l, hl, rfl⟩ := ParWF.contextAtLevel_iff.1 hc
  have ha := AtLevel.ofGet hw hl
  have : NeZero (par.modulusAt 0) := ⟨ha.pos.ne'⟩
  obtain ⟨F, hF⟩ := hS.exists_reps ha
  let crp : Coeffs par 0 → CommonRandomPoly := fun x => ⟨encI l.ctx .ntt false (intOf x)⟩
  let R : Coeffs par 0 → IntPoly par.degree := fun x => ∑ k ∈ Finset.univ.erase own, F (crp x) k
  let sh : Coeffs par 0 → Coeffs par 0 ≃ Coeffs par 0 := fun x => shift par 0 (R x)
  let lwe2 : (Coeffs par 0 × Coeffs par 0) × PublicRandom k W → Fin k → Coeffs par 0 × Coeffs par 0 := fun ω j =>
    (reduce par 0 (intOf ω.1.2 * sample par (ω.2 j).1 + sample par (ω.2 j).2.1), reduce par 0 (intOf ω.1.1 * sample par (ω.2 j).1 + sample par (ω.2 j).2.2))
  have hsum : ∀ x y, encI l.ctx .ntt true (intOf y + R x) = encI l.ctx .ntt true (intOf (sh x y)) := fun x y => by
    have := encI_shift ha (R x) 0 y .ntt true
    rw [add_zero, add_zero] at this
    exact this.symm
  have hagg : ∀ x y, PublicKeyShare.aggregate (List.ofFn (allShares S own { par, crp := crp x, p0Share := encI l.ctx .ntt true (intOf y) })) =
      Res.ok { par, c := { par, seed := none, c := [encI l.ctx .ntt true (intOf (sh x y)), (crp x).poly], level := 0 } } := fun x y => by
    rw [aggregate_all ha hF own rfl, ← hsum x y]
  have hkey : ∀ (ω : (Coeffs par 0 × Words W × Words W) × PublicRandom k W) (pt : Fin k → Plaintext), jointView S own ω.1.1 (honestShare par ω.1.2) pt ω.2 =
      jointView S own ω.1.1 (shareFrom (reduce par 0 (intOf ω.1.1 * -sample par ω.1.2.1 + sample par ω.1.2.2))) pt ω.2 := fun ω pt => by
    unfold jointView
    rw [crpOf_eq ha, Res.ok_bind, Res.ok_bind, honestShare_eq hw ha, shareFrom_eq ha, encI_reduce' ha]
  have hview : ∀ {pt : Fin k → Plaintext} {m : Fin k → par.Msg}, (∀ j, (pt j).Holds par 0 (m j)) → ∀ (x y : Coeffs par 0) (ω : PublicRandom k W),
      jointView S own x (shareFrom y) pt ω = jointFrom S own x (shareFrom y) pt (lwe2 ((x, sh x y), ω)) := fun {pt m} hpt x y ω => by
    unfold jointView jointFrom
    rw [crpOf_eq ha, Res.ok_bind, Res.ok_bind, shareFrom_eq ha, Res.ok_bind, Res.ok_bind, hagg x y, Res.ok_bind]
    congr 4
    funext j
    rw [PublicKey.tryEncrypt_drawn hw ha hQ (hpt j) (isStream_words _) (isStream_words _) (isStream_words _), pairFrom_eq hw ha hQ (hpt j), encI_reduce ha, encI_reduce' ha]
    simp only [drawn_sample]
    rw [mul_comm (intOf (sh x y)), mul_comm (intOf x)]
  have hre : ∀ {pt : Fin k → Plaintext} {m : Fin k → par.Msg}, (∀ j, (pt j).Holds par 0 (m j)) →
      pr (fun u : (Coeffs par 0 × Coeffs par 0) × PublicRandom k W => adversary (jointView S own u.1.1 (shareFrom u.1.2) pt u.2)) =
      pr (fun ω : (Coeffs par 0 × Coeffs par 0) × PublicRandom k W => adversary (jointFrom S own ω.1.1 (shareFrom ((sh ω.1.1).symm ω.1.2)) pt (lwe2 ω))) := fun {pt m} hpt =>
    pr_equiv (((Equiv.refl _).prodShear sh).prodCongr (Equiv.refl _)) fun u => by
      show _ = adversary (jointFrom S own u.1.1 (shareFrom ((sh u.1.1).symm (sh u.1.1 u.1.2))) pt (lwe2 ((u.1.1, sh u.1.1 u.1.2), u.2)))
      rw [Equiv.symm_apply_apply, hview hpt]
  have hideal : pr (fun u : (Coeffs par 0 × Coeffs par 0) × (Fin k → Coeffs par 0 × Coeffs par 0) => adversary (jointFrom S own u.1.1 (shareFrom ((sh u.1.1).symm u.1.2)) pt u.2)) =
      pr (fun u : (Coeffs par 0 × Coeffs par 0) × (Fin k → Coeffs par 0 × Coeffs par 0) => adversary (jointFrom S own u.1.1 (shareFrom ((sh u.1.1).symm u.1.2)) pt' u.2)) := by
    refine pr_equiv ((Equiv.refl _).prodCongr (Equiv.piCongrRight fun j =>
      (shift par 0 (scaleMsg (par.modulusAt 0) (m j) - scaleMsg (par.modulusAt 0) (m' j))).prodCongr (Equiv.refl _))) fun u => ?_
    congr 1
    have : (fun j => pairFrom (pt j) (u.2 j)) = fun j => pairFrom (pt' j) (shift par 0 (scaleMsg (par.modulusAt 0) (m j) - scaleMsg (par.modulusAt 0) (m' j)) (u.2 j).1, (u.2 j).2) := by
      funext j
      rw [pairFrom_eq hw ha hQ (hpt j), pairFrom_eq hw ha hQ (hpt' j), encI_shift ha, sub_add_cancel]
    unfold jointFrom
    rw [this]
    rfl
  refine ⟨fun ω => reduce par 0 (intOf ω.1 * -sample par ω.2.1 + sample par ω.2.2), fun x p => (sh x).symm p, lwe2, fun ω => ⟨_, polyOf_eq ha _, isLwe_reduce ha _ _ _ _⟩,
    fun x p => ⟨_, _, _, _, polyOf_eq ha _, polyOf_eq ha _, shareFrom_eq ha _ _, hagg x _, by rw [Equiv.apply_symm_apply]; rfl⟩,
    fun ω j => ⟨_, _, polyOf_eq ha _, polyOf_eq ha _, isLwe_reduce ha _ _ _ _, isLwe_reduce ha _ _ _ _⟩, ?_⟩
  simp only [hkey, gap]
  rw [hre hpt, hre hpt', ← hideal]
  generalize (pr fun ω : (Coeffs par 0 × Words W × Words W) × PublicRandom k W => adversary (jointView S own ω.1.1 (shareFrom _) pt ω.2)) = a
  generalize (pr fun ω : (Coeffs par 0 × Words W × Words W) × PublicRandom k W => adversary (jointView S own ω.1.1 (shareFrom _) pt' ω.2)) = a'
  generalize (pr fun ω : (Coeffs par 0 × Coeffs par 0) × PublicRandom k W => adversary (jointFrom S own ω.1.1 _ pt (lwe2 ω))) = d
  generalize (pr fun ω : (Coeffs par 0 × Coeffs par 0) × PublicRandom k W => adversary (jointFrom S own ω.1.1 _ pt' (lwe2 ω))) = d'
  generalize (pr fun u : (Coeffs par 0 × Coeffs par 0) × (Fin k → Coeffs par 0 × Coeffs par 0) => adversary (jointFrom S own u.1.1 _ pt u.2)) = x
  have t1 := abs_sub_le a d x
  have t2 := abs_sub_le a' d' x
  have t3 := abs_sub_le a x a'
  rw [abs_sub_comm x a'] at t3
  linarith

/-- C98, a limitation: a party that chooses its share after it has seen the shares of all others can make the joint public key any key it likes, for instance one for a secret key that it knows
alone.  Nothing in the aggregation prevents that. -/
theorem C98_last_chooses (hb : b.OK) (h : build b st = Res.ok par.toBfvParameters) {crp : CommonRandomPoly} (hctx : par.contextAtLevel 0 = Res.ok crp.poly.ctx) (hv : crp.poly.Valid)
    {l : List PublicKeyShare} (hl : ∀ x ∈ l, x.par = par ∧ x.crp = crp ∧ x.p0Share.Valid ∧ x.p0Share.ctx = crp.poly.ctx ∧ x.p0Share.vt = true)
    {sk : SecretKey} {s : IntPoly par.degree} (hk : sk.IsKey par s) {rng : Nat → Nat} (hr : IsStream rng) :
    ∃ (x : PublicKeyShare) (pk : PublicKey) (e : IntPoly par.degree), x.par = par ∧ x.crp = crp ∧ x.p0Share.Valid ∧ x.p0Share.ctx = crp.poly.ctx ∧ x.p0Share.vt = true ∧
      PublicKeyShare.aggregate (l ++ [x]) = Res.ok pk ∧ pk.par = par ∧ pk.c.c.length = 2 ∧ pk.c.Encrypts par s 0 0 (C (par.plaintext.value : Int) * e) ∧ e.Bounded (2 * par.variance) := by
  obtain ⟨sh, pk, e, h1, h2, h3, h4, h5, h6, -⟩ := C51_public_key hb h (K := 1) Nat.one_pos (sk := fun _ => sk) (s := fun _ => s) (fun _ => hk) hctx hv (rng := fun _ => rng) (fun _ => hr)
  have h2 := h2 1
  obtain ⟨n, hw, -⟩ := build_inv hb h
  obtain ⟨lv, hlv, hc⟩ := ParWF.contextAtLevel_iff.1 hctx
  have ha := AtLevel.ofGet hw hlv
  obtain ⟨A, hA, -⟩ := exists_encI ha.wf ha.deg hc.symm hv
  obtain ⟨e', -, he'⟩ := PublicKeyShare.new_eq hw ha hk hA hr
  have hz : sh 0 = { par, crp, p0Share := encI lv.ctx .ntt true (-A * s + e') } := by
    have := (h1 0).symm.trans he'
    rwa [Res.ok_inj] at this
  let mk : IntPoly par.degree → PublicKeyShare := fun f => { par, crp, p0Share := encI lv.ctx .ntt true f }
  obtain ⟨F, hF⟩ := exists_reps (N := par.degree) ha.wf ha.deg (f := PublicKeyShare.p0Share) fun x hx => ⟨(hl x hx).2.2.1, (hl x hx).2.2.2.1.trans hc.symm⟩
  have hl' : l = (l.map F).map mk := by
    rw [List.map_map]
    conv_lhs => rw [← List.map_id l]
    refine List.map_congr_left fun x hx => ?_
    have e1 := hF x hx
    obtain ⟨q1, q2, -, -, q3⟩ := hl x hx
    rw [q3] at e1
    show x = mk (F x)
    rcases x with ⟨a, b, d⟩
    simp only at e1 q1 q2
    show _ = PublicKeyShare.mk _ _ _
    rw [← e1, q1, q2]
  let G : IntPoly par.degree := -A * s + e' - (l.map F).sum
  have hpk : PublicKeyShare.aggregate (l ++ [mk G]) = Res.ok pk := by
    rw [← h2]
    have e1 : l ++ [mk G] = (l.map F ++ [G]).map mk := by rw [List.map_append, ← hl']; rfl
    have e2 : (List.ofFn fun k => sh ((1 : Equiv.Perm (Fin 1)) k)) = [-A * s + e'].map mk := by
      rw [List.ofFn_succ, List.ofFn_zero]
      exact congrArg (fun x => [x]) hz
    rw [e1, e2, PublicKeyShare.aggregate_eq ha hc.symm (sh := mk) (fun _ => rfl) (F := id) (x := l.map F ++ [G]) (by simp), PublicKeyShare.aggregate_eq ha hc.symm (sh := mk) (fun _ => rfl) (F := id) (x := [-A * s + e']) (by simp)]
    congr 5
    simp [G]
  refine ⟨mk G, pk, e, rfl, rfl, valid_enc ha.wf _, hc, rfl, hpk, h3, h6, ?_, by simpa using h5⟩
  simpa using h4

/-- C98, what follows for the others: that party alone decrypts every encryption with the joint public key. -/
theorem C98_last_decrypts (hb : b.OK) (h : build b st = Res.ok par.toBfvParameters) (hrel : par.toBfvParameters.Reliable 0) {crp : CommonRandomPoly}
    (hctx : par.contextAtLevel 0 = Res.ok crp.poly.ctx) (hv : crp.poly.Valid)
    {l : List PublicKeyShare} (hl : ∀ x ∈ l, x.par = par ∧ x.crp = crp ∧ x.p0Share.Valid ∧ x.p0Share.ctx = crp.poly.ctx ∧ x.p0Share.vt = true)
    {sk : SecretKey} {s : IntPoly par.degree} (hk : sk.IsKey par s) {B : Nat} (hs : s.Bounded B)
    (hroom : 2 ^ 62 * (par.plaintext.value * (par.degree * (2 * par.variance) * (2 * par.variance) + (2 * par.variance + par.degree * B * (2 * par.variance)) + 1)) ≤ (2 ^ 61 - 1) * par.modulusAt 0) :
    ∃ (x : PublicKeyShare) (pk : PublicKey), x.par = par ∧ x.crp = crp ∧ x.p0Share.Valid ∧ x.p0Share.ctx = crp.poly.ctx ∧ x.p0Share.vt = true ∧ PublicKeyShare.aggregate (l ++ [x]) = Res.ok pk ∧
      ∀ {pt : Plaintext} {m : par.Msg}, pt.Holds par 0 m → ∀ {rngU rng1 rng2 : Nat → Nat}, IsStream rngU → IsStream rng1 → IsStream rng2 →
        ∃ ct pt', pk.tryEncrypt pt rngU rng1 rng2 = Res.ok ct ∧ sk.tryDecrypt b ct = Res.ok pt' ∧ pt'.Holds par 0 m := by
  obtain ⟨x, pk, e, h1, h2, h3, h4, h5, h6, h7, h8, h9, h10⟩ := C98_last_chooses hb h hctx hv hl hk (rng := fun _ => 0) (fun _ => by norm_num)
  refine ⟨x, pk, h1, h2, h3, h4, h5, h6, fun {pt m} hpt {rngU rng1 rng2} hU g1 g2 => ?_⟩
  obtain ⟨ct, v, k1, k2, -, -, k3⟩ := C37_public_encrypt_top hb h h7 h9 h8 hs (V := par.plaintext.value * (2 * par.variance)) (by simpa using h10.C_mul (par.plaintext.value : Int)) (by have := hrel.modulus; omega) hpt hU g1 g2
  obtain ⟨pt', k4, k5, -⟩ := C37_decrypt hb h hrel hk k2 (small_of_bounded k3 (le_trans (le_of_eq (by ring)) hroom))
  exact ⟨ct, pt', k1, k4, k5⟩

/-- The hypotheses are met: three parties, two of which send a share without any secret, and two ciphertexts; and a third party that chooses last makes a public key of its own. -/
example (adversary : Res (JointSight 3 2) → Bool) : ∃ (par : Par) (c : Context) (pt pt' : Plaintext) (m m' : par.Msg) (S : Strategy 3) (sk : SecretKey) (s : IntPoly par.degree) (crp : CommonRandomPoly)
    (x : PublicKeyShare) (pk : PublicKey) (e : IntPoly par.degree),
    build luckyBuild exBuilder = Res.ok par.toBfvParameters ∧ par.contextAtLevel 0 = Res.ok c ∧ S.Usable par c ∧ pt.Holds par 0 m ∧ pt'.Holds par 0 m' ∧ m ≠ m' ∧ sk.IsKey par s ∧
    (∃ lwe : Coeffs par 0 × Words 10 × Words 10 → Coeffs par 0, ∀ ω, ∃ a, polyOf c ω.1 = Res.ok a ∧ IsLwe c a (-sample par ω.2.1) (sample par ω.2.2) (lwe ω)) ∧
    PublicKeyShare.aggregate ([S crp 0, S crp 1] ++ [x]) = Res.ok pk ∧ pk.c.Encrypts par s 0 0 (C (par.plaintext.value : Int) * e) ∧ e.Bounded (2 * par.variance) := by
  obtain ⟨par, sk, s, pt, pt', m, m', ct, ct', v, v', h, hd, ht, hm, hrel, hk, hs, e2, e2', em, em', f1, f1', f2, f2', f3, f3', f4, f4', f5, f6, h0, hvar⟩ := exCipher
  have hQ : par.plaintext.value ≤ par.modulusAt 0 := by rw [h0, ht]; decide
  obtain ⟨c, hc, -⟩ := (C31_levels luckyBuild_ok h 0).1 (by rw [hm]; decide)
  obtain ⟨n, hw, -⟩ := build_inv luckyBuild_ok h
  obtain ⟨l, hl, rfl⟩ := ParWF.contextAtLevel_iff.1 hc
  have ha := AtLevel.ofGet hw hl
  let S : Strategy 3 := fun crp _ => { par, crp, p0Share := encI l.ctx .ntt true (0 : IntPoly par.degree) }
  have hS : S.Usable par l.ctx := fun crp k => ⟨rfl, rfl, valid_enc ha.wf _, rfl, rfl⟩
  let crp : CommonRandomPoly := ⟨encI l.ctx .ntt false (1 : IntPoly par.degree)⟩
  obtain ⟨lwe, fill, lwe2, h1, -⟩ := C98_one_honest (W := 10) luckyBuild_ok h hc hQ hS 1 (pt := fun _ : Fin 2 => pt) (pt' := fun _ => pt') (fun _ => e2) (fun _ => e2') adversary
  obtain ⟨x, pk, e, -, -, -, -, -, h2, -, -, h3, h4⟩ := C98_last_chooses (crp := crp) luckyBuild_ok h hc (valid_enc ha.wf _) (l := [S crp 0, S crp 1]) (fun x hx => by
    rcases List.mem_cons.1 hx with rfl | hx
    · exact hS crp 0
    · rw [List.mem_singleton.1 hx]; exact hS crp 1) hk exRng_ok
  exact ⟨par, l.ctx, pt, pt', m, m', S, sk, s, crp, x, pk, e, h, hc, hS, e2, e2', fun hc => by rw [hc, em'] at em; simp at em, hk, ⟨lwe, h1⟩, h2, h3, h4⟩

/-- And there is room for the noise: after an honest share the last party picks one of its own, and decrypts alone. -/
example : ∃ (par : Par) (sk sk' : SecretKey) (crp : CommonRandomPoly) (y x : PublicKeyShare) (pk : PublicKey) (pt : Plaintext) (m : par.Msg) (ct : Ciphertext) (pt' : Plaintext),
    build luckyBuild exBuilder = Res.ok par.toBfvParameters ∧ PublicKeyShare.new sk' crp exRng = Res.ok y ∧ PublicKeyShare.aggregate ([y] ++ [x]) = Res.ok pk ∧ msgCoeffs m = [1, 2, 16, 0, 0, 0, 0, 0] ∧
    pk.tryEncrypt pt exRng exRng exRng = Res.ok ct ∧ sk.tryDecrypt luckyBuild ct = Res.ok pt' ∧ pt'.Holds par 0 m := by
  obtain ⟨par, sk, s, pt, pt', m, m', ct, ct', v, v', h, hd, ht, hm, hrel, hk, hs, e2, e2', em, em', f1, f1', f2, f2', f3, f3', f4, f4', f5, f6, h0, hvar⟩ := exCipher
  obtain ⟨c, hc, -⟩ := (C31_levels luckyBuild_ok h 0).1 (by rw [hm]; decide)
  obtain ⟨n, hw, -⟩ := build_inv luckyBuild_ok h
  obtain ⟨l, hl, rfl⟩ := ParWF.contextAtLevel_iff.1 hc
  have ha := AtLevel.ofGet hw hl
  obtain ⟨sk', s', -, hk', -⟩ := C37_secret_key luckyBuild_ok h (rng := fun _ => 5) (fun _ => by norm_num)
  let crp : CommonRandomPoly := ⟨encI l.ctx .ntt false (1 : IntPoly par.degree)⟩
  obtain ⟨e, -, he⟩ := PublicKeyShare.new_eq (crp := crp) hw ha hk' (A := 1) rfl exRng_ok
  obtain ⟨x, pk, -, -, -, -, -, h2, h3⟩ := C98_last_decrypts (crp := crp) luckyBuild_ok h hrel hc (valid_enc ha.wf _) (l := [{ par, crp, p0Share := encI l.ctx .ntt true (-1 * s' + e) }]) (fun x hx => by
    rw [List.mem_singleton.1 hx]; exact ⟨rfl, rfl, valid_enc ha.wf _, rfl, rfl⟩) hk hs (by rw [hd, ht, hvar, h0]; norm_num)
  obtain ⟨ct, pt', k1, k2, k3⟩ := h3 e2 exRng_ok exRng_ok exRng_ok
  exact ⟨par, sk, sk', crp, _, x, pk, pt, m, ct, pt', h, he, h2, em, k1, k2, k3⟩

end Fhe.Props
