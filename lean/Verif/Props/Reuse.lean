import Verif.Lemmas.Secrecy
import Verif.Spec.Robust
import Verif.Props.BfvCipher
/-!
# Encryptions that share random choices
-/
namespace Fhe.Props
open Nega ParamsBuilder Ciphertext Poly

variable {b : Build} {st : ParamsBuilder} {par : Par} {i : Nat} {pt pt' : Plaintext} {m m' : par.Msg}

/-- Two ciphertexts that differ by their messages and by a small error only. -/
theorem sub_twins {n : Nat} {l : ContextLevel} (hw : ParWF b n par.toBfvParameters) (ha : AtLevel b n par i l) {seed seed' : Option Seed} {X X' : IntPoly par.degree} {E : Nat} (hX : (X - X').Bounded E)
    (Y s : IntPoly par.degree) :
    ∃ (d : Ciphertext) (v : IntPoly par.degree), Ciphertext.sub { par, seed, c := [encI l.ctx .ntt true (X + scaleMsg (par.modulusAt i) m), encI l.ctx .ntt true Y], level := i }
      { par, seed := seed', c := [encI l.ctx .ntt true (X' + scaleMsg (par.modulusAt i) m'), encI l.ctx .ntt true Y], level := i } = some d ∧
      d.Encrypts par s i (m - m') v ∧ v.Bounded (par.plaintext.value * (E + 2)) := by
  have ht := hw.t_pos
  have : NeZero par.plaintext.value := ⟨by omega⟩
  refine ⟨{ par, seed := none, c := [encI l.ctx .ntt true (X + scaleMsg (par.modulusAt i) m - (X' + scaleMsg (par.modulusAt i) m')), encI l.ctx .ntt true (Y - Y)], level := i },
    C (par.plaintext.value : Int) * (X - X') + (-scaleRest (par.modulusAt i) m + scaleRest (par.modulusAt i) m'), ?_, ?_, ?_⟩
  · unfold Ciphertext.sub
    simp [check, List.mapM_cons, subAssign_encI ha.wf ha.deg, Par.ptrEq]
  · refine Encrypts.intro ha rfl rfl le_rfl (.cons ⟨_, rfl⟩ (.cons ⟨_, rfl⟩ .nil)) (M := msgInt m - msgInt m') (by rw [red_sub, red_msgInt, red_msgInt]) ?_
    rw [phase_two, sub_self, MulZeroClass.mul_zero, add_zero, show X + scaleMsg (par.modulusAt i) m - (X' + scaleMsg (par.modulusAt i) m') = X - X' + (scaleMsg (par.modulusAt i) m - scaleMsg (par.modulusAt i) m') by ring, mul_add,
      mul_sub _ (scaleMsg _ m), mul_sub _ (msgInt m), scaleMsg_mul, scaleMsg_mul]
    ring
  · refine ((hX.C_mul (par.plaintext.value : Int)).add ((scaleRest_bounded _ (by omega) m).neg.add (scaleRest_bounded _ (by omega) m'))).mono ?_
    rw [Int.natAbs_natCast]
    exact le_of_eq (by ring)

theorem tryEncrypt_drawn {n : Nat} {l : ContextLevel} (hw : ParWF b n par.toBfvParameters) (ha : AtLevel b n par i l) {sk : SecretKey} {s : IntPoly par.degree} (hk : sk.IsKey par s) {g : Prg}
    (hQ : par.plaintext.value ≤ par.modulusAt i) {seed : Seed} {rng : Nat → Nat} (hr : IsStream rng) (hpt : pt.Holds par i m) {A : IntPoly par.degree}
    (hA : g.poly .ntt l.ctx seed = some (encI l.ctx .ntt false A)) : sk.tryEncrypt g pt seed rng =
      Res.ok { par, seed := some seed, c := [encI l.ctx .ntt true (drawn par.degree par.variance rng - A * s + scaleMsg (par.modulusAt i) m), encI l.ctx .ntt true A], level := i } := by
  obtain ⟨heb, he⟩ := drawn_encI hw.variance.1 hw.variance.2 hr par.degree
  unfold SecretKey.tryEncrypt SecretKey.encryptPoly
  rw [hk.par_eq, hpt.validateFor hw ha, Res.ok_bind, Plaintext.toPoly_encI hw ha hQ hpt, Res.lift_some, Res.ok_bind, ctx_encI, ha.levelOf, Res.ok_bind,
    SecretKey.polyAt_encI hk ha.wf ha.deg, Res.ok_bind, hA, Res.lift_some, Res.ok_bind, mulAssign_encI ha.wf ha.deg, Res.lift_some, Res.ok_bind,
    he ha.wf ha.deg, Res.math_ok, Res.ok_bind, subAssign_encI ha.wf ha.deg (by simp), Res.lift_some, Res.ok_bind, addAssign_encI ha.wf ha.deg (by simp), Res.lift_some, Res.ok_bind]
  rfl

/-- C100: two encryptions with the same secret key, for which the generator gives the same seed, have the same second part, whatever errors are drawn: the difference of the ciphertexts is an encryption of the
difference of the messages under every key, and so anybody can decrypt it, with any secret key. -/
theorem C100_secret_key (hb : b.OK) (h : build b st = Res.ok par.toBfvParameters) (hi : i < par.moduli.length) (hrel : par.toBfvParameters.Reliable i) (hroom : 2 ^ 62 * (par.plaintext.value * (4 * par.variance + 2)) ≤ (2 ^ 61 - 1) * par.modulusAt i)
    {sk : SecretKey} {s : IntPoly par.degree} (hk : sk.IsKey par s) {g : Prg} (hg : g.OK) (hpt : pt.Holds par i m) (hpt' : pt'.Holds par i m') {seed : Seed} {rng rng' : Nat → Nat} (hr : IsStream rng)
    (hr' : IsStream rng') :
    ∃ ct ct' d, sk.tryEncrypt g pt seed rng = Res.ok ct ∧ sk.tryEncrypt g pt' seed rng' = Res.ok ct' ∧ ct.sub ct' = some d ∧
      ∀ {sk' : SecretKey} {s' : IntPoly par.degree}, sk'.IsKey par s' → ∃ r, sk'.tryDecrypt b d = Res.ok r ∧ r.Holds par i (m - m') := by
  obtain ⟨n, hw, -⟩ := build_inv hb h
  have hQ : par.plaintext.value ≤ par.modulusAt i := by have := hrel.modulus; omega
  obtain ⟨l, ha⟩ := AtLevel.ofLt (par := par) hw hi
  obtain ⟨A, hA⟩ := Prg.poly_encI hg ha.wf ha.deg .ntt seed
  have hX : (drawn par.degree par.variance rng - A * s - (drawn par.degree par.variance rng' - A * s)).Bounded (4 * par.variance) := by
    rw [sub_sub_sub_cancel_right]
    exact ((drawn_encI hw.variance.1 hw.variance.2 hr par.degree).1.sub (drawn_encI hw.variance.1 hw.variance.2 hr' par.degree).1).mono (by omega)
  obtain ⟨d, -, e1, -, -⟩ := sub_twins (m := m) (m' := m') (seed := some seed) (seed' := some seed) hw ha hX A 0
  refine ⟨_, _, d, tryEncrypt_drawn hw ha hk hQ hr hpt hA, tryEncrypt_drawn hw ha hk hQ hr' hpt' hA, e1, fun {sk' s'} hk' => ?_⟩
  obtain ⟨d', v, e2, e3, e4⟩ := sub_twins (m := m) (m' := m') (seed := some seed) (seed' := some seed) hw ha hX A s'
  obtain rfl : d = d' := Option.some.inj (e1.symm.trans e2)
  obtain ⟨r, k1, k2, -⟩ := C37_decrypt hb h hrel hk' e3 (small_of_bounded e4 hroom)
  exact ⟨r, k1, k2⟩

/-- C100, public keys: for encryptions with a public key the secret of the encryption and the error of the second part must be the same; the error of the first part does not matter. -/
theorem C100_public_key (hb : b.OK) (h : build b st = Res.ok par.toBfvParameters) (hrel : par.toBfvParameters.Reliable 0) (hroom : 2 ^ 62 * (par.plaintext.value * (4 * par.variance + 2)) ≤ (2 ^ 61 - 1) * par.modulusAt 0)
    {pk : PublicKey} (hp : pk.par = par) (hu : pk.c.Usable par) (h2 : pk.c.c.length = 2) (h0 : pk.c.level = 0) (hpt : pt.Holds par 0 m) (hpt' : pt'.Holds par 0 m')
    {rngU rng1 rng1' rng2 : Nat → Nat} (hU : IsStream rngU) (h1 : IsStream rng1) (h1' : IsStream rng1') (h2' : IsStream rng2) :
    ∃ ct ct' d, pk.tryEncrypt pt rngU rng1 rng2 = Res.ok ct ∧ pk.tryEncrypt pt' rngU rng1' rng2 = Res.ok ct' ∧ ct.sub ct' = some d ∧
      ∀ {sk' : SecretKey} {s' : IntPoly par.degree}, sk'.IsKey par s' → ∃ r, sk'.tryDecrypt b d = Res.ok r ∧ r.Holds par 0 (m - m') := by
  obtain ⟨n, hw, -⟩ := build_inv hb h
  have hQ : par.plaintext.value ≤ par.modulusAt 0 := by have := hrel.modulus; omega
  rcases pk with ⟨pp, ⟨p, seed, c, lev⟩⟩
  simp only at hp h2 h0
  subst h0
  obtain ⟨p0, p1, rfl⟩ := List.length_eq_two.1 h2
  have hpe : p = par := hu.par_eq
  subst hp hpe
  obtain ⟨v0, c0⟩ := hu.valid p0 (by simp)
  obtain ⟨v1, c1⟩ := hu.valid p1 (by simp)
  obtain ⟨l, hl, hc⟩ := ParWF.contextAtLevel_iff.1 c0
  have ha := AtLevel.ofGet hw hl
  have hc1 : p1.ctx = l.ctx := by rw [hc]; exact Res.ok_inj.1 (c1.symm.trans c0)
  obtain ⟨F, hF, -⟩ := exists_encI (N := p.degree) ha.wf ha.deg hc.symm v0
  obtain ⟨A, hA, -⟩ := exists_encI (N := p.degree) ha.wf ha.deg hc1 v1
  rw [hF, hA]
  have hX : (drawn p.degree p.variance rngU * F + drawn p.degree p.variance rng1 - (drawn p.degree p.variance rngU * F + drawn p.degree p.variance rng1')).Bounded (4 * p.variance) := by
    rw [add_sub_add_left_eq_sub]
    exact ((drawn_encI hw.variance.1 hw.variance.2 h1 p.degree).1.sub (drawn_encI hw.variance.1 hw.variance.2 h1' p.degree).1).mono (by omega)
  obtain ⟨d, -, e1, -, -⟩ := sub_twins (m := m) (m' := m') (seed := none) (seed' := none) hw ha hX (drawn p.degree p.variance rngU * A + drawn p.degree p.variance rng2) 0
  refine ⟨_, _, d, PublicKey.tryEncrypt_drawn hw ha hQ hpt hU h1 h2', PublicKey.tryEncrypt_drawn hw ha hQ hpt' hU h1' h2', e1, fun {sk' s'} hk => ?_⟩
  obtain ⟨d', v, e2, e3, e4⟩ := sub_twins (m := m) (m' := m') (seed := none) (seed' := none) hw ha hX (drawn p.degree p.variance rngU * A + drawn p.degree p.variance rng2) s'
  obtain rfl : d = d' := Option.some.inj (e1.symm.trans e2)
  obtain ⟨r, k1, k2, -⟩ := C37_decrypt hb h hrel hk e3 (small_of_bounded e4 hroom)
  exact ⟨r, k1, k2⟩

/-- The hypotheses are met: a third key decrypts the difference of two encryptions with the same choices, with a secret key and with its public key. -/
example : ∃ (par : Par) (sk sk' : SecretKey) (pk : PublicKey) (pt pt' : Plaintext) (m m' : par.Msg) (ct ct' d c c' d' : Ciphertext) (r r' : Plaintext),
    build luckyBuild exBuilder = Res.ok par.toBfvParameters ∧ sk ≠ sk' ∧ pt.Holds par 0 m ∧ pt'.Holds par 0 m' ∧ m - m' ≠ 0 ∧ sk.tryEncrypt exPrg pt (List.replicate 32 7) exRng = Res.ok ct ∧
    sk.tryEncrypt exPrg pt' (List.replicate 32 7) (fun _ => 3) = Res.ok ct' ∧ ct.sub ct' = some d ∧ sk'.tryDecrypt luckyBuild d = Res.ok r ∧ r.Holds par 0 (m - m') ∧
    PublicKey.new exPrg sk (List.replicate 32 7) exRng = some pk ∧ pk.tryEncrypt pt exRng exRng exRng = Res.ok c ∧ pk.tryEncrypt pt' exRng (fun _ => 3) exRng = Res.ok c' ∧ c.sub c' = some d' ∧
    sk'.tryDecrypt luckyBuild d' = Res.ok r' ∧ r'.Holds par 0 (m - m') := by
  obtain ⟨par, sk, s, pt, pt', m, m', ct, ct', v, v', h, hd, ht, hm, hrel, hk, hs, e2, e2', em, em', f1, f1', f2, f2', f3, f3', f4, f4', f5, f6, h0, hvar⟩ := exCipher
  have hroom : 2 ^ 62 * (par.plaintext.value * (4 * par.variance + 2)) ≤ (2 ^ 61 - 1) * par.modulusAt 0 := by rw [h0, ht, hvar]; decide
  have hr3 : IsStream fun _ => 3 := fun _ => by norm_num
  have hlen : 0 < par.moduli.length := by rw [hm]; decide
  obtain ⟨pk, w, p1, p2, p3, -, p4, -, p5⟩ := C37_public_key luckyBuild_ok h hk exPrg_ok (seed := List.replicate 32 7) rfl exRng_ok
  obtain ⟨a, a', d, q1, q2, q3, q4⟩ := C100_secret_key luckyBuild_ok h hlen hrel hroom hk exPrg_ok e2 e2' (seed := List.replicate 32 7) exRng_ok hr3
  obtain ⟨c, c', d', q1', q2', q3', q4'⟩ := C100_public_key luckyBuild_ok h hrel hroom p2 ⟨p5.par_eq, p5.level, p5.parts, p5.valid⟩ p4 p3.level_eq e2 e2' exRng_ok exRng_ok hr3 exRng_ok
  let sk' : SecretKey := { par, coeffs := List.replicate par.degree 100 }
  have hk' : sk'.IsKey par (IntPoly.ofList par.degree (List.replicate par.degree 100)) :=
    ⟨rfl, List.length_replicate, fun x hx => by obtain ⟨-, rfl⟩ := List.mem_replicate.1 hx; norm_num, rfl⟩
  obtain ⟨r, k1, k2⟩ := q4 hk'
  obtain ⟨r', k1', k2'⟩ := q4' hk'
  refine ⟨par, sk, sk', pk, pt, pt', m, m', a, a', d, c, c', d', r, r', h, ?_, e2, e2', ?_, q1, q2, q3, k1, k2, p1, q1', q2', q3', k1', k2'⟩
  · rintro rfl
    have := hs ⟨0, by rw [hd]; decide⟩
    rw [congrFun hk.poly _] at this
    have h1 : |(List.replicate par.degree (100 : Int)).getD 0 0| ≤ 2 := this
    rw [hd] at h1
    norm_num at h1
  · intro h1
    rw [sub_eq_zero.1 h1, em'] at em
    simp at em

end Fhe.Props
