import Verif.Spec.Switch
import Verif.Spec.Robust
import Verif.Lemmas.Robust
import Verif.Lemmas.Secrecy
import Verif.Props.Secrecy
import Verif.Props.Chosen
/-!
# What the shares for switching to a public key show
-/
namespace Fhe.Props
open Nega ParamsBuilder Ciphertext Secrecy Poly

variable {b : Build} {st : ParamsBuilder} {par : Par} {n : Nat} {l : ContextLevel}

/-- The share, for given random choices. -/
theorem switchShare_drawn (hw : ParWF b n par.toBfvParameters) (ha : AtLevel b n par 0 l) {sk : SecretKey} {s : IntPoly par.degree} (hk : sk.IsKey par s) {ct : Ciphertext} (hp : ct.par = par)
    (hl : ct.level = 0) {vt vt' vt1 : Bool} {F A D : IntPoly par.degree} {seed : Option Seed} {d0 : Poly .ntt} (h0 : ct.c[0]? = some d0) (h1 : ct.c[1]? = some (encI l.ctx .ntt vt1 D))
    {rngU rng1 rng2 : Nat → Nat} (hU : IsStream rngU) (hr1 : IsStream rng1) (hr2 : IsStream rng2) :
    PublicKeySwitchShare.new sk ⟨par, { par, seed, c := [encI l.ctx .ntt vt F, encI l.ctx .ntt vt' A], level := 0 }⟩ ct rngU rng1 rng2 =
      Res.ok { par, c0 := d0, h0Share := encI l.ctx .ntt true (drawn par.degree par.variance rngU * F + drawn par.degree par.variance rng1 + s * D),
               h1Share := encI l.ctx .ntt true (drawn par.degree par.variance rngU * A + drawn par.degree par.variance rng2) } := by
  have hu := (drawn_encI hw.variance.1 hw.variance.2 hU par.degree).2 ha.wf ha.deg
  have he1 := (drawn_encI hw.variance.1 hw.variance.2 hr1 par.degree).2 ha.wf ha.deg
  have he2 := (drawn_encI hw.variance.1 hw.variance.2 hr2 par.degree).2 ha.wf ha.deg
  have hsw : Ciphertext.switchUntil 0 par.moduli.length { par, seed, c := [encI l.ctx .ntt vt F, encI l.ctx .ntt vt' A], level := 0 } =
      Res.ok { par, seed, c := [encI l.ctx .ntt vt F, encI l.ctx .ntt vt' A], level := 0 } := by
    cases par.moduli.length <;> rfl
  have hdis : ∀ (v : Bool) (G : IntPoly par.degree), (encI l.ctx .ntt v G).disallowVt = encI l.ctx .ntt false G := fun _ _ => rfl
  unfold PublicKeySwitchShare.new
  rw [hk.par_eq, hp, hl]
  dsimp only
  rw [if_neg (by simp), if_neg (by simp), hsw, Res.ok_bind, ha.contextAt, Res.ok_bind, SecretKey.polyAt_encI hk ha.wf ha.deg, Res.ok_bind, hu, Res.math_ok, Res.ok_bind, he1, Res.math_ok, Res.ok_bind,
    he2, Res.math_ok, Res.ok_bind, List.getElem?_cons_zero, Res.lift_some, Res.ok_bind, hdis, mulAssign_encI ha.wf ha.deg, Res.lift_some, Res.ok_bind, h1, Res.lift_some, Res.ok_bind,
    hdis, mulAssign_encI ha.wf ha.deg, Res.lift_some, Res.ok_bind, addAssign_encI ha.wf ha.deg (by simp), Res.lift_some, Res.ok_bind, addAssign_encI ha.wf ha.deg (by simp), Res.lift_some, Res.ok_bind,
    List.getElem?_cons_succ, List.getElem?_cons_zero, Res.lift_some, Res.ok_bind, hdis, mulAssign_encI ha.wf ha.deg, Res.lift_some, Res.ok_bind,
    addAssign_encI ha.wf ha.deg (by simp), Res.lift_some, Res.ok_bind, h0, Res.lift_some, Res.ok_bind]
  show Res.ok _ = Res.ok _
  rw [show drawn par.degree par.variance rngU * F + drawn par.degree par.variance rng1 + s * D = F * drawn par.degree par.variance rngU + s * D + drawn par.degree par.variance rng1 by ring,
    show drawn par.degree par.variance rngU * A = A * drawn par.degree par.variance rngU by ring]
  rfl

theorem switchFrom_eq (ha : AtLevel b n par 0 l) {sk : SecretKey} {s : IntPoly par.degree} (hk : sk.IsKey par s) {ct : Ciphertext} {vt1 : Bool} {D : IntPoly par.degree} {d0 : Poly .ntt}
    (h0 : ct.c[0]? = some d0) (h1 : ct.c[1]? = some (encI l.ctx .ntt vt1 D)) (x : Coeffs par 0 × Coeffs par 0) : switchFrom sk ct x =
      Res.ok { par, c0 := d0, h0Share := encI l.ctx .ntt true (intOf x.1 + s * D), h1Share := encI l.ctx .ntt true (intOf x.2) } := by
  unfold switchFrom
  rw [ha.contextAt, Res.ok_bind, SecretKey.polyAt_encI hk ha.wf ha.deg, Res.ok_bind, h1, Res.lift_some, Res.ok_bind, mulAssign_encI ha.wf ha.deg, Res.lift_some, Res.ok_bind, polyOf_eq ha, Res.ok_bind,
    addAssign_encI ha.wf ha.deg (by simp), Res.lift_some, Res.ok_bind, polyOf_eq ha, Res.ok_bind, h0, Res.lift_some, Res.ok_bind]
  rfl

theorem blankShare_eq (ha : AtLevel b n par 0 l) {ct : Ciphertext} {d0 : Poly .ntt} (h0 : ct.c[0]? = some d0) (x : Coeffs par 0 × Coeffs par 0) : blankShare ct x =
      Res.ok { par, c0 := d0, h0Share := encI l.ctx .ntt true (intOf x.1), h1Share := encI l.ctx .ntt true (intOf x.2) } := by
  unfold blankShare
  rw [ha.contextAt, Res.ok_bind, polyOf_eq ha, Res.ok_bind, polyOf_eq ha, Res.ok_bind, h0, Res.lift_some, Res.ok_bind]
  rfl

/-- C101: whoever tells the shares that a party makes for switching ciphertexts to a public key from shares that are put together without the secret key of the party, also tells samples of learning
with errors from uniformly distributed ones: first the public key is exchanged for a uniformly distributed one, then the shares.  The ciphertexts can be any. -/
theorem C101_hides (hb : b.OK) (h : build b st = Res.ok par.toBfvParameters) {g : Prg} (hg : g.OK) {c : Context} (hc : par.contextAtLevel 0 = Res.ok c)
    (hQ : par.plaintext.value ≤ par.modulusAt 0) {k W : Nat} {sk : SecretKey} {s : IntPoly par.degree} (hk : sk.IsKey par s) {ct : Fin k → Ciphertext} (hct : ∀ j, (ct j).Usable par ∧ (ct j).level = 0)
    (adversary : Panics PublicKey × (Fin k → Res PublicKeySwitchShare) → Bool) :
    ∃ (lwe : KeyRandom W → Coeffs par 0) (lwe2 : (Bytes32 × Coeffs par 0) × PublicRandom k W → Fin k → Coeffs par 0 × Coeffs par 0),
      (∀ ω, ∃ a, g.poly .ntt c (seedOf ω.2.1) = some a ∧ IsLwe c a (-sample par ω.1) (sample par ω.2.2) (lwe ω)) ∧
      (∀ ω j, ∃ a p, g.poly .ntt c (seedOf ω.1.1) = some a ∧ polyOf c ω.1.2 = Res.ok p ∧ IsLwe c p (sample par (ω.2 j).1) (sample par (ω.2 j).2.1) (lwe2 ω j).1 ∧
        IsLwe c a (sample par (ω.2 j).1) (sample par (ω.2 j).2.2) (lwe2 ω j).2) ∧
      gap (fun ω : KeyRandom W × PublicRandom k W => adversary (switchView (publicKey g par ω.1) sk ct ω.2))
          (fun u : (Bytes32 × Coeffs par 0) × (Fin k → Coeffs par 0 × Coeffs par 0) => adversary (publicFrom g u.1.1 u.1.2, fun j => blankShare (ct j) (u.2 j))) ≤
        gap (fun ω : KeyRandom W × PublicRandom k W => adversary (switchView (publicFrom g ω.1.2.1 (lwe ω.1)) sk ct ω.2))
          (fun ω : (Bytes32 × Coeffs par 0) × PublicRandom k W => adversary (switchView (publicFrom g ω.1.1 ω.1.2) sk ct ω.2)) +
        gap (fun ω : (Bytes32 × Coeffs par 0) × PublicRandom k W => adversary (publicFrom g ω.1.1 ω.1.2, fun j => switchFrom sk (ct j) (lwe2 ω j)))
          (fun u : (Bytes32 × Coeffs par 0) × (Fin k → Coeffs par 0 × Coeffs par 0) => adversary (publicFrom g u.1.1 u.1.2, fun j => switchFrom sk (ct j) (u.2 j))) := by
  obtain ⟨n, hw, -⟩ := build_inv hb h
  obtain ⟨l, hl, rfl⟩ := ParWF.contextAtLevel_iff.1 hc
  have ha := AtLevel.ofGet hw hl
  have : NeZero (par.modulusAt 0) := ⟨ha.pos.ne'⟩
  obtain ⟨z, hz, hz', -⟩ := C35_zero hb h (e := ⟨.poly, 0⟩) ha.lt
  choose A hA using fun seed => Prg.poly_encI hg ha.wf ha.deg .ntt seed
  have hparts : ∀ j, ∃ (d0 : Poly .ntt) (vt1 : Bool) (D : IntPoly par.degree), (ct j).c[0]? = some d0 ∧ (ct j).c[1]? = some (encI l.ctx .ntt vt1 D) := fun j => by
    obtain ⟨hu, h0⟩ := hct j
    have h2 := hu.parts
    have hv := hu.valid _ (List.getElem_mem (show 1 < (ct j).c.length by omega))
    rw [h0, ha.contextAt] at hv
    obtain ⟨D, hD, -⟩ := exists_encI ha.wf ha.deg (Res.ok_inj.1 hv.2).symm hv.1
    exact ⟨_, _, D, List.getElem?_eq_getElem (by omega), by rw [List.getElem?_eq_getElem (by omega), ← hD]⟩
  choose d0 vt1 D hd0 hD using hparts
  have hkey : ∀ ω : KeyRandom W, publicKey g par ω = publicFrom g ω.2.1 (reduce par 0 (A (seedOf ω.2.1) * -sample par ω.1 + sample par ω.2.2)) := fun ω => by
    obtain ⟨sk, e1, hk⟩ := SecretKey.random_drawn hw (isStream_words ω.1)
    rw [drawn_sample] at hk
    rw [publicFrom_eq ha (hA _), encI_reduce' ha]
    unfold publicKey
    rw [e1, Option.bind_eq_bind, Option.bind_some, PublicKey.new_drawn hw ha hk hQ (hA _) (isStream_words _) ⟨z, hz, hz'⟩, drawn_sample,
      show A (seedOf ω.2.1) * -sample par ω.1 + sample par ω.2.2 = sample par ω.2.2 - A (seedOf ω.2.1) * sample par ω.1 by ring]
  have hview : ∀ ω : (Bytes32 × Coeffs par 0) × PublicRandom k W,
      switchView (publicFrom g ω.1.1 ω.1.2) sk ct ω.2 = (publicFrom g ω.1.1 ω.1.2, fun j => switchFrom sk (ct j)
        (reduce par 0 (intOf ω.1.2 * sample par (ω.2 j).1 + sample par (ω.2 j).2.1), reduce par 0 (A (seedOf ω.1.1) * sample par (ω.2 j).1 + sample par (ω.2 j).2.2))) := fun ω => by
    unfold switchView
    congr 1
    funext j
    rw [publicFrom_eq ha (hA _), Res.lift_some, Res.ok_bind,
      switchShare_drawn hw ha hk (hct j).1.par_eq (hct j).2 (hd0 j) (hD j) (isStream_words _) (isStream_words _) (isStream_words _), switchFrom_eq ha hk (hd0 j) (hD j), encI_reduce ha, encI_reduce' ha]
    simp only [drawn_sample]
    rw [mul_comm (intOf ω.1.2), mul_comm (A _)]
  have hideal : pr (fun u : (Bytes32 × Coeffs par 0) × (Fin k → Coeffs par 0 × Coeffs par 0) => adversary (publicFrom g u.1.1 u.1.2, fun j => switchFrom sk (ct j) (u.2 j))) =
      pr (fun u : (Bytes32 × Coeffs par 0) × (Fin k → Coeffs par 0 × Coeffs par 0) => adversary (publicFrom g u.1.1 u.1.2, fun j => blankShare (ct j) (u.2 j))) := by
    refine pr_equiv ((Equiv.refl _).prodCongr (Equiv.piCongrRight fun j => (shift par 0 (s * D j)).prodCongr (Equiv.refl _))) fun u => ?_
    congr 2
    funext j
    show _ = blankShare (ct j) (shift par 0 _ (u.2 j).1, (u.2 j).2)
    rw [switchFrom_eq ha hk (hd0 j) (hD j), blankShare_eq ha (hd0 j)]
    have := encI_shift ha (s * D j) 0 (u.2 j).1 .ntt true
    rw [add_zero, add_zero] at this
    rw [this]
  refine ⟨fun ω => reduce par 0 (A (seedOf ω.2.1) * -sample par ω.1 + sample par ω.2.2),
    fun ω j => (reduce par 0 (intOf ω.1.2 * sample par (ω.2 j).1 + sample par (ω.2 j).2.1), reduce par 0 (A (seedOf ω.1.1) * sample par (ω.2 j).1 + sample par (ω.2 j).2.2)),
    fun ω => ⟨_, hA _, isLwe_reduce ha _ _ _ _⟩, fun ω j => ⟨_, _, hA _, polyOf_eq ha _, isLwe_reduce ha _ _ _ _, isLwe_reduce ha _ _ _ _⟩, ?_⟩
  simp only [hkey, ← hview, gap]
  rw [← hideal]
  exact abs_sub_le _ _ _

theorem Chosen.rounded {Q n E B : Nat} (hn : Q = n) {x e : Int} (hx : |x| ≤ B) (he : |e| ≤ E) (hroom : 2 * ((2 * E + 1) * B + E) < Q) :
    (Chosen.centered Q (((2 * E + 1) * x + e : Int) : ZMod n).val + E) / (2 * E + 1) = x := by
  have h2 : ((2 * ((2 * E + 1) * B + E) : Nat) : Int) < (Q : Int) := by exact_mod_cast hroom
  have h1 : |(2 * (E : Int) + 1) * x + e| ≤ (2 * E + 1) * B + E := (abs_add_le _ _).trans (add_le_add (by
    rw [abs_mul, abs_of_pos (by positivity)]; exact mul_le_mul_of_nonneg_left hx (by positivity)) he)
  push_cast at h2
  rw [Chosen.centered_val hn (by linarith)]
  rw [abs_le] at he
  rw [show (2 * (E : Int) + 1) * x + e + E = (e + E) + (2 * E + 1) * x by ring, Int.add_mul_ediv_left _ _ (by positivity), Int.ediv_eq_zero_of_lt (by linarith) (by linarith), _root_.zero_add]

/-- C101, the other side: the owner of the key that belongs to the public key is not kept from the secret key of the party.  There is a ciphertext such that from the share that a party makes for it the
owner computes the secret key of the party. -/
theorem C101_receiver (hb : b.OK) (h : build b st = Res.ok par.toBfvParameters) {B B' E : Nat}
    (hE : par.degree * (2 * par.variance) * (2 * par.variance) + 2 * par.variance + par.degree * B' * (2 * par.variance) ≤ E) (hroom : 2 * ((2 * E + 1) * B + E) < par.modulusAt 0)
    (hQ : par.plaintext.value ≤ par.modulusAt 0) :
    ∃ (p0 p1 : Poly .ntt) (ct : Ciphertext), Ciphertext.new [p0, p1] par = Res.ok ct ∧ ct.Usable par ∧
      ∀ {g : Prg} {skOut sk : SecretKey} {s' s : IntPoly par.degree} {seed : Seed} {rng rngU rng1 rng2 : Nat → Nat}, g.OK → skOut.IsKey par s' → s'.Bounded B' → sk.IsKey par s → s.Bounded B →
        IsStream rng → IsStream rngU → IsStream rng1 → IsStream rng2 →
        ∃ pk share, PublicKey.new g skOut seed rng = some pk ∧ PublicKeySwitchShare.new sk pk ct rngU rng1 rng2 = Res.ok share ∧ Chosen.receivedKey par skOut E share = some sk.coeffs := by
  obtain ⟨n, hw, -⟩ := build_inv hb h
  have hlen : 0 < par.moduli.length := List.length_pos_iff.2 hw.ne_nil
  obtain ⟨l, ha⟩ := AtLevel.ofLt (par := par) hw hlen
  have := ha.wf.neZero
  obtain ⟨z, hz, hz', -⟩ := C35_zero hb h (e := ⟨.poly, 0⟩) ha.lt
  let a : Int := 2 * E + 1
  refine ⟨encI l.ctx .ntt false (0 : IntPoly par.degree), encI l.ctx .ntt false (C a : IntPoly par.degree), _, new_two ha rfl rfl, ⟨rfl, hlen, le_rfl, fun p hp => ?_⟩,
    fun {g skOut sk s' s seed rng rngU rng1 rng2} hg hk' hs' hk hs hr hU h1 h2 => ?_⟩
  · rcases List.mem_cons.1 hp with rfl | hp
    · exact ⟨valid_enc ha.wf _, ha.contextAt⟩
    · rw [List.mem_singleton.1 hp]; exact ⟨valid_enc ha.wf _, ha.contextAt⟩
  · obtain ⟨A, hA⟩ := Prg.poly_encI hg ha.wf ha.deg .ntt seed
    have hb0 := (drawn_encI hw.variance.1 hw.variance.2 hr par.degree).1
    have hbu := (drawn_encI hw.variance.1 hw.variance.2 hU par.degree).1
    have hb1 := (drawn_encI hw.variance.1 hw.variance.2 h1 par.degree).1
    have hb2 := (drawn_encI hw.variance.1 hw.variance.2 h2 par.degree).1
    refine ⟨_, _, PublicKey.new_drawn hw ha hk' hQ hA hr ⟨z, hz, hz'⟩, switchShare_drawn hw ha hk rfl rfl (D := C a) rfl rfl hU h1 h2, ?_⟩
    generalize drawn par.degree par.variance rng = e at *
    generalize drawn par.degree par.variance rngU = u at *
    generalize drawn par.degree par.variance rng1 = e1 at *
    generalize drawn par.degree par.variance rng2 = e2 at *
    unfold Chosen.receivedKey
    simp only [ctx_encI]
    rw [SecretKey.polyAt_encI hk' ha.wf ha.deg, Res.unwrap_ok, Option.bind_eq_bind, Option.bind_some, mulAssign_encI ha.wf ha.deg, Option.bind_eq_bind, Option.bind_some,
      addAssign_encI ha.wf ha.deg (by simp), Option.bind_eq_bind, Option.bind_some,
      show s' * (u * A + e2) + (u * (e - A * s') + e1 + s * C a) = C a * s + (u * e + e1 + s' * e2) by ring, nttToPowerBasis_encI ha.wf, Option.bind_some]
    unfold encI
    rw [Plaintext.toBigUint_enc ha.wf, Option.bind_some, coeffs_of_isKey hk]
    show some _ = _
    congr 1
    refine List.ext_getElem (by simp [ha.deg]) fun i g1 g2 => ?_
    have hi : i < par.degree := by simpa using g2
    rw [List.getElem_map, List.getElem_ofFn, List.getElem_ofFn]
    show (Chosen.centered (par.modulusAt 0) (((coeff (C a * s + (u * e + e1 + s' * e2) : IntPoly par.degree) i : Int) : ZMod l.ctx.modulus)).val + E) / (2 * E + 1) = s ⟨i, hi⟩
    have hc : coeff (C a * s + (u * e + e1 + s' * e2) : IntPoly par.degree) i = (2 * E + 1) * s ⟨i, hi⟩ + (u * e + e1 + s' * e2 : IntPoly par.degree) ⟨i, hi⟩ := by
      refine (coeff_val _ (⟨i, hi⟩ : Fin par.degree)).trans ?_
      rw [Nega.add_apply, C_mul_apply]
    rw [hc]
    refine Chosen.rounded (by rw [ha.mod]) (hs ⟨i, hi⟩) ((((hbu.mul hb0).add hb1).add (hs'.mul hb2)) ⟨i, hi⟩ |>.trans ?_) hroom
    exact_mod_cast hE

/-- The hypotheses are met: a party with the keys of the example parameters makes shares for two ciphertexts; and the owner of the public key computes the key of the party. -/
example (adversary : Panics PublicKey × (Fin 2 → Res PublicKeySwitchShare) → Bool) : ∃ (par : Par) (sk : SecretKey) (ct ct' ct'' : Ciphertext) (c : Context) (pk : PublicKey)
    (share : PublicKeySwitchShare), build luckyBuild exBuilder = Res.ok par.toBfvParameters ∧ sk.coeffs.length = 8 ∧ par.contextAtLevel 0 = Res.ok c ∧ ct.Usable par ∧ ct'.Usable par ∧
    (∃ lwe : KeyRandom 10 → Coeffs par 0, (∀ ω, ∃ a, exPrg.poly .ntt c (seedOf ω.2.1) = some a ∧ IsLwe c a (-sample par ω.1) (sample par ω.2.2) (lwe ω))) ∧
    PublicKey.new exPrg sk (List.replicate 32 7) exRng = some pk ∧ PublicKeySwitchShare.new sk pk ct'' exRng exRng exRng = Res.ok share ∧ Chosen.receivedKey par sk 66 share = some sk.coeffs := by
  obtain ⟨par, sk, s, pt, pt', m, m', ct, ct', v, v', h, hd, ht, hm, hrel, hk, hs, e2, e2', em, em', f1, f1', f2, f2', f3, f3', f4, f4', f5, f6, h0, hvar⟩ := exCipher
  have hQ : par.plaintext.value ≤ par.modulusAt 0 := by rw [h0, ht]; decide
  obtain ⟨c, hc, -⟩ := (C31_levels luckyBuild_ok h 0).1 (by rw [hm]; decide)
  obtain ⟨n, hw, -⟩ := build_inv luckyBuild_ok h
  obtain ⟨lwe, -, g1, -, -⟩ := C101_hides (W := 10) luckyBuild_ok h exPrg_ok hc hQ hk (ct := ![ct, ct']) (fun j => by
    fin_cases j
    · exact ⟨f2.usable hw, f2.level_eq⟩
    · exact ⟨f2'.usable hw, f2'.level_eq⟩) adversary
  obtain ⟨-, -, ct'', -, -, g2⟩ := C101_receiver luckyBuild_ok h (B := 2) (B' := 2) (E := 66) (by rw [hd, hvar]) (by rw [h0]; decide) hQ
  obtain ⟨pk, share, g3, g4, g5⟩ := g2 (seed := List.replicate 32 7) exPrg_ok hk hs hk hs exRng_ok exRng_ok exRng_ok exRng_ok
  exact ⟨par, sk, ct, ct', ct'', c, pk, share, h, hk.length.trans hd, hc, f2.usable hw, f2'.usable hw, ⟨lwe, g1⟩, g3, g4, g5⟩

end Fhe.Props
