import Verif.Spec.Decrypting
import Verif.Lemmas.Secrecy
import Verif.Props.Chosen
/-!
# What the shares for decrypting show
-/
namespace Fhe.Props
open Nega ParamsBuilder Ciphertext Secrecy Poly

variable {b : Build} {st : ParamsBuilder} {par : Par} {n i : Nat} {l : ContextLevel}

/-- The share, for given random choices. -/
theorem skSwitchShare_drawn (hw : ParWF b n par.toBfvParameters) (ha : AtLevel b n par i l) {sk sk' : SecretKey} {s s' : IntPoly par.degree} (hk : sk.IsKey par s) (hk' : sk'.IsKey par s')
    {ct : Ciphertext} (hp : ct.par = par) {vt vt' : Bool} {f0 f1 : IntPoly par.degree} (hc : ct.c = [encI l.ctx .ntt vt f0, encI l.ctx .ntt vt' f1]) {rng : Nat → Nat} (hr : IsStream rng) :
    SecretKeySwitchShare.new sk sk' ct rng = Res.ok { par, ct, hShare := encI l.ctx .ntt false ((s - s') * f1 + drawn par.degree par.variance rng) } := by
  have hs := (drawn_encI hw.variance.1 hw.variance.2 hr par.degree).2 ha.wf ha.deg
  unfold SecretKeySwitchShare.new
  rw [hk.par_eq, hk'.par_eq, hp, if_neg (by simp), if_neg (by simp), if_neg (by rw [hc]; simp), hc, List.getElem?_cons_zero, Res.lift_some, Res.ok_bind, List.getElem?_cons_succ, List.getElem?_cons_zero,
    Res.lift_some, Res.ok_bind, ctx_encI, SecretKey.polyAt_encI hk ha.wf ha.deg, Res.ok_bind, SecretKey.polyAt_encI hk' ha.wf ha.deg, Res.ok_bind, hs, Res.math_ok, Res.ok_bind,
    subAssign_encI ha.wf ha.deg (by simp), Res.lift_some, Res.ok_bind, disallowVt_encI, mulAssign_encI ha.wf ha.deg, Res.lift_some, Res.ok_bind, addAssign_encI ha.wf ha.deg (by simp), Res.lift_some, Res.ok_bind]
  rfl

theorem zero_isKey (par : Par) : SecretKey.IsKey par { par := par, coeffs := List.replicate par.degree 0 } 0 := by
  refine ⟨rfl, List.length_replicate, fun x hx => ?_, Nega.ext fun j => ?_⟩
  · obtain ⟨-, rfl⟩ := List.mem_replicate.1 hx; norm_num
  · show (0 : Int) = (List.replicate par.degree (0 : Int)).getD j 0
    rw [List.getD_replicate _ j.isLt]

theorem decryptShare_drawn (hw : ParWF b n par.toBfvParameters) (ha : AtLevel b n par i l) {sk : SecretKey} {s : IntPoly par.degree} (hk : sk.IsKey par s)
    {ct : Ciphertext} (hp : ct.par = par) {vt vt' : Bool} {f0 f1 : IntPoly par.degree} (hc : ct.c = [encI l.ctx .ntt vt f0, encI l.ctx .ntt vt' f1]) {rng : Nat → Nat} (hr : IsStream rng) :
    DecryptionShare.new sk ct rng = Res.ok ⟨{ par, ct, hShare := encI l.ctx .ntt false (f1 * s + drawn par.degree par.variance rng) }⟩ := by
  unfold DecryptionShare.new
  simp only [hk.par_eq]
  rw [skSwitchShare_drawn hw ha hk (zero_isKey par) hp hc hr, Res.ok_bind, sub_zero, mul_comm s]
  rfl

theorem ctWith_eq (ha : AtLevel b n par i l) {p0 : Poly .ntt} (h0 : p0.Valid ∧ par.contextAtLevel i = Res.ok p0.ctx) (y : Coeffs par i) :
    ∃ F : IntPoly par.degree, p0 = encI l.ctx .ntt p0.vt F ∧
      ctWith p0 y = Res.ok { par, seed := none, c := [encI l.ctx .ntt p0.vt F, encI l.ctx .ntt false (intOf y)], level := i } := by
  have hv := h0
  rw [ha.contextAt] at hv
  obtain ⟨F, hF, -⟩ := exists_encI ha.wf ha.deg (Res.ok_inj.1 hv.2).symm hv.1
  refine ⟨F, hF, ?_⟩
  unfold ctWith
  rw [ha.contextAt, Res.ok_bind, polyOf_eq ha, Res.ok_bind, hF]
  exact new_two ha rfl rfl

/-- C102: the shares that a party makes for decrypting ciphertexts whose second parts are uniformly distributed are samples of learning with errors with the secret key of the party.  So whoever tells
the shares from shares with uniformly distributed coefficients, in which nothing of the secret key is left, tells samples of learning with errors from uniformly distributed ones.  The first parts of
the ciphertexts can depend on the second ones. -/
theorem C102_hides (hb : b.OK) (h : build b st = Res.ok par.toBfvParameters) {c : Context} (hc : par.contextAtLevel i = Res.ok c) {k W : Nat} {p0 : Fin k → Coeffs par i → Poly .ntt}
    (h0 : ∀ j y, (p0 j y).Valid ∧ par.contextAtLevel i = Res.ok (p0 j y).ctx) :
    ∃ lwe : Words W × (Fin k → Coeffs par i) × (Fin k → Words W) → Fin k → Coeffs par i,
      (∀ ω j, ∃ a, polyOf c (ω.2.1 j) = Res.ok a ∧ IsLwe c a (sample par ω.1) (sample par (ω.2.2 j)) (lwe ω j)) ∧
      (∀ ω j, decryptView par p0 ω j = decryptFrom (p0 j) (ω.2.1 j) (lwe ω j)) ∧
      (∀ j y x, ∃ ct share, decryptFrom (p0 j) y x = Res.ok (ct, share)) ∧
      ∀ adversary : (Fin k → Res (Ciphertext × DecryptionShare)) → Bool,
        gap (fun ω : Words W × (Fin k → Coeffs par i) × (Fin k → Words W) => adversary (decryptView par p0 ω)) (fun u : (Fin k → Coeffs par i) × (Fin k → Coeffs par i) => adversary fun j => decryptFrom (p0 j) (u.1 j) (u.2 j)) =
        gap (fun ω => adversary fun j => decryptFrom (p0 j) (ω.2.1 j) (lwe ω j))
          (fun u : (Fin k → Coeffs par i) × (Fin k → Coeffs par i) => adversary fun j => decryptFrom (p0 j) (u.1 j) (u.2 j)) := by
  obtain ⟨n, hw, -⟩ := build_inv hb h
  obtain ⟨l, hl, rfl⟩ := ParWF.contextAtLevel_iff.1 hc
  have ha := AtLevel.ofGet hw hl
  have : NeZero (par.modulusAt i) := ⟨ha.pos.ne'⟩
  have hview : ∀ (ω : Words W × (Fin k → Coeffs par i) × (Fin k → Words W)) j,
      decryptView par p0 ω j = decryptFrom (p0 j) (ω.2.1 j) (reduce par i (intOf (ω.2.1 j) * sample par ω.1 + sample par (ω.2.2 j))) := fun ω j => by
    obtain ⟨sk, e1, hk⟩ := SecretKey.random_drawn hw (isStream_words ω.1)
    rw [drawn_sample] at hk
    obtain ⟨F, -, hF⟩ := ctWith_eq ha (h0 j (ω.2.1 j)) (ω.2.1 j)
    unfold decryptView decryptFrom
    rw [e1, Res.lift_some, Res.ok_bind, hF, Res.ok_bind, ha.contextAt, Res.ok_bind, Res.ok_bind, polyOf_eq ha, Res.ok_bind, encI_reduce' ha,
      decryptShare_drawn hw ha hk rfl rfl (isStream_words _), Res.ok_bind, drawn_sample]
  refine ⟨fun ω j => reduce par i (intOf (ω.2.1 j) * sample par ω.1 + sample par (ω.2.2 j)), fun ω j => ⟨_, polyOf_eq ha _, isLwe_reduce ha _ _ _ _⟩, hview, fun j y x => ?_, fun adversary => ?_⟩
  · obtain ⟨F, -, hF⟩ := ctWith_eq ha (h0 j y) y
    unfold decryptFrom
    rw [ha.contextAt, Res.ok_bind, hF, Res.ok_bind, polyOf_eq ha, Res.ok_bind]
    exact ⟨_, _, rfl⟩
  · rw [show (fun ω : Words W × (Fin k → Coeffs par i) × (Fin k → Words W) => adversary (decryptView par p0 ω)) = fun ω => adversary fun j => decryptFrom (p0 j) (ω.2.1 j) (reduce par i (intOf (ω.2.1 j) * sample par ω.1 + sample par (ω.2.2 j))) from
      funext fun ω => congrArg adversary (funext fun j => hview ω j)]

/-- The hypotheses are met: shares for two ciphertexts with a given first part and uniformly distributed second parts. -/
example : ∃ (par : Par) (c : Context) (p : Poly .ntt) (lwe : Words 10 × (Fin 2 → Coeffs par 0) × (Fin 2 → Words 10) → Fin 2 → Coeffs par 0),
    build luckyBuild exBuilder = Res.ok par.toBfvParameters ∧ par.contextAtLevel 0 = Res.ok c ∧
    (∀ ω j, ∃ a, polyOf c (ω.2.1 j) = Res.ok a ∧ IsLwe c a (sample par ω.1) (sample par (ω.2.2 j)) (lwe ω j)) ∧
    ∀ ω j, decryptView par (fun _ _ => p) ω j = decryptFrom (fun _ => p) (ω.2.1 j) (lwe ω j) := by
  obtain ⟨par, sk, s, pt, pt', m, m', ct, ct', v, v', h, hd, ht, hm, hrel, hk, hs, e2, e2', em, em', f1, f1', f2, f2', f3, f3', f4, f4', f5, f6, h0, hvar⟩ := exCipher
  obtain ⟨c, hc, -⟩ := (C31_levels luckyBuild_ok h 0).1 (by rw [hm]; decide)
  obtain ⟨n, hw, -⟩ := build_inv luckyBuild_ok h
  have hu := f2.usable hw
  have hv := hu.valid _ (List.getElem_mem (show 0 < ct.c.length by have := hu.parts; omega))
  rw [f2.level_eq] at hv
  obtain ⟨lwe, g1, g2, -⟩ := C102_hides (W := 10) (k := 2) luckyBuild_ok h hc (p0 := fun _ _ => ct.c[0]'(by have := hu.parts; omega)) (fun _ _ => hv)
  exact ⟨par, c, _, lwe, h, hc, g1, g2⟩

end Fhe.Props
