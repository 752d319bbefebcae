import Verif.Lemmas.Secrecy
import Verif.Props.Masking
/-!
# Telling encryptions apart is as hard as learning with errors
-/
namespace Fhe.Props
open Nega ParamsBuilder Ciphertext Secrecy

variable {b : Build} {st : ParamsBuilder} {par : Par} {i : Nat}

/-- C97: whoever tells the encryptions, with a random secret key, of two lists of messages apart, also tells samples of learning with errors from uniformly distributed ones, and does so by putting
ciphertexts together from them. -/
theorem C97_secret_key (hb : b.OK) (h : build b st = Res.ok par.toBfvParameters) {g : Prg} (hg : g.OK) {c : Context} (hc : par.contextAtLevel i = Res.ok c)
    (hQ : par.plaintext.value ≤ par.modulusAt i) {k W : Nat} {pt pt' : Fin k → Plaintext} {m m' : Fin k → par.Msg} (hpt : ∀ j, (pt j).Holds par i (m j)) (hpt' : ∀ j, (pt' j).Holds par i (m' j))
    (adversary : (Fin k → Res Ciphertext) → Bool) :
    ∃ lwe : Words W × (Fin k → Bytes32) × (Fin k → Words W) → Fin k → Coeffs par i,
      (∀ ω j, ∃ a, g.poly .ntt c (seedOf (ω.2.1 j)) = some a ∧ IsLwe c a (-sample par ω.1) (sample par (ω.2.2 j)) (lwe ω j)) ∧
      gap (fun ω : Words W × (Fin k → Bytes32) × (Fin k → Words W) => adversary (secretView g par pt ω)) (fun ω : Words W × (Fin k → Bytes32) × (Fin k → Words W) => adversary (secretView g par pt' ω)) ≤
        gap (fun ω => adversary fun j => secretFrom g (pt j) (ω.2.1 j) (lwe ω j)) (fun u : (Fin k → Bytes32) × (Fin k → Coeffs par i) => adversary fun j => secretFrom g (pt j) (u.1 j) (u.2 j)) +
        gap (fun ω => adversary fun j => secretFrom g (pt' j) (ω.2.1 j) (lwe ω j)) (fun u : (Fin k → Bytes32) × (Fin k → Coeffs par i) => adversary fun j => secretFrom g (pt' j) (u.1 j) (u.2 j)) := by
  obtain ⟨n, hw, -⟩ := build_inv hb h
  obtain ⟨l, hl, rfl⟩ := ParWF.contextAtLevel_iff.1 hc
  have ha := AtLevel.ofGet hw hl
  have : NeZero (par.modulusAt i) := ⟨ha.pos.ne'⟩
  choose A hA using fun seed => Prg.poly_encI hg ha.wf ha.deg .ntt seed
  have hview : ∀ {pt : Fin k → Plaintext} {m : Fin k → par.Msg}, (∀ j, (pt j).Holds par i (m j)) → ∀ ω : Words W × (Fin k → Bytes32) × (Fin k → Words W),
      secretView g par pt ω = fun j => secretFrom g (pt j) (ω.2.1 j) (reduce par i (A (seedOf (ω.2.1 j)) * -sample par ω.1 + sample par (ω.2.2 j))) := fun {pt m} hpt ω => by
    obtain ⟨sk, e1, hk⟩ := SecretKey.random_drawn hw (isStream_words ω.1)
    rw [drawn_sample] at hk
    funext j
    rw [secretFrom_eq hw ha hQ (hpt j) (hA _), encI_reduce ha]
    unfold secretView
    rw [e1, Res.lift_some, Res.ok_bind, tryEncrypt_eq hw ha hk hQ _ (hpt j) (hA _)]
  have hideal : pr (fun u : (Fin k → Bytes32) × (Fin k → Coeffs par i) => adversary fun j => secretFrom g (pt j) (u.1 j) (u.2 j)) =
      pr (fun u : (Fin k → Bytes32) × (Fin k → Coeffs par i) => adversary fun j => secretFrom g (pt' j) (u.1 j) (u.2 j)) := by
    refine pr_equiv ((Equiv.refl _).prodCongr (Equiv.piCongrRight fun j => shift par i (scaleMsg (par.modulusAt i) (m j) - scaleMsg (par.modulusAt i) (m' j)))) fun u => ?_
    congr 1
    funext j
    show _ = secretFrom g (pt' j) (u.1 j) (shift par i _ (u.2 j))
    rw [secretFrom_eq hw ha hQ (hpt j) (hA _), secretFrom_eq hw ha hQ (hpt' j) (hA _), encI_shift ha, sub_add_cancel]
  refine ⟨fun ω j => reduce par i (A (seedOf (ω.2.1 j)) * -sample par ω.1 + sample par (ω.2.2 j)), fun ω j => ⟨_, hA _, isLwe_reduce ha _ _ _ _⟩, ?_⟩
  · simp only [hview hpt, hview hpt', gap]
    rw [← hideal, abs_sub_comm (pr fun ω => adversary fun j => secretFrom g (pt' j) _ _)]
    exact abs_sub_le _ _ _

/-- C97, public keys: the adversary sees the public key and the encryptions with it.  First the public key is exchanged for a uniformly distributed one, which is a question of one sample with the
secret key as secret; then the ciphertexts, which is a question of two samples with the same secret for every ciphertext. -/
theorem C97_public_key (hb : b.OK) (h : build b st = Res.ok par.toBfvParameters) {g : Prg} (hg : g.OK) {c : Context} (hc : par.contextAtLevel 0 = Res.ok c)
    (hQ : par.plaintext.value ≤ par.modulusAt 0) {k W : Nat} {pt pt' : Fin k → Plaintext} {m m' : Fin k → par.Msg} (hpt : ∀ j, (pt j).Holds par 0 (m j)) (hpt' : ∀ j, (pt' j).Holds par 0 (m' j))
    (adversary : Panics PublicKey × (Fin k → Res Ciphertext) → Bool) :
    ∃ (lwe : KeyRandom W → Coeffs par 0) (lwe2 : (Bytes32 × Coeffs par 0) × PublicRandom k W → Fin k → Coeffs par 0 × Coeffs par 0),
      (∀ ω, ∃ a, g.poly .ntt c (seedOf ω.2.1) = some a ∧ IsLwe c a (-sample par ω.1) (sample par ω.2.2) (lwe ω)) ∧
      (∀ ω j, ∃ a p, g.poly .ntt c (seedOf ω.1.1) = some a ∧ polyOf c ω.1.2 = Res.ok p ∧ IsLwe c p (sample par (ω.2 j).1) (sample par (ω.2 j).2.1) (lwe2 ω j).1 ∧
        IsLwe c a (sample par (ω.2 j).1) (sample par (ω.2 j).2.2) (lwe2 ω j).2) ∧
      gap (fun ω : KeyRandom W × PublicRandom k W => adversary (publicView (publicKey g par ω.1) pt ω.2)) (fun ω : KeyRandom W × PublicRandom k W => adversary (publicView (publicKey g par ω.1) pt' ω.2)) ≤
        gap (fun ω : KeyRandom W × PublicRandom k W => adversary (publicView (publicFrom g ω.1.2.1 (lwe ω.1)) pt ω.2))
          (fun ω : (Bytes32 × Coeffs par 0) × PublicRandom k W => adversary (publicView (publicFrom g ω.1.1 ω.1.2) pt ω.2)) +
        gap (fun ω : (Bytes32 × Coeffs par 0) × PublicRandom k W => adversary (publicFrom g ω.1.1 ω.1.2, fun j => pairFrom (pt j) (lwe2 ω j)))
          (fun u : (Bytes32 × Coeffs par 0) × (Fin k → Coeffs par 0 × Coeffs par 0) => adversary (publicFrom g u.1.1 u.1.2, fun j => pairFrom (pt j) (u.2 j))) +
        (gap (fun ω : KeyRandom W × PublicRandom k W => adversary (publicView (publicFrom g ω.1.2.1 (lwe ω.1)) pt' ω.2))
          (fun ω : (Bytes32 × Coeffs par 0) × PublicRandom k W => adversary (publicView (publicFrom g ω.1.1 ω.1.2) pt' ω.2)) +
        gap (fun ω : (Bytes32 × Coeffs par 0) × PublicRandom k W => adversary (publicFrom g ω.1.1 ω.1.2, fun j => pairFrom (pt' j) (lwe2 ω j)))
          (fun u : (Bytes32 × Coeffs par 0) × (Fin k → Coeffs par 0 × Coeffs par 0) => adversary (publicFrom g u.1.1 u.1.2, fun j => pairFrom (pt' j) (u.2 j)))) := by
  obtain ⟨n, hw, -⟩ := build_inv hb h
  obtain ⟨l, hl, rfl⟩ := ParWF.contextAtLevel_iff.1 hc
  have ha := AtLevel.ofGet hw hl
  have : NeZero (par.modulusAt 0) := ⟨ha.pos.ne'⟩
  obtain ⟨z, hz, hz', -⟩ := C35_zero hb h (e := ⟨.poly, 0⟩) ha.lt
  choose A hA using fun seed => Prg.poly_encI hg ha.wf ha.deg .ntt seed
  have hkey : ∀ ω : KeyRandom W, publicKey g par ω = publicFrom g ω.2.1 (reduce par 0 (A (seedOf ω.2.1) * -sample par ω.1 + sample par ω.2.2)) := fun ω => by
    obtain ⟨sk, e1, hk⟩ := SecretKey.random_drawn hw (isStream_words ω.1)
    rw [drawn_sample] at hk
    rw [publicFrom_eq ha (hA _), encI_reduce' ha]
    unfold publicKey
    rw [e1, Option.bind_eq_bind, Option.bind_some, PublicKey.new_drawn hw ha hk hQ (hA _) (isStream_words _) ⟨z, hz, hz'⟩, drawn_sample,
      show A (seedOf ω.2.1) * -sample par ω.1 + sample par ω.2.2 = sample par ω.2.2 - A (seedOf ω.2.1) * sample par ω.1 by ring]
  have hview : ∀ {pt : Fin k → Plaintext} {m : Fin k → par.Msg}, (∀ j, (pt j).Holds par 0 (m j)) → ∀ ω : (Bytes32 × Coeffs par 0) × PublicRandom k W,
      publicView (publicFrom g ω.1.1 ω.1.2) pt ω.2 = (publicFrom g ω.1.1 ω.1.2, fun j => pairFrom (pt j)
        (reduce par 0 (intOf ω.1.2 * sample par (ω.2 j).1 + sample par (ω.2 j).2.1), reduce par 0 (A (seedOf ω.1.1) * sample par (ω.2 j).1 + sample par (ω.2 j).2.2))) := fun {pt m} hpt ω => by
    unfold publicView
    congr 1
    funext j
    rw [publicFrom_eq ha (hA _), Res.lift_some, Res.ok_bind, PublicKey.tryEncrypt_drawn hw ha hQ (hpt j) (isStream_words _) (isStream_words _) (isStream_words _), pairFrom_eq hw ha hQ (hpt j),
      encI_reduce ha, encI_reduce' ha]
    simp only [drawn_sample]
    rw [mul_comm (intOf ω.1.2), mul_comm (A _)]
  have hideal : pr (fun u : (Bytes32 × Coeffs par 0) × (Fin k → Coeffs par 0 × Coeffs par 0) => adversary (publicFrom g u.1.1 u.1.2, fun j => pairFrom (pt j) (u.2 j))) =
      pr (fun u : (Bytes32 × Coeffs par 0) × (Fin k → Coeffs par 0 × Coeffs par 0) => adversary (publicFrom g u.1.1 u.1.2, fun j => pairFrom (pt' j) (u.2 j))) := by
    refine pr_equiv ((Equiv.refl _).prodCongr (Equiv.piCongrRight fun j =>
      (shift par 0 (scaleMsg (par.modulusAt 0) (m j) - scaleMsg (par.modulusAt 0) (m' j))).prodCongr (Equiv.refl _))) fun u => ?_
    congr 2
    funext j
    show _ = pairFrom (pt' j) (shift par 0 _ (u.2 j).1, (u.2 j).2)
    rw [pairFrom_eq hw ha hQ (hpt j), pairFrom_eq hw ha hQ (hpt' j), encI_shift ha, sub_add_cancel]
  refine ⟨fun ω => reduce par 0 (A (seedOf ω.2.1) * -sample par ω.1 + sample par ω.2.2),
    fun ω j => (reduce par 0 (intOf ω.1.2 * sample par (ω.2 j).1 + sample par (ω.2 j).2.1), reduce par 0 (A (seedOf ω.1.1) * sample par (ω.2 j).1 + sample par (ω.2 j).2.2)),
    fun ω => ⟨_, hA _, isLwe_reduce ha _ _ _ _⟩, fun ω j => ⟨_, _, hA _, polyOf_eq ha _, isLwe_reduce ha _ _ _ _, isLwe_reduce ha _ _ _ _⟩, ?_⟩
  simp only [hkey, ← hview hpt, ← hview hpt', gap]
  rw [← hideal]
  generalize (pr fun ω : KeyRandom W × PublicRandom k W => adversary (publicView (publicFrom g ω.1.2.1 _) pt ω.2)) = a
  generalize (pr fun ω : KeyRandom W × PublicRandom k W => adversary (publicView (publicFrom g ω.1.2.1 _) pt' ω.2)) = a'
  generalize (pr fun ω : (Bytes32 × Coeffs par 0) × PublicRandom k W => adversary (publicView (publicFrom g ω.1.1 ω.1.2) pt ω.2)) = d
  generalize (pr fun ω : (Bytes32 × Coeffs par 0) × PublicRandom k W => adversary (publicView (publicFrom g ω.1.1 ω.1.2) pt' ω.2)) = d'
  generalize (pr fun u : (Bytes32 × Coeffs par 0) × (Fin k → Coeffs par 0 × Coeffs par 0) => adversary (publicFrom g u.1.1 u.1.2, fun j => pairFrom (pt j) (u.2 j))) = x
  have t1 := abs_sub_le a d x
  have t2 := abs_sub_le a' d' x
  have t3 := abs_sub_le a x a'
  rw [abs_sub_comm x a'] at t3
  linarith

/-- The hypotheses are met: two encryptions of one message or of another one, with random choices of ten words each. -/
example (adversary : (Fin 2 → Res Ciphertext) → Bool) (adversary' : Panics PublicKey × (Fin 2 → Res Ciphertext) → Bool) : ∃ (par : Par) (c : Context) (pt pt' : Plaintext) (m m' : par.Msg),
    build luckyBuild exBuilder = Res.ok par.toBfvParameters ∧ par.contextAtLevel 0 = Res.ok c ∧ pt.Holds par 0 m ∧ pt'.Holds par 0 m' ∧ m ≠ m' ∧
    (∃ lwe : Words 10 × (Fin 2 → Bytes32) × (Fin 2 → Words 10) → Fin 2 → Coeffs par 0,
      ∀ ω j, ∃ a, exPrg.poly .ntt c (seedOf (ω.2.1 j)) = some a ∧ IsLwe c a (-sample par ω.1) (sample par (ω.2.2 j)) (lwe ω j)) ∧
    ∃ lwe : KeyRandom 10 → Coeffs par 0, ∀ ω, ∃ a, exPrg.poly .ntt c (seedOf ω.2.1) = some a ∧ IsLwe c a (-sample par ω.1) (sample par ω.2.2) (lwe ω) := by
  obtain ⟨par, sk, s, pt, pt', m, m', ct, ct', v, v', h, hd, ht, hm, hrel, hk, hs, e2, e2', em, em', f1, f1', f2, f2', f3, f3', f4, f4', f5, f6, h0, hvar⟩ := exCipher
  have hQ : par.plaintext.value ≤ par.modulusAt 0 := by rw [h0, ht]; decide
  obtain ⟨c, hc, -⟩ := (C31_levels luckyBuild_ok h 0).1 (by rw [hm]; decide)
  obtain ⟨lwe, h1, -⟩ := C97_secret_key (W := 10) luckyBuild_ok h exPrg_ok hc hQ (pt := fun _ : Fin 2 => pt) (pt' := fun _ => pt') (fun _ => e2) (fun _ => e2') adversary
  obtain ⟨lwe', lwe2, h2, -, -⟩ := C97_public_key (W := 10) luckyBuild_ok h exPrg_ok hc hQ (pt := fun _ : Fin 2 => pt) (pt' := fun _ => pt') (fun _ => e2) (fun _ => e2') adversary'
  exact ⟨par, c, pt, pt', m, m', h, hc, e2, e2', fun hc => by rw [hc, em'] at em; simp at em, ⟨lwe, h1⟩, lwe', h2⟩

end Fhe.Props
