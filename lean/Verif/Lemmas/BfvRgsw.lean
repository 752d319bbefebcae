import Verif.Lemmas.BfvRelin
import Verif.Spec.BfvRgsw
/-!
# Lemmas: RGSW ciphertexts
-/
namespace Fhe
open Nega Poly Ciphertext

variable {b : Build} {n N : Nat} {par : Par} {i j : Nat} {l l' : ContextLevel} {s : IntPoly par.degree}

theorem KeySwitchingKey.IsFor.ratio_self {k : KeySwitchingKey} {G : IntPoly par.degree} {e : Nat} (hw : ParWF b n par.toBfvParameters) (hk : k.IsFor par s G i i e) : k.ratio par = 1 := by
  obtain ⟨l, ha, -⟩ := KeySwitchingKey.IsFor.pair hw hk
  unfold KeySwitchingKey.ratio
  rw [hk.level, hk.keyLevel]
  exact Nat.div_self ha.pos

/-- Switching with a key of the level of the ciphertexts. -/
theorem KeySwitchingKey.IsFor.same {k : KeySwitchingKey} {G : IntPoly par.degree} {e : Nat} (hw : ParWF b n par.toBfvParameters) (hk : k.IsFor par s G i i e) :
    ∃ l, AtLevel b n par i l ∧ k.ctxCiphertext = l.ctx ∧ k.ctxKsk = l.ctx ∧ k.par = par ∧
    ∀ (vt : Bool) (X : IntPoly par.degree), ∃ (A B H W : IntPoly par.degree) (v0 v1 : Bool), k.keySwitch (encI l.ctx .powerBasis vt X) = Res.ok (encI l.ctx .ntt v0 A, encI l.ctx .ntt v1 B) ∧
      (∀ o0 o1 : Poly .ntt, o0.Valid → o1.Valid → k.keySwitchAssign (encI l.ctx .powerBasis vt X) o0 o1 = Res.ok (encI l.ctx .ntt v0 A, encI l.ctx .ntt v1 B)) ∧
      A + B * s = X * G + C (par.modulusAt i : Int) * H + W ∧ W.Bounded (par.degree * k.digitSum * e) := by
  have hr := hk.ratio_self hw
  obtain ⟨hi, hj, hle, E, hE, hb⟩ := hk
  rw [hr, IntPoly.scale_eq] at hE
  obtain ⟨l, hl, hc⟩ := ParWF.contextAtLevel_iff.1 hE.ctx
  obtain ⟨l', hl', hc'⟩ := ParWF.contextAtLevel_iff.1 hE.ctxKsk
  have ha := AtLevel.ofGet hw hl
  have ha' := AtLevel.ofGet hw hl'
  rw [hi] at ha
  rw [hj] at ha'
  obtain rfl := ha.unique ha'
  refine ⟨l, ha, hc.symm, hc'.symm, hE.par_eq, fun vt X => ?_⟩
  obtain ⟨D, A, B, H, v0, v1, e1, e2, e3, e4, e5⟩ := KeySwitchingKey.keySwitch_eq hw hE vt X
  rw [← hc, ← hc'] at e1
  rw [← hc] at e5
  rw [← hc] at e2
  refine ⟨A, B, H * G, _, v0, v1, e1, fun o0 o1 h0 h1 => (e5 o0 o1 h0 h1).trans e1, ?_, dot_digits_bounded hE e3 e4 hb⟩
  rw [← ha.mod]
  push_cast at e2 ⊢
  rw [map_one, one_mul] at e2
  linear_combination e2

theorem red_C_mul (t : Nat) (H : IntPoly N) : red t (C (t : Int) * H) = 0 := by
  apply Nega.ext; intro j
  show ((((C (t : Int) : IntPoly N) * H) j : Int) : ZMod t) = 0
  rw [C_mul_apply]; push_cast; rw [ZMod.natCast_self, zero_mul]

theorem ofMsg_eq {t : Nat} (m : Nega N (ZMod t)) : IntPoly.ofMsg m = msgInt m := rfl

theorem Ciphertext.mulRgsw_eq (hw : ParWF b n par.toBfvParameters) {r : RgswCiphertext} {m m' : par.Msg} {e : Nat} (hr : r.Encrypts par s i m' e) {ct : Ciphertext} {v : IntPoly par.degree}
    (h : ct.Encrypts par s i m v) (h2 : ct.c.length = 2) :
    ∃ (o : Ciphertext) (W : IntPoly par.degree), ct.mulRgsw r = some o ∧ o.Encrypts par s i (m * m') (v * IntPoly.ofMsg m' + C (par.plaintext.value : Int) * W) ∧ o.c.length = 2 ∧ o.seed = none ∧
      W.Bounded (par.degree * (r.ksk0.digitSum + r.ksk1.digitSum) * e) := by
  obtain ⟨l, ha, hc, hc', hp, hsw⟩ := hr.fst.same hw
  obtain ⟨l1, ha1, hc1, hc1', hp1, hsw1⟩ := hr.snd.same hw
  obtain rfl := ha.unique ha1
  obtain ⟨l', F, M, ha', hF, hM, hph⟩ := h.elim hw
  obtain rfl := ha.unique ha'
  have ht := hw.t_pos
  have : NeZero par.plaintext.value := ⟨by omega⟩
  have hct : ∃ v0 v1 F0 F1, ct.c = [encI l.ctx .ntt v0 F0, encI l.ctx .ntt v1 F1] ∧ F = [F0, F1] := by
    have hl := hF.length_eq
    generalize ct.c = cs at hF h2 hl
    match cs, F, hF with
    | [_, _], [F0, F1], .cons ⟨v0, h0⟩ (.cons ⟨v1, h1⟩ .nil) => exact ⟨v0, v1, F0, F1, by rw [h0, h1], rfl⟩
    | [], _, _ => simp at h2
    | [_], _, _ => simp at h2
    | _ :: _ :: _ :: _, _, _ => simp at h2
  obtain ⟨w0, w1, F0, F1, hcc, rfl⟩ := hct
  obtain ⟨A, B, H, W, v0, v1, -, e1, e2, e3⟩ := hsw w0 F0
  obtain ⟨A', B', H', W', v0', v1', -, e1', e2', e3'⟩ := hsw1 w1 F1
  rw [phase_two] at hph
  have hz : (Poly.zero .ntt l.ctx).Valid := by rw [zero_encI ha.wf rfl]; exact valid_enc ha.wf _
  refine ⟨{ par := ct.par, seed := none, c := [encI l.ctx .ntt (v0 && v0') (A + A'), encI l.ctx .ntt (v1 && v1') (B + B')], level := ct.level }, W + W', ?_, ?_, rfl, rfl, ?_⟩
  · unfold mulRgsw
    rw [check_eq (by rw [h.par_eq, hp]), check_eq (by rw [h.level_eq, hr.fst.level]), hcc]
    simp only [Option.bind_eq_bind, Option.bind_some]
    rw [nttToPowerBasis_encI ha.wf, Option.bind_some, nttToPowerBasis_encI ha.wf, Option.bind_some, hc', hc1', e1 _ _ hz hz, e1' _ _ hz hz]
    simp only [Res.unwrap_ok, Option.bind_some]
    rw [addAssign_encI ha.wf ha.deg (by simp), Option.bind_some, addAssign_encI ha.wf ha.deg (by simp), Option.bind_some]
    rfl
  · refine Encrypts.intro ha h.par_eq h.level_eq (by simp) (F := [A + A', B + B']) (M := M * msgInt m' + C (par.plaintext.value : Int) * (H + H')) (.cons ⟨_, rfl⟩ (.cons ⟨_, rfl⟩ .nil)) ?_ ?_
    · rw [red_add, red_mul, hM, red_msgInt, red_C_mul, add_zero]
    · rw [phase_two]
      rw [ofMsg_eq] at e2 e2' ⊢
      linear_combination (msgInt m') * hph + C (par.plaintext.value : Int) * (e2 + e2')
  · exact (e3.add e3').mono (le_of_eq (by ring))

theorem SecretKey.tryEncryptRgsw_eq (hw : ParWF b n par.toBfvParameters) (ha : AtLevel b n par i l) {sk : SecretKey} (hk : sk.IsKey par s) {g : Prg} (hg : g.OK)
    {pt : Plaintext} {m : par.Msg} (hpt : pt.Holds par i m) (seed0 seed1 : Seed) {rngs0 rngs1 : Nat → Nat → Nat} (hr0 : ∀ i, IsStream (rngs0 i)) (hr1 : ∀ i, IsStream (rngs1 i)) :
    ∃ r : RgswCiphertext, sk.tryEncryptRgsw b g pt seed0 seed1 rngs0 rngs1 = Res.ok r ∧ r.Encrypts par s i m (2 * par.variance) ∧
      (∀ k ∈ [(r.ksk0, seed0), (r.ksk1, seed1)], k.1.seed = some k.2 ∧ KeySwitchingKey.generateC1 g k.1.ctxKsk k.2 k.1.c0.length = some k.1.c1 ∧ (∀ p ∈ k.1.c0 ++ k.1.c1, p.vt = true) ∧
        (k.1.logBase = 0 ↔ i + 1 < par.moduli.length)) := by
  have hp := Plaintext.polyNtt_encI hw ha hpt
  have hlen := ha.length
  obtain ⟨k0, E0, a1, a2, a3, a4, a5, a6, a7, a8, a9⟩ := KeySwitchingKey.new_eq hw hk hg ha ha (fun _ => rfl) pt.polyNtt.vt (msgInt m) seed0 hr0
  obtain ⟨k1, E1, b1, b2, b3, b4, b5, b6, b7, b8, b9⟩ := KeySwitchingKey.new_eq hw hk hg ha ha (fun _ => rfl) (false && pt.polyNtt.vt) (s * msgInt m) seed1 hr1
  refine ⟨⟨k0, k1⟩, ?_, ⟨⟨a4, a5, le_rfl, E0, ?_, a3⟩, ⟨b4, b5, le_rfl, E1, ?_, b3⟩⟩, ?_⟩
  · unfold tryEncryptRgsw
    rw [hk.par_eq, Plaintext.Holds.validateFor hw ha hpt, Res.ok_bind, Plaintext.Holds.level_eq hw ha hpt, Res.lift_some, Res.ok_bind, ha.contextAt, Res.ok_bind, hp, nttToPowerBasis_encI ha.wf, Res.lift_some,
      Res.ok_bind, SecretKey.polyAt_encI hk ha.wf ha.deg, Res.ok_bind, mulAssign_encI ha.wf ha.deg, Res.lift_some, Res.ok_bind, nttToPowerBasis_encI ha.wf, Res.lift_some, Res.ok_bind, a1, Res.ok_bind, b1, Res.ok_bind]
    rfl
  · have : k0.ratio par = 1 := by unfold KeySwitchingKey.ratio; rw [a4, a5]; exact Nat.div_self ha.pos
    rw [this, IntPoly.scale_eq, Nat.cast_one, map_one, one_mul]; exact a2
  · have : k1.ratio par = 1 := by unfold KeySwitchingKey.ratio; rw [b4, b5]; exact Nat.div_self ha.pos
    rw [this, IntPoly.scale_eq, Nat.cast_one, map_one, one_mul, mul_comm]; exact b2
  · intro k hk
    simp only [List.mem_cons, List.not_mem_nil, or_false] at hk
    rcases hk with rfl | rfl
    · exact ⟨a6, a7, a8, a9.trans (by have := ha.lt; omega)⟩
    · exact ⟨b6, b7, b8, b9.trans (by have := ha.lt; omega)⟩

end Fhe
