import Verif.Witness.More

/-! More theorems applied to the concrete scene and to other parameters. -/

namespace Fhe.Props
open Nega Poly ParamsBuilder Ciphertext
variable (S : Scene)

/-- Parameters with a plaintext modulus that is not 1 modulo 16. -/
def exPlain19 : ParamsBuilder := { exBuilder with plaintext := 19 }
/-- Parameters with a plaintext modulus of 66 bits. -/
def exLarge : ParamsBuilder := { degree := 8, plaintext := 2 ^ 65, variance := 1, moduli := [5767169, 7340033, 23068673] }

theorem exPlain19_par : ∃ par : Par, build luckyBuild exPlain19 = Res.ok par.toBfvParameters ∧ par.degree = 8 ∧ par.plaintext.value = 19 := by
  have hvalid : ValidParams exPlain19.degree exPlain19.variance exPlain19.plaintext exPlain19.moduli := by
    constructor
    · exact ⟨3, by norm_num, by norm_num, rfl⟩
    · decide
    · exact Or.inl (by decide)
    · decide
    · decide
    · simp only [exPlain19, exBuilder, List.mem_cons, List.not_mem_nil, or_false, forall_eq_or_imp, forall_eq]; norm_num
    · decide
    · decide
    · decide
  obtain ⟨par0, h⟩ : ∃ par, build luckyBuild exPlain19 = Res.ok par := by
    refine C31_complete luckyBuild_ok luckyBuild_lucky rfl hvalid (by decide) fun l hl => ?_
    by_contra hc
    push Not at hc
    exact enough_primes (n := 3) (by norm_num) (moduli := exPlain19.moduli) (by decide) (by decide) (l := l) (by omega) fun p h1 h2 => hc p h1 h2
  obtain ⟨-, e1, -, e3, -⟩ := C31_sound luckyBuild_ok h
  exact ⟨⟨par0, 0⟩, h, e1, e3⟩

theorem exLarge_par : ∃ par : Par, build luckyBuild exLarge = Res.ok par.toBfvParameters ∧ par.degree = 8 ∧ par.plaintext.value = 2 ^ 65 ∧ par.moduli = [5767169, 7340033, 23068673] := by
  have hvalid : ValidParams exLarge.degree exLarge.variance exLarge.plaintext exLarge.moduli := by
    constructor
    · exact ⟨3, by norm_num, by norm_num, rfl⟩
    · decide
    · exact Or.inr (by decide)
    · decide
    · decide
    · simp only [exLarge, List.mem_cons, List.not_mem_nil, or_false, forall_eq_or_imp, forall_eq]; norm_num
    · decide
    · decide
    · decide
  obtain ⟨par0, h⟩ : ∃ par, build luckyBuild exLarge = Res.ok par := by
    refine C31_complete luckyBuild_ok luckyBuild_lucky rfl hvalid (by decide) fun l hl => ?_
    by_contra hc
    push Not at hc
    exact enough_primes (n := 3) (by norm_num) (moduli := exLarge.moduli) (by decide) (by decide) (l := l) (by omega) fun p h1 h2 => hc p h1 h2
  obtain ⟨-, e1, -, e3, e2 | e2⟩ := C31_sound luckyBuild_ok h
  · exact ⟨⟨par0, 0⟩, h, e1, e3, e2.2⟩
  · exact absurd e2.1 (by decide)

example : ∃ par : Par, build luckyBuild exPlain19 = Res.ok par.toBfvParameters ∧ Plaintext.tryEncodeU64 [1, 2, 3] ⟨.simd, 0⟩ par false = Res.err .simdUnavailable := by
  obtain ⟨par, h, hd, ht⟩ := exPlain19_par
  have hop : par.nttOperator = none := by
    by_contra hc
    have := ((C34_available luckyBuild_ok h).1 hc).2
    rw [ht, hd] at this
    exact absurd this (by decide)
  exact ⟨par, h, (C34_unavailable hop 0 (v := [1, 2, 3]) (by rw [hd]; decide) false).1⟩

/-- Half of the modulus is encoded, and cannot be decoded as a signed number. -/
example : ∃ (par : Par) (pt : Plaintext), build luckyBuild exLarge = Res.ok par.toBfvParameters ∧ Plaintext.tryEncodeBigUint [5, 2 ^ 64 - 1] ⟨.poly, 0⟩ par = Res.ok pt ∧
    pt.decodeI64 (some ⟨.poly, 0⟩) = Res.panic := by
  obtain ⟨par, h, hd, ht, hm⟩ := exLarge_par
  have h0 : par.modulusAt 0 = 5767169 * 7340033 * 23068673 := by unfold BfvParameters.modulusAt; rw [hm]; rfl
  obtain ⟨m, -, e1, ⟨pt, e2, e3, e4, -⟩, -⟩ := C35_poly luckyBuild_ok h (level := 0) (by rw [hm]; decide) (by rw [h0, ht]; decide) (v := [5, 2 ^ 64 - 1]) (by rw [hd]; decide) (by rw [ht]; decide)
  refine ⟨par, pt, h, e2, C35_signed_panics luckyBuild_ok h (by rw [ht]; decide) e3 (Or.inr e4) ⟨2 ^ 64 - 1, ?_, by decide, by rw [ht]; decide⟩⟩
  rw [e1, hd]
  decide

/-- The slots of the decrypted ciphertext, before and after a rotation. -/
example : ∃ (r : Ciphertext) (pt pt' : Plaintext) (v : List Nat), S.gk.relinearize S.ct = Res.ok r ∧ S.sk.tryDecrypt luckyBuild S.ct = Res.ok pt ∧ S.sk.tryDecrypt luckyBuild r = Res.ok pt' ∧
    pt.decodeU64 (some ⟨.simd, 0⟩) = Res.ok v ∧ pt'.decodeU64 (some ⟨.simd, 0⟩) = Res.ok ((List.range S.par.degree).map fun i => v.getD (rotateColumns S.par.degree 1 i) 0) := by
  have hb := luckyBuild_ok
  have hop := (C34_available hb S.h).2 luckyBuild_lucky (by rw [S.ht]; norm_num) (by rw [S.ht]; norm_num) (by rw [S.ht, S.hd])
  obtain ⟨r, W, k1, -, k2, -, -, k4⟩ := C42_galois hb S.h S.gkFor S.enc S.parts
  have hl : S.par.moduli.length = 3 := by rw [S.hm]; rfl
  obtain ⟨k, q1, q2, -, q4⟩ := (C42_new hb S.h (by omega) S.hk exPrg_ok (List.replicate 32 3) (x := 3) (rngs := fun _ => exRng) (fun _ => exRng_ok) (i := 0) (j := 0) (by omega) (by omega)).1
    (by decide) (by decide) (by omega)
  rw [S.gkMade, Res.ok_inj] at q1
  subst q1
  have hB : S.gk.ksk.errorBound S.par 2 (2 * S.par.variance) = 6448 := by
    unfold KeySwitchingKey.errorBound KeySwitchingKey.ratio
    rw [q2.switches.level, q2.switches.keyLevel, q4 (by omega), S.hm, S.hd, S.hvar, S.h0]
    decide
  have k5 := (S.noise.subst (e := 3) rfl ⟨3, S.hd⟩).add ((k4 2 S.hs).C_mul (S.par.plaintext.value : Int))
  obtain ⟨pt, h1, h2, h3⟩ := C37_decrypt hb S.h S.hrel S.hk S.enc S.small
  obtain ⟨pt', h4, h5, h6⟩ := C37_decrypt hb S.h S.hrel S.hk k2 (small_of_bounded k5 (by rw [hB, S.ht, S.h0]; decide))
  obtain ⟨v, -, h7, h8, -⟩ := C42_slots hb S.h hop (lv := 0) (lv' := 0) h2 h5 (Or.inl h3) (Or.inl h6)
  exact ⟨r, pt, pt', v, k1, h1, h4, h7, h8 1 (by rw [S.hd]; rfl)⟩
/-- The evaluation key and the RGSW ciphertext of the scene, sent and received. -/
theorem Scene.receivedMore : (∃ k : EvaluationKey, k.Received luckyBuild exPrg S.par ∧ k.IsFor S.par S.s 0 0 (2 * S.par.variance)) ∧
    ∃ x : RgswCiphertext, x.Received exPrg S.par ∧ x.Encrypts S.par S.s 0 S.m' (2 * S.par.variance) := by
  have hsd : ∀ x, IsBytes (List.replicate 32 (x % 256)) := fun x y hy => by rw [(List.mem_replicate.1 hy).2]; exact Nat.mod_lt _ (by decide)
  obtain ⟨n, hw, -⟩ := build_inv luckyBuild_ok S.h
  have h0 : 0 < S.par.moduli.length := by rw [S.count]; decide
  constructor
  · obtain ⟨bd, e1, e2⟩ := EvaluationKeyBuilder.newLeveled_eq (sk := S.sk) hw S.hk.par_eq h0 le_rfl
    rw [S.ekNew, Res.ok_inj] at e1
    subst e1
    obtain ⟨bd', e3, e4⟩ := e2.requests hw S.hk.par_eq (rs' := sceneRequests)
    rw [S.ekReq, Option.some_inj] at e3
    subst e3
    obtain ⟨k0, e5, -, -, e8, -⟩ := EvaluationKeyBuilder.build_eq hw S.n64 S.hk exPrg_ok h0 le_rfl e4 (fun _ => List.replicate 32 3) (rngs := fun _ _ => exRng) fun _ _ => exRng_ok
    rw [S.ekMade, Res.ok_inj] at e5
    subst e5
    obtain ⟨bytes, k, -, k2, k3, -, -, -, -, -, -, -, k4⟩ := C62_evaluation luckyBuild_ok S.h S.n1024 S.ekWf
    have hk := k4 _ _ _ _ S.ekFor
    refine ⟨k, (C67_received luckyBuild_ok S.h exPrg_ok (k2 fun x hx seed hs => ?_)).2.1 k k3 (by rw [hk.level, S.count]; decide), hk⟩
    rw [(e8 x.1 x.2 (Fhe.lookup_of_mem S.ekWf.nodup hx)).1, Option.some_inj] at hs
    rw [← hs]
    exact hsd 3
  · obtain ⟨l, ha⟩ := AtLevel.ofLt hw h0
    obtain ⟨r, g1, -, g2⟩ := SecretKey.tryEncryptRgsw_eq hw ha S.hk exPrg_ok S.hpt' (List.replicate 32 3) (List.replicate 32 4) (rngs0 := fun _ => exRng) (rngs1 := fun _ => exRng)
      (fun _ => exRng_ok) fun _ => exRng_ok
    rw [S.rgMade, Res.ok_inj] at g1
    subst g1
    obtain ⟨bytes, x, -, k2, k3, -, -, -, k4⟩ := C62_rgsw luckyBuild_ok S.h S.n1024 S.rgWf
    have hk := k4 _ _ _ _ S.rgEnc
    refine ⟨x, (C67_received luckyBuild_ok S.h exPrg_ok (k2 fun seed hs => ?_)).2.2 x k3 (by rw [hk.fst.level, S.count]; decide), hk⟩
    rcases hs with hs | hs
    · rw [(g2 _ (List.mem_cons_self ..)).1, Option.some_inj] at hs
      rw [← hs]
      exact hsd 3
    · rw [(g2 _ (List.mem_cons_of_mem _ (List.mem_cons_self ..))).1, Option.some_inj] at hs
      rw [← hs]
      exact hsd 4

example : ∃ k : EvaluationKey, k.Received luckyBuild exPrg S.par ∧ k.rotatesRows S.ct ≠ Res.panic ∧ k.rotatesColumnsBy S.ct 3 ≠ Res.panic ∧ k.computesInnerSum S.ct ≠ Res.panic ∧
    k.expands S.ct 8 ≠ Res.panic := by
  obtain ⟨k, hk, -⟩ := S.receivedMore.1
  obtain ⟨h1, h2, h3, h4⟩ := C67_evaluate luckyBuild_ok S.h exPrg_ok hk S.use
  exact ⟨k, hk, h1.1, (h2 3).1, h3.1, (h4 8).1⟩
example : ∃ (x : RgswCiphertext) (r : Ciphertext), x.Received exPrg S.par ∧ S.ct.mulRgsw x = some r ∧ r.Usable S.par := by
  obtain ⟨x, hx, he⟩ := S.receivedMore.2
  obtain ⟨h1, h2⟩ := C67_rgsw luckyBuild_ok S.h exPrg_ok hx S.use
  obtain ⟨r, hr⟩ := Option.ne_none_iff_exists'.1 (fun hc => by
    rcases h1.1 hc with e | e
    · exact e (by rw [S.enc.level_eq, he.fst.level])
    · exact e S.parts)
  exact ⟨x, r, hx, hr, (h2 r hr).1⟩

/-! ## Messages that no key has -/

/-- A message with parts that are no polynomials. -/
def oddMsg : KeySwitchingKeyMsg := ⟨[[1, 2, 255], []], [[]], [1, 2], 5, 1, 40⟩
theorem oddMsg_ok : oddMsg.OK := ⟨by unfold IsBytes; decide, by decide⟩

example := C55_public_key_total luckyBuild_ok S.h exPrg_ok (m := some ⟨[[1, 2, 3], []], [7], 1⟩) (by rintro x ⟨⟩; unfold CiphertextMsg.OK IsBytes; decide)
example := C55_relin_total luckyBuild_ok S.h exPrg_ok (m := some oddMsg) (by rintro x ⟨⟩; exact oddMsg_ok)
example := C55_galois_total luckyBuild_ok S.h exPrg_ok (m := (3, some oddMsg)) (by rintro x ⟨⟩; exact oddMsg_ok)
example := C55_evaluation_total luckyBuild_ok S.h exPrg_ok (m := ⟨[(3, some oddMsg), (4, none)], 9, 2⟩) (by
  rintro x hx k hk
  simp only [List.mem_cons, List.not_mem_nil, or_false] at hx
  rcases hx with rfl | rfl
  · cases hk; exact oddMsg_ok
  · cases hk) (by decide)
example := C55_rgsw_total luckyBuild_ok S.h exPrg_ok (m := ⟨some oddMsg, none⟩) (by
  rintro k (hk | hk)
  · cases hk; exact oddMsg_ok
  · cases hk)

/-! ## Scalar products that are rejected, and the layers below -/

example : dotProductScalar [S.ct, S.ct'] [S.pt] = Res.err (.dotProductOperandCount 2 1) := by
  refine (C49_rejects luckyBuild_ok S.h [S.ct, S.ct'] [S.pt] ?_ ?_).2.1 (by simp) (by simp) (by simp)
  · intro ct hct
    simp only [List.mem_cons, List.not_mem_nil, or_false] at hct
    rcases hct with rfl | rfl
    · exact ⟨fun _ => S.enc.par_eq, S.validPolys⟩
    · exact ⟨fun _ => S.enc'.par_eq, fun p hp => (S.use'.valid p hp).1⟩
  · intro pt hpt
    rw [List.mem_singleton] at hpt
    subst hpt
    obtain ⟨n, hw, -⟩ := build_inv luckyBuild_ok S.h
    obtain ⟨l, hl, e⟩ := ParWF.contextAtLevel_iff.1 S.hpt.ctx
    refine ⟨fun _ => S.hpt.par_eq, S.hpt.valid, ?_⟩
    rw [← e, (AtLevel.ofGet hw hl).moduli, S.hpt.par_eq, List.length_take]
    exact Nat.min_le_right _ _

example : ∃ m op r, Modulus.new true 17 = some (.ok m) ∧ NttOperator.new true (fun _ => 3) m 8 = some (some op) ∧ op.backward [1, 2, 3, 4, 5, 6, 7, 16] = some r ∧ ∀ x ∈ r, x < 17 := by
  obtain ⟨m, op, hm, hop⟩ := witnessNtt true true
  obtain ⟨r, h1, -, h2⟩ := C15_backward_reduced hm (fun _ => by norm_num) hop (a := [1, 2, 3, 4, 5, 6, 7, 16]) rfl (by decide)
  exact ⟨m, op, r, hm, hop, h1, h2⟩

example : generatePrime 63 32 (2 ^ 63) = some none := C09_generate_prime_out_of_range (by decide)
example := (C56_inverse egcdContract_exists (a := 3) (p := 17) (by norm_num) (by norm_num)).1 (by norm_num)

/-- A polynomial switched to the last level. -/
example : ∃ (c t : Context) (p p' : Poly .powerBasis) (f' : t.Elem), Context.new exBuild [97, 193] 16 = some (.ok c) ∧ c.contextAtLevel 1 = some (.ok t) ∧ tryFromU64 [1000, 18720] c true = some (.ok p) ∧
    p.switchDownTo t = some (.ok p') ∧ Represents t p' f' := by
  obtain ⟨c, hc⟩ := exContext
  obtain ⟨p, hp, h, -⟩ := (C29_u64 exBuild_ok hc [1000, 18720] (by simp) (by simp) true).1 (by norm_num)
  obtain ⟨t, ht, -⟩ := (C22_level exBuild_ok hc 1).1 (by simp)
  obtain ⟨p', f', e1, e2, -⟩ := (C26_switch_down_to exBuild_ok hc h t).1 1 ht
  exact ⟨c, t, p, p', f', hc, ht, hp, e1, e2⟩
example : ∃ c t : Context, (Poly.zero .ntt c).addAssign (Poly.zero .ntt t) = none := by
  obtain ⟨c, hc⟩ := exContext
  obtain ⟨t, -, ht⟩ := (C22_level exBuild_ok hc 1).1 (by simp)
  refine ⟨c, t, (C23_context (p := Poly.zero .ntt c) (q := Poly.zero .ntt t) fun h => ?_).1⟩
  have h : c = t := h
  obtain ⟨e1, -, -⟩ := (C22_new exBuild_ok).2 c hc
  obtain ⟨e2, -, -⟩ := (C22_new exBuild_ok).2 t ht
  rw [h] at e1
  exact absurd (e1.symm.trans e2) (by decide)

end Fhe.Props
