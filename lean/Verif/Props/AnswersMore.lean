import Verif.Props.Answers
import Verif.Props.BfvEval
import Verif.Props.Mbfv
/-!
# C93: more operations that refuse exactly what they cannot do
-/
namespace Fhe.Props
open Nega Poly ParamsBuilder Ciphertext

variable {b : Build} {par : Par} {st : ParamsBuilder} {s : IntPoly par.degree} {sk : SecretKey} {i j e : Nat} {ct ct' : Ciphertext} {m : par.Msg}

/-- C93: a scalar product is refused if there is nothing to multiply, if there are not as many plaintexts as ciphertexts, or because of the first pair that has other
parameters, another level or another number of parts than the first ciphertext. -/
theorem C93_dot (hb : b.OK) (h : build b st = Res.ok par.toBfvParameters) {first : Ciphertext} {rest : List Ciphertext} {pts : List Plaintext} (level : Plaintext → Nat) (hfirst : first.Usable par)
    (hct : ∀ ct ∈ rest, ct.Usable par ∨ ct.par.ptrEq par = false) (hpt : ∀ pt ∈ pts, (∃ m, pt.Holds par (level pt) m) ∨ pt.par.ptrEq par = false) :
    (∀ pts, dotProductScalar [] pts = Res.err .dotProductEmptyInput) ∧
    Answers (dotProductScalar (first :: rest) pts) ((pts = [], .dotProductEmptyInput) :: (rest.length + 1 ≠ pts.length, .dotProductOperandCount (rest.length + 1) pts.length) ::
      ((first :: rest).zip pts).flatMap (pairReasons par first.level first.c.length level)) := by
  obtain ⟨n, hw, -⟩ := build_inv hb h
  refine ⟨fun pts => by simp [dotProductScalar], fun hp => ?_, fun hp => ⟨fun hl => ?_, fun hl => ?_⟩⟩
  · subst hp; simp [dotProductScalar]
  · unfold dotProductScalar
    rw [if_neg (by simp [hp]), if_pos (by simpa using hl)]
    rfl
  rw [not_not] at hl
  obtain ⟨l, ha⟩ := AtLevel.ofLt (par := par) hw hfirst.level
  have hpairs : ∀ x ∈ (first :: rest).zip pts, (x.1.Usable par ∨ x.1.par.ptrEq par = false) ∧ ((∃ m, x.2.Holds par (level x.2) m) ∨ x.2.par.ptrEq par = false) := fun x hx => by
    obtain ⟨h1, h2⟩ := List.of_mem_zip hx
    refine ⟨?_, hpt _ h2⟩
    rcases List.mem_cons.1 h1 with h1 | h1
    · exact .inl (h1 ▸ hfirst)
    · exact hct _ h1
  have hrun : ∀ e, dotValidate first l.ctx ((first :: rest).zip pts) = Res.err e → dotProductScalar (first :: rest) pts = Res.err e := fun e he => by
    unfold dotProductScalar
    rw [if_neg (by simp [hp]), if_neg (by simpa using hl)]
    simp only []
    rw [hfirst.par_eq, hfirst.validateFor hw, Res.ok_bind, ha.contextAt, Res.ok_bind, he, Res.err_bind]
  have hok : (∀ x ∈ (first :: rest).zip pts, x.1.Usable par ∧ x.1.level = first.level ∧ (∃ m, x.2.Holds par first.level m) ∧ x.1.c.length = first.c.length) →
      ∃ r, dotProductScalar (first :: rest) pts = Res.ok r := fun hg => by
    have hlen : (first :: rest).length = pts.length := by simpa using hl
    obtain ⟨r, r', e1, -⟩ := C49_naive hb h (cts := first :: rest) (pts := pts) (i := first.level) (L := first.c.length) (by simp) hlen hfirst.parts
      (fun ct hm => by
        rw [← List.map_fst_zip (l₁ := first :: rest) (l₂ := pts) (by omega)] at hm
        obtain ⟨x, hx, rfl⟩ := List.mem_map.1 hm
        obtain ⟨a1, a2, -, a4⟩ := hg x hx
        exact ⟨a1.par_eq, a2, a4, fun p hp => ⟨by rw [← a2]; exact (a1.valid p hp).2, (a1.valid p hp).1⟩⟩)
      fun pt hm => by
        rw [← List.map_snd_zip (l₁ := first :: rest) (l₂ := pts) (by omega)] at hm
        obtain ⟨x, hx, rfl⟩ := List.mem_map.1 hm
        obtain ⟨-, -, ⟨m, a3⟩, -⟩ := hg x hx
        exact ⟨a3.par_eq, a3.ctx, a3.valid⟩
    exact ⟨r, e1⟩
  generalize dotProductScalar (first :: rest) pts = r at hrun hok
  generalize (first :: rest).zip pts = xs at hpairs hrun hok
  induction xs with
  | nil => exact hok fun x hx => by simp at hx
  | cons x xs ih =>
    obtain ⟨ct, pt⟩ := x
    obtain ⟨g1, g2⟩ := hpairs _ (List.mem_cons_self ..)
    simp only at g1 g2
    rw [List.flatMap_cons]
    unfold dotValidate at hrun
    refine ⟨fun hf => hrun _ ?_, fun hf => ?_⟩
    · unfold Ciphertext.validateForContext
      rw [hfirst.par_eq, if_pos hf, Res.err_bind]
    have hu := g1.resolve_right hf
    have hv1 : ct.validateForContext first.par first.level l.ctx = if ct.level ≠ first.level then Res.err (.invalidLevel ct.level first.level first.level) else Res.ok () := by
      unfold Ciphertext.validateForContext Ciphertext.validateContext
      rw [hfirst.par_eq, if_neg hf, if_neg (by have := hu.parts; omega)]
      split
      · rfl
      · rename_i hl
        rw [if_neg]
        simp only [List.any_eq_true, decide_eq_true_eq, not_exists, not_and, not_not]
        intro p hp
        have := (hu.valid p hp).2
        rw [not_not] at hl
        rw [hl, ha.contextAt, Res.ok_inj] at this
        exact this.symm
    refine ⟨fun hlv => hrun _ (by rw [hv1, if_pos hlv, Res.err_bind]), fun hlv => ?_⟩
    rw [hv1, if_neg hlv, Res.ok_bind] at hrun
    refine ⟨fun hf' => hrun _ ?_, fun hf' => ?_⟩
    · unfold Plaintext.validateForContext
      rw [hfirst.par_eq, if_pos hf', Res.err_bind]
    obtain ⟨m, hm⟩ := g2.resolve_right hf'
    obtain ⟨l', hl', hc'⟩ := ParWF.contextAtLevel_iff.1 hm.ctx
    have ha' := AtLevel.ofGet hw hl'
    have hv2 : pt.validateForContext first.par first.level l.ctx = if level pt ≠ first.level then Res.err (.invalidLevel (level pt) first.level first.level) else Res.ok () := by
      unfold Plaintext.validateForContext Plaintext.validateContext
      rw [hfirst.par_eq, if_neg hf', Plaintext.Holds.level_eq hw ha' hm, Res.lift_some, Res.ok_bind]
      split
      · rfl
      · rename_i hl
        rw [not_not] at hl
        rw [if_neg]
        rw [not_not, ← hc']
        have := ha'
        rw [hl] at this
        rw [this.unique ha]
    refine ⟨fun hlv' => hrun _ (by rw [hv2, if_pos hlv', Res.err_bind]), fun hlv' => ?_⟩
    rw [hv2, if_neg hlv', Res.ok_bind] at hrun
    refine ⟨fun hL => hrun _ (by rw [if_pos hL]), fun hL => ?_⟩
    rw [if_neg hL] at hrun
    rw [not_not] at hlv hlv' hL
    refine ih (fun x hx => hpairs x (List.mem_cons_of_mem _ hx)) hrun fun hg => hok fun x hx => ?_
    rcases List.mem_cons.1 hx with rfl | hx
    · exact ⟨hu, hlv, ⟨m, hlv' ▸ hm⟩, hL⟩
    · exact hg x hx

/-! ## Keys -/

/-- The result of a switch with a key above the level of the ciphertexts cannot be brought to the level of these. -/
theorem switches_high {n : Nat} (hw : ParWF b n par.toBfvParameters) {k : KeySwitchingKey} {F : IntPoly par.degree} {E : List (IntPoly par.degree)} (h1 : k.Switches par s F E)
    (hlt : k.ciphertextLevel < k.kskLevel) :
    ∃ l, AtLevel b n par k.ciphertextLevel l ∧ ∀ (vt : Bool) (X : IntPoly par.degree), ∃ a : Poly .ntt × Poly .ntt, k.keySwitch (encI l.ctx .powerBasis vt X) = Res.ok a ∧
      ∀ x0 x1 : Poly .ntt, x0.ctx = l.ctx → switchPair a x0 x1 = Res.err (.math .contextNotReachable) := by
  obtain ⟨l, hl, hc⟩ := ParWF.contextAtLevel_iff.1 h1.ctx
  obtain ⟨l', hl', hc'⟩ := ParWF.contextAtLevel_iff.1 h1.ctxKsk
  have ha := AtLevel.ofGet hw hl
  have ha' := AtLevel.ofGet hw hl'
  refine ⟨l, ha, fun vt X => ?_⟩
  obtain ⟨D, A, B, H, v0, v1, e1, -, -, -, e5⟩ := KeySwitchingKey.keySwitch_eq hw h1 vt X
  rw [← hc] at e1
  refine ⟨_, e1, fun x0 x1 hx => ?_⟩
  unfold switchPair
  rw [if_pos (by rw [ctx_encI, hx, ← hc']; exact fun e => ha'.ctx_ne ha (by omega) e)]
  simp only [hx]
  rw [← hc', KeySwitchingKey.switchDownNtt_high hw ha' ha hlt, Res.err_bind]

/-- C93: a relinearization key is refused for levels there are not and for the last level as the level of the key, which has a single modulus.  It is
not refused for a key level above the ciphertext level: such a key is made, and every ciphertext it is for is then refused by `relinearizes`, with
an error that does not tell that the key is at fault. -/
theorem C93_relinearization_key (hb : b.OK) (h : build b st = Res.ok par.toBfvParameters) (h64 : par.moduli.length ≤ 64) (hsum : 2 * par.moduli.sum ≤ 2 ^ 65) (hk : sk.IsKey par s) {g : Prg} (hg : g.OK)
    (i j : Nat) (seed : Seed) {rngs : Nat → Nat → Nat} (hr : ∀ i, IsStream (rngs i)) :
    Answers (RelinearizationKey.newLeveled b g sk i j seed rngs) [(par.moduli.length ≤ j, .invalidLevel j 0 (par.moduli.length - 1)), (par.moduli.length ≤ i, .invalidLevel i 0 (par.moduli.length - 1)),
      (j + 1 = par.moduli.length, .keySwitchingNotSupported)] ∧
    ∀ k, RelinearizationKey.newLeveled b g sk i j seed rngs = Res.ok k → i < j → ∀ ct : Ciphertext, ct.Usable par → ct.level = i → ct.c.length = 3 →
      k.relinearizes ct = Res.err (.math .contextNotReachable) := by
  obtain ⟨n, hw, -⟩ := build_inv hb h
  have hnew : i < par.moduli.length → j + 1 < par.moduli.length → i < j → ∃ k E F, RelinearizationKey.newLeveled b g sk i j seed rngs = Res.ok k ∧ k.ksk.Switches par s F E ∧
      k.ksk.ciphertextLevel = i ∧ k.ksk.kskLevel = j := fun hi hj hij => by
    obtain ⟨l, ha⟩ := AtLevel.ofLt (par := par) hw hi
    obtain ⟨l', ha'⟩ := AtLevel.ofLt (par := par) (i := j) hw (by omega)
    have hlen := ha.length
    have hlen' := ha'.length
    have := ha.wf.neZero
    obtain ⟨F, S, e1, e2, e3⟩ := Scaler.scale_encI ha.wf ha'.wf ha.deg ha'.deg (by omega) (num := l'.ctx.modulus) (den := l.ctx.modulus) (NeZero.ne _)
      ((scalerRoom_le _ _ _ _).trans (by
        rw [ha.moduli]
        have := take_sum_le par.moduli (par.moduli.length - i)
        omega))
    obtain ⟨A, Z, E, -, -, -, -, -, hS⟩ := e3 (s * s)
    obtain ⟨k, E, f1, f2, -, f4, f5, -⟩ := KeySwitchingKey.new_eq hw hk hg ha ha' (by omega) false Z seed hr
    refine ⟨⟨k⟩, E, Z, ?_, f2, f4, f5⟩
    unfold RelinearizationKey.newLeveled
    rw [hk.par_eq, ha'.contextAt, Res.ok_bind, ha.contextAt, Res.ok_bind, if_neg (by omega), SecretKey.polyAt_encI hk ha.wf ha.deg, Res.ok_bind, mulAssign_encI ha.wf ha.deg, Res.lift_some, Res.ok_bind,
      nttToPowerBasis_encI ha.wf, Res.lift_some, Res.ok_bind]
    unfold switcherNew
    rw [e1]
    simp only [Option.bind_eq_bind, Option.bind_some]
    rw [e2, Res.math_ok, Res.ok_bind, hS _ _ (by simp), Res.math_ok, Res.ok_bind]
    rw [show (false && false) = false from rfl, f1, Res.ok_bind, Res.pure_eq]
  refine ⟨⟨fun hj => ?_, fun hj => ⟨fun hi => ?_, fun hi => ⟨fun h1 => ?_, fun h1 => ?_⟩⟩⟩, fun k hkk hij ct hct hl h3 => ?_⟩
  · unfold RelinearizationKey.newLeveled
    rw [hk.par_eq, (C31_levels hb h j).2.1 hj, Res.err_bind]
  · obtain ⟨l', ha'⟩ := AtLevel.ofLt (par := par) (i := j) hw (by omega)
    unfold RelinearizationKey.newLeveled
    rw [hk.par_eq, ha'.contextAt, Res.ok_bind, (C31_levels hb h i).2.1 hi, Res.err_bind]
  · exact (C41_new hb h h64 hk hg seed hr).2.1 (by omega) h1
  · rcases Nat.lt_or_ge i j with hij | hij
    · obtain ⟨k, E, F, e1, -⟩ := hnew (by omega) (by omega) hij
      exact ⟨k, e1⟩
    · obtain ⟨k, e1, -⟩ := (C41_new hb h h64 hk hg seed hr).1 (by omega) hij (by omega)
      exact ⟨k, e1⟩
  · have hlv := hct.level
    have hj : j + 1 < par.moduli.length := by
      by_contra hc
      by_cases hj : par.moduli.length ≤ j
      · unfold RelinearizationKey.newLeveled at hkk
        rw [hk.par_eq, (C31_levels hb h j).2.1 hj, Res.err_bind] at hkk
        exact Res.err_ne_ok hkk
      · rw [(C41_new hb h h64 hk hg seed hr).2.1 (by omega) (by omega)] at hkk
        exact Res.err_ne_ok hkk
    obtain ⟨k', E, F, e1, e2, e3, e4⟩ := hnew (by omega) hj hij
    obtain rfl : k' = k := Res.ok_inj.1 (e1.symm.trans hkk)
    obtain ⟨l, ha, hpair⟩ := switches_high hw e2 (by omega)
    obtain ⟨l', G, ha', hF⟩ := hct.parts_eq hw
    rw [hl] at ha'
    rw [e3] at ha
    obtain rfl := ha.unique ha'
    unfold RelinearizationKey.relinearizes
    rw [e2.par_eq, hct.validateFor hw, Res.ok_bind]
    generalize hcs : ct.c = cs at hF h3
    match cs, G, hF with
    | [_, _, _], [F0, F1, F2], .cons ⟨v0, h0⟩ (.cons ⟨v1, h1⟩ (.cons ⟨v2, h2⟩ .nil)) =>
      obtain ⟨a, g1, g3⟩ := hpair v2 F2
      simp only []
      rw [if_neg (by rw [e3]; simpa using hl), h2, nttToPowerBasis_encI ha.wf, Res.lift_some, Res.ok_bind, g1, Res.ok_bind, g3 _ _ (by rw [h0]; rfl), Res.err_bind]
    | [], _, _ => simp at h3
    | [_], _, _ => simp at h3
    | [_, _], _, _ => simp at h3
    | _ :: _ :: _ :: _ :: _, _, _ => simp at h3

/-- C93: the builder of evaluation keys refuses ciphertext levels there are not, key levels above the ciphertext level, expansions of more than all
coefficients, and rotations by no column or by as many as there are. -/
theorem C93_evaluation_key (hb : b.OK) (h : build b st = Res.ok par.toBfvParameters) (hk : sk.par = par) (i j : Nat) :
    Answers (EvaluationKeyBuilder.newLeveled b sk i j) [(par.moduli.length ≤ i, .invalidLevel i 0 (par.moduli.length - 1)), (i < j, .invalidLevel j 0 i)] ∧
    ∀ bd, EvaluationKeyBuilder.newLeveled b sk i j = Res.ok bd → ∀ (rs : List EvaluationRequest) (bd' : EvaluationKeyBuilder), bd.requests rs = some bd' →
      (∀ level, Answers (bd'.enableExpansion level) [(par.degree < 2 ^ level, .invalidLevel level 0 (Nat.log2 par.degree))]) ∧
      Answers bd'.enableInnerSum [] ∧ Answers bd'.enableRowRotation [] ∧
      ∀ t, Answers (bd'.enableColumnRotation t) [(t = 0 ∨ par.degree / 2 ≤ t, .invalidRotationStep t 1 (par.degree / 2 - 1))] := by
  obtain ⟨n, hw, -⟩ := build_inv hb h
  obtain ⟨-, c2, c3, c4⟩ := C50_new (i := i) (j := j) hb h hk
  refine ⟨⟨c3, fun hi => ⟨c4 (by omega), fun hj => c2 (by omega) (by omega)⟩⟩, fun bd hbd rs bd' hrs => ?_⟩
  have hi : i < par.moduli.length := by
    by_contra hc
    rw [c3 (by omega)] at hbd
    exact Res.err_ne_ok hbd
  have hij : j ≤ i := by
    by_contra hc
    rw [c4 hi (by omega)] at hbd
    exact Res.err_ne_ok hbd
  obtain ⟨bd₂, e1, e2⟩ := EvaluationKeyBuilder.newLeveled_eq (sk := sk) hw hk hi hij
  obtain rfl : bd₂ = bd := Res.ok_inj.1 (e1.symm.trans hbd)
  obtain ⟨bd₃, e3, e4⟩ := e2.requests hw hk (rs' := rs)
  obtain rfl : bd₃ = bd' := Option.some_inj.1 (e3.symm.trans hrs)
  have hN : par.degree ≠ 0 := by rw [hw.degree]; positivity
  refine ⟨fun level => ?_, ⟨_, rfl⟩, ⟨_, rfl⟩, fun t => ?_⟩
  · unfold EvaluationKeyBuilder.enableExpansion
    rw [e4.sk_eq, hk]
    simp only [gt_iff_lt]
    refine ⟨fun hl => if_pos ?_, fun hl => ⟨_, if_neg ?_⟩⟩
    · exact (Nat.log2_lt hN).2 hl
    · exact fun hc => hl ((Nat.log2_lt hN).1 hc)
  · unfold EvaluationKeyBuilder.enableColumnRotation
    rw [e4.lookup]
    have h8 : 2 ^ 3 ≤ par.degree := by rw [hw.degree]; exact Nat.pow_le_pow_right (by norm_num) hw.three_le
    refine ⟨fun ht => ?_, fun ht => ?_⟩
    · rw [if_neg (by omega), e4.sk_eq, hk, subU_eq (by omega), Res.lift_some, Res.ok_bind]
    · rw [if_pos (by omega)]
      exact ⟨_, rfl⟩

/-! ## Shares -/

/-- C93: the shares of the multiparty protocols refuse keys and ciphertexts of other parameters, numbers of random polynomials other than that of the
moduli, and parameters with a single modulus; the shares that go to another secret key and those of decryption also refuse ciphertexts without
exactly two parts. -/
theorem C93_shares (hb : b.OK) (h : build b st = Res.ok par.toBfvParameters) (hk : sk.IsKey par s) {sk' : SecretKey}
    (hk' : (∃ s', sk'.IsKey par s') ∨ sk'.par.toBfvParameters ≠ par.toBfvParameters) (hct : ct.Usable par ∨ ct.par.toBfvParameters ≠ par.toBfvParameters)
    {pk : PublicKey} (hpk : (pk.par = par ∧ pk.c.Usable par ∧ pk.c.level = 0 ∧ pk.c.c.length = 2) ∨ pk.par.toBfvParameters ≠ par.toBfvParameters) (crp : List CommonRandomPoly)
    {rng rngU rng0 rng1 : Nat → Nat} (hr : IsStream rng) (hU : IsStream rngU) (h0 : IsStream rng0) (h1 : IsStream rng1) :
    Answers (SecretKeySwitchShare.new sk sk' ct rng) [(sk'.par.toBfvParameters ≠ par.toBfvParameters, .parameterMismatch .inputSecretKey .outputSecretKey),
      (ct.par.toBfvParameters ≠ par.toBfvParameters, .parameterMismatch .outputSecretKey .ciphertext), (ct.c.length ≠ 2, .invalidPolynomialCount .multipartyKeySwitch ct.c.length 2)] ∧
    Answers (DecryptionShare.new sk ct rng) [(ct.par.toBfvParameters ≠ par.toBfvParameters, .parameterMismatch .outputSecretKey .ciphertext),
      (ct.c.length ≠ 2, .invalidPolynomialCount .multipartyKeySwitch ct.c.length 2)] ∧
    Answers (PublicKeySwitchShare.new sk pk ct rngU rng0 rng1) [(pk.par.toBfvParameters ≠ par.toBfvParameters, .parameterMismatch .secretKey .publicKey),
      (ct.par.toBfvParameters ≠ par.toBfvParameters, .parameterMismatch .publicKey .ciphertext)] ∧
    Answers (RelinKeyGenerator.new sk crp rng) [(par.moduli.length = 1, .keySwitchingNotSupported), (crp.length ≠ par.moduli.length, .invalidCrpCount crp.length par.moduli.length)] := by
  obtain ⟨n, hw, -⟩ := build_inv hb h
  have hsp := hk.par_eq
  obtain ⟨q1, q2, q3⟩ := C53_secret_rejects (sk := sk) (sk' := sk') (ct := ct) rng
  have hz : (⟨sk.par, List.replicate sk.par.degree 0⟩ : SecretKey).par = par := hk.par_eq
  obtain ⟨-, z2, z3⟩ := C53_secret_rejects (sk := sk) (sk' := ⟨sk.par, List.replicate sk.par.degree 0⟩) (ct := ct) rng
  obtain ⟨p1, p2⟩ := C53_public_rejects (sk := sk) (pk := pk) (ct := ct) rngU rng0 rng1
  obtain ⟨r1, r2⟩ := C52_rejects hb h hk.par_eq crp rng
  rw [hsp] at q1 q2 q3 p1 p2
  simp only [hsp] at z2 z3
  refine ⟨⟨fun hf => q1 (fun e => hf e.symm), fun hf => ?_⟩, ⟨fun hf => ?_, fun hf => ⟨fun h2 => ?_, fun h2 => ?_⟩⟩, ⟨fun hf => p1 (fun e => hf e.symm), fun hf => ?_⟩, ⟨r1, fun hl => ⟨r2 hl, fun hc => ?_⟩⟩⟩
  · obtain ⟨s', hs'⟩ := hk'.resolve_right hf
    rw [not_not] at hf
    refine ⟨fun hf' => q2 hf.symm (fun e => hf' (by rw [← e, hf])), fun hf' => ⟨fun h2 => ?_, fun h2 => ?_⟩⟩
    · rw [not_not] at hf'
      exact q3 hf.symm (by rw [hf, hf']) h2
    · have hu := hct.resolve_right hf'
      rw [not_not] at h2
      exact ((C67_share hb h hk hs' hu hr).2.2 h2).1
  · unfold DecryptionShare.new
    simp only [hsp]
    rw [z2 trivial (fun e => hf e.symm), Res.err_bind]
  · rw [not_not] at hf
    unfold DecryptionShare.new
    simp only [hsp]
    rw [z3 trivial hf.symm h2, Res.err_bind]
  · have hu := hct.resolve_right hf
    rw [not_not] at h2
    exact ((C67_share hb h hk hk hu hr).2.2 h2).2
  · obtain ⟨g1, g2, g3, g4⟩ := hpk.resolve_right hf
    rw [not_not] at hf
    refine ⟨fun hf' => p2 hf.symm (fun e => hf' (by rw [← e, hf])), fun hf' => ?_⟩
    have hu := hct.resolve_right hf'
    have hut : (ct.truncate 2).Usable par := ⟨hu.par_eq, hu.level, by have := hu.parts; simp only [truncate, List.length_take]; omega, fun p hp => hu.valid p (List.mem_of_mem_take hp)⟩
    obtain ⟨m, v, he⟩ := hut.encrypts hw (∑ _k : Fin 1, s)
    obtain ⟨l, F, ha, hF⟩ := g2.parts_eq hw
    rw [g3] at ha
    obtain ⟨v', hv'⟩ : ∃ v', pk.c.Encrypts par 0 0 0 v' := ⟨C (par.plaintext.value : Int) * Fhe.phase 0 F, Encrypts.intro (M := 0) ha g2.par_eq g3 g2.parts hF (by apply Nega.ext; intro t; simp [red]) (by ring)⟩
    obtain ⟨V, hV⟩ := IntPoly.exists_bound v'
    obtain ⟨share, r, e, e1, -⟩ := C53_public_key_switch hb h (K := 1) (by norm_num) (sk := fun _ => sk) (s := fun _ => s) (fun _ => hk) he
      (by have := hu.parts; simp only [truncate, List.length_take]; omega) g1 hv' g4 (S := 0) (fun t => by simp) (V' := max V par.plaintext.value)
      (fun t => (hV t).trans (by exact_mod_cast le_max_left _ _)) (by simp) (rngU := fun _ => rngU) (rng0 := fun _ => rng0) (rng1 := fun _ => rng1) (fun _ => hU) (fun _ => h0) (fun _ => h1)
    exact ⟨share 0, by rw [C53_public_ignores_rest]; exact e1 0⟩
  · obtain ⟨l, ha⟩ := AtLevel.ofLt (par := par) (i := 0) hw (List.length_pos_of_ne_nil hw.ne_nil)
    obtain ⟨u, -, hu⟩ := RelinKeyGenerator.new_eq hw ha hk hl (not_not.1 hc) hr
    exact ⟨_, hu⟩

/-! ## Plaintexts -/

/-- C93: encoding reduced values is refused if there are more than the degree, if the encoding is in slots and the parameters have none, or if there is no
such level. -/
theorem C93_encode (hb : b.OK) (h : build b st = Res.ok par.toBfvParameters) (encoding : Encoding) (hQ : encoding.level < par.moduli.length → par.plaintext.value ≤ par.modulusAt encoding.level) :
    (∀ v : List Nat, (∀ x ∈ v, x < par.plaintext.value) →
      Answers (Plaintext.tryEncodeBigUint v encoding par) [(par.degree < v.length, .tooManyValues v.length par.degree), (encoding.kind = .simd ∧ par.nttOperator = none, .simdUnavailable),
        (par.moduli.length ≤ encoding.level, .invalidLevel encoding.level 0 (par.moduli.length - 1))] ∧
      ((∀ x ∈ v, x < 2 ^ 64) → ∀ vt, Answers (Plaintext.tryEncodeU64 v encoding par vt) [(par.degree < v.length, .tooManyValues v.length par.degree),
        (encoding.kind = .simd ∧ par.nttOperator = none, .simdUnavailable), (par.moduli.length ≤ encoding.level, .invalidLevel encoding.level 0 (par.moduli.length - 1))] ∧
        Answers (PlaintextVec.tryEncodeU64 v encoding par vt) [(encoding.kind = .simd ∧ par.nttOperator = none, .simdUnavailable),
          (par.moduli.length ≤ encoding.level, .invalidLevel encoding.level 0 (par.moduli.length - 1))])) ∧
    ∀ v : List Int, (∀ x ∈ v, -(2 ^ 63) ≤ x ∧ x < 2 ^ 63) →
      Answers (Plaintext.tryEncodeI64 v encoding par) [(par.degree < v.length, .tooManyValues v.length par.degree), (encoding.kind = .simd ∧ par.nttOperator = none, .simdUnavailable),
        (par.moduli.length ≤ encoding.level, .invalidLevel encoding.level 0 (par.moduli.length - 1))] := by
  obtain ⟨n, hw, -⟩ := build_inv hb h
  have hwith1 : ∀ (v : List Nat) F, encoding.kind = .simd ∧ par.nttOperator = none → PlaintextVec.tryEncodeWith v encoding par F = Res.err .simdUnavailable := fun v F hs => by
    unfold PlaintextVec.tryEncodeWith
    rw [if_pos hs]
  have hwith2 : ∀ (v : List Nat) F, ¬ (encoding.kind = .simd ∧ par.nttOperator = none) → par.moduli.length ≤ encoding.level →
      PlaintextVec.tryEncodeWith v encoding par F = Res.err (.invalidLevel encoding.level 0 (par.moduli.length - 1)) := fun v F hs hl => by
    unfold PlaintextVec.tryEncodeWith
    rw [if_neg hs, (C31_levels hb h _).2.1 hl, Res.err_bind]
  have hbig : ∀ v : List Nat, (v.length ≤ par.degree → encoding.level < par.moduli.length → (encoding.kind = .simd → par.nttOperator ≠ none) → ∃ pt, Plaintext.tryEncodeBigUint v encoding par = Res.ok pt) →
      Answers (Plaintext.tryEncodeBigUint v encoding par) [(par.degree < v.length, .tooManyValues v.length par.degree), (encoding.kind = .simd ∧ par.nttOperator = none, .simdUnavailable),
        (par.moduli.length ≤ encoding.level, .invalidLevel encoding.level 0 (par.moduli.length - 1))] := fun v hok => by
    refine ⟨fun hv => ((C35_errors hb h).1 v encoding false hv).2, fun hv => ⟨fun hs => ?_, fun hs => ⟨fun hl => ?_, fun hl => ?_⟩⟩⟩
    · unfold Plaintext.tryEncodeBigUint PlaintextVec.tryEncodeBigUint
      rw [if_neg (by omega), hwith1 _ _ hs, Res.err_bind]
    · unfold Plaintext.tryEncodeBigUint PlaintextVec.tryEncodeBigUint
      rw [if_neg (by omega), hwith2 _ _ hs hl, Res.err_bind]
    · exact hok (by omega) (by omega) fun h1 h2 => hs ⟨h1, h2⟩
  have hsmall : ∀ (v : List Nat) (vt : Bool), (v.length ≤ par.degree → encoding.level < par.moduli.length → (encoding.kind = .simd → par.nttOperator ≠ none) → ∃ pt, Plaintext.tryEncodeU64 v encoding par vt = Res.ok pt) →
      Answers (Plaintext.tryEncodeU64 v encoding par vt) [(par.degree < v.length, .tooManyValues v.length par.degree), (encoding.kind = .simd ∧ par.nttOperator = none, .simdUnavailable),
        (par.moduli.length ≤ encoding.level, .invalidLevel encoding.level 0 (par.moduli.length - 1))] := fun v vt hok => by
    refine ⟨fun hv => ((C35_errors hb h).1 v encoding vt hv).1, fun hv => ⟨fun hs => ?_, fun hs => ⟨fun hl => ?_, fun hl => ?_⟩⟩⟩
    · unfold Plaintext.tryEncodeU64 PlaintextVec.tryEncodeU64
      rw [if_neg (by omega), hwith1 _ _ hs, Res.err_bind]
    · unfold Plaintext.tryEncodeU64 PlaintextVec.tryEncodeU64
      rw [if_neg (by omega), hwith2 _ _ hs hl, Res.err_bind]
    · exact hok (by omega) (by omega) fun h1 h2 => hs ⟨h1, h2⟩
  have ht := hw.t_pos
  have : NeZero par.plaintext.value := ⟨by omega⟩
  obtain ⟨ζ, hζ⟩ := PlaintextVec.exists_root hw
  refine ⟨fun v hlt => ⟨hbig v fun hv hlev hk => ?_, fun h64 vt => ⟨hsmall v vt fun hv hlev hk => ?_, hwith1 _ _, fun hs => ⟨hwith2 _ _ hs, fun hl => ?_⟩⟩⟩, fun v h64 => ?_⟩
  · obtain ⟨l, hl⟩ := hw.exists_level hlev
    have hQ' := hQ hlev
    rw [← hw.modulusAt_eq hl] at hQ'
    obtain ⟨m, e1, -⟩ := Plaintext.encodeBig_eq hw hζ hl hQ' hk hv hlt
    exact ⟨_, e1⟩
  · obtain ⟨l, hl⟩ := hw.exists_level hlev
    have hQ' := hQ hlev
    rw [← hw.modulusAt_eq hl] at hQ'
    obtain ⟨m, e1, -⟩ := Plaintext.encodeU64_eq hw hζ hl hQ' hk vt hv hlt h64
    exact ⟨_, e1⟩
  · obtain ⟨pts, e1, -⟩ := C54_vector hb h (encoding := encoding) (by omega) (hQ (by omega)) (fun h1 h2 => hs ⟨h1, h2⟩) hlt h64 vt
    exact ⟨pts, e1⟩
  · have hsig : ∀ hv : v.length ≤ par.degree, encoding.level < par.moduli.length → (encoding.kind = .simd → par.nttOperator ≠ none) → ∃ pt, Plaintext.tryEncodeI64 v encoding par = Res.ok pt :=
      fun hv hlev hk => by
        obtain ⟨pt, m, e1, -⟩ := C35_signed hb h hlev (hQ hlev) hk hv h64
        exact ⟨pt, e1⟩
    rcases hw.plaintext with ⟨md, g1, g2, g3⟩ | ⟨g2, g3⟩
    · obtain ⟨mw, mp, -⟩ := Modulus.WF_of_new g1
      have e : Plaintext.tryEncodeI64 v encoding par = Plaintext.tryEncodeU64 (v.map fun x => (x % (par.plaintext.value : Int)).toNat) encoding par false := by
        unfold Plaintext.tryEncodeI64
        rw [g3]
        simp only []
        rw [show md.reduceVecI64 v = some (v.map fun x => (x % (par.plaintext.value : Int)).toNat) from
          mapM_eq_some_map fun x hx => by rw [Modulus.reduceI64_eq mw (h64 x hx).1 (h64 x hx).2, mp], Res.lift_some, Res.ok_bind]
      have := hsmall (v.map fun x => (x % (par.plaintext.value : Int)).toNat) false fun hv hlev hk => by rw [← e]; exact hsig (by simpa using hv) hlev hk
      rwa [← e, List.length_map] at this
    · have e : Plaintext.tryEncodeI64 v encoding par = Plaintext.tryEncodeBigUint (v.map fun x => (x % (par.plaintext.value : Int)).toNat) encoding par := by
        unfold Plaintext.tryEncodeI64
        rw [g3]
      have := hbig (v.map fun x => (x % (par.plaintext.value : Int)).toNat) fun hv hlev hk => by rw [← e]; exact hsig (by simpa using hv) hlev hk
      rwa [← e, List.length_map] at this

/-- C93: decoding the coefficients or slots of a plaintext is refused if neither it nor the caller names an encoding, if they name different ones, if a
coefficient does not fit the words of the result, or if the parameters have no slots.  Words limit even the decoding of slots to large integers. -/
theorem C93_decode (hb : b.OK) (h : build b st = Res.ok par.toBfvParameters) {pt : Plaintext} (hm : pt.Holds par i m) (asked : Option Encoding) :
    (pt.encoding = none ∧ asked = none → pt.decodeU64 asked = Res.err .missingEncoding ∧ pt.decodeBigUint asked = Res.err .missingEncoding) ∧
    (∀ e e', pt.encoding = some e → asked = some e' → e' ≠ e → pt.decodeU64 asked = Res.err (.encodingMismatch e' e) ∧ pt.decodeBigUint asked = Res.err (.encodingMismatch e' e)) ∧
    ∀ e, (pt.encoding = some e ∧ (asked = none ∨ asked = some e)) ∨ (pt.encoding = none ∧ asked = some e) →
      Answers (pt.decodeU64 asked) [(∃ x ∈ msgCoeffs m, 2 ^ 64 ≤ x, .valueTooLargeForU64), (e.kind = .simd ∧ par.nttOperator = none, .simdUnavailable)] ∧
      Answers (pt.decodeBigUint asked) [(e.kind = .simd ∧ ∃ x ∈ msgCoeffs m, 2 ^ 64 ≤ x, .valueTooLargeForU64), (e.kind = .simd ∧ par.nttOperator = none, .simdUnavailable)] := by
  obtain ⟨n, hw, -⟩ := build_inv hb h
  have ht := hw.t_pos
  have : NeZero par.plaintext.value := ⟨by omega⟩
  obtain ⟨ζ, hζ⟩ := PlaintextVec.exists_root hw
  refine ⟨fun ⟨h1, h2⟩ => ?_, fun e e' h1 h2 hne => ?_, fun e he => ?_⟩
  · subst h2
    exact ⟨((C35_errors hb h).2.2.2 pt h1).1, ((C35_errors hb h).2.2.2 pt h1).2.1⟩
  · subst h2
    exact ⟨((C35_errors hb h).2.2.1 pt e e' h1 hne).1, ((C35_errors hb h).2.2.1 pt e e' h1 hne).2.1⟩
  have hres := Plaintext.resolveEncoding_ok he
  have hlarge : (∃ x ∈ msgCoeffs m, 2 ^ 64 ≤ x) → par.plaintext.small = none := fun ⟨x, hx, hx64⟩ => by
    rcases hw.plaintext with ⟨md, g1, g2, g3⟩ | ⟨g2, g3⟩
    · have := msgCoeffs_lt m x hx
      omega
    · exact g3
  have hno : (¬ ∃ x ∈ msgCoeffs m, 2 ^ 64 ≤ x) → ∀ x ∈ msgCoeffs m, x < 2 ^ 64 := fun hn x hx => by
    by_contra hc
    exact hn ⟨x, hx, by omega⟩
  have hsimd : par.nttOperator = none → ∀ values, pt.decodeSimdU64 values = Res.err .simdUnavailable := fun hop values => by
    unfold Plaintext.decodeSimdU64
    rw [hm.par_eq, hop]
  refine ⟨⟨fun hx => ?_, fun hx => ⟨fun hs => ?_, fun hs => ?_⟩⟩, ⟨fun hx => ?_, fun hx => ⟨fun hs => ?_, fun hs => ?_⟩⟩⟩
  · unfold Plaintext.decodeU64
    rw [hres, Res.ok_bind, hm.coefficients hw, Res.lift_some, Res.ok_bind, Plaintext.valuesU64_wrap_big (hlarge hx) hx, Res.err_bind]
  · unfold Plaintext.decodeU64
    rw [hres, Res.ok_bind, hm.coefficients hw, Res.lift_some, Res.ok_bind, Plaintext.valuesU64_wrap (hno hx), Res.ok_bind, hs.1]
    exact hsimd hs.2 _
  · exact ⟨_, Plaintext.decodeU64_eq hw hζ hm hres (fun h1 h2 => hs ⟨h1, h2⟩) (hno hx)⟩
  · unfold Plaintext.decodeBigUint
    rw [hres, Res.ok_bind, hm.coefficients hw, Res.lift_some, Res.ok_bind, Plaintext.values_wrap, hx.1]
    simp only []
    rw [Plaintext.mapM_toU64OrErr_big hx.2, Res.err_bind]
  · have hx' : ¬ ∃ x ∈ msgCoeffs m, 2 ^ 64 ≤ x := fun hc => hx ⟨hs.1, hc⟩
    unfold Plaintext.decodeBigUint
    rw [hres, Res.ok_bind, hm.coefficients hw, Res.lift_some, Res.ok_bind, Plaintext.values_wrap, hs.1]
    simp only []
    rw [Plaintext.mapM_toU64OrErr (hno hx'), Res.ok_bind]
    exact hsimd hs.2 _
  · exact ⟨_, Plaintext.decodeBig_eq hw hζ hm hres fun h1 h2 => hs ⟨h1, h2⟩⟩

/-- C93: a ciphertext is made from two or more polynomials of one level.  The level that is named when they are of different levels is 0, whatever the
level of the first of them. -/
theorem C93_new (hb : b.OK) (h : build b st = Res.ok par.toBfvParameters) (p : Poly .ntt) (ps : List (Poly .ntt)) :
    Ciphertext.new [] par = Res.err (.tooFewPolynomials 0 2) ∧
    Answers (Ciphertext.new (p :: ps) par) [(ps = [], .tooFewPolynomials 1 2), (∀ i, par.contextAtLevel i ≠ Res.ok p.ctx, .math .contextNotReachable),
      (∃ x ∈ ps, x.ctx ≠ p.ctx, .ciphertextContextMismatch 0)] := by
  have herr : ∀ c, (∃ i, par.levelOfContext c = Res.ok i) ∨ par.levelOfContext c = Res.err (.math .contextNotReachable) := fun c => by
    unfold BfvParameters.levelOfContext
    split
    · exact .inr rfl
    · split
      · exact .inr rfl
      · split
        · exact .inl ⟨_, rfl⟩
        · exact .inr rfl
  refine ⟨rfl, fun hp => by rw [hp]; rfl, fun hp => ?_⟩
  have hlen : ¬ (p :: ps).length < 2 := by
    have := List.length_pos_of_ne_nil hp
    simp only [List.length_cons]; omega
  unfold Ciphertext.new
  rw [if_neg hlen]
  simp only [List.head?_cons, Option.map_some, Res.lift_some, Res.ok_bind]
  refine ⟨fun hn => ?_, fun hn => ?_⟩
  · rcases herr p.ctx with ⟨i, hi⟩ | he
    · exact absurd ((C31_levels hb h i).2.2 _ hi) (hn i)
    · rw [he, Res.err_bind]
  · push Not at hn
    obtain ⟨i, hi⟩ := hn
    have hil : i < par.moduli.length := by
      by_contra hc
      rw [(C31_levels hb h i).2.1 (by omega)] at hi
      exact Res.err_ne_ok hi
    obtain ⟨c, e1, -, e2⟩ := (C31_levels hb h i).1 hil
    obtain rfl : c = p.ctx := Res.ok_inj.1 (e1.symm.trans hi)
    rw [e2, Res.ok_bind]
    refine ⟨fun ⟨x, hx, hne⟩ => if_pos ?_, fun hx => ⟨_, if_neg ?_⟩⟩
    · exact List.any_eq_true.2 ⟨x, List.mem_cons_of_mem _ hx, by simpa using hne⟩
    · intro hc
      obtain ⟨x, hx', hne⟩ := List.any_eq_true.1 hc
      rcases List.mem_cons.1 hx' with rfl | hx'
      · simp at hne
      · exact hx ⟨x, hx', by simpa using hne⟩

/-! ## An example -/

/-- Three moduli: a relinearization key of level 1 for ciphertexts of level 0 is made, and refuses the product that a key of level 0 relinearizes; a
scalar product names the first pair that does not go with the rest; a copy of the parameters is not the parameters. -/
example : ∃ (par : Par) (sk : SecretKey) (pt pt' : Plaintext) (ct ct' ct2 r x : Ciphertext) (k k' : RelinearizationKey), build luckyBuild exBuilder = Res.ok par.toBfvParameters ∧
    sk.tryEncrypt exPrg pt (List.replicate 32 7) exRng = Res.ok ct ∧ ct.mul ct' = some r ∧
    RelinearizationKey.newLeveled luckyBuild exPrg sk 0 1 (List.replicate 32 3) (fun _ => exRng) = Res.ok k ∧ k.relinearizes r = Res.err (.math .contextNotReachable) ∧
    RelinearizationKey.newLeveled luckyBuild exPrg sk 0 2 (List.replicate 32 3) (fun _ => exRng) = Res.err .keySwitchingNotSupported ∧
    RelinearizationKey.newLeveled luckyBuild exPrg sk 0 0 (List.replicate 32 3) (fun _ => exRng) = Res.ok k' ∧ k'.relinearizes r = Res.ok x ∧
    k'.relinearizes ct = Res.err (.invalidPolynomialCount .relinearization 2 3) ∧
    (∃ y, dotProductScalar [ct, ct'] [pt, pt'] = Res.ok y) ∧ dotProductScalar [ct, r] [pt, pt'] = Res.err (.dotProductPolynomialCount 3 2) ∧
    ct2 = { ct with par := { par with addr := par.addr + 1 } } ∧ dotProductScalar [ct, ct2, r] [pt, pt', pt'] = Res.err (.parameterMismatch .ciphertext .parameters) ∧
    k'.relinearizes ct2 = Res.err (.parameterMismatch .ciphertext .parameters) ∧ ct.switchToLevel 3 = Res.err (.invalidLevel 3 0 2) := by
  obtain ⟨par, sk, s, pt, pt', m, m', ct, ct', v, v', h, hd, ht, hm, hrel, hk, hs, e2, e2', em, em', f1, f1', f2, f2', f3, f3', f4, f4', f5, f6, h0, hvar⟩ := exCipher
  have hb := luckyBuild_ok
  obtain ⟨n, hw, -⟩ := build_inv hb h
  have h64 : par.moduli.length ≤ 64 := by rw [hm]; decide
  have h31 : par.moduli.length ≤ 31 := by rw [hm]; decide
  have hsum : 2 * par.moduli.sum ≤ 2 ^ 65 := by rw [hm]; decide
  have hL : par.moduli.length = 3 := by rw [hm]; rfl
  obtain ⟨r, v'', M, M', A, B, E, r1, r2, r3, -⟩ := C39_mul hb h h31 (by omega) f2 f2' (by rw [f4]; decide)
  rw [f4, f4'] at r3
  have hu := f2.usable hw
  have hu' := f2'.usable hw
  have hur := r2.usable hw
  have hl := f2.level_eq
  have hl' := f2'.level_eq
  have hlr := r2.level_eq
  have key := fun j => C93_relinearization_key hb h h64 hsum hk exPrg_ok 0 j (List.replicate 32 3) (rngs := fun _ => exRng) fun _ => exRng_ok
  obtain ⟨k, hk1⟩ := (((key 1).1.2 (by omega)).2 (by omega)).2 (by omega)
  obtain ⟨k', hk', hfor, -⟩ := (C41_new (i := 0) (j := 0) hb h h64 hk exPrg_ok (List.replicate 32 3) (rngs := fun _ => exRng) fun _ => exRng_ok).1 (by omega) (by omega) (by omega)
  have hrn := C93_relinearize hb h hfor (.inl hur)
  obtain ⟨x, hx⟩ := ((hrn.2 (by rw [hur.par_eq, ptrEq_self]; simp)).2 (by rw [r3]; simp)).2 (by rw [hlr]; simp)
  have hne : ({ par with addr := par.addr + 1 } : Par).ptrEq par = false := by simp [Par.ptrEq]
  have hpt : ∀ p ∈ [pt, pt'], (∃ m, p.Holds par 0 m) ∨ p.par.ptrEq par = false := fun p hp => by
    simp only [List.mem_cons, List.not_mem_nil, or_false] at hp
    rcases hp with rfl | rfl
    · exact .inl ⟨m, e2⟩
    · exact .inl ⟨m', e2'⟩
  have hpp : ∀ p ∈ [pt, pt'], ¬ p.par.ptrEq par = false := fun p hp => by
    simp only [List.mem_cons, List.not_mem_nil, or_false] at hp
    rcases hp with rfl | rfl
    · rw [e2.par_eq, ptrEq_self]; simp
    · rw [e2'.par_eq, ptrEq_self]; simp
  have hcp : ∀ c : Ciphertext, c.Usable par → ¬ c.par.ptrEq par = false := fun c hc => by rw [hc.par_eq, ptrEq_self]; simp
  have d1 := (C93_dot hb h (first := ct) (rest := [ct']) (pts := [pt, pt']) (fun _ => 0) hu (fun c hc => by rw [List.mem_singleton.1 hc]; exact .inl hu') hpt).2
  have d2 := (C93_dot hb h (first := ct) (rest := [r]) (pts := [pt, pt']) (fun _ => 0) hu (fun c hc => by rw [List.mem_singleton.1 hc]; exact .inl hur) hpt).2
  have d3 := (C93_dot hb h (first := ct) (rest := [{ ct with par := { par with addr := par.addr + 1 } }, r]) (pts := [pt, pt', pt']) (fun _ => 0) hu (fun c hc => by
    simp only [List.mem_cons, List.not_mem_nil, or_false] at hc
    rcases hc with rfl | rfl
    · exact .inr hne
    · exact .inl hur) (fun p hp => hpt p (by simpa using hp))).2
  have p1 := hpp pt (by simp)
  have p2 := hpp pt' (by simp)
  have c1 := hcp ct hu
  have c2 := hcp ct' hu'
  have c3 := hcp r hur
  simp only [pairReasons, List.zip_cons_cons, List.zip_nil_left, List.flatMap_cons, List.flatMap_nil, List.cons_append, List.nil_append, List.append_nil, List.length_cons, List.length_nil, f4, f4', r3, hl, hl',
    hlr, p1, p2, c1, c2, c3, hne, Answers] at d1 d2 d3
  refine ⟨par, sk, pt, pt', ct, ct', _, r, x, k, k', h, f1, r1, hk1, (key 1).2 k hk1 (by omega) r hur hlr r3, (((key 2).1.2 (by omega)).2 (by omega)).1 (by omega), hk', hx, ?_, ?_, ?_, rfl, ?_, ?_, ?_⟩
  · have := ((C93_relinearize hb h hfor (.inl hu)).2 c1).1 (by omega)
    rwa [f4] at this
  · simpa using d1
  · simpa using d2
  · simpa [hl] using d3
  · exact (C93_relinearize hb h hfor (.inr hne)).1 hne
  · have := ((C93_switch hb h hu).2 3).1 (by omega)
    rwa [hl, hL] at this

end Fhe.Props
