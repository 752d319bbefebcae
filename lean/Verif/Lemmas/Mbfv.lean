import Verif.Model.Mbfv
import Verif.Lemmas.BfvRelin
import Verif.Lemmas.BfvDot
/-!
# Lemmas on the multiparty protocols
-/
namespace Fhe
open Nega Poly Ciphertext

variable {b : Build} {n N i : Nat} {c : Context} {vt vt' : Bool} {par : Par} {l : ContextLevel} {α : Type}

/-! ## Sums -/

theorem foldlM_add (h : c.WF b n) (hN : c.degree = N) {f : α → Poly .ntt} {F : α → IntPoly N} (hf : ∀ a, f a = encI c .ntt vt (F a)) :
    ∀ (l : List α) (X : IntPoly N), l.foldlM (fun p a => p.addAssign (f a)) (encI c .ntt vt X) = some (encI c .ntt vt (X + (l.map F).sum))
  | [], X => by simp
  | a :: l, X => by
    rw [List.foldlM_cons, hf, addAssign_encI h hN (by simp), Bool.and_self, Option.bind_eq_bind, Option.bind_some, foldlM_add h hN hf l, List.map_cons, List.sum_cons, add_assoc]

theorem IntPoly.Bounded.sum {ι : Type} {F : ι → IntPoly N} {B : Nat} (hF : ∀ k, (F k).Bounded B) (t : Finset ι) : (∑ k ∈ t, F k).Bounded (t.card * B) := by
  classical
  induction t using Finset.induction_on with
  | empty => simpa using IntPoly.Bounded.zero
  | insert a t ha ih =>
    rw [Finset.sum_insert ha, Finset.card_insert_of_notMem ha]
    exact ((hF a).add ih).mono (le_of_eq (by ring))

theorem IntPoly.Bounded.sum_fin {K : Nat} {F : Fin K → IntPoly N} {B : Nat} (hF : ∀ k, (F k).Bounded B) : (∑ k, F k).Bounded (K * B) := by
  simpa using IntPoly.Bounded.sum hF Finset.univ

theorem Ciphertext.new_two (ha : AtLevel b n par i l) {p0 p1 : Poly .ntt} (h0 : p0.ctx = l.ctx) (h1 : p1.ctx = l.ctx) :
    Ciphertext.new [p0, p1] par = Res.ok { par, seed := none, c := [p0, p1], level := i } := by
  unfold Ciphertext.new
  rw [if_neg (by simp), List.head?_cons, Option.map_some, Res.lift_some, Res.ok_bind, h0, ha.levelOf, Res.ok_bind, if_neg (by simp [h0, h1])]

/-! ## Common random polynomials -/

theorem CommonRandomPoly.newLeveled_eq (ha : AtLevel b n par i l) {rows : List (List Nat)} (hr : SampleRows l.ctx rows) :
    ∃ crp, newLeveled par i rows = Res.ok crp ∧ crp.poly.ctx = l.ctx ∧ crp.poly.Valid ∧ crp.poly.coeffs = rows := by
  obtain ⟨f, e1, e2⟩ := random_enc ha.wf .ntt hr
  refine ⟨⟨enc l.ctx .ntt false f⟩, ?_, rfl, valid_enc ha.wf f, e2⟩
  unfold newLeveled
  rw [ha.contextAt, Res.ok_bind, e1, Res.lift_some, Res.ok_bind]; rfl

/-! ## Public keys -/

namespace PublicKeyShare
variable {s : IntPoly par.degree} {sk : SecretKey} {crp : CommonRandomPoly}

theorem new_eq (hw : ParWF b n par.toBfvParameters) (ha : AtLevel b n par 0 l) (hk : sk.IsKey par s) {A : IntPoly par.degree} (hA : crp.poly = encI l.ctx .ntt vt A) {rng : Nat → Nat} (hr : IsStream rng) :
    ∃ e : IntPoly par.degree, e.Bounded (2 * par.variance) ∧ new sk crp rng = Res.ok { par, crp, p0Share := encI l.ctx .ntt true (-A * s + e) } := by
  obtain ⟨e, he, hs⟩ := small_encI hw.variance.1 hw.variance.2 hr par.degree
  refine ⟨e, he, ?_⟩
  unfold new
  rw [hk.par_eq, ha.contextAt, Res.ok_bind, SecretKey.polyAt_encI hk ha.wf ha.deg, Res.ok_bind, (hs ha.wf ha.deg).2.1, Res.math_ok, Res.ok_bind, hA, neg_encI ha.wf ha.deg (by simp), Res.lift_some,
    Res.ok_bind, disallowVt_encI, mulAssign_encI ha.wf ha.deg, Res.lift_some, Res.ok_bind, addAssign_encI ha.wf ha.deg (by simp), Res.lift_some, Res.ok_bind]
  rfl

theorem aggregate_eq (ha : AtLevel b n par i l) (hc : crp.poly.ctx = l.ctx) {sh : α → PublicKeyShare} {F : α → IntPoly par.degree}
    (hs : ∀ a, sh a = { par, crp, p0Share := encI l.ctx .ntt true (F a) }) : ∀ {x : List α}, x ≠ [] →
    aggregate (x.map sh) = Res.ok { par, c := { par, seed := none, c := [encI l.ctx .ntt true (x.map F).sum, crp.poly], level := i } }
  | [], h => absurd rfl h
  | a :: x, _ => by
    rw [List.map_cons]
    unfold aggregate
    simp only []
    rw [hs a]
    simp only []
    rw [List.foldlM_map, foldlM_add ha.wf ha.deg (f := fun a => (sh a).p0Share) (F := F) (fun a => by rw [hs a]), Res.lift_some, Res.ok_bind, new_two ha rfl hc, Res.ok_bind, List.map_cons, List.sum_cons]
    rfl

end PublicKeyShare

/-! ## Switching to another shared key -/

namespace SecretKeySwitchShare
variable {s s' : IntPoly par.degree} {sk sk' : SecretKey} {ct : Ciphertext}

theorem new_eq (hw : ParWF b n par.toBfvParameters) (ha : AtLevel b n par i l) (hk : sk.IsKey par s) (hk' : sk'.IsKey par s') (hp : ct.par = par) {f0 f1 : IntPoly par.degree}
    (hc : ct.c = [encI l.ctx .ntt vt f0, encI l.ctx .ntt vt' f1]) {rng : Nat → Nat} (hr : IsStream rng) :
    ∃ e : IntPoly par.degree, e.Bounded (2 * par.variance) ∧ new sk sk' ct rng = Res.ok { par, ct, hShare := encI l.ctx .ntt false ((s - s') * f1 + e) } := by
  obtain ⟨e, he, hs⟩ := small_encI hw.variance.1 hw.variance.2 hr par.degree
  refine ⟨e, he, ?_⟩
  unfold new
  rw [hk.par_eq, hk'.par_eq, hp, if_neg (by simp), if_neg (by simp), if_neg (by rw [hc]; simp), hc, List.getElem?_cons_zero, Res.lift_some, Res.ok_bind, List.getElem?_cons_succ, List.getElem?_cons_zero,
    Res.lift_some, Res.ok_bind, ctx_encI, SecretKey.polyAt_encI hk ha.wf ha.deg, Res.ok_bind, SecretKey.polyAt_encI hk' ha.wf ha.deg, Res.ok_bind, (hs ha.wf ha.deg).2.1, Res.math_ok, Res.ok_bind,
    subAssign_encI ha.wf ha.deg (by simp), Res.lift_some, Res.ok_bind, disallowVt_encI, mulAssign_encI ha.wf ha.deg, Res.lift_some, Res.ok_bind, addAssign_encI ha.wf ha.deg (by simp), Res.lift_some, Res.ok_bind]
  rfl

theorem aggregate_eq (ha : AtLevel b n par i l) {f0 f1 : IntPoly par.degree} (hc : ct.c = [encI l.ctx .ntt vt f0, encI l.ctx .ntt vt' f1]) {sh : α → SecretKeySwitchShare} {F : α → IntPoly par.degree}
    (hs : ∀ a, sh a = { par, ct, hShare := encI l.ctx .ntt false (F a) }) : ∀ {x : List α}, x ≠ [] →
    aggregate (x.map sh) = Res.ok { par, seed := none, c := [encI l.ctx .ntt false (f0 + (x.map F).sum), encI l.ctx .ntt vt' f1], level := i }
  | [], h => absurd rfl h
  | a :: x, _ => by
    rw [List.map_cons]
    unfold aggregate
    simp only []
    rw [hs a]
    simp only []
    rw [List.foldlM_map, foldlM_add ha.wf ha.deg (f := fun a => (sh a).hShare) (F := F) (fun a => by rw [hs a]), Res.lift_some, Res.ok_bind, hc, List.getElem?_cons_zero, Res.lift_some, Res.ok_bind,
      addAssign_encI ha.wf ha.deg (by simp), Res.lift_some, Res.ok_bind, List.getElem?_cons_succ, List.getElem?_cons_zero, Res.lift_some, Res.ok_bind, new_two ha rfl rfl, Bool.and_false, List.map_cons, List.sum_cons]

end SecretKeySwitchShare

theorem Ciphertext.Encrypts.pair {s : IntPoly par.degree} {ct : Ciphertext} {m : par.Msg} {v : IntPoly par.degree} (hw : ParWF b n par.toBfvParameters) (h : ct.Encrypts par s i m v)
    (h2 : ct.c.length = 2) : ∃ (l : ContextLevel) (M f0 f1 : IntPoly par.degree) (vt vt' : Bool), AtLevel b n par i l ∧ ct.c = [encI l.ctx .ntt vt f0, encI l.ctx .ntt vt' f1] ∧
      red par.plaintext.value M = m ∧ C (par.plaintext.value : Int) * (f0 + s * f1) = C (par.modulusAt i : Int) * M + v := by
  obtain ⟨l, F, M, ha, hF, hM, hph⟩ := h.elim hw
  match hc : ct.c, h2, hF with
  | [p0, p1], _, hF =>
    obtain ⟨f0, F', hp0, hF', rfl⟩ := List.forall₂_cons_left_iff.1 hF
    obtain ⟨f1, F'', hp1, hF'', rfl⟩ := List.forall₂_cons_left_iff.1 hF'
    obtain rfl := List.forall₂_nil_left_iff.1 hF''
    obtain ⟨vt0, rfl⟩ := hp0
    obtain ⟨vt1, rfl⟩ := hp1
    rw [phase_two] at hph
    exact ⟨l, M, f0, f1, vt0, vt1, ha, rfl, hM, hph⟩

/-! ## Threshold decryption -/

theorem plaintextModulus_ge' (hw : ParWF b n par.toBfvParameters) (hcount : par.moduli.length ≤ 31) (hQ : 2 * par.plaintext.value ≤ par.modulusAt i) :
    2 * par.plaintext.value ≤ (par.moduli.take (ParamsBuilder.plaintextModuliCount par.plaintext.value par.moduliSizes)).prod := by
  have hpos : ∀ m ∈ par.moduli, 1 ≤ m := fun m hm => by have := (hw.moduli.range m hm).1; omega
  have hQ : 2 * par.plaintext.value ≤ par.moduli.prod := hQ.trans (prod_take_le hpos _)
  obtain ⟨k, h1, h2, h3⟩ := plaintextCount_spec (bitLen par.plaintext.value) par.moduliSizes 0 0
  have hlen : par.moduliSizes.length = par.moduli.length := by rw [hw.sizes, List.length_map]
  have hl0 := List.length_pos_of_ne_nil hw.ne_nil
  unfold ParamsBuilder.plaintextModuliCount
  rw [h2, hlen]
  rcases h3 with h3 | h3
  · rw [List.take_of_length_le (by omega)]; exact hQ
  · have hk : 1 ≤ k := by
      rcases Nat.eq_zero_or_pos k with rfl | h
      · simp at h3
      · exact h
    rw [show min (max (0 + k) 1) par.moduli.length = k by omega]
    have := prod_ge_pow (v := par.moduli.take k) fun m hm => ⟨hpos m (List.mem_of_mem_take hm), (hw.moduli.range m (List.mem_of_mem_take hm)).2⟩
    rw [List.length_take, show min k par.moduli.length = k by omega, List.map_take, ← hw.sizes] at this
    have ht := bitLen_le_iff.1 (le_refl (bitLen par.plaintext.value))
    have h4 : 2 ^ (bitLen par.plaintext.value + 60) ≤ (par.moduli.take k).prod * 2 ^ k := (Nat.pow_le_pow_right (by norm_num) (by omega)).trans this
    have h5 : 2 ^ k ≤ 2 ^ 59 := Nat.pow_le_pow_right (by norm_num) (by omega)
    have h6 : 2 ^ (bitLen par.plaintext.value + 60) ≤ (par.moduli.take k).prod * 2 ^ 59 := h4.trans (Nat.mul_le_mul_left _ h5)
    rw [show bitLen par.plaintext.value + 60 = bitLen par.plaintext.value + 1 + 59 by ring, pow_add _ _ 59] at h6
    have h7 := Nat.le_of_mul_le_mul_right h6 (by positivity)
    rw [pow_succ] at h7
    omega

/-- The end of threshold decryption: only the first part matters. -/
theorem DecryptionShare.aggregate_eq (hw : ParWF b n par.toBfvParameters) (hcount : par.moduli.length ≤ 31) (hsum : par.moduli.sum ≤ 2 ^ 65) (ha : AtLevel b n par i l)
    (hQ : 2 * par.plaintext.value ≤ par.modulusAt i) {shares : List DecryptionShare} {ct : Ciphertext} (hag : SecretKeySwitchShare.aggregate (shares.map DecryptionShare.sksShare) = Res.ok ct)
    (hp : ct.par = par) (hi : ct.level = i) {X : IntPoly par.degree} (h0 : ct.c[0]? = some (encI l.ctx .ntt vt X)) {M v : IntPoly par.degree} {m : par.Msg} (hM : red par.plaintext.value M = m)
    (hX : C (par.plaintext.value : Int) * X = C (par.modulusAt i : Int) * M + v) (hv : v.Small (par.modulusAt i)) :
    (∀ x ∈ msgCoeffs m, x < l.ctx.modulus) ∧
    DecryptionShare.aggregate shares = Res.ok { par, encoding := none, polyNtt := enc l.ctx .ntt false (ofNats l.ctx (msgCoeffs m)) } := by
  have ht := hw.t_pos
  have : NeZero par.plaintext.value := ⟨by omega⟩
  have := ha.wf.neZero
  have hlt : ∀ x ∈ msgCoeffs m, x < l.ctx.modulus := fun x hx => by have := msgCoeffs_lt m x hx; rw [ha.mod]; omega
  refine ⟨hlt, ?_⟩
  obtain ⟨pc, hpc, hlevs⟩ := hw.levels
  have hL := hlevs i l ha.get
  obtain ⟨SF, hSF, hS⟩ := hL.bridge.scaler
  rw [← hL.ctx] at hSF hS
  obtain ⟨p1, p2, p3⟩ := plaintextCtx_wf hw hpc
  have := p1.neZero
  obtain ⟨F', S', G, e1, e2, -, -, hz, hscale⟩ := Scaler.scale_enc ha.wf p1 (num := par.plaintext.value) (den := l.ctx.modulus)
    (by rw [ha.length]; omega) (NeZero.ne _) (ha.room hsum)
  rw [hSF] at e1
  obtain rfl : SF = F' := by simpa using e1
  rw [hS] at e2
  obtain rfl : l.cp.scaler = S' := by simpa using e2
  have hz' := hz (ofInt l.ctx X)
  choose z hz1 hz2 using hz'
  have hzz : ∀ j : Fin par.degree, (par.plaintext.value : Int) ∣ z j - M j ∧ -(par.plaintext.value : Int) < z j ∧ z j < par.plaintext.value := by
    intro j
    have h2 := congrFun hX j
    rw [Nega.add_apply, C_mul_apply, C_mul_apply, ← ha.mod] at h2
    have h3 := hv j
    rw [← ha.mod] at h3
    refine decrypt_round (NeZero.pos _) ht h2 h3 ?_
    have h1 := hz1 j
    rw [coeff_ofInt ha.deg, coeff_intCast] at h1
    have hval : (((X j : Int) : ZMod l.ctx.modulus)).val = (X j % (l.ctx.modulus : Int)).toNat := by
      have := ZMod.val_intCast (n := l.ctx.modulus) (X j)
      omega
    rwa [hval] at h1
  have hmc := coeffs_of_dvd ht (congrFun hM) hzz
  have h2P : 2 * par.plaintext.value ≤ pc.modulus := by rw [p1.modulus_eq, p2]; exact plaintextModulus_ge' hw hcount hQ
  unfold aggregate
  rw [hag, Res.ok_bind, h0, Res.lift_some, Res.ok_bind, disallowVt_encI, nttToPowerBasis_encI ha.wf, Res.lift_some, Res.ok_bind, hp, hi, ha.contextLevelAt, Res.ok_bind]
  unfold encI
  rw [hscale _ _ _ (by simp), Res.math_ok, Res.ok_bind, Plaintext.toBigUint_enc p1, Res.lift_some, Res.ok_bind]
  generalize G (ofInt l.ctx X) = g at *
  have hpre : prefixOf ((List.ofFn fun j : Fin pc.degree => (g j).val).map (· + par.plaintext.value)) par.degree =
      some ((List.ofFn fun j : Fin pc.degree => (g j).val).map (· + par.plaintext.value)) := by
    unfold prefixOf
    rw [check_eq (by simp [p3])]
    simp only [Option.bind_eq_bind, Option.bind_some, Option.pure_def, Option.some.injEq]
    rw [List.take_of_length_le (by simp [p3])]
  have hres : ((((List.ofFn fun j : Fin pc.degree => (g j).val).map (· + par.plaintext.value)).map (· % pc.modulus)).map (· % par.plaintext.value)) = msgCoeffs m := by
    rw [← hmc]
    apply List.ext_getElem
    · simp [p3, tab]
    · intro j h1 h2
      rw [length_tab] at h2
      simp only [List.getElem_map, List.getElem_ofFn, tab, List.getElem_range]
      have h4 := hz2 j (by rw [p3]; exact h2)
      rw [coeff_of_lt _ (by rw [p3]; exact h2)] at h4
      rw [h4, add_mod_int h2P (hzz ⟨j, h2⟩).2.1 (hzz ⟨j, h2⟩).2.2]
  simp only [hpre, Res.lift_some, Res.ok_bind]
  change (lift (check (pc.modulus ≠ 0)) >>= _) = _
  rw [check_eq (NeZero.ne _), Res.lift_some, Res.ok_bind]
  unfold PlaintextModulus.reduceVec
  rw [check_eq (Or.inl (by omega))]
  simp only [Option.bind_eq_bind, Option.bind_some, Option.pure_def]
  rw [Res.lift_some, Res.ok_bind]
  change (math (tryFromBigUint ((((List.ofFn fun j : Fin pc.degree => (g j).val).map (· + par.plaintext.value)).map (· % pc.modulus)).map (· % par.plaintext.value)) l.ctx false) >>= _) = _
  rw [hres, tryFromBigUint_eq ha.wf (by rw [length_msgCoeffs, ha.deg]), Res.math_ok, Res.ok_bind, intoNtt_enc ha.wf, Res.lift_some, Res.ok_bind]
  rfl

/-! ## Switching to a public key -/

theorem Ciphertext.switchUntil_eq (hw : ParWF b n par.toBfvParameters) {s : IntPoly par.degree} {m : par.Msg} {j : Nat} (hj : j < par.moduli.length) : ∀ (fuel : Nat) {i : Nat} {ct : Ciphertext} {v : IntPoly par.degree},
    ct.Encrypts par s i m v → i ≤ j → j - i ≤ fuel → ct.switchUntil j fuel = ct.switchLoop (j - i)
  | 0, i, ct, v, h, h1, h2 => by
    obtain rfl : i = j := by omega
    rw [switchUntil, h.level_eq, if_pos rfl, Nat.sub_self]; rfl
  | fuel + 1, i, ct, v, h, h1, h2 => by
    rw [switchUntil, h.level_eq]
    by_cases hij : i = j
    · subst hij
      rw [if_pos rfl, Nat.sub_self]; rfl
    · rw [if_neg hij]
      obtain ⟨r, v', q, D, g1, g2, -⟩ := switchDown_eq hw h (by omega)
      rw [g1, Res.ok_bind, switchUntil_eq hw hj fuel g2 (by omega) (by omega), show j - i = (j - (i + 1)) + 1 by omega, switchLoop, g1, Res.ok_bind]

namespace PublicKeySwitchShare
variable {s s' : IntPoly par.degree} {sk : SecretKey} {pk : PublicKey} {ct r : Ciphertext}

theorem new_eq (hw : ParWF b n par.toBfvParameters) (ha : AtLevel b n par i l) (hk : sk.IsKey par s) (hpk : pk.par = par) (hp : ct.par = par) (hi : ct.level = i)
    (hr : pk.c.switchUntil i pk.c.par.moduli.length = Res.ok r) {f0 f1 g0 g1 : IntPoly par.degree} {w w' : Bool} (hrc : r.c = [encI l.ctx .ntt w g0, encI l.ctx .ntt w' g1])
    (h0 : ct.c[0]? = some (encI l.ctx .ntt vt f0)) (h1 : ct.c[1]? = some (encI l.ctx .ntt vt' f1)) {rngU rng0 rng1 : Nat → Nat} (hU : IsStream rngU) (hr0 : IsStream rng0) (hr1 : IsStream rng1) :
    ∃ u e0 e1 : IntPoly par.degree, u.Bounded (2 * par.variance) ∧ e0.Bounded (2 * par.variance) ∧ e1.Bounded (2 * par.variance) ∧ new sk pk ct rngU rng0 rng1 =
      Res.ok { par, c0 := encI l.ctx .ntt vt f0, h0Share := encI l.ctx .ntt true (g0 * u + s * f1 + e0), h1Share := encI l.ctx .ntt true (g1 * u + e1) } := by
  obtain ⟨u, hub, hu⟩ := small_encI hw.variance.1 hw.variance.2 hU par.degree
  obtain ⟨e0, he0b, he0⟩ := small_encI hw.variance.1 hw.variance.2 hr0 par.degree
  obtain ⟨e1, he1b, he1⟩ := small_encI hw.variance.1 hw.variance.2 hr1 par.degree
  refine ⟨u, e0, e1, hub, he0b, he1b, ?_⟩
  unfold new
  rw [hk.par_eq, hpk, hp, if_neg (by simp), if_neg (by simp), hi, hr, Res.ok_bind, ha.contextAt, Res.ok_bind, SecretKey.polyAt_encI hk ha.wf ha.deg, Res.ok_bind]
  simp only []
  rw [(hu ha.wf ha.deg).2.1, Res.math_ok, Res.ok_bind, (he0 ha.wf ha.deg).2.1, Res.math_ok, Res.ok_bind, (he1 ha.wf ha.deg).2.1, Res.math_ok, Res.ok_bind,
    hrc, List.getElem?_cons_zero, Res.lift_some, Res.ok_bind, disallowVt_encI, mulAssign_encI ha.wf ha.deg, Res.lift_some, Res.ok_bind, h1, Res.lift_some, Res.ok_bind, disallowVt_encI,
    mulAssign_encI ha.wf ha.deg, Res.lift_some, Res.ok_bind, addAssign_encI ha.wf ha.deg (by simp), Res.lift_some, Res.ok_bind, addAssign_encI ha.wf ha.deg (by simp), Res.lift_some, Res.ok_bind,
    List.getElem?_cons_succ, List.getElem?_cons_zero, Res.lift_some, Res.ok_bind, disallowVt_encI, mulAssign_encI ha.wf ha.deg, Res.lift_some, Res.ok_bind,
    addAssign_encI ha.wf ha.deg (by simp), Res.lift_some, Res.ok_bind, h0, Res.lift_some, Res.ok_bind]
  rfl

theorem fold_eq (h : c.WF b n) (hN : c.degree = N) {f g : α → Poly .ntt} {F G : α → IntPoly N} (hf : ∀ a, f a = encI c .ntt vt (F a)) (hg : ∀ a, g a = encI c .ntt vt (G a)) :
    ∀ (l : List α) (X Y : IntPoly N), l.foldlM (fun (h : Poly .ntt × Poly .ntt) a => do return (← h.1.addAssign (f a), ← h.2.addAssign (g a))) (encI c .ntt vt X, encI c .ntt vt Y) =
      some (encI c .ntt vt (X + (l.map F).sum), encI c .ntt vt (Y + (l.map G).sum))
  | [], X, Y => by simp
  | a :: l, X, Y => by
    rw [List.foldlM_cons, hf, hg, addAssign_encI h hN (by simp), addAssign_encI h hN (by simp), Bool.and_self]
    simp only [Option.bind_eq_bind, Option.bind_some]
    refine (fold_eq h hN hf hg l _ _).trans ?_
    rw [List.map_cons, List.sum_cons, List.map_cons, List.sum_cons, add_assoc, add_assoc]

theorem aggregate_eq (ha : AtLevel b n par i l) {f0 : IntPoly par.degree} {sh : α → PublicKeySwitchShare} {F G : α → IntPoly par.degree}
    (hs : ∀ a, sh a = { par, c0 := encI l.ctx .ntt vt f0, h0Share := encI l.ctx .ntt true (F a), h1Share := encI l.ctx .ntt true (G a) }) : ∀ {x : List α}, x ≠ [] →
    aggregate (x.map sh) = Res.ok { par, seed := none, c := [encI l.ctx .ntt vt (f0 + (x.map F).sum), encI l.ctx .ntt true (x.map G).sum], level := i }
  | [], h => absurd rfl h
  | a :: x, _ => by
    rw [List.map_cons]
    unfold aggregate
    simp only []
    rw [hs a]
    simp only []
    rw [List.foldlM_map, fold_eq ha.wf ha.deg (f := fun a => (sh a).h0Share) (g := fun a => (sh a).h1Share) (F := F) (G := G) (fun a => by rw [hs a]) (fun a => by rw [hs a]), Res.lift_some, Res.ok_bind,
      addAssign_encI ha.wf ha.deg (by simp), Res.lift_some, Res.ok_bind, new_two ha rfl rfl, Bool.and_true, List.map_cons, List.sum_cons, List.map_cons, List.sum_cons]

end PublicKeySwitchShare

end Fhe
