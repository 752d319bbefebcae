import Verif.Props.BfvKeys
import Verif.Lemmas.MbfvRelin
/-!
# Properties C51, C52 and C53: multiparty protocols

The parties are numbered by `Fin K`; party `k` has the secret key `sk k`, with polynomial `s k`.  The joint secret is the sum of the `s k`; no
object holds it.  That an aggregation does not depend on the order in which the shares arrive is stated with a permutation `σ` of the parties.
-/
namespace Fhe.Props
open Nega Poly ParamsBuilder Ciphertext

variable {b : Build} {par : Par} {st : ParamsBuilder} {i K : Nat} {sk : Fin K → SecretKey} {s : Fin K → IntPoly par.degree} {ct : Ciphertext} {m : par.Msg} {v : IntPoly par.degree}

theorem ofFn_ne_nil {α : Type} (hK : 0 < K) (f : Fin K → α) : List.ofFn f ≠ [] := by
  intro h
  have := congrArg List.length h
  simp at this; omega

theorem sum_ofFn_perm (σ : Equiv.Perm (Fin K)) {N : Nat} (f : Fin K → IntPoly N) : ((List.ofFn σ).map f).sum = ∑ k, f k := by
  rw [List.map_ofFn, List.sum_ofFn]
  exact Equiv.sum_comp σ f

/-! ## C51: public keys -/

/-- C51: a common random polynomial can be drawn at every level, from all vectors that the sampler may return, and holds these. -/
theorem C51_crp (hb : b.OK) (h : build b st = Res.ok par.toBfvParameters) {ctx : Context} (hctx : par.contextAtLevel i = Res.ok ctx) {rows : List (List Nat)} (hl : rows.length = ctx.moduli.length)
    (hr : ∀ (j q : Nat) (row : List Nat), ctx.moduli[j]? = some q → rows[j]? = some row → row.length = ctx.degree ∧ ∀ x ∈ row, x < q) :
    ∃ crp, CommonRandomPoly.newLeveled par i rows = Res.ok crp ∧ crp.poly.ctx = ctx ∧ crp.poly.Valid ∧ crp.poly.coeffs = rows := by
  obtain ⟨n, hw, -⟩ := build_inv hb h
  obtain ⟨l, hl', rfl⟩ := ParWF.contextAtLevel_iff.1 hctx
  refine CommonRandomPoly.newLeveled_eq (AtLevel.ofGet hw hl') ⟨hl, fun row hrow => ?_, fun j q row h1 h2 => (hr j q row h1 h2).2⟩
  obtain ⟨j, hj, rfl⟩ := List.getElem_of_mem hrow
  exact (hr j _ _ (List.getElem?_eq_getElem (by omega)) (List.getElem?_eq_getElem hj)).1

/-- C51: the parties can all make their shares, and these, in any order, aggregate to the same public key.  It encrypts zero at level zero under the
joint secret, with the common random polynomial as second part, and noise of at most `K` times that of a single key. -/
theorem C51_public_key (hb : b.OK) (h : build b st = Res.ok par.toBfvParameters) (hK : 0 < K) (hk : ∀ k, (sk k).IsKey par (s k)) {crp : CommonRandomPoly}
    (hctx : par.contextAtLevel 0 = Res.ok crp.poly.ctx) (hv : crp.poly.Valid) {rng : Fin K → Nat → Nat} (hr : ∀ k, IsStream (rng k)) :
    ∃ (share : Fin K → PublicKeyShare) (pk : PublicKey) (e : IntPoly par.degree), (∀ k, PublicKeyShare.new (sk k) crp (rng k) = Res.ok (share k)) ∧
      (∀ σ : Equiv.Perm (Fin K), PublicKeyShare.aggregate (List.ofFn fun k => share (σ k)) = Res.ok pk) ∧
      pk.par = par ∧ pk.c.Encrypts par (∑ k, s k) 0 0 (C (par.plaintext.value : Int) * e) ∧ e.Bounded (K * (2 * par.variance)) ∧ pk.c.c.length = 2 ∧ pk.c.c[1]? = some crp.poly ∧ pk.c.seed = none := by
  obtain ⟨n, hw, -⟩ := build_inv hb h
  obtain ⟨l, hl, hc⟩ := ParWF.contextAtLevel_iff.1 hctx
  have ha := AtLevel.ofGet hw hl
  obtain ⟨A, hA, -⟩ := exists_encI ha.wf ha.deg hc.symm hv
  choose e he hs using fun k => PublicKeyShare.new_eq hw ha (hk k) hA (hr k)
  have hagg : ∀ σ : Equiv.Perm (Fin K), _ := fun σ => PublicKeyShare.aggregate_eq ha hc.symm (fun _ => rfl) (F := fun k => -A * s k + e k) (ofFn_ne_nil hK σ)
  simp only [sum_ofFn_perm] at hagg
  simp only [List.map_ofFn, Function.comp_def] at hagg
  refine ⟨_, _, ∑ k, e k, hs, hagg, rfl, Encrypts.intro ha rfl rfl (le_of_eq rfl) (.cons ⟨_, rfl⟩ (.cons ⟨crp.poly.vt, hA⟩ .nil)) (M := 0) (map_zero _) ?_, IntPoly.Bounded.sum_fin he, rfl, rfl, rfl⟩
  rw [phase_two, MulZeroClass.mul_zero, _root_.zero_add, Finset.sum_add_distrib, ← Finset.mul_sum]
  ring

/-- C51, a limitation: a common random polynomial of another level is not refused but makes the share panic, with debug assertions (without them
see `C83_public_key`). -/
theorem C51_other_level (hb : b.OK) (h : build b st = Res.ok par.toBfvParameters) {sk : SecretKey} {s : IntPoly par.degree} (hk : sk.IsKey par s) {crp : CommonRandomPoly} (hi : i ≠ 0)
    (hctx : par.contextAtLevel i = Res.ok crp.poly.ctx) {rng : Nat → Nat} (hr : IsStream rng) : PublicKeyShare.new sk crp rng = Res.panic := by
  obtain ⟨n, hw, -⟩ := build_inv hb h
  obtain ⟨l, hl, hc⟩ := ParWF.contextAtLevel_iff.1 hctx
  have ha := AtLevel.ofGet hw hl
  have hlt := ha.lt
  obtain ⟨l0, ha0⟩ := AtLevel.ofLt (par := par) hw (i := 0) (by omega)
  obtain ⟨e, -, he⟩ := small_encI hw.variance.1 hw.variance.2 hr par.degree
  have hne : crp.poly.ctx ≠ l0.ctx := fun heq => by
    have h1 := ha.length
    have h2 := ha0.length
    rw [hc, heq] at h1
    omega
  unfold PublicKeyShare.new
  rw [hk.par_eq, ha0.contextAt, Res.ok_bind, SecretKey.polyAt_encI hk ha0.wf ha0.deg, Res.ok_bind, (he ha0.wf ha0.deg).2.1, Res.math_ok, Res.ok_bind]
  rcases hn : crp.poly.neg with _ | p0
  · rfl
  · have hp : p0.ctx = crp.poly.ctx := by
      unfold Poly.neg at hn
      simp only [Option.bind_eq_bind, Option.bind_eq_some_iff, Option.pure_def, Option.some.injEq] at hn
      obtain ⟨-, -, rows, -, rfl⟩ := hn
      rfl
    have hm : p0.disallowVt.mulAssign (encI l0.ctx .ntt false s) = none := by
      rcases hx : p0.disallowVt.mulAssign (encI l0.ctx .ntt false s) with _ | x
      · rfl
      · unfold Poly.mulAssign at hx
        simp only [Option.bind_eq_bind, Option.bind_eq_some_iff] at hx
        obtain ⟨_, -, _, -, _, hx, -⟩ := hx
        unfold check at hx
        split at hx
        · next heq => exact absurd (hp.symm.trans heq) hne
        · exact absurd hx (by simp)
    rw [Res.lift_some, Res.ok_bind, hm]
    rfl

/-- C51: no shares are an error. -/
theorem C51_no_shares : PublicKeyShare.aggregate [] = Res.err .noShares ∧ PublicKeySwitchShare.aggregate [] = Res.err .noShares ∧ SecretKeySwitchShare.aggregate [] = Res.err .noShares ∧
    DecryptionShare.aggregate [] = Res.err .noShares ∧ RelinKeyShare.aggregate [] = Res.err .noShares ∧ RelinKeyShare2.aggregate [] = Res.err .noShares := ⟨rfl, rfl, rfl, rfl, rfl, rfl⟩

/-- C51: if the shares come as results, one of which is an error, the first error is returned; otherwise they are aggregated. -/
theorem C51_results {S A : Type} (f : List S → Res A) (l : List S) : aggregateResults f (l.map .ok) = f l ∧
    ∀ (e : FheError) (rest : List (Except FheError S)), aggregateResults f (l.map .ok ++ .error e :: rest) = Res.err e := by
  have h1 : ∀ l : List S, (l.map (Except.ok (ε := FheError))).mapM id = .ok l := by
    intro l
    induction l with
    | nil => rfl
    | cons a l ih => rw [List.map_cons, List.mapM_cons, ih]; rfl
  refine ⟨by unfold aggregateResults; rw [h1], fun e rest => ?_⟩
  have h2 : ∀ l : List S, (l.map (Except.ok (ε := FheError)) ++ .error e :: rest).mapM id = .error e := by
    intro l
    induction l with
    | nil => rw [List.map_nil, List.nil_append, List.mapM_cons]; rfl
    | cons a l ih => rw [List.map_cons, List.cons_append, List.mapM_cons, ih]; rfl
  unfold aggregateResults
  rw [h2]

/-- C51, a limitation: the aggregation only looks at the common random polynomial and the parameters of the first share. -/
theorem C51_first_crp (sh : PublicKeyShare) (shares : List PublicKeyShare) (f : PublicKeyShare → CommonRandomPoly × Par) :
    PublicKeyShare.aggregate (sh :: shares) = PublicKeyShare.aggregate (sh :: shares.map fun x => { x with crp := (f x).1, par := (f x).2 }) := by
  unfold PublicKeyShare.aggregate
  simp only [List.foldlM_map]

/-! ## C52: relinearization keys -/

/-- C52: with more than one modulus and one common random polynomial for each, both rounds succeed, the aggregations give the same result in any
order, and the result is a relinearization key for the joint secret at level zero.  With `B` twice the variance and the secrets bounded by `S`, its
errors are at most `N (K B) (K S) + N (K B) (K B) + 2 K B`. -/
theorem C52_relinearization_key (hb : b.OK) (h : build b st = Res.ok par.toBfvParameters) (hK : 0 < K) (hk : ∀ k, (sk k).IsKey par (s k)) {S : Nat} (hS : ∀ k, (s k).Bounded S)
    (hlen : 1 < par.moduli.length) {crp : List CommonRandomPoly} (hcrp : crp.length = par.moduli.length) (hv : ∀ x ∈ crp, x.poly.Valid ∧ par.contextAtLevel 0 = Res.ok x.poly.ctx)
    {rngU : Fin K → Nat → Nat} (hU : ∀ k, IsStream (rngU k)) {rng0 rng1 rng2 rng3 : Fin K → Nat → Nat → Nat} (h0 : ∀ k j, IsStream (rng0 k j)) (h1 : ∀ k j, IsStream (rng1 k j))
    (h2 : ∀ k j, IsStream (rng2 k j)) (h3 : ∀ k j, IsStream (rng3 k j)) :
    ∃ (gen : Fin K → RelinKeyGenerator) (r1 : Fin K → RelinKeyShare) (R1 : RelinKeyShare) (r2 : Fin K → RelinKeyShare2) (rk : RelinearizationKey),
      (∀ k, RelinKeyGenerator.new (sk k) crp (rngU k) = Res.ok (gen k)) ∧ (∀ k, (gen k).round1 b (rng0 k) (rng1 k) = Res.ok (r1 k)) ∧
      (∀ σ : Equiv.Perm (Fin K), RelinKeyShare.aggregate (List.ofFn fun k => r1 (σ k)) = Res.ok R1) ∧ (∀ k, (gen k).round2 R1 (rng2 k) (rng3 k) = Res.ok (r2 k)) ∧
      (∀ σ : Equiv.Perm (Fin K), RelinKeyShare2.aggregate (List.ofFn fun k => r2 (σ k)) = Res.ok rk) ∧
      rk.IsFor par (∑ k, s k) 0 0 (par.degree * (K * (2 * par.variance)) * (K * S) + par.degree * (K * (2 * par.variance)) * (K * (2 * par.variance)) + 2 * (K * (2 * par.variance))) ∧
      rk.ksk.digitSum = par.moduli.sum := by
  obtain ⟨n, hw, -⟩ := build_inv hb h
  obtain ⟨l, ha⟩ := AtLevel.ofLt (par := par) hw (i := 0) (by omega)
  -- the common random polynomials
  have hex : ∀ j : Nat, ∃ A : IntPoly par.degree, ∃ w : Bool, ∀ x : CommonRandomPoly, crp[j]? = some x → x.poly = encI l.ctx .ntt w A := by
    intro j
    rcases hx : crp[j]? with _ | x
    · exact ⟨0, false, by simp⟩
    · obtain ⟨g1, g2⟩ := hv x (List.mem_of_getElem? hx)
      rw [ha.contextAt, Res.ok_inj] at g2
      obtain ⟨A, hA, -⟩ := exists_encI ha.wf ha.deg g2.symm g1
      exact ⟨A, x.poly.vt, fun y hy => by obtain rfl : x = y := by simpa using hy
                                          exact hA⟩
  choose A w hA using hex
  have hcrp' : crp = tab par.moduli.length fun j => ⟨encI l.ctx .ntt (w j) (A j)⟩ := by
    apply List.ext_getElem?
    intro j
    by_cases hj : j < par.moduli.length
    · rw [tab_get? _ hj, List.getElem?_eq_getElem (by omega), ← hA j _ (List.getElem?_eq_getElem (by omega))]
    · rw [List.getElem?_eq_none (by omega), List.getElem?_eq_none (by rw [length_tab]; omega)]
  choose u hu hgen using fun k => RelinKeyGenerator.new_eq hw ha (hk k) (by omega) hcrp (hU k)
  choose E0 E1 b0 b1 hr1 using fun k => RelinKeyGenerator.round1_eq hw ha (hk k) hcrp' (u k) (h0 k) (h1 k)
  have hagg1 : ∀ σ : Equiv.Perm (Fin K), _ := fun σ => RelinKeyGenerator.aggregate1_eq ha (fun k => rfl) (F := fun k i => -A i * u k + C (RelinKeyGenerator.factor l i) * s k + E0 k i)
    (G := fun k i => A i * s k + E1 k i) (m := par.moduli.length) (ofFn_ne_nil hK σ)
  simp only [sum_ofFn_perm] at hagg1
  simp only [List.map_ofFn, Function.comp_def] at hagg1
  choose E2 E3 b2 b3 hr2 using fun k => RelinKeyGenerator.round2_eq hw ha (hk k) (crp := crp) (m := par.moduli.length) (u k) (par' := par)
    (H0 := fun i => ∑ k, (-A i * u k + C (RelinKeyGenerator.factor l i) * s k + E0 k i)) (H1 := fun i => ∑ k, (A i * s k + E1 k i)) (h2 k) (h3 k)
  have hagg2 : ∀ σ : Equiv.Perm (Fin K), _ := fun σ => RelinKeyGenerator.aggregate2_eq ha (par' := par) (H0 := fun i => ∑ k, (-A i * u k + C (RelinKeyGenerator.factor l i) * s k + E0 k i))
    (H1 := fun i => ∑ k, (A i * s k + E1 k i)) (fun k => rfl) (F := fun k i => (∑ k, (-A i * u k + C (RelinKeyGenerator.factor l i) * s k + E0 k i)) * s k + E2 k i)
    (G := fun k i => (∑ k, (A i * s k + E1 k i)) * (u k - s k) + E3 k i) (m := par.moduli.length) (ofFn_ne_nil hK σ)
  simp only [sum_ofFn_perm] at hagg2
  simp only [List.map_ofFn, Function.comp_def] at hagg2
  have hfor := RelinKeyGenerator.isFor ha (S := ∑ k, s k) (U := ∑ k, u k) (A := A) (E0 := fun i => ∑ k, E0 k i) (E1 := fun i => ∑ k, E1 k i) (E2 := fun i => (∑ k, E2 k i) + ∑ k, E3 k i)
    (H0 := fun i => ∑ k, (-A i * u k + C (RelinKeyGenerator.factor l i) * s k + E0 k i)) (H1 := fun i => ∑ k, (A i * s k + E1 k i))
    (e := par.degree * (K * (2 * par.variance)) * (K * S) + par.degree * (K * (2 * par.variance)) * (K * (2 * par.variance)) + 2 * (K * (2 * par.variance)))
    (fun i => by rw [Finset.sum_add_distrib, Finset.sum_add_distrib, ← Finset.mul_sum, ← Finset.mul_sum]) (fun i => by rw [Finset.sum_add_distrib, ← Finset.mul_sum])
    (fun i => (((IntPoly.Bounded.sum_fin fun k => b0 k i).mul (IntPoly.Bounded.sum_fin hS)).add ((IntPoly.Bounded.sum_fin fun k => b1 k i).mul (IntPoly.Bounded.sum_fin hu))).add
      ((IntPoly.Bounded.sum_fin fun k => b2 k i).add (IntPoly.Bounded.sum_fin fun k => b3 k i)) |>.mono (by omega))
    (F := fun i => ∑ k, ((∑ k, (-A i * u k + C (RelinKeyGenerator.factor l i) * s k + E0 k i)) * s k + E2 k i) + ∑ k, ((∑ k, (A i * s k + E1 k i)) * (u k - s k) + E3 k i))
    (fun i => by
      rw [Finset.sum_add_distrib (f := fun k => _ * s k), Finset.sum_add_distrib (f := fun k => _ * (u k - s k)), ← Finset.mul_sum, ← Finset.mul_sum, Finset.sum_sub_distrib]
      ring)
  refine ⟨_, _, _, _, _, hgen, hr1, hagg1, hr2, hagg2, hfor, ?_⟩
  have := KeySwitchingKey.IsFor.digitSum_eq hw hfor rfl
  rwa [Nat.sub_zero, List.take_length] at this

/-- C52: with a single modulus, or the wrong number of common random polynomials, the generator cannot be made. -/
theorem C52_rejects (hb : b.OK) (h : build b st = Res.ok par.toBfvParameters) {sk : SecretKey} (hk : sk.par = par) (crp : List CommonRandomPoly) (rng : Nat → Nat) :
    (par.moduli.length = 1 → RelinKeyGenerator.new sk crp rng = Res.err .keySwitchingNotSupported) ∧
    (par.moduli.length ≠ 1 → crp.length ≠ par.moduli.length → RelinKeyGenerator.new sk crp rng = Res.err (.invalidCrpCount crp.length par.moduli.length)) := by
  obtain ⟨n, hw, -⟩ := build_inv hb h
  obtain ⟨l, ha⟩ := AtLevel.ofLt (par := par) hw (i := 0) (List.length_pos_of_ne_nil hw.ne_nil)
  have hl := ha.length
  rw [Nat.sub_zero] at hl
  unfold RelinKeyGenerator.new
  rw [hk, ha.contextAt, Res.ok_bind, hl]
  exact ⟨fun h1 => by rw [if_pos h1], fun h1 h2 => by rw [if_neg h1, if_pos h2]⟩

/-- C52: in the first round, and when the shares of the second are aggregated, the number of common random polynomials and the share of the first round are checked. -/
theorem C52_rejects_rounds (hb : b.OK) (h : build b st = Res.ok par.toBfvParameters) (g : RelinKeyGenerator) (hg : g.sk.par = par) (rngs0 rngs1 : Nat → Nat → Nat) (sh : RelinKeyShare2) (hp : sh.par = par) (shares : List RelinKeyShare2) :
    (g.crp.length ≠ par.moduli.length → g.round1 b rngs0 rngs1 = Res.err (.invalidCrpCount g.crp.length par.moduli.length)) ∧
    (sh.lastRound = none → RelinKeyShare2.aggregate (sh :: shares) = Res.err .missingRoundOneShare) := by
  obtain ⟨n, hw, -⟩ := build_inv hb h
  obtain ⟨l, ha⟩ := AtLevel.ofLt (par := par) hw (i := 0) (List.length_pos_of_ne_nil hw.ne_nil)
  have hl := ha.length
  rw [Nat.sub_zero] at hl
  unfold RelinKeyGenerator.round1 RelinKeyShare2.aggregate
  simp only [hg, hp, ha.contextAt, Res.ok_bind, hl]
  exact ⟨fun h1 => by rw [if_pos h1], fun h1 => by rw [h1]⟩

/-! ## C53: switching to another key, and decryption -/

/-- C53: parties whose keys `s k` add up to the secret of a ciphertext of two parts can all make their shares for output keys `s' k`; these, in any
order, aggregate to the same ciphertext, which encrypts the same message under the sum of the output keys.  The noise grows by at most `t K B`, with
`B` twice the variance. -/
theorem C53_secret_key_switch (hb : b.OK) (h : build b st = Res.ok par.toBfvParameters) (hK : 0 < K) (hk : ∀ k, (sk k).IsKey par (s k)) {sk' : Fin K → SecretKey} {s' : Fin K → IntPoly par.degree}
    (hk' : ∀ k, (sk' k).IsKey par (s' k)) (hct : ct.Encrypts par (∑ k, s k) i m v) (h2 : ct.c.length = 2) {rng : Fin K → Nat → Nat} (hr : ∀ k, IsStream (rng k)) :
    ∃ (share : Fin K → SecretKeySwitchShare) (r : Ciphertext) (e : IntPoly par.degree), (∀ k, SecretKeySwitchShare.new (sk k) (sk' k) ct (rng k) = Res.ok (share k)) ∧
      (∀ σ : Equiv.Perm (Fin K), SecretKeySwitchShare.aggregate (List.ofFn fun k => share (σ k)) = Res.ok r) ∧
      e.Bounded (K * (2 * par.variance)) ∧ r.Encrypts par (∑ k, s' k) i m (v + C (par.plaintext.value : Int) * e) ∧ r.c.length = 2 ∧ r.c[1]? = ct.c[1]? ∧ r.seed = none := by
  obtain ⟨n, hw, -⟩ := build_inv hb h
  obtain ⟨l, M, f0, f1, vt, vt', ha, hc, hM, hph⟩ := hct.pair hw h2
  choose e he hs using fun k => SecretKeySwitchShare.new_eq hw ha (hk k) (hk' k) hct.par_eq hc (hr k)
  have hagg : ∀ σ : Equiv.Perm (Fin K), _ := fun σ => SecretKeySwitchShare.aggregate_eq ha hc (fun k => rfl) (F := fun k => (s k - s' k) * f1 + e k) (ofFn_ne_nil hK σ)
  simp only [sum_ofFn_perm] at hagg
  simp only [List.map_ofFn, Function.comp_def] at hagg
  refine ⟨_, _, ∑ k, e k, hs, hagg, IntPoly.Bounded.sum_fin he, Encrypts.intro ha rfl rfl (le_of_eq rfl) (.cons ⟨_, rfl⟩ (.cons ⟨_, rfl⟩ .nil)) hM ?_, rfl, by rw [hc]; rfl, rfl⟩
  rw [phase_two, Finset.sum_add_distrib, ← Finset.sum_mul, Finset.sum_sub_distrib]
  linear_combination hph

/-- C53: shares for switching to another key are refused for ciphertexts that do not have two parts, and for differing parameters. -/
theorem C53_secret_rejects {sk sk' : SecretKey} (rng : Nat → Nat) :
    (sk.par.toBfvParameters ≠ sk'.par.toBfvParameters → SecretKeySwitchShare.new sk sk' ct rng = Res.err (.parameterMismatch .inputSecretKey .outputSecretKey)) ∧
    (sk.par.toBfvParameters = sk'.par.toBfvParameters → sk'.par.toBfvParameters ≠ ct.par.toBfvParameters →
      SecretKeySwitchShare.new sk sk' ct rng = Res.err (.parameterMismatch .outputSecretKey .ciphertext)) ∧
    (sk.par.toBfvParameters = sk'.par.toBfvParameters → sk'.par.toBfvParameters = ct.par.toBfvParameters → ct.c.length ≠ 2 →
      SecretKeySwitchShare.new sk sk' ct rng = Res.err (.invalidPolynomialCount .multipartyKeySwitch ct.c.length 2)) := by
  unfold SecretKeySwitchShare.new
  exact ⟨fun h1 => by rw [if_pos h1], fun h1 h2 => by rw [if_neg (by simpa using h1), if_pos h2],
    fun h1 h2 h3 => by rw [if_neg (by simpa using h1), if_neg (by simpa using h2), if_pos h3]⟩

/-- C53: threshold decryption.  The decryption shares of a ciphertext under the joint secret, in any order, give its message, if its noise, and `t K B`
added by the shares, is below `Q/2` (by a relative `2^-61`).  Unlike `try_decrypt`, this does not need the plaintext modulus to be below the first
ciphertext modulus. -/
theorem C53_decrypt (hb : b.OK) (h : build b st = Res.ok par.toBfvParameters) (hcount : par.moduli.length ≤ 31) (hsum : par.moduli.sum ≤ 2 ^ 65)
    (hQ : 2 * par.plaintext.value ≤ par.modulusAt i) (hK : 0 < K) (hk : ∀ k, (sk k).IsKey par (s k)) (hct : ct.Encrypts par (∑ k, s k) i m v) (h2 : ct.c.length = 2) {V : Nat} (hV : v.Bounded V)
    (hroom : 2 ^ 62 * (V + par.plaintext.value * (K * (2 * par.variance))) ≤ (2 ^ 61 - 1) * par.modulusAt i) {rng : Fin K → Nat → Nat} (hr : ∀ k, IsStream (rng k)) :
    ∃ (share : Fin K → DecryptionShare) (pt : Plaintext), (∀ k, DecryptionShare.new (sk k) ct (rng k) = Res.ok (share k)) ∧
      (∀ σ : Equiv.Perm (Fin K), DecryptionShare.aggregate (List.ofFn fun k => share (σ k)) = Res.ok pt) ∧ pt.Holds par i m ∧ pt.encoding = none := by
  obtain ⟨n, hw, -⟩ := build_inv hb h
  have hzero : ∀ k, SecretKey.IsKey par { par := (sk k).par, coeffs := List.replicate (sk k).par.degree 0 } 0 := fun k => by
    rw [(hk k).par_eq]
    refine ⟨rfl, List.length_replicate, fun x hx => ?_, Nega.ext fun j => ?_⟩
    · obtain ⟨-, rfl⟩ := List.mem_replicate.1 hx; norm_num
    · show (0 : Int) = (List.replicate par.degree (0 : Int)).getD j 0
      rw [List.getD_replicate _ j.isLt]
  obtain ⟨share, r, e, hs, hagg, he, hr', hr2, -, -⟩ := C53_secret_key_switch hb h hK hk hzero hct h2 hr
  rw [Finset.sum_const_zero] at hr'
  obtain ⟨l, M, f0, f1, vt, vt', ha, hc, hM, hph⟩ := hr'.pair hw hr2
  rw [MulZeroClass.zero_mul, _root_.add_zero] at hph
  have hsmall : (v + C (par.plaintext.value : Int) * e).Small (par.modulusAt i) := by
    refine small_of_bounded ((hV.add (he.C_mul (par.plaintext.value : Int))).mono (le_of_eq ?_)) hroom
    rw [Int.natAbs_natCast]
  have hfin : ∀ σ : Equiv.Perm (Fin K), _ := fun σ => DecryptionShare.aggregate_eq hw hcount hsum ha hQ (shares := List.ofFn fun k => ⟨share (σ k)⟩) (by rw [List.map_ofFn]; exact hagg σ) hr'.par_eq hr'.level_eq
    (by rw [hc]; rfl) hM hph hsmall
  refine ⟨fun k => ⟨share k⟩, _, fun k => ?_, fun σ => (hfin σ).2, Plaintext.holds_of_enc hw rfl ha.get rfl (hfin 1).1, rfl⟩
  unfold DecryptionShare.new
  simp only [hs, Res.ok_bind]; rfl

/-- C53: switching to a public key at level zero that encrypts zero under the secret `s'`, with noise at most `V'` (where `V' ≥ t (1 + N S)`, and `S`
bounds `s'`).  The shares of the parties, in any order, aggregate to the same ciphertext, which encrypts the same message under `s'`, and the noise
grows by at most `N (K B) V' + t (K B + N S (K B))`, with `B` twice the variance. -/
theorem C53_public_key_switch (hb : b.OK) (h : build b st = Res.ok par.toBfvParameters) (hK : 0 < K) (hk : ∀ k, (sk k).IsKey par (s k)) (hct : ct.Encrypts par (∑ k, s k) i m v) (h2 : ct.c.length = 2)
    {pk : PublicKey} (hp : pk.par = par) {s' v' : IntPoly par.degree} (hpk : pk.c.Encrypts par s' 0 0 v') (hlen : pk.c.c.length = 2) {S V' : Nat} (hS : s'.Bounded S) (hv' : v'.Bounded V')
    (hV : par.plaintext.value * (1 + par.degree * S) ≤ V') {rngU rng0 rng1 : Fin K → Nat → Nat} (hU : ∀ k, IsStream (rngU k)) (h0 : ∀ k, IsStream (rng0 k)) (h1 : ∀ k, IsStream (rng1 k)) :
    ∃ (share : Fin K → PublicKeySwitchShare) (r : Ciphertext) (e : IntPoly par.degree), (∀ k, PublicKeySwitchShare.new (sk k) pk ct (rngU k) (rng0 k) (rng1 k) = Res.ok (share k)) ∧
      (∀ σ : Equiv.Perm (Fin K), PublicKeySwitchShare.aggregate (List.ofFn fun k => share (σ k)) = Res.ok r) ∧
      r.Encrypts par s' i m (v + e) ∧ r.c.length = 2 ∧ r.seed = none ∧
      e.Bounded (par.degree * (K * (2 * par.variance)) * V' + par.plaintext.value * (K * (2 * par.variance) + par.degree * S * (K * (2 * par.variance)))) := by
  obtain ⟨n, hw, -⟩ := build_inv hb h
  obtain ⟨l, M, f0, f1, vt, vt', ha, hc, hM, hph⟩ := hct.pair hw h2
  have hilt := ha.lt
  obtain ⟨r0, v0, g1, g2, g3, -, g5⟩ := Ciphertext.switchLoop_eq hw hS i hpk (by omega)
  rw [zero_add] at g2 g5
  rw [hlen] at g3 g5
  have hsw : pk.c.switchUntil i pk.c.par.moduli.length = Res.ok r0 := by
    rw [switchUntil_eq hw hilt _ hpk (Nat.zero_le i) (by rw [hpk.par_eq]; omega), Nat.sub_zero, g1]
  obtain ⟨l', M0, p0, p1, w, w', ha', hrc, hM0, hph0⟩ := g2.pair hw g3
  obtain rfl := ha.unique ha'
  choose u e0 e1 hub hb0 hb1 hs using fun k => PublicKeySwitchShare.new_eq hw ha (hk k) hp hct.par_eq hct.level_eq hsw hrc (by rw [hc]; rfl) (by rw [hc]; rfl) (hU k) (h0 k) (h1 k)
  have hagg : ∀ σ : Equiv.Perm (Fin K), _ := fun σ => PublicKeySwitchShare.aggregate_eq ha (f0 := f0) (vt := vt) (fun k => rfl) (F := fun k => p0 * u k + s k * f1 + e0 k) (G := fun k => p1 * u k + e1 k) (ofFn_ne_nil hK σ)
  simp only [sum_ofFn_perm] at hagg
  simp only [List.map_ofFn, Function.comp_def] at hagg
  refine ⟨_, _, (∑ k, u k) * v0 + C (par.plaintext.value : Int) * ((∑ k, e0 k) + s' * ∑ k, e1 k), hs, hagg, Encrypts.intro ha rfl rfl (le_of_eq rfl) (.cons ⟨_, rfl⟩ (.cons ⟨_, rfl⟩ .nil))
    (M := M + (∑ k, u k) * M0) (by rw [red_add, red_mul, hM, hM0, MulZeroClass.mul_zero, _root_.add_zero]) ?_, rfl, rfl, ?_⟩
  · rw [phase_two]
    simp only [Finset.sum_add_distrib, ← Finset.mul_sum, ← Finset.sum_mul]
    linear_combination hph + (∑ k, u k) * hph0
  · have hb0' : v0.Bounded V' := fun j => by
      have e := g5 V' hv' j
      have hG : geom (par.degree * S) 2 = 1 + par.degree * S := by simp [geom, Finset.sum_range_succ]
      rw [hG] at e
      obtain ⟨l0, ha0⟩ := AtLevel.ofLt (par := par) hw (i := 0) (by omega)
      obtain ⟨P, hP, hP0⟩ := modulus_factor hw ha0 ha (Nat.zero_le i)
      rw [ha0.mod, ha.mod] at hP
      have hpos := ha.pos
      have hV' : ((par.plaintext.value * (1 + par.degree * S) : Nat) : Int) ≤ V' := by exact_mod_cast hV
      push_cast at hV' e
      by_contra hcon
      rw [not_le] at hcon
      have hle : (par.modulusAt i : Int) ≤ par.modulusAt 0 := by
        rw [hP]; exact_mod_cast Nat.le_mul_of_pos_left _ hP0
      have hQ0 : (0 : Int) < par.modulusAt 0 := by exact_mod_cast ha0.pos
      have h5 : (par.modulusAt 0 : Int) * (V' - par.plaintext.value * (1 + par.degree * S)) < par.modulusAt 0 * (|v0 j| - par.plaintext.value * (1 + par.degree * S)) :=
        mul_lt_mul_of_pos_left (by linarith) hQ0
      have h6 : (par.modulusAt i : Int) * (V' - par.plaintext.value * (1 + par.degree * S)) ≤ par.modulusAt 0 * (V' - par.plaintext.value * (1 + par.degree * S)) :=
        mul_le_mul_of_nonneg_right hle (by linarith)
      linarith
    have := ((IntPoly.Bounded.sum_fin hub).mul hb0').add ((((IntPoly.Bounded.sum_fin hb0).add (hS.mul (IntPoly.Bounded.sum_fin hb1)))).C_mul (par.plaintext.value : Int))
    rwa [Int.natAbs_natCast] at this

/-- C53: shares for switching to a public key are refused for differing parameters, and if the level of the ciphertext is before that of the key. -/
theorem C53_public_rejects {sk : SecretKey} {pk : PublicKey} (rngU rng0 rng1 : Nat → Nat) :
    (sk.par.toBfvParameters ≠ pk.par.toBfvParameters → PublicKeySwitchShare.new sk pk ct rngU rng0 rng1 = Res.err (.parameterMismatch .secretKey .publicKey)) ∧
    (sk.par.toBfvParameters = pk.par.toBfvParameters → pk.par.toBfvParameters ≠ ct.par.toBfvParameters →
      PublicKeySwitchShare.new sk pk ct rngU rng0 rng1 = Res.err (.parameterMismatch .publicKey .ciphertext)) := by
  unfold PublicKeySwitchShare.new
  exact ⟨fun h1 => by rw [if_pos h1], fun h1 h2 => by rw [if_neg (by simpa using h1), if_pos h2]⟩

/-- C53, a limitation: unlike the switch to another secret key, the switch to a public key does not check the number of parts: all parts of the
ciphertext but the first two are silently dropped. -/
theorem C53_public_ignores_rest (sk : SecretKey) (pk : PublicKey) (ct : Ciphertext) (rngU rng0 rng1 : Nat → Nat) :
    PublicKeySwitchShare.new sk pk ct rngU rng0 rng1 = PublicKeySwitchShare.new sk pk (ct.truncate 2) rngU rng0 rng1 := by
  have e0 : (ct.truncate 2).c[0]? = ct.c[0]? := by simp [truncate]
  have e1 : (ct.truncate 2).c[1]? = ct.c[1]? := by simp [truncate]
  unfold PublicKeySwitchShare.new
  rw [e0, e1]
  rfl

/-- C51, C53: from the keys of the parties to the decrypted message.  The parties make a public key; a message encrypted with it, at any level, is
recovered from their decryption shares, if the noise of the encryption is below `Q/2`. -/
theorem C53_end_to_end (hb : b.OK) (h : build b st = Res.ok par.toBfvParameters) (hcount : par.moduli.length ≤ 31) (hsum : par.moduli.sum ≤ 2 ^ 65)
    (hQ : 2 * par.plaintext.value ≤ par.modulusAt i) (hK : 0 < K) (hk : ∀ k, (sk k).IsKey par (s k)) {S : Nat} (hS : ∀ k, (s k).Bounded S) {crp : CommonRandomPoly}
    (hctx : par.contextAtLevel 0 = Res.ok crp.poly.ctx) (hv : crp.poly.Valid) {pt : Plaintext} (hpt : pt.Holds par i m) {rng rng' : Fin K → Nat → Nat} (hr : ∀ k, IsStream (rng k)) (hr' : ∀ k, IsStream (rng' k))
    {rngU rng1 rng2 : Nat → Nat} (hU : IsStream rngU) (h1 : IsStream rng1) (h2 : IsStream rng2) {B : Nat} (hB : B = 2 * par.variance)
    (hroom : 2 ^ 62 * (par.plaintext.value * (par.degree * B * (K * B + 1 + par.degree * (K * S)) + (B + par.degree * (K * S) * B) + 1 + K * B)) ≤ (2 ^ 61 - 1) * par.modulusAt i) :
    ∃ (share : Fin K → PublicKeyShare) (pk : PublicKey) (ct : Ciphertext) (share' : Fin K → DecryptionShare) (pt' : Plaintext),
      (∀ k, PublicKeyShare.new (sk k) crp (rng k) = Res.ok (share k)) ∧ (∀ σ : Equiv.Perm (Fin K), PublicKeyShare.aggregate (List.ofFn fun k => share (σ k)) = Res.ok pk) ∧
      pk.tryEncrypt pt rngU rng1 rng2 = Res.ok ct ∧ (∀ k, DecryptionShare.new (sk k) ct (rng' k) = Res.ok (share' k)) ∧
      (∀ σ : Equiv.Perm (Fin K), DecryptionShare.aggregate (List.ofFn fun k => share' (σ k)) = Res.ok pt') ∧ pt'.Holds par i m := by
  subst hB
  obtain ⟨share, pk, v, e1, e2, e3, e4, e5', e6, -, -⟩ := C51_public_key hb h hK hk hctx hv hr
  have e5 := e5'.C_mul (par.plaintext.value : Int)
  rw [Int.natAbs_natCast] at e5
  obtain ⟨ct, v', f1, f2, f3, -, f5⟩ := C37_public_encrypt hb h e3 e4 e6 (IntPoly.Bounded.sum_fin hS) (V := par.plaintext.value * (K * (2 * par.variance) + 1 + par.degree * (K * S)))
    (e5.mono (Nat.mul_le_mul_left _ (by omega))) (Nat.mul_le_mul_left _ (by omega)) (by omega) hpt hU h1 h2
  obtain ⟨share', pt', g1, g2, g3, -⟩ := C53_decrypt hb h hcount hsum hQ hK hk f2 f3 f5 (le_trans (le_of_eq (by ring)) hroom) hr'
  exact ⟨share, pk, ct, share', pt', e1, e2, f1, g1, g2, g3⟩

/-- Two parties with the key of `exCipher`: all hypotheses of the theorems above are met. -/
example : ∃ (par : Par) (sk : Fin 2 → SecretKey) (s : Fin 2 → IntPoly par.degree) (m : par.Msg) (pt : Plaintext) (crp : CommonRandomPoly) (crps : List CommonRandomPoly) (share : Fin 2 → PublicKeyShare) (pk : PublicKey)
    (ct : Ciphertext) (share' : Fin 2 → DecryptionShare) (pt' : Plaintext) (rk : RelinearizationKey) (r r' : Ciphertext), build luckyBuild exBuilder = Res.ok par.toBfvParameters ∧
    (∀ k, (sk k).IsKey par (s k)) ∧ msgCoeffs m = [1, 2, 16, 0, 0, 0, 0, 0] ∧ (∀ k, PublicKeyShare.new (sk k) crp exRng = Res.ok (share k)) ∧
    PublicKeyShare.aggregate (List.ofFn share) = Res.ok pk ∧ pk.tryEncrypt pt exRng exRng exRng = Res.ok ct ∧ (∀ k, DecryptionShare.new (sk k) ct exRng = Res.ok (share' k)) ∧
    DecryptionShare.aggregate (List.ofFn share') = Res.ok pt' ∧ pt'.Holds par 0 m ∧ crps.length = 3 ∧ rk.IsFor par (∑ k, s k) 0 0 264 ∧
    (∃ v, r.Encrypts par (∑ k, s k) 0 m v) ∧ ∃ v, r'.Encrypts par (∑ k, s k) 0 m v := by
  obtain ⟨par, sk, s, pt, pt', m, m', ct, ct', v, v', h, hd, ht, hm, hrel, hk, hs, e2, e2', em, em', f1, f1', f2, f2', f3, f3', f4, f4', f5, f6, h0, hvar⟩ := exCipher
  obtain ⟨n, hw, -⟩ := build_inv luckyBuild_ok h
  obtain ⟨p, hp⟩ : ∃ p, p ∈ ct.c := List.exists_mem_of_length_pos (by omega)
  have hval := (Encrypts.valid hw f2).2 p hp
  rw [f2.level_eq] at hval
  have hlen : par.moduli.length = 3 := by rw [hm]; rfl
  obtain ⟨share, pk, C1, share', pt'', g1, g2, g3, g4, g5, g6⟩ := C53_end_to_end luckyBuild_ok h hrel.count hrel.sum hrel.modulus (K := 2) (by decide) (sk := fun _ => sk) (s := fun _ => s) (fun _ => hk) (S := 2) (fun _ => hs)
    (crp := ⟨p⟩) hval.2 hval.1 e2 (rng := fun _ => exRng) (rng' := fun _ => exRng) (fun _ => exRng_ok) (fun _ => exRng_ok) exRng_ok exRng_ok exRng_ok rfl (by rw [h0, ht, hd, hvar]; decide)
  obtain ⟨gen, r1, R1, r2, rk, k1, k2, k3, k4, k5, k6, -⟩ := C52_relinearization_key luckyBuild_ok h (K := 2) (by decide) (sk := fun _ => sk) (s := fun _ => s) (fun _ => hk) (S := 2) (fun _ => hs) (by omega)
    (crp := List.replicate 3 ⟨p⟩) (by rw [hlen]; rfl) (fun x hx => by rw [(List.mem_replicate.1 hx).2]; exact hval) (rngU := fun _ => exRng) (fun _ => exRng_ok) (rng0 := fun _ _ => exRng) (rng1 := fun _ _ => exRng)
    (rng2 := fun _ _ => exRng) (rng3 := fun _ _ => exRng) (fun _ _ => exRng_ok) (fun _ _ => exRng_ok) (fun _ _ => exRng_ok) (fun _ _ => exRng_ok)
  have k7 : rk.IsFor par (∑ _k : Fin 2, s) 0 0 264 := by
    obtain ⟨a1, a2, a3, E, a4, a5⟩ := k6
    exact ⟨a1, a2, a3, E, a4, fun x hx => (a5 x hx).mono (by rw [hd, hvar])⟩
  obtain ⟨sh, pk', w, q1, q2, q3, q4, q5', q6, -, -⟩ := C51_public_key luckyBuild_ok h (K := 2) (by decide) (sk := fun _ => sk) (s := fun _ => s) (fun _ => hk) (crp := ⟨p⟩) hval.2 hval.1 (rng := fun _ => exRng) (fun _ => exRng_ok)
  have q5 := q5'.C_mul (par.plaintext.value : Int)
  rw [Int.natAbs_natCast] at q5
  have hsame : pk' = pk := by
    have a1 : sh = share := funext fun k => by have := q1 k; rw [g1 k] at this; exact (Res.ok_inj.1 this).symm
    have := q2 1; rw [a1, g2 1] at this; exact (Res.ok_inj.1 this).symm
  subst hsame
  obtain ⟨C2, v2, w1, w2, w3, -, w5⟩ := C37_public_encrypt luckyBuild_ok h q3 q4 q6 (IntPoly.Bounded.sum_fin (K := 2) (fun _ => hs)) (V := 17 * 33) (q5.mono (by rw [ht, hvar]; decide)) (by rw [ht, hd]) (by rw [ht, h0]; decide) e2
    exRng_ok exRng_ok exRng_ok
  obtain ⟨_, r, _, -, -, -, z4, -⟩ := C53_secret_key_switch luckyBuild_ok h (K := 2) (by decide) (sk := fun _ => sk) (s := fun _ => s) (fun _ => hk) (sk' := fun _ => sk) (s' := fun _ => s) (fun _ => hk) w2 w3 (rng := fun _ => exRng)
    (fun _ => exRng_ok)
  obtain ⟨_, r', _, -, -, y3, -⟩ := C53_public_key_switch luckyBuild_ok h (K := 2) (by decide) (sk := fun _ => sk) (s := fun _ => s) (fun _ => hk) w2 w3 q3 q4 q6 (IntPoly.Bounded.sum_fin (K := 2) (fun _ => hs)) (V' := 17 * 33)
    (q5.mono (by rw [ht, hvar]; decide)) (by rw [ht, hd]) (rngU := fun _ => exRng) (rng0 := fun _ => exRng) (rng1 := fun _ => exRng) (fun _ => exRng_ok) (fun _ => exRng_ok) (fun _ => exRng_ok)
  exact ⟨par, fun _ => sk, fun _ => s, m, pt, ⟨p⟩, List.replicate 3 ⟨p⟩, share, pk', C1, share', pt'', rk, r, r', h, fun _ => hk, em, g1, g2 1, g3, g4, g5 1, g6, rfl, k7, ⟨_, z4⟩, ⟨_, y3⟩⟩

end Fhe.Props
