import Verif.Lemmas.Mixed
import Verif.Lemmas.Mbfv
import Verif.Props.RqRing
import Verif.Lemmas.Portable
import Verif.Props.Mbfv
import Verif.Props.Util
import Verif.Props.Defaults
import Verif.Lemmas.TimedBfv
/-!
# C83: what a release build does where a build with debug assertions panics

`Release.f` is `f` as compiled without debug assertions and overflow checks.
-/
namespace Fhe.Props
open Nega Poly ParamsBuilder NttOperator Context

variable {b : Build} {moduli : List Nat} {degree l : Nat} {c c' : Context} {r : Rep}

theorem above (hb : b.OK) (hc : Context.new b moduli degree = some (.ok c)) (hc' : Context.new b (moduli.take l) degree = some (.ok c')) :
    ∃ n, c.Above b n c' ∧ c.moduli = moduli ∧ c'.moduli = moduli.take l := by
  obtain ⟨n, hd, hw, hm⟩ := new_inv hb hc
  obtain ⟨n', hd', hw', hm'⟩ := new_inv hb hc'
  obtain rfl : n = n' := Nat.pow_right_injective (le_refl 2) (hd.symm.trans hd')
  exact ⟨n, ⟨hw, hw', moduli.drop l, by rw [hm, hm', List.take_append_drop]⟩, hm, hm'⟩

theorem ne_of_fewer (hl : l < moduli.length) (hm : c.moduli = moduli) (hm' : c'.moduli = moduli.take l) : c ≠ c' := fun h => by
  have := congrArg (fun c : Context => c.moduli.length) h
  simp only [hm, hm', List.length_take] at this
  omega

/-- C83: the operators on polynomials of different levels panic in a debug build only.  In a release build, if the left operand is the one with
fewer moduli, the result is right: that of reducing the right operand to the level of the left one first. -/
theorem C83_lower_left (hb : b.OK) (hc : Context.new b moduli degree = some (.ok c)) (hc' : Context.new b (moduli.take l) degree = some (.ok c'))
    (hl : l < moduli.length) (hr : r ≠ .nttShoup) {p : Poly r} {p' : Poly r} {g : c.Elem} {f' g' : c'.Elem} (hp' : Represents c' p' f') (hp : Represents c p g) (hg : Reduces g g') :
    (p'.addAssign p = none ∧ p'.subAssign p = none) ∧
    (∃ s, (Release.addAssign p' p).result = some s ∧ Represents c' s (f' + g')) ∧ (∃ s, (Release.subAssign p' p).result = some s ∧ Represents c' s (f' - g')) := by
  obtain ⟨n, h, hm, hm'⟩ := above hb hc hc'
  have hne := ne_of_fewer hl hm hm'
  refine ⟨C23_context (by rw [hp'.ctx, hp.ctx]; exact hne.symm), ?_⟩
  rw [(represents_iff h.wf').1 hp', (represents_iff h.wf).1 hp]
  exact ⟨⟨_, addAssign_down h hr f' g' hg, represents_enc h.wf' _⟩, ⟨_, subAssign_down h hr f' g' hg, represents_enc h.wf' _⟩⟩

/-- C83: the same for products. -/
theorem C83_lower_left_mul (hb : b.OK) (hc : Context.new b moduli degree = some (.ok c)) (hc' : Context.new b (moduli.take l) degree = some (.ok c'))
    (hl : l < moduli.length) {p p' : Poly .ntt} {g : c.Elem} {f' g' : c'.Elem} (hp' : Represents c' p' f') (hp : Represents c p g) (hg : Reduces g g') :
    p'.mulAssign p = none ∧ ∃ s, (Release.mulAssign p' p).result = some s ∧ Represents c' s (f' * g') := by
  obtain ⟨n, h, hm, hm'⟩ := above hb hc hc'
  have hne := ne_of_fewer hl hm hm'
  refine ⟨(C23_context_mul (s := ⟨c, false, false, [], none⟩)).1 (by rw [hp'.ctx, hp.ctx]; exact hne.symm), ?_⟩
  rw [(represents_iff h.wf').1 hp', (represents_iff h.wf).1 hp]
  exact ⟨_, mulAssign_down h f' g' hg, represents_enc h.wf' _⟩

/-- C83, finding: if the left operand is the one with more moduli, a release build silently returns a valid polynomial that is wrong: it is the
sum (difference) modulo the common moduli, and the unchanged left operand modulo the others. -/
theorem C83_higher_left (hb : b.OK) (hc : Context.new b moduli degree = some (.ok c)) (hc' : Context.new b (moduli.take l) degree = some (.ok c'))
    (hl : l < moduli.length) (hr : r ≠ .nttShoup) {p p' : Poly r} {f g : c.Elem} {g' : c'.Elem} (hp : Represents c p f) (hp' : Represents c' p' g') (hg : Reduces g g') :
    (p.addAssign p' = none ∧ p.subAssign p' = none) ∧
    (∃ s k, (Release.addAssign p p').result = some s ∧ Represents c s k ∧ SameModulo (moduli.take l) k (f + g) ∧ SameModulo (moduli.drop l) k f) ∧
    (∃ s k, (Release.subAssign p p').result = some s ∧ Represents c s k ∧ SameModulo (moduli.take l) k (f - g) ∧ SameModulo (moduli.drop l) k f) := by
  obtain ⟨n, h, hm, hm'⟩ := above hb hc hc'
  have hne := ne_of_fewer hl hm hm'
  have hd : c.moduli.drop c'.moduli.length = moduli.drop l := by rw [hm, hm', List.length_take, Nat.min_eq_left hl.le]
  refine ⟨C23_context (by rw [hp'.ctx, hp.ctx]; exact hne), ?_⟩
  rw [(represents_iff h.wf').1 hp', (represents_iff h.wf).1 hp]
  obtain ⟨k, h1, h2, h3⟩ := addAssign_up (vt := p.vt) (vt' := p'.vt) h hr f g hg
  obtain ⟨k', h1', h2', h3'⟩ := subAssign_up (vt := p.vt) (vt' := p'.vt) h hr f g hg
  rw [hd] at h3 h3'
  rw [hm'] at h2 h2'
  exact ⟨⟨_, k, h1, represents_enc h.wf _, h2, h3⟩, ⟨_, k', h1', represents_enc h.wf _, h2', h3'⟩⟩

/-- C83, finding: the same for products. -/
theorem C83_higher_left_mul (hb : b.OK) (hc : Context.new b moduli degree = some (.ok c)) (hc' : Context.new b (moduli.take l) degree = some (.ok c'))
    (hl : l < moduli.length) {p p' : Poly .ntt} {f g : c.Elem} {g' : c'.Elem} (hp : Represents c p f) (hp' : Represents c' p' g') (hg : Reduces g g') :
    p.mulAssign p' = none ∧
    ∃ s k, (Release.mulAssign p p').result = some s ∧ Represents c s k ∧ SameModulo (moduli.take l) k (f * g) ∧ SameModulo (moduli.drop l) k f := by
  obtain ⟨n, h, hm, hm'⟩ := above hb hc hc'
  have hne := ne_of_fewer hl hm hm'
  have hd : c.moduli.drop c'.moduli.length = moduli.drop l := by rw [hm, hm', List.length_take, Nat.min_eq_left hl.le]
  refine ⟨(C23_context_mul (s := ⟨c, false, false, [], none⟩)).1 (by rw [hp'.ctx, hp.ctx]; exact hne), ?_⟩
  rw [(represents_iff h.wf').1 hp', (represents_iff h.wf).1 hp]
  obtain ⟨k, h1, h2, h3⟩ := mulAssign_up (vt := p.vt) (vt' := p'.vt) h f g hg
  rw [hd] at h3
  rw [hm'] at h2
  exact ⟨_, k, h1, represents_enc h.wf _, h2, h3⟩

/-- The sum of the finding is really wrong: adding 1 of a context with one modulus to 0 of a context with two moduli yields neither panic nor 1. -/
example : ∃ (c c' : Context) (p p' s : Poly .ntt) (k : c.Elem), Represents c p 0 ∧ Represents c' p' 1 ∧ p.addAssign p' = none ∧
    (Release.addAssign p p').result = some s ∧ Represents c s k ∧ k ≠ 1 := by
  obtain ⟨c, hc⟩ := exContext
  obtain ⟨z, hz, -⟩ := (C23_represents (r := .powerBasis) exBuild_ok hc).2.1 0 false
  obtain ⟨c', -, -, hc', -⟩ := (C26_switch_down exBuild_ok hc hz).1 193 (by simp) (by simp)
  obtain ⟨p, hp, -⟩ := (C23_represents (r := .ntt) exBuild_ok hc).2.1 0 false
  obtain ⟨p', hp', -⟩ := (C23_represents (r := .ntt) exBuild_ok hc').2.1 1 false
  obtain ⟨n, h, hm, hm'⟩ := above (l := 1) exBuild_ok hc hc'
  obtain ⟨⟨h1, -⟩, ⟨s, k, h2, h3, -, h4⟩, -⟩ := C83_higher_left (l := 1) (r := .ntt) (g := 1) exBuild_ok hc hc' (by simp) (by simp) hp hp' (by
    have hd : c.degree = c'.degree := h.degree.symm
    have := reduces_ofInt h (1 : IntPoly c.degree)
    rwa [ofInt_one rfl, ofInt_one hd.symm] at this)
  refine ⟨c, c', p, p', s, k, hp, hp', h1, h2, h3, fun he => ?_⟩
  have hpos : 0 < c.degree := by rw [h.wf.level.degree]; positivity
  have hQ : 1 < c.modulus := by rw [h.wf.modulus_eq, hm]; norm_num
  have h5 := h4 0 hpos 193 (by simp)
  have : Fact (1 < c.modulus) := ⟨hQ⟩
  rw [he, coeff_of_lt _ hpos, coeff_of_lt _ hpos] at h5
  change (1 : ZMod c.modulus).val % 193 = (0 : ZMod c.modulus).val % 193 at h5
  rw [ZMod.val_one, ZMod.val_zero] at h5
  omega

/-- C83: a release build multiplies by `X^(-k)` for every `k`; a debug build panics for `k` above twice the degree (`C25_inverse_power`). -/
theorem C83_inverse_power (hb : b.OK) (hc : Context.new b moduli degree = some (.ok c)) {p : Poly .powerBasis} {f : c.Elem} (hp : Represents c p f) {k : Nat} (hk : k < 2 ^ 64) :
    ∃ q g, (Release.multiplyInversePowerOfX p k).result = some q ∧ Represents c q g ∧ mono k * g = f ∧ ∀ g' : c.Elem, mono k * g' = f → g' = g := by
  obtain ⟨n, hdeg, hw, -⟩ := new_inv hb hc
  rw [(represents_iff hw).1 hp]
  have hpos : 0 < 2 * c.degree := by rw [hw.level.degree]; positivity
  have hlt := Nat.mod_lt k hpos
  have e : ∀ g : c.Elem, mono (2 * c.degree - k % (2 * c.degree)) * (mono k * g) = g := fun g => by
    rw [← mono_mod k, ← mul_assoc, ← mono_add, Nat.sub_add_cancel hlt.le, mono_two_mul, one_mul]
  refine ⟨_, _, Release.multiplyInversePowerOfX_enc hw hk f, represents_enc hw _, ?_, fun g' hg' => ?_⟩
  · rw [← mul_assoc, mul_comm (mono k), mul_assoc, e]
  · rw [← hg', e]

/-- C83: powers of residues are right for every exponent in a release build; a debug build panics for exponents not below the modulus. -/
theorem C83_pow {cfg : Bool} {p : Nat} {m : Modulus} (h : Modulus.new cfg p = some (.ok m)) {a n : Nat} (ha : a < p) (hn : n < 2 ^ 64) :
    (Release.pow m a n).result = some (a ^ n % p) ∧ (p ≤ n → m.pow a n = none) := by
  obtain ⟨hw, rfl, -⟩ := Modulus.WF_of_new h
  have hp2 := hw.two_le
  refine ⟨?_, fun hpn => by simp [Modulus.pow, check, not_lt.2 hpn]⟩
  unfold Release.pow
  rw [Release.branch_bind]
  by_cases h0 : n = 0
  · subst h0
    rw [pow_zero, Nat.mod_eq_of_lt (by omega)]; rfl
  rw [show decide (n = 0) = false by simpa using h0]
  rw [if_neg (by simp), Release.branch_bind]
  by_cases h1 : n = 1
  · subst h1
    rw [pow_one, Nat.mod_eq_of_lt ha]; rfl
  rw [show decide (n = 1) = false by simpa using h1]
  rw [if_neg (by simp)]
  have hb64 : bitLen n ≤ 64 := bitLen_le_iff.2 hn
  have hb2 : 2 ≤ bitLen n := by
    by_contra hc
    have : n < 2 ^ 1 := bitLen_le_iff.1 (by omega)
    omega
  have hz : lz64 n = 64 - bitLen n := rfl
  have e : Release.wsub 32 62 (lz64 n) + 1 = bitLen n - 1 := by
    rw [hz, Release.wsub]
    split <;> omega
  refine Release.powLoop_agrees m a n _ a _ (Modulus.powLoop_eq hw ha _ _ ?_)
  have h2 : n >>> (bitLen n - 1) = 1 := by
    rw [Nat.shiftRight_eq_div_pow]
    have l1 : 2 ^ (bitLen n - 1) ≤ n := two_pow_le_of_bitLen (by omega)
    have l2 : n < 2 ^ bitLen n := lt_two_pow_bitLen n
    have l3 : 2 ^ bitLen n = 2 * 2 ^ (bitLen n - 1) := by
      conv_lhs => rw [show bitLen n = bitLen n - 1 + 1 by omega, pow_succ]
      ring
    apply Nat.div_eq_of_lt_le <;> omega
  rw [e, h2, pow_one, Nat.mod_eq_of_lt ha]

/-- C83: a release build finds the same primes as a debug build, and finds none where a debug build panics because of the upper bound. -/
theorem C83_generate_prime {bits m ub : Nat} (h10 : 10 ≤ bits) (h62 : bits ≤ 62) (hm : m ≠ 0) (hub : ub < 2 ^ 64) :
    (0 < ub → ub ≤ 2 ^ bits → Release.generatePrime bits m ub = generatePrime bits m ub) ∧
    (ub = 0 ∨ 2 ^ bits < ub → generatePrime bits m ub = none ∧ Release.generatePrime bits m ub = some none) := by
  constructor
  · intro h1 h2
    have e : Release.wsub 64 ub 1 = ub - 1 := by rw [Release.wsub]; split <;> omega
    have hs : 1 <<< bits ≥ ub := by rw [Nat.one_shiftLeft]; exact h2
    unfold Release.generatePrime generatePrime
    simp only [check_eq hs, subU_eq (show 1 ≤ ub by omega), e, Option.bind_eq_bind, Option.bind_some]
  · intro h
    constructor
    · unfold generatePrime
      rw [if_neg (by omega)]
      rcases h with rfl | h
      · simp [subU]
      · have hs : ¬ 1 <<< bits ≥ ub := by rw [Nat.one_shiftLeft]; omega
        simp [check, hs]
    · have hlow : ∀ t, 2 ^ bits ≤ t → t < 2 ^ 64 → lz64 t ≠ 64 - bits := fun t h1 h2 he => by
        have := (lz_eq_iff (t := t) (bits := bits) (by omega) (by omega) h2).1 he
        omega
      obtain ⟨t, ht, h1, h2⟩ : ∃ t, Release.wsub 64 ub 1 = t ∧ 2 ^ bits ≤ t ∧ t < 2 ^ 64 := by
        have : 2 ^ bits ≤ 2 ^ 62 := Nat.pow_le_pow_right (by norm_num) h62
        refine ⟨_, rfl, ?_, ?_⟩ <;> rw [Release.wsub] <;> split <;> omega
      have l1 : primeLoop1 m (64 - bits) t = t := by
        cases t with
        | zero => rfl
        | succ t => rw [primeLoop1, if_neg (fun h => hlow _ h1 h2 h.2)]
      have l2 : primeLoop2 m (64 - bits) t = t := by
        rw [primeLoop2, dif_neg (fun h => hlow _ h1 h2 h.1)]
      unfold Release.generatePrime
      rw [if_neg (by omega)]
      simp only [ht, l1, l2, check_eq hm, Option.bind_eq_bind, Option.bind_some]
      rw [if_neg (fun h => hlow _ h1 h2 h.1)]
      rfl

/-- C83: asking for default parameters with plaintexts of no bits, or of 64 bits or more, panics in a debug build and is refused with an error in a
release build; for other sizes the two agree. -/
theorem C83_defaults (bits : Nat) (hbits : bits < 2 ^ 64) :
    (1 ≤ bits → bits < 64 → Release.defaultParameters128 b bits = defaultParameters128 b bits) ∧
    (bits = 0 ∨ 64 ≤ bits → defaultParameters128 b bits = Res.panic ∧ Release.defaultParameters128 b bits = Res.err (.noDefaultParameters bits)) := by
  constructor
  · intro h1 h2
    have he : ∀ e ∈ defaultTable, Release.defaultEntry b bits e = defaultEntry b bits e := fun e he => by
      have hs : Release.wsub 64 64 bits % 64 = 64 - bits := by rw [Release.wsub]; split <;> omega
      unfold Release.defaultEntry defaultEntry
      simp only [hs, subU_eq (show bits ≤ 64 by omega), Option.bind_eq_bind, Option.bind_some, check_eq (show 64 - bits < 64 by omega)]
      have hp : Release.generatePrime bits (2 * e.1) ((2 ^ 64 - 1) >>> (64 - bits)) = generatePrime bits (2 * e.1) ((2 ^ 64 - 1) >>> (64 - bits)) := by
        by_cases hr : 10 ≤ bits ∧ bits ≤ 62
        · have hx : (2 ^ 64 - 1) >>> (64 - bits) = 2 ^ bits - 1 := by
            rw [Nat.shiftRight_eq_div_pow]
            have e1 : 2 ^ 64 = 2 ^ bits * 2 ^ (64 - bits) := by rw [← pow_add]; congr 1; omega
            have p1 : 0 < 2 ^ (64 - bits) := by positivity
            have p2 : 0 < 2 ^ bits := by positivity
            rw [e1]
            generalize 2 ^ (64 - bits) = y at *
            generalize 2 ^ bits = x at *
            apply Nat.div_eq_of_lt_le
            · obtain ⟨x, rfl⟩ := Nat.exists_eq_succ_of_ne_zero p2.ne'
              simp only [Nat.succ_eq_add_one, Nat.add_sub_cancel, Nat.add_mul]
              omega
            · rw [Nat.sub_add_cancel p2]
              exact Nat.sub_lt (Nat.mul_pos p2 p1) one_pos
          have : 2 ^ 10 ≤ 2 ^ bits := Nat.pow_le_pow_right (by norm_num) hr.1
          have : 2 ^ bits ≤ 2 ^ 62 := Nat.pow_le_pow_right (by norm_num) hr.2
          rw [hx]
          refine (C83_generate_prime hr.1 hr.2 ?_ (by omega)).1 (by omega) (by omega)
          have : ∀ e ∈ defaultTable, 2 * e.1 ≠ 0 := by decide
          exact this e he
        · rw [C09_generate_prime_out_of_range hr]
          exact if_pos hr
      rw [hp]
      rfl
    have hm : defaultTable.mapM (Release.defaultEntry b bits) = defaultTable.mapM (defaultEntry b bits) := mapM_congr he
    unfold Release.defaultParameters128 defaultParameters128
    rw [hm, check_eq h2]
    rfl
  · intro h
    constructor
    · unfold defaultParameters128
      rcases h with rfl | h
      · rfl
      · simp only [check, if_neg (not_lt.2 h)]
        rfl
    · have he : ∀ e ∈ defaultTable, Release.defaultEntry b bits e = some none := fun e _ => by
        have hp : ∀ x, Release.generatePrime bits (2 * e.1) x = some none := fun x => if_pos (by omega)
        unfold Release.defaultEntry
        simp only [hp, Option.bind_eq_bind, Option.bind_some]
        rfl
      have hm : defaultTable.mapM (Release.defaultEntry b bits) = defaultTable.mapM (fun _ => some none) := mapM_congr he
      unfold Release.defaultParameters128
      rw [hm]
      rfl

variable {st : ParamsBuilder} {par : Par} {K i : Nat} {sk : Fin K → SecretKey} {s : Fin K → IntPoly par.degree}

theorem Release.run_bind {t : Release.TRes α} {a : α} (h : t.run.result = some (.ok a)) (f : α → Release.TRes β) : ((t >>= f).run).result = (f a).run.result := by
  change (t.run >>= fun x => ExceptT.bindCont f x).result = _
  rw [Release.bind_some h]
  rfl

theorem Release.run_of {o : Res α} {t : Release.TRes α} (h : Release.TAgrees o t) {a : α} (ho : o = Res.ok a) : t.run.result = some (.ok a) := h _ (by rw [ho]; rfl)

theorem Release.run_lift {t : Release.Timed α} {a : α} (h : t.result = some a) : (Release.tlift t).run.result = some (.ok a) :=
  Release.TAgrees.lift (o := some a) (fun y hy => by cases hy; exact h) _ rfl

theorem share_other_level {n : Nat} {vt : Bool} {l0 l : ContextLevel} {crp : CommonRandomPoly} {sk : SecretKey} {s : IntPoly par.degree} (hw : ParWF b n par.toBfvParameters)
    (h0 : AtLevel b n par 0 l0) (ha : AtLevel b n par i l) (hk : sk.IsKey par s) {A : IntPoly par.degree} (hA : crp.poly = encI l.ctx .ntt vt A)
    {rng : Nat → Nat} (hr : IsStream rng) :
    ∃ e : IntPoly par.degree, e.Bounded (2 * par.variance) ∧
      (Release.publicKeyShare sk crp rng).run.result = some (.ok { par, crp, p0Share := encI l.ctx .ntt true (-A * s + e) }) := by
  obtain ⟨e, he, hs⟩ := small_encI hw.variance.1 hw.variance.2 hr par.degree
  refine ⟨e, he, ?_⟩
  have hab : l0.ctx.Above b n l.ctx := ⟨h0.wf, ha.wf, par.moduli.drop (par.moduli.length - i), by
    rw [h0.moduli, ha.moduli, Nat.sub_zero, List.take_length, List.take_append_drop]⟩
  unfold Release.publicKeyShare
  rw [hk.par_eq, Release.run_bind (Release.run_of (Release.TAgrees.public _) h0.contextAt),
    Release.run_bind (Release.run_of (Release.polyAt_agrees _ _) (SecretKey.polyAt_encI hk h0.wf h0.deg)),
    Release.run_bind (Release.run_of (Release.TAgrees.math (Release.smallNtt_agrees _ _ _)) (by rw [(hs h0.wf h0.deg).2.1, Res.math_ok])),
    Release.run_bind (Release.run_lift (Release.polyNeg_agrees _ _ (by rw [hA]; exact neg_encI (r := .ntt) ha.wf ha.deg (by simp) _))), disallowVt_encI]
  unfold encI
  rw [Release.run_bind (Release.run_lift (mulAssign_down hab _ _ (reduces_ofInt hab s))),
    Release.run_bind (Release.run_lift (addAssign_down (r := .ntt) hab (by simp) _ _ (reduces_ofInt hab e)))]
  have e1 : ofInt l.ctx (-A) * ofInt l.ctx s + ofInt l.ctx e = ofInt l.ctx (-A * s + e) := by rw [ofInt_add ha.deg, ofInt_mul ha.deg]
  rw [e1]
  rfl

/-- C83: in a release build a common random polynomial of any level is accepted: the shares made from it aggregate, in any order, to a public key of that
level, which encrypts zero under the joint secret with noise of at most `K` times that of a single key.  A debug build panics (`C51_other_level`). -/
theorem C83_public_key (hb : b.OK) (h : build b st = Res.ok par.toBfvParameters) (hK : 0 < K) (hk : ∀ k, (sk k).IsKey par (s k)) {crp : CommonRandomPoly}
    (hctx : par.contextAtLevel i = Res.ok crp.poly.ctx) (hv : crp.poly.Valid) {rng : Fin K → Nat → Nat} (hr : ∀ k, IsStream (rng k)) :
    ∃ (share : Fin K → PublicKeyShare) (pk : PublicKey) (e : IntPoly par.degree), (∀ k, (Release.publicKeyShare (sk k) crp (rng k)).run.result = some (.ok (share k))) ∧
      (∀ σ : Equiv.Perm (Fin K), PublicKeyShare.aggregate (List.ofFn fun k => share (σ k)) = Res.ok pk) ∧
      pk.par = par ∧ pk.c.Encrypts par (∑ k, s k) i 0 (C (par.plaintext.value : Int) * e) ∧ e.Bounded (K * (2 * par.variance)) ∧ pk.c.c.length = 2 ∧ pk.c.c[1]? = some crp.poly := by
  obtain ⟨n, hw, -⟩ := build_inv hb h
  obtain ⟨l, hl, hc⟩ := ParWF.contextAtLevel_iff.1 hctx
  have ha := AtLevel.ofGet hw hl
  obtain ⟨l0, h0⟩ := AtLevel.ofLt (i := 0) hw (by have := ha.lt; omega)
  obtain ⟨A, hA, -⟩ := exists_encI ha.wf ha.deg hc.symm hv
  choose e he hs using fun k => share_other_level hw h0 ha (hk k) hA (hr k)
  have hagg : ∀ σ : Equiv.Perm (Fin K), _ := fun σ => PublicKeyShare.aggregate_eq ha hc.symm (fun _ => rfl) (F := fun k => -A * s k + e k) (ofFn_ne_nil hK σ)
  simp only [sum_ofFn_perm] at hagg
  simp only [List.map_ofFn, Function.comp_def] at hagg
  refine ⟨_, _, ∑ k, e k, hs, hagg, rfl, Ciphertext.Encrypts.intro ha rfl rfl (le_of_eq rfl) (.cons ⟨_, rfl⟩ (.cons ⟨crp.poly.vt, hA⟩ .nil)) (M := 0) (map_zero _) ?_, IntPoly.Bounded.sum_fin he, rfl, rfl⟩
  rw [phase_two, MulZeroClass.mul_zero, _root_.zero_add, Finset.sum_add_distrib, ← Finset.mul_sum]
  ring

/-- Two parties with the parameters of the examples and a common random polynomial `X^3` of level 1 make a public key of level 1. -/
example : ∃ (par : Par) (sk : SecretKey) (s e : IntPoly par.degree) (crp : CommonRandomPoly) (share : Fin 2 → PublicKeyShare) (pk : PublicKey),
    build luckyBuild exBuilder = Res.ok par.toBfvParameters ∧ (∀ k, PublicKeyShare.new sk crp exRng = Res.panic ∧ (Release.publicKeyShare sk crp exRng).run.result = some (.ok (share k))) ∧
    PublicKeyShare.aggregate (List.ofFn share) = Res.ok pk ∧ pk.c.Encrypts par (∑ _k : Fin 2, s) 1 0 (C (par.plaintext.value : Int) * e) := by
  obtain ⟨par, sk, s, pt, pt', m, m', ct, ct', v, v', h, hd, ht, hm, hrel, hk, -⟩ := exCipher
  obtain ⟨n, hw, -⟩ := build_inv luckyBuild_ok h
  obtain ⟨l, ha⟩ := AtLevel.ofLt (i := 1) hw (by rw [hm]; decide)
  have hr := represents_enc (r := .ntt) (vt := false) ha.wf (mono 3)
  obtain ⟨share, pk, e, h1, h2, -, h4, -⟩ := C83_public_key luckyBuild_ok h (K := 2) (by decide) (sk := fun _ => sk) (s := fun _ => s) (fun _ => hk) (crp := ⟨enc l.ctx .ntt false (mono 3)⟩) (i := 1)
    ha.contextAt hr.valid (rng := fun _ => exRng) (fun _ => exRng_ok)
  exact ⟨par, sk, s, e, _, share, pk, h, fun k => ⟨C51_other_level luckyBuild_ok h hk one_ne_zero ha.contextAt exRng_ok, h1 k⟩, h2 1, h4⟩

/-- Arguments at which a debug build panics. -/
example : ∃ m, Modulus.new false 97 = some (.ok m) ∧ m.pow 5 100 = none ∧ (Release.pow m 5 100).result = some (5 ^ 100 % 97) := by
  obtain ⟨m, hm⟩ : ∃ m, Modulus.new false 97 = some (.ok m) := ⟨_, rfl⟩
  have := C83_pow hm (a := 5) (n := 100) (by norm_num) (by norm_num)
  exact ⟨m, hm, this.2 (by norm_num), this.1⟩
example : generatePrime 20 2048 0 = none ∧ Release.generatePrime 20 2048 0 = some none := (C83_generate_prime (by norm_num) (by norm_num) (by norm_num) (by norm_num)).2 (Or.inl rfl)
example : defaultParameters128 luckyBuild 64 = Res.panic ∧ Release.defaultParameters128 luckyBuild 64 = Res.err (.noDefaultParameters 64) := (C83_defaults 64 (by norm_num)).2 (Or.inr le_rfl)
example : ∃ (c : Context) (p q : Poly .powerBasis) (g : c.Elem), Represents c p (mono 2) ∧ p.multiplyInversePowerOfX 101 = none ∧
    (Release.multiplyInversePowerOfX p 101).result = some q ∧ Represents c q g ∧ mono 101 * g = mono 2 := by
  obtain ⟨c, hc⟩ := exContext
  obtain ⟨p, hp, -⟩ := (C23_represents (r := .powerBasis) exBuild_ok hc).2.1 (mono 2) false
  obtain ⟨q, g, h1, h2, h3, -⟩ := C83_inverse_power exBuild_ok hc hp (k := 101) (by norm_num)
  exact ⟨c, p, q, g, hp, (C25_inverse_power exBuild_ok hc hp 101).2 (by norm_num), h1, h2, h3⟩

end Fhe.Props
