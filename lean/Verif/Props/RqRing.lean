import Verif.Props.RqCtx
/-!
# Properties C23-C25, C29, C30: polynomials as elements of `(Z/Q)[X]/(X^N+1)`

Statements are about `Represents c p f` (`Verif/Spec/Rq.lean`): the polynomial object `p` of context `c` is valid and its
coefficients, read through the API, are those of the ring element `f`.
-/
namespace Fhe.Props
open Context Poly Nega

variable {b : Build} {moduli : List Nat} {degree : Nat} {c : Context} {r : Rep}

/-! ## C23: ring operations -/

/-- C23: every valid object represents exactly one element, every element is represented in every representation, and two objects
of the same representation and timing flag that represent the same element are equal. -/
theorem C23_represents (hb : b.OK) (hc : Context.new b moduli degree = some (.ok c)) :
    (∀ p : Poly r, p.ctx = c → p.Valid → ∃! f : c.Elem, Represents c p f) ∧
    (∀ (f : c.Elem) (vt : Bool), ∃ p : Poly r, Represents c p f ∧ p.vt = vt) ∧
    (∀ (p q : Poly r) (f : c.Elem), Represents c p f → Represents c q f → p.vt = q.vt → p = q) := by
  obtain ⟨n, -, hw, -⟩ := new_inv hb hc
  have := hw.neZero
  refine ⟨fun p hp hv => ?_, fun f vt => ⟨enc c r vt f, represents_enc hw f, rfl⟩, fun p q f hp hq hvt => ?_⟩
  · obtain ⟨f, hf⟩ := exists_enc hw hp hv
    refine ⟨f, (represents_iff hw).2 hf, fun g hg => ?_⟩
    have h1 := ((represents_iff hw).2 hf).coeffs
    rw [hg.coeffs] at h1
    have h2 := List.ofFn_injective (Option.some.inj h1)
    exact Nega.ext fun j => ZMod.val_injective _ (congrFun h2 j)
  · rw [(represents_iff hw).1 hp, (represents_iff hw).1 hq, hvt]

/-- C23: addition, subtraction and negation in the power basis and in the `Ntt` representation. -/
theorem C23_add_sub_neg (hb : b.OK) (hc : Context.new b moduli degree = some (.ok c)) (hr : r ≠ .nttShoup) {p q : Poly r} {f g : c.Elem}
    (hp : Represents c p f) (hq : Represents c q g) :
    (∃ s, p.addAssign q = some s ∧ Represents c s (f + g)) ∧
    (∃ s, p.subAssign q = some s ∧ Represents c s (f - g)) ∧
    (∃ s, p.neg = some s ∧ Represents c s (-f)) := by
  obtain ⟨n, -, hw, -⟩ := new_inv hb hc
  rw [(represents_iff hw).1 hp, (represents_iff hw).1 hq]
  exact ⟨⟨_, addAssign_enc hw hr f g, represents_enc hw _⟩, ⟨_, subAssign_enc hw hr f g, represents_enc hw _⟩, ⟨_, neg_enc hw hr f, represents_enc hw _⟩⟩

/-- C23: multiplication of two `Ntt` polynomials, and of an `Ntt` by an `NttShoup` polynomial. -/
theorem C23_mul (hb : b.OK) (hc : Context.new b moduli degree = some (.ok c)) {p q : Poly .ntt} {q' : Poly .nttShoup} {f g : c.Elem}
    (hp : Represents c p f) :
    (Represents c q g → ∃ s, p.mulAssign q = some s ∧ Represents c s (f * g)) ∧
    (Represents c q' g → ∃ s, p.mulAssignShoup q' = some s ∧ Represents c s (f * g)) := by
  obtain ⟨n, -, hw, -⟩ := new_inv hb hc
  rw [(represents_iff hw).1 hp]
  constructor
  · intro hq
    rw [(represents_iff hw).1 hq]
    exact ⟨_, mulAssign_enc hw f g, represents_enc hw _⟩
  · intro hq
    rw [(represents_iff hw).1 hq]
    exact ⟨_, mulAssignShoup_enc hw f g, represents_enc hw _⟩

/-- C23: multiplication by a big integer. -/
theorem C23_scalar (hb : b.OK) (hc : Context.new b moduli degree = some (.ok c)) (hr : r ≠ .nttShoup) {p : Poly r} {f : c.Elem}
    (hp : Represents c p f) (s : Nat) : ∃ t, p.mulScalar s = some t ∧ Represents c t (Nega.const (s : ZMod c.modulus) * f) := by
  obtain ⟨n, -, hw, -⟩ := new_inv hb hc
  rw [(represents_iff hw).1 hp]
  exact ⟨_, mulScalar_enc hw hr s f, represents_enc hw _⟩

/-- C23: changing the representation does not change the element. -/
theorem C23_change (hb : b.OK) (hc : Context.new b moduli degree = some (.ok c)) {p : Poly .powerBasis} {q : Poly .ntt} {s : Poly .nttShoup} {f : c.Elem}
    (hp : Represents c p f) (hq : Represents c q f) (hs : Represents c s f) :
    (∃ t, p.intoNtt = some t ∧ Represents c t f) ∧ (∃ t, p.intoNttShoup = some t ∧ Represents c t f) ∧
    (∃ t, q.nttToPowerBasis = some t ∧ Represents c t f) ∧ (∃ t, q.nttToShoup = some t ∧ Represents c t f) ∧
    (∃ t, s.shoupToPowerBasis = some t ∧ Represents c t f) ∧ (∃ t, s.shoupToNtt = some t ∧ Represents c t f) := by
  obtain ⟨n, -, hw, -⟩ := new_inv hb hc
  rw [(represents_iff hw).1 hp, (represents_iff hw).1 hq, (represents_iff hw).1 hs]
  exact ⟨⟨_, intoNtt_enc hw f, represents_enc hw _⟩, ⟨_, intoNttShoup_enc hw f, represents_enc hw _⟩, ⟨_, nttToPowerBasis_enc hw f, represents_enc hw _⟩,
    ⟨_, nttToShoup_enc hw f, represents_enc hw _⟩, ⟨_, shoupToPowerBasis_enc hw f, represents_enc hw _⟩, ⟨_, shoupToNtt_enc f, represents_enc hw _⟩⟩

/-- C23: operands of different contexts are refused: with debug assertions the operators panic (without them see C83). -/
theorem C23_context {p q : Poly r} (h : p.ctx ≠ q.ctx) : p.addAssign q = none ∧ p.subAssign q = none := by
  constructor
  · simp [addAssign, check, h]
  · simp [subAssign, check, h]

/-- C23: the same for products. -/
theorem C23_context_mul {p q : Poly .ntt} {s : Poly .nttShoup} : (p.ctx ≠ q.ctx → p.mulAssign q = none) ∧ (p.ctx ≠ s.ctx → p.mulAssignShoup s = none) := by
  constructor
  · intro h; simp [mulAssign, check, h]
  · intro h; simp [mulAssignShoup, check, h]

/-- The ring of the statements: `X^N = -1` for `N` the degree, and products are schoolbook products. -/
theorem C23_ring {N : Nat} (hN : 0 < N) (Q : Nat) : (mono N : Nega N (ZMod Q)) = -1 ∧
    ∀ i j : Nat, (mono i * mono j : Nega N (ZMod Q)) = mono (i + j) := by
  refine ⟨?_, fun i j => (mono_add i j).symm⟩
  apply Nega.ext; intro i
  rw [Nega.neg_apply]
  change (if i.val = N % N then (if N / N % 2 = 0 then (1 : ZMod Q) else -1) else 0) = -(if i.val = 0 then 1 else 0)
  rw [Nat.mod_self, Nat.div_self hN]
  split <;> simp

example : ∃ (c : Context) (p q : Poly .ntt), Represents c p (mono 9) ∧ Represents c q (mono 12) ∧ ∃ s, p.mulAssign q = some s ∧
    Represents c s (-mono 5) := by
  obtain ⟨c, hc⟩ := exContext
  obtain ⟨p, hp, -⟩ := (C23_represents (r := .ntt) exBuild_ok hc).2.1 (mono 9) false
  obtain ⟨q, hq, -⟩ := (C23_represents (r := .ntt) exBuild_ok hc).2.1 (mono 12) true
  obtain ⟨s, hs, h⟩ := (C23_mul (q' := ⟨c, false, false, [], none⟩) exBuild_ok hc hp).1 hq
  refine ⟨c, p, q, hp, hq, s, hs, ?_⟩
  have hdeg := ((C22_new exBuild_ok).2 c hc).2.1
  have e1 := C23_ring (N := c.degree) (by rw [hdeg]; norm_num) c.modulus
  rw [e1.2, show 9 + 12 = 16 + 5 by norm_num, ← e1.2] at h
  have e2 : (mono 16 : c.Elem) = -1 := by have := e1.1; rwa [show (mono c.degree : c.Elem) = mono 16 by rw [hdeg]] at this
  rwa [e2, neg_one_mul] at h

/-! ## C24: substitution -/

/-- C24: exponents are accepted exactly when odd. -/
theorem C24_exponent (hb : b.OK) (hc : Context.new b moduli degree = some (.ok c)) (hd : degree ≤ 2 ^ 31) (e : Nat) :
    (e % 2 = 1 → ∃ s, SubstExponent.new c e = some (.ok s)) ∧
    (e % 2 = 0 → SubstExponent.new c e = some (.error (.invalidSubstitutionExponent (e % (2 * degree)) degree))) := by
  obtain ⟨n, rfl, hw, -⟩ := new_inv hb hc
  have hn : n ≤ 31 := (Nat.pow_le_pow_iff_right (by norm_num)).1 hd
  refine ⟨fun he => ⟨_, SubstExponent.new_odd hw hn he⟩, fun he => ?_⟩
  rw [← hw.level.degree]; exact SubstExponent.new_even hw he

/-- C24: in each representation, substitution yields the element `f(X^e)`. -/
theorem C24_substitute (hb : b.OK) (hc : Context.new b moduli degree = some (.ok c)) (hd : degree ≤ 2 ^ 31) {e : Nat} {s : SubstExponent}
    (hs : SubstExponent.new c e = some (.ok s)) {p : Poly r} {f : c.Elem} (hp : Represents c p f) :
    ∃ q, p.substitute s = some q ∧ Represents c q (Nega.subst e f) := by
  obtain ⟨n, rfl, hw, -⟩ := new_inv hb hc
  have hn : n ≤ 31 := (Nat.pow_le_pow_iff_right (by norm_num)).1 hd
  have he : e % 2 = 1 := by
    rcases Nat.mod_two_eq_zero_or_one e with h | h
    · rw [SubstExponent.new_even hw h] at hs; cases hs
    · exact h
  rw [(represents_iff hw).1 hp]
  exact ⟨_, substitute_enc hw hn he hs r f, represents_enc hw _⟩

/-- C24: for odd exponents `f ↦ f(X^e)` is a ring automorphism, and substitutions compose by multiplying exponents. -/
theorem C24_automorphism {n Q e : Nat} (he : e % 2 = 1) (f g : Nega (2 ^ n) (ZMod Q)) :
    Nega.subst e (f + g) = Nega.subst e f + Nega.subst e g ∧ Nega.subst e (f * g) = Nega.subst e f * Nega.subst e g ∧
    (∀ e', e' % 2 = 1 → Nega.subst e' (Nega.subst e f) = Nega.subst (e' * e) f) ∧
    ∃ e', e' % 2 = 1 ∧ Nega.subst e' (Nega.subst e f) = f := by
  refine ⟨?_, ?_, fun e' he' => subst_subst he' he f, ?_⟩
  · have := map_add (substHom e he) f g; simpa only [substHom_apply] using this
  · have := map_mul (substHom e he) f g; simpa only [substHom_apply] using this
  · have hco : Nat.Coprime e (2 * 2 ^ n) := by
      rw [← pow_succ']; exact Nat.Coprime.pow_right _ (Nat.coprime_two_right.2 (Nat.odd_iff.2 he))
    have hpos : 0 < 2 ^ n := by positivity
    obtain ⟨e', -, h1⟩ := Nat.exists_mul_mod_eq_one_of_coprime hco (by omega)
    have ho : e' % 2 = 1 := by
      have h2 : (e * e') % 2 = 1 := by rw [← Nat.mod_mul_right_mod _ 2 (2 ^ n), h1]
      rw [Nat.mul_mod, he, one_mul, Nat.mod_mod] at h2; exact h2
    refine ⟨e', ho, ?_⟩
    rw [subst_subst ho he, ← subst_mod, mul_comm e', h1, subst_one]

example : ∃ (c : Context) (s : SubstExponent) (p q : Poly .ntt), SubstExponent.new c 35 = some (.ok s) ∧ Represents c p (mono 7) ∧
    p.substitute s = some q ∧ Represents c q (mono 21) := by
  obtain ⟨c, hc⟩ := exContext
  obtain ⟨p, hp, -⟩ := (C23_represents (r := .ntt) exBuild_ok hc).2.1 (mono 7) false
  obtain ⟨s, hs⟩ := (C24_exponent exBuild_ok hc (by norm_num) 35).1 (by norm_num)
  obtain ⟨q, hq, h⟩ := C24_substitute exBuild_ok hc (by norm_num) hs hp
  refine ⟨c, s, p, q, hs, hp, hq, ?_⟩
  have hdeg := ((C22_new exBuild_ok).2 c hc).2.1
  rw [subst_mono (by norm_num), ← mono_mod] at h
  rwa [show (35 * 7) % (2 * c.degree) = 21 by rw [hdeg]] at h

/-! ## C25: multiplication by `X^(-k)` -/

/-- C25: for `k` up to twice the degree the result is the unique element whose product with `X^k` is the operand; for larger `k` the
call panics, with overflow checks (without them see `C83_inverse_power`). -/
theorem C25_inverse_power (hb : b.OK) (hc : Context.new b moduli degree = some (.ok c)) {p : Poly .powerBasis} {f : c.Elem} (hp : Represents c p f) (k : Nat) :
    (k ≤ 2 * degree → ∃ q g, p.multiplyInversePowerOfX k = some q ∧ Represents c q g ∧ mono k * g = f ∧ ∀ g' : c.Elem, mono k * g' = f → g' = g) ∧
    (2 * degree < k → p.multiplyInversePowerOfX k = none) := by
  obtain ⟨n, hdeg, hw, -⟩ := new_inv hb hc
  have hd : c.degree = degree := by rw [hw.level.degree, hdeg]
  rw [(represents_iff hw).1 hp]
  constructor
  · intro hk
    rw [← hd] at hk
    have e : ∀ g : c.Elem, mono (2 * c.degree - k) * (mono k * g) = g := fun g => by
      rw [← mul_assoc, ← mono_add, Nat.sub_add_cancel hk, mono_two_mul, one_mul]
    refine ⟨_, _, multiplyInversePowerOfX_enc hw hk f, represents_enc hw _, ?_, fun g' hg' => ?_⟩
    · rw [← mul_assoc, mul_comm (mono k), mul_assoc, e]
    · rw [← hg', e]
  · intro hk
    have hlt : c.degree <<< 1 < k := by rw [Nat.shiftLeft_eq, hd]; omega
    unfold multiplyInversePowerOfX
    simp only [enc]
    rw [show subU (c.degree <<< 1) k = none from if_neg (by omega)]
    simp [check]

example : ∃ (c : Context) (p q : Poly .powerBasis), Represents c p (mono 2) ∧ p.multiplyInversePowerOfX 5 = some q ∧ Represents c q (-mono 13) := by
  obtain ⟨c, hc⟩ := exContext
  obtain ⟨p, hp, -⟩ := (C23_represents (r := .powerBasis) exBuild_ok hc).2.1 (mono 2) false
  obtain ⟨q, g, hq, h, -, hu⟩ := (C25_inverse_power exBuild_ok hc hp 5).1 (by norm_num)
  refine ⟨c, p, q, hp, hq, ?_⟩
  have hdeg := ((C22_new exBuild_ok).2 c hc).2.1
  have e2 : (mono 16 : c.Elem) = -1 := by
    have := mono_N (N := c.degree) (R := ZMod c.modulus); rwa [show (mono c.degree : c.Elem) = mono 16 by rw [hdeg]] at this
  rw [hu (-mono 13) (by rw [mul_neg, ← mono_add, show 5 + 13 = 16 + 2 by norm_num, mono_add, e2, neg_one_mul, neg_neg])]
  exact h

/-! ## C29: conversions from and to integers -/

/-- The element with the given integer coefficients, lowest degree first; missing coefficients are `0`. -/
def elemOfInts (c : Context) (v : List Int) : c.Elem := fun j => ((v.getD j 0 : Int) : ZMod c.modulus)

/-- C29: a list of at most `degree` unsigned words is read as coefficients, reduced modulo every modulus.  The exception: a list of
exactly (number of moduli) * degree words is not reduced, see `C29_u64_raw`; longer lists are rejected. -/
theorem C29_u64 (hb : b.OK) (hc : Context.new b moduli degree = some (.ok c)) (v : List Nat) (h64 : ∀ x ∈ v, x < 2 ^ 64)
    (hne : v.length ≠ moduli.length * degree) (vt : Bool) :
    (v.length ≤ degree → ∃ p, tryFromU64 v c vt = some (.ok p) ∧ Represents c p (elemOfInts c (v.map Int.ofNat)) ∧ p.vt = vt) ∧
    (degree < v.length → tryFromU64 v c vt = some (.error (.invalidCoefficientCount v.length degree moduli.length))) := by
  obtain ⟨n, hdeg, hw, hm⟩ := new_inv hb hc
  have hd : c.degree = degree := by rw [hw.level.degree, hdeg]
  subst hm
  rw [← hd] at hne ⊢
  refine ⟨fun h => ⟨_, tryFromU64_short hw h hne h64, ?_, rfl⟩, fun h => tryFromU64_long hw (by omega) hne⟩
  rw [show elemOfInts c (v.map Int.ofNat) = ofNats c v from ?_]
  · exact represents_enc hw _
  · apply Nega.ext; intro j
    simp only [elemOfInts, ofNats, Nega.ofFn, List.getD_eq_getElem?_getD, List.getElem?_map]
    cases v[j.val]? <;> simp

/-- C29: the words of a valid object, handed back with the representation it has, rebuild it (with the requested timing flag). -/
theorem C29_u64_roundtrip (hb : b.OK) (hc : Context.new b moduli degree = some (.ok c)) (vt : Bool) {f : c.Elem}
    {p : Poly .powerBasis} {q : Poly .ntt} {s : Poly .nttShoup} (hp : Represents c p f) (hq : Represents c q f) (hs : Represents c s f) :
    tryFromU64 p.toU64 c vt = some (.ok { p with vt := vt }) ∧ tryFromU64Ntt q.toU64 c vt = some (.ok { q with vt := vt }) ∧
    tryFromU64NttShoup s.toU64 c vt = some (.ok { s with vt := vt }) := by
  obtain ⟨n, hdeg, hw, hm⟩ := new_inv hb hc
  rw [(represents_iff hw).1 hp, (represents_iff hw).1 hq, (represents_iff hw).1 hs]
  exact ⟨tryFromU64_rows hw f, tryFromU64Ntt_rows hw f, tryFromU64NttShoup_rows hw f⟩

/-- C29, a limitation of the code: a list of (number of moduli) * degree words is taken as the matrix of residues without any check,
so an object that is not valid can be built through the public API. -/
theorem C29_u64_raw (hb : b.OK) (hc : Context.new b moduli degree = some (.ok c)) :
    ∃ v p, (∀ x ∈ v, x < 2 ^ 64) ∧ tryFromU64 v c false = some (.ok p) ∧ ¬ p.Valid := by
  obtain ⟨n, hdeg, hw, hm⟩ := new_inv hb hc
  have hql : c.q.length = c.moduli.length := by rw [hw.level.q, hw.level.moduli, List.length_map, List.length_map]
  have hpos : 0 < c.degree := by rw [hw.level.degree]; positivity
  refine ⟨List.replicate (c.q.length * c.degree) (2 ^ 63), ⟨c, false, false, splitRows c.degree c.q.length (List.replicate (c.q.length * c.degree) (2 ^ 63)), none⟩,
    fun x hx => by rw [List.eq_of_mem_replicate hx]; norm_num, ?_, ?_⟩
  · unfold tryFromU64 fromShapeVec
    rw [if_pos (by simp), if_pos (by simp)]; rfl
  · intro hv
    obtain ⟨q, rest, hq⟩ : ∃ q rest, c.moduli = q :: rest := by
      cases h : c.moduli with
      | nil => rw [hw.level.moduli] at h; exact absurd (List.map_eq_nil_iff.1 h) hw.level.ne_nil
      | cons q rest => exact ⟨q, rest, rfl⟩
    have hqlt : q < 2 ^ 62 := (hw.supported.range q (by rw [hq]; simp)).2
    have h1 := hv.reduced 0 q ((List.replicate (c.q.length * c.degree) (2 ^ 63)).take c.degree) (by change c.moduli[0]? = _; rw [hq]; rfl) (by
      change (splitRows _ _ _)[0]? = _
      rw [hql, hq]; rfl) (2 ^ 63) (by
      rw [List.take_replicate]
      refine List.mem_replicate.2 ⟨?_, rfl⟩
      rw [hql, hq, List.length_cons]
      have : c.degree ≤ (rest.length + 1) * c.degree := Nat.le_mul_of_pos_left _ (by omega)
      omega)
    omega

/-- C29: a list of at most `degree` signed words is read as coefficients; longer lists are rejected. -/
theorem C29_i64 (hb : b.OK) (hc : Context.new b moduli degree = some (.ok c)) (v : List Int) (h64 : ∀ x ∈ v, -(2 ^ 63) ≤ x ∧ x < 2 ^ 63) (vt : Bool) :
    (v.length ≤ degree → ∃ p, tryFromI64 v c vt = some (.ok p) ∧ Represents c p (elemOfInts c v) ∧ p.vt = vt) ∧
    (degree < v.length → tryFromI64 v c vt = some (.error (.tooManyCoefficients v.length degree))) := by
  obtain ⟨n, hdeg, hw, hm⟩ := new_inv hb hc
  have hd : c.degree = degree := by rw [hw.level.degree, hdeg]
  rw [← hd]
  exact ⟨fun h => ⟨_, tryFromI64_eq hw h h64, represents_enc hw _, rfl⟩, fun h => tryFromI64_long (by omega)⟩

/-- C29: a list of at most `degree` big integers is read as coefficients, into each representation; longer lists are rejected. -/
theorem C29_big (hb : b.OK) (hc : Context.new b moduli degree = some (.ok c)) (v : List Nat) (vt : Bool) :
    (v.length ≤ degree → ∃ p q s, tryFromBigUint v c vt = some (.ok p) ∧ tryFromBigUintNtt v c vt = some (.ok q) ∧
      tryFromBigUintNttShoup v c vt = some (.ok s) ∧ Represents c p (elemOfInts c (v.map Int.ofNat)) ∧
      Represents c q (elemOfInts c (v.map Int.ofNat)) ∧ Represents c s (elemOfInts c (v.map Int.ofNat)) ∧ p.vt = vt ∧ q.vt = vt ∧ s.vt = vt) ∧
    (degree < v.length → tryFromBigUint v c vt = some (.error (.tooManyCoefficients v.length degree)) ∧
      tryFromBigUintNtt v c vt = some (.error (.tooManyCoefficients v.length degree)) ∧
      tryFromBigUintNttShoup v c vt = some (.error (.tooManyCoefficients v.length degree))) := by
  obtain ⟨n, hdeg, hw, hm⟩ := new_inv hb hc
  have hd : c.degree = degree := by rw [hw.level.degree, hdeg]
  rw [← hd]
  constructor
  · intro h
    rw [show elemOfInts c (v.map Int.ofNat) = ofNats c v from ?_]
    · unfold tryFromBigUintNtt tryFromBigUintNttShoup
      rw [tryFromBigUint_eq hw h]
      simp only [Option.bind_eq_bind, Option.bind_some]
      rw [intoNtt_enc hw, intoNttShoup_enc hw]
      exact ⟨_, _, _, rfl, rfl, rfl, represents_enc hw _, represents_enc hw _, represents_enc hw _, rfl, rfl, rfl⟩
    · apply Nega.ext; intro j
      simp only [elemOfInts, ofNats, Nega.ofFn, List.getD_eq_getElem?_getD, List.getElem?_map]
      cases v[j.val]? <;> simp
  · intro h
    unfold tryFromBigUintNtt tryFromBigUintNttShoup
    rw [tryFromBigUint_long (by omega)]
    exact ⟨rfl, rfl, rfl⟩

/-- C29: reading the coefficients back: the conversion to big integers of a power-basis object yields the representatives in `[0, Q)`
of the coefficients, in order; equal results mean equal elements. -/
theorem C29_read {p : Poly .powerBasis} {f : c.Elem} (hp : Represents c p f) :
    p.toBigUint = some (List.ofFn fun j : Fin c.degree => (f j).val) := hp.coeffs

example : ∃ (c : Context) (p : Poly .powerBasis), tryFromI64 [3, -1] c false = some (.ok p) ∧
    (p.toBigUint).map (·.take 3) = some [3, 97 * 193 - 1, 0] := by
  obtain ⟨c, hc⟩ := exContext
  obtain ⟨p, hp, h, -⟩ := (C29_i64 exBuild_ok hc [3, -1] (by simp) false).1 (by norm_num)
  refine ⟨c, p, hp, ?_⟩
  rw [C29_read h]
  have hdeg := ((C22_new exBuild_ok).2 c hc).2.1
  have hmod := ((C22_new exBuild_ok).2 c hc).2.2
  have key : ∀ N Q : Nat, N = 16 → Q = 97 * 193 →
      (List.ofFn fun j : Fin N => ((([3, -1] : List Int).getD j 0 : Int) : ZMod Q).val).take 3 = [3, 97 * 193 - 1, 0] := by
    rintro _ _ rfl rfl; decide +kernel
  exact congrArg some (key _ _ hdeg hmod)

/-! ## C30: the variable-time flag -/

/-- The same object with the timing flag set to `v`, by `allow_variable_time_computations` or `disallow_variable_time_computations`. -/
def timed (v : Bool) (p : Poly r) : Poly r := if v then p.allowVt else p.disallowVt

/-- C30: the flag does not change what is represented. -/
theorem C30_timed (hb : b.OK) (hc : Context.new b moduli degree = some (.ok c)) {p : Poly r} {f : c.Elem} (hp : Represents c p f) (v : Bool) :
    Represents c (timed v p) f ∧ (timed v p).vt = v := by
  obtain ⟨n, hdeg, hw, hm⟩ := new_inv hb hc
  rw [(represents_iff hw).1 hp]
  cases v <;> exact ⟨represents_enc hw f, rfl⟩

/-- C30: sums, differences and products carry the conjunction of the flags of the operands, negation, multiplication by an integer and
changes of representation keep the flag; the value never depends on the flags. -/
theorem C30_arithmetic (hb : b.OK) (hc : Context.new b moduli degree = some (.ok c)) :
    (r ≠ .nttShoup → ∀ p q : Poly r, p.ctx = c → q.ctx = c → p.Valid → q.Valid →
      (∃ s, (∀ v w, (timed v p).addAssign (timed w q) = some (timed (v && w) s)) ∧ ∃ f g, Represents c p f ∧ Represents c q g ∧ Represents c s (f + g)) ∧
      (∃ s, (∀ v w, (timed v p).subAssign (timed w q) = some (timed (v && w) s)) ∧ ∃ f g, Represents c p f ∧ Represents c q g ∧ Represents c s (f - g)) ∧
      (∃ s, (∀ v, (timed v p).neg = some (timed v s)) ∧ ∃ f, Represents c p f ∧ Represents c s (-f)) ∧
      (∀ k, ∃ s, (∀ v, (timed v p).mulScalar k = some (timed v s)) ∧ ∃ f, Represents c p f ∧ Represents c s (Nega.const (k : ZMod c.modulus) * f))) ∧
    (∀ (p q : Poly .ntt) (q' : Poly .nttShoup), p.ctx = c → q.ctx = c → q'.ctx = c → p.Valid → q.Valid → q'.Valid →
      (∃ s, (∀ v w, (timed v p).mulAssign (timed w q) = some (timed (v && w) s)) ∧ ∃ f g, Represents c p f ∧ Represents c q g ∧ Represents c s (f * g)) ∧
      (∃ s, (∀ v w, (timed v p).mulAssignShoup (timed w q') = some (timed (v && w) s)) ∧
        ∃ f g, Represents c p f ∧ Represents c q' g ∧ Represents c s (f * g)) ∧
      (∃ s, (∀ v, (timed v p).nttToPowerBasis = some (timed v s)) ∧ ∃ f, Represents c p f ∧ Represents c s f) ∧
      (∃ s, (∀ v, (timed v p).nttToShoup = some (timed v s)) ∧ ∃ f, Represents c p f ∧ Represents c s f) ∧
      (∃ s, (∀ v, (timed v q').shoupToNtt = some (timed v s)) ∧ ∃ f, Represents c q' f ∧ Represents c s f) ∧
      (∃ s, (∀ v, (timed v q').shoupToPowerBasis = some (timed v s)) ∧ ∃ f, Represents c q' f ∧ Represents c s f)) ∧
    (∀ p : Poly .powerBasis, p.ctx = c → p.Valid →
      (∃ s, (∀ v, (timed v p).intoNtt = some (timed v s)) ∧ ∃ f, Represents c p f ∧ Represents c s f) ∧
      (∃ s, (∀ v, (timed v p).intoNttShoup = some (timed v s)) ∧ ∃ f, Represents c p f ∧ Represents c s f)) := by
  obtain ⟨n, hdeg, hw, hm⟩ := new_inv hb hc
  have ht : ∀ (r : Rep) (v vt : Bool) (f : c.Elem), timed v (enc c r vt f) = enc c r v f := fun r v vt f => by cases v <;> rfl
  refine ⟨fun hr p q hpc hqc hp hq => ?_, fun p q q' hpc hqc hqc' hp hq hq' => ?_, fun p hpc hp => ?_⟩
  · obtain ⟨f, hf⟩ := exists_enc hw hpc hp
    obtain ⟨g, hg⟩ := exists_enc hw hqc hq
    have hfr := (represents_iff hw).2 hf
    have hgr := (represents_iff hw).2 hg
    refine ⟨⟨enc c r false (f + g), fun v w => ?_, f, g, hfr, hgr, represents_enc hw _⟩, ⟨enc c r false (f - g), fun v w => ?_, f, g, hfr, hgr, represents_enc hw _⟩,
      ⟨enc c r false (-f), fun v => ?_, f, hfr, represents_enc hw _⟩, fun k => ⟨enc c r false (C (k : ZMod c.modulus) * f), fun v => ?_, f, hfr, represents_enc hw _⟩⟩
    · rw [hf, hg, ht, ht, ht, addAssign_enc hw hr]
    · rw [hf, hg, ht, ht, ht, subAssign_enc hw hr]
    · rw [hf, ht, ht, neg_enc hw hr]
    · rw [hf, ht, ht, mulScalar_enc hw hr]
  · obtain ⟨f, hf⟩ := exists_enc hw hpc hp
    obtain ⟨g, hg⟩ := exists_enc hw hqc hq
    obtain ⟨g', hg'⟩ := exists_enc hw hqc' hq'
    have hfr := (represents_iff hw).2 hf
    have hgr := (represents_iff hw).2 hg
    have hgr' := (represents_iff hw).2 hg'
    refine ⟨⟨enc c _ false (f * g), fun v w => ?_, f, g, hfr, hgr, represents_enc hw _⟩, ⟨enc c _ false (f * g'), fun v w => ?_, f, g', hfr, hgr', represents_enc hw _⟩,
      ⟨enc c _ false f, fun v => ?_, f, hfr, represents_enc hw _⟩, ⟨enc c _ false f, fun v => ?_, f, hfr, represents_enc hw _⟩,
      ⟨enc c _ false g', fun v => ?_, g', hgr', represents_enc hw _⟩, ⟨enc c _ false g', fun v => ?_, g', hgr', represents_enc hw _⟩⟩
    · rw [hf, hg, ht, ht, ht, mulAssign_enc hw]
    · rw [hf, hg', ht, ht, ht, mulAssignShoup_enc hw]
    · rw [hf, ht, ht, nttToPowerBasis_enc hw]
    · rw [hf, ht, ht, nttToShoup_enc hw]
    · rw [hg', ht, ht, shoupToNtt_enc]
    · rw [hg', ht, ht, shoupToPowerBasis_enc hw]
  · obtain ⟨f, hf⟩ := exists_enc hw hpc hp
    have hfr := (represents_iff hw).2 hf
    refine ⟨⟨enc c _ false f, fun v => ?_, f, hfr, represents_enc hw _⟩, ⟨enc c _ false f, fun v => ?_, f, hfr, represents_enc hw _⟩⟩
    · rw [hf, ht, ht, intoNtt_enc hw]
    · rw [hf, ht, ht, intoNttShoup_enc hw]

/-- C30: a newly created zero polynomial does not allow variable-time computations, and neither does a sum, difference or product
with an operand that does not. -/
theorem C30_default (c : Context) : (Poly.zero r c).vt = false ∧ ∀ v, (timed v (Poly.zero r c)).vt = v := ⟨rfl, fun v => by cases v <;> rfl⟩

/-- C30: substitution, multiplication by `X^(-k)` and modulus switching keep the flag, and their values do not depend on it. -/
theorem C30_other (hb : b.OK) (hc : Context.new b moduli degree = some (.ok c)) :
    (degree ≤ 2 ^ 31 → ∀ (e : Nat) (s : SubstExponent), SubstExponent.new c e = some (.ok s) → ∀ p : Poly r, p.ctx = c → p.Valid →
      ∃ q, ∀ v, (timed v p).substitute s = some (timed v q)) ∧
    (∀ p : Poly .powerBasis, p.ctx = c → p.Valid → ∀ k ≤ 2 * degree, ∃ q, ∀ v, (timed v p).multiplyInversePowerOfX k = some (timed v q)) ∧
    (∀ p : Poly .powerBasis, p.ctx = c → p.Valid → moduli.length ≥ 2 → ∃ q, ∀ v, (timed v p).switchDown = some (.ok (timed v q))) := by
  obtain ⟨n, hdeg, hw, hm⟩ := new_inv hb hc
  have ht : ∀ (r : Rep) (v vt : Bool) (f : c.Elem), timed v (enc c r vt f) = enc c r v f := fun r v vt f => by cases v <;> rfl
  refine ⟨fun hd e s hs p hpc hp => ?_, fun p hpc hp k hk => ?_, fun p hpc hp hl => ?_⟩
  · obtain ⟨f, hf⟩ := exists_enc hw hpc hp
    have hn : n ≤ 31 := (Nat.pow_le_pow_iff_right (by norm_num)).1 (hdeg ▸ hd)
    have he : e % 2 = 1 := by
      rcases Nat.mod_two_eq_zero_or_one e with h | h
      · rw [SubstExponent.new_even hw h] at hs; cases hs
      · exact h
    refine ⟨enc c r false (subst e f), fun v => ?_⟩
    rw [hf, ht, ht, substitute_enc hw hn he hs]
  · obtain ⟨f, hf⟩ := exists_enc hw hpc hp
    refine ⟨enc c _ false (mono (2 * c.degree - k) * f), fun v => ?_⟩
    rw [hf, ht, ht, multiplyInversePowerOfX_enc hw (by rw [hw.level.degree, ← hdeg]; exact hk)]
  · obtain ⟨f, hf⟩ := exists_enc hw hpc hp
    subst hm
    obtain ⟨t, h1, h2, h3, h4⟩ := switchDownLoop_enc (vt := false) hw (i := 1) (by omega) f
    have ht' : ∀ (r : Rep) (v vt : Bool) (f : t.Elem), timed v (enc t r vt f) = enc t r v f := fun r v vt f => by cases v <;> rfl
    have hnx : c.next = some t := by
      cases h : c.next with
      | none => rw [descend, h] at h1; cases h1
      | some t' => rw [descend, h] at h1; exact h1
    refine ⟨enc t _ false (roundDiv t.degree t.modulus (c.moduli.getLastD 0) f), fun v => ?_⟩
    rw [hf, ht, ht', switchDown_enc hw hnx h2 (by rw [h3, List.dropLast_eq_take])]

example : ∃ (p q s : Poly .ntt), p.vt = true ∧ q.vt = false ∧ p.mulAssign q = some s ∧ s.vt = false := by
  obtain ⟨c, hc⟩ := exContext
  obtain ⟨p, hp, hpv⟩ := (C23_represents (r := .ntt) exBuild_ok hc).2.1 (mono 7) true
  obtain ⟨q, hq, hqv⟩ := (C23_represents (r := .ntt) exBuild_ok hc).2.1 (mono 7) false
  obtain ⟨s', hs', -⟩ := (C23_represents (r := .nttShoup) exBuild_ok hc).2.1 (mono 7) false
  obtain ⟨⟨s, hs, -⟩, -⟩ := (C30_arithmetic (r := .ntt) exBuild_ok hc).2.1 p q s' hp.ctx hq.ctx hs'.ctx hp.valid hq.valid hs'.valid
  refine ⟨timed true p, timed false q, timed false s, rfl, rfl, hs true false, rfl⟩

end Fhe.Props
