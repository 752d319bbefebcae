import Verif.Props.BfvMul
import Verif.Lemmas.BfvRelin
/-!
# Properties C40, C41 and C42: key switching, relinearization and Galois keys
-/
namespace Fhe.Props
open Nega Poly ParamsBuilder Ciphertext

variable {b : Build} {par : Par} {st : ParamsBuilder} {s F : IntPoly par.degree} {sk : SecretKey} {i j e x : Nat} {ct ct' : Ciphertext} {m m' : par.Msg} {v v' : IntPoly par.degree}

/-! ## C40: key switching -/

/-- C40: a new key-switching key, for ciphertexts of level `i` and with the key at level `j`, switches from the polynomial `F` it was made
of, with errors of at most `2 variance` — with the residues as digits if the level of the key has several moduli, and otherwise, at the last
level, with digits in base `2^logBase`. -/
theorem C40_new (hb : b.OK) (h : build b st = Res.ok par.toBfvParameters) (hk : sk.IsKey par s) {g : Prg} (hg : g.OK) (hi : i < par.moduli.length) (hj : j < par.moduli.length)
    (hone : j + 1 = par.moduli.length → i = j) {p : Poly .powerBasis} {ctx : Context} (hctx : par.contextAtLevel j = Res.ok ctx) (hp : p.IsMod ctx F) (seed : Seed)
    {rngs : Nat → Nat → Nat} (hr : ∀ i, IsStream (rngs i)) :
    ∃ (k : KeySwitchingKey) (E : List (IntPoly par.degree)), KeySwitchingKey.new b g sk p i j seed rngs = Res.ok k ∧ k.Switches par s F E ∧ (∀ e ∈ E, e.Bounded (2 * par.variance)) ∧
      k.ciphertextLevel = i ∧ k.kskLevel = j ∧ (k.logBase = 0 ↔ j + 1 < par.moduli.length) := by
  obtain ⟨n, hw, -⟩ := build_inv hb h
  obtain ⟨l, ha⟩ := AtLevel.ofLt (par := par) hw hi
  obtain ⟨l', ha'⟩ := AtLevel.ofLt (par := par) hw hj
  have hlen' := ha'.length
  rw [ha'.contextAt, Res.ok_inj] at hctx
  subst hctx
  rw [(isMod_iff ha'.wf ha'.deg).1 hp]
  obtain ⟨k, E, e1, e2, e3, e4, e5, -, -, -, e9⟩ := KeySwitchingKey.new_eq hw hk hg ha ha' (fun h1 => hone (by omega)) p.vt F seed hr
  exact ⟨k, E, e1, e2, e3, e4, e5, e9.trans (by omega)⟩

/-- C40: switching a polynomial `X` modulo the modulus of the ciphertexts.  `c0 + c1 s` is exactly `F X'` plus the digits times the errors
of the key, modulo the modulus of the level of the key, where `X'` is a polynomial congruent to `X` modulo that of the ciphertexts: the
recombination of the digits, which are the residues of `X` or its digits in base `2^logBase`.  The variant that writes into two buffers gives
the same result, whatever they held. -/
theorem C40_key_switch (hb : b.OK) (h : build b st = Res.ok par.toBfvParameters) {k : KeySwitchingKey} {E : List (IntPoly par.degree)} (hk : k.Switches par s F E) {X : IntPoly par.degree}
    {p : Poly .powerBasis} (hp : p.IsMod k.ctxCiphertext X) :
    ∃ (c0 c1 : Poly .ntt) (A B X' : IntPoly par.degree) (D : List (IntPoly par.degree)), k.keySwitch p = Res.ok (c0, c1) ∧ c0.IsMod k.ctxKsk A ∧ c1.IsMod k.ctxKsk B ∧
      A + B * s = X' * F + IntPoly.dot D E ∧ (∀ t, (par.modulusAt k.ciphertextLevel : Int) ∣ X' t - X t) ∧ D.length = E.length ∧
      (∀ (i : Nat) (d : IntPoly par.degree), D[i]? = some d → ∀ t, 0 ≤ d t ∧ d t < k.digitBound i) ∧
      ∀ o0 o1 : Poly .ntt, o0.Valid → o1.Valid → k.keySwitchAssign p o0 o1 = Res.ok (c0, c1) := by
  obtain ⟨n, hw, -⟩ := build_inv hb h
  obtain ⟨l, hl, hc⟩ := ParWF.contextAtLevel_iff.1 hk.ctx
  obtain ⟨l', hl', hc'⟩ := ParWF.contextAtLevel_iff.1 hk.ctxKsk
  have ha := AtLevel.ofGet hw hl
  have ha' := AtLevel.ofGet hw hl'
  have hwf : k.ctxCiphertext.WF b n := by rw [← hc]; exact ha.wf
  have hwf' : k.ctxKsk.WF b n := by rw [← hc']; exact ha'.wf
  have hN : k.ctxCiphertext.degree = par.degree := by rw [← hc]; exact ha.deg
  have hN' : k.ctxKsk.degree = par.degree := by rw [← hc']; exact ha'.deg
  rw [(isMod_iff hwf hN).1 hp]
  obtain ⟨D, A, B, H, v0, v1, e1, e2, e3, e4, e5⟩ := KeySwitchingKey.keySwitch_eq hw hk p.vt X
  refine ⟨_, _, A, B, _, D, e1, isMod_encI hwf' hN' A, isMod_encI hwf' hN' B, e2, fun t => ?_, e3, e4, fun o0 o1 h0 h1 => (e5 o0 o1 h0 h1).trans e1⟩
  rw [Nega.add_apply, add_sub_cancel_left, C_mul_apply, ← hc, ha.mod]
  exact dvd_mul_right _ _

/-- C40: a polynomial of any other context is rejected, by both variants. -/
theorem C40_mismatch {k : KeySwitchingKey} {p : Poly .powerBasis} (hp : p.ctx ≠ k.ctxCiphertext) (o0 o1 : Poly .ntt) :
    k.keySwitch p = Res.err (.parameterMismatch .polynomial .keySwitchingKey) ∧ k.keySwitchAssign p o0 o1 = Res.err (.parameterMismatch .polynomial .keySwitchingKey) := by
  unfold KeySwitchingKey.keySwitch KeySwitchingKey.keySwitchAssign KeySwitchingKey.keySwitchDecomposition
  simp only [if_pos hp, ite_self, and_self]

/-- C40: no key is made from a polynomial of another context than that of the level of the key. -/
theorem C40_new_mismatch {g : Prg} {ctx ctx' : Context} (hctx : sk.par.contextAtLevel j = Res.ok ctx) (hctx' : sk.par.contextAtLevel i = Res.ok ctx') {p : Poly .powerBasis} (hp : p.ctx ≠ ctx) (seed : Seed)
    (rngs : Nat → Nat → Nat) : KeySwitchingKey.new b g sk p i j seed rngs = Res.err (.parameterMismatch .polynomial .keySwitchingKey) := by
  unfold KeySwitchingKey.new
  simp only []
  rw [hctx, Res.ok_bind, hctx', Res.ok_bind, if_pos hp]

/-! ## C41: relinearization -/

/-- C41: relinearization keys can be made for every ciphertext level at or below the level of the key, provided this has more than one
modulus; otherwise the constructor returns an error. -/
theorem C41_new (hb : b.OK) (h : build b st = Res.ok par.toBfvParameters) (h64 : par.moduli.length ≤ 64) (hk : sk.IsKey par s) {g : Prg} (hg : g.OK) (seed : Seed)
    {rngs : Nat → Nat → Nat} (hr : ∀ i, IsStream (rngs i)) :
    (i < par.moduli.length → j ≤ i → j + 1 < par.moduli.length → ∃ k, RelinearizationKey.newLeveled b g sk i j seed rngs = Res.ok k ∧ k.IsFor par s i j (2 * par.variance) ∧
      k.ksk.digitSum = (par.moduli.take (par.moduli.length - i)).sum) ∧
    (i < par.moduli.length → j + 1 = par.moduli.length → RelinearizationKey.newLeveled b g sk i j seed rngs = Res.err .keySwitchingNotSupported) ∧
    (par.moduli.length ≤ i ∨ par.moduli.length ≤ j → ∃ e, RelinearizationKey.newLeveled b g sk i j seed rngs = Res.err e) := by
  obtain ⟨n, hw, -⟩ := build_inv hb h
  refine ⟨fun hi hij hone => ?_, fun hi hj => ?_, fun hij => ?_⟩
  · obtain ⟨k, e1, e2, -, -, -, e3⟩ := RelinearizationKey.newLeveled_eq hw h64 hk hg hi hij hone seed hr
    exact ⟨k, e1, e2, KeySwitchingKey.IsFor.digitSum_eq hw e2 e3⟩
  · obtain ⟨l, ha⟩ := AtLevel.ofLt (par := par) hw hi
    obtain ⟨l', ha'⟩ := AtLevel.ofLt (par := par) hw (i := j) (by omega)
    have := ha'.length
    unfold RelinearizationKey.newLeveled
    rw [hk.par_eq, ha'.contextAt, Res.ok_bind, ha.contextAt, Res.ok_bind, if_pos (by omega)]
  · have hbad : ∀ t, par.moduli.length ≤ t → ∃ e, par.contextAtLevel t = Res.err e := fun t ht => contextAtLevel_err hw ht
    unfold RelinearizationKey.newLeveled
    rw [hk.par_eq]
    by_cases hj : par.moduli.length ≤ j
    · obtain ⟨e, he⟩ := hbad j hj
      exact ⟨e, by rw [he, Res.err_bind]⟩
    · obtain ⟨l', ha'⟩ := AtLevel.ofLt (par := par) hw (i := j) (by omega)
      obtain ⟨e, he⟩ := hbad i (by omega)
      exact ⟨e, by rw [ha'.contextAt, Res.ok_bind, he, Res.err_bind]⟩

/-- C41: relinearizing a ciphertext of three parts gives one of two parts that encrypts the same message; the noise grows by `t W`, where `W`
is bounded by the errors in the key. -/
theorem C41_relinearize (hb : b.OK) (h : build b st = Res.ok par.toBfvParameters) {k : RelinearizationKey} (hk : k.IsFor par s i j e) (h1 : ct.Encrypts par s i m v) (h3 : ct.c.length = 3) :
    ∃ (r : Ciphertext) (W : IntPoly par.degree), k.relinearizes ct = Res.ok r ∧ r.Encrypts par s i m (v + C (par.plaintext.value : Int) * W) ∧ r.c.length = 2 ∧
      ∀ S, s.Bounded S → W.Bounded (k.ksk.errorBound par S e) := by
  obtain ⟨n, hw, -⟩ := build_inv hb h
  obtain ⟨r, W, e1, e2, e3, -, e4⟩ := RelinearizationKey.relinearizes_eq hw hk h1 h3
  exact ⟨r, W, e1, e2, e3, e4⟩

/-- C41: relinearization keeps the seed of the ciphertext, although the second part is no longer derived from it; products have no seed. -/
theorem C41_seed {k : RelinearizationKey} {r : Ciphertext} (h1 : k.relinearizes ct = Res.ok r) : r.seed = ct.seed := by
  unfold RelinearizationKey.relinearizes at h1
  simp only [Res.bind_eq_ok] at h1
  obtain ⟨_, _, h1⟩ := h1
  match hc : ct.c with
  | [x0, x1, x2] =>
    simp only [hc] at h1
    by_cases hl : ct.level ≠ k.ksk.ciphertextLevel
    · rw [if_pos hl] at h1; exact absurd h1 Res.err_ne_ok
    · rw [if_neg hl] at h1
      simp only [Res.bind_eq_ok] at h1
      obtain ⟨_, _, _, _, _, _, _, _, _, _, h1⟩ := h1
      rw [Res.pure_eq, Res.ok_inj] at h1
      rw [← h1]
  | [] => simp only [hc] at h1; exact absurd h1 Res.err_ne_ok
  | [_] => simp only [hc] at h1; exact absurd h1 Res.err_ne_ok
  | [_, _] => simp only [hc] at h1; exact absurd h1 Res.err_ne_ok
  | _ :: _ :: _ :: _ :: _ => simp only [hc] at h1; exact absurd h1 Res.err_ne_ok

/-- C41, C48: on ciphertexts of valid polynomials relinearization never panics.  It succeeds exactly on those that `validate_for` accepts,
that have three parts and are at the level of the key. -/
theorem C41_rejects (hb : b.OK) (h : build b st = Res.ok par.toBfvParameters) {k : RelinearizationKey} (hk : k.IsFor par s i j e) (hpar : ct.par.ptrEq par = true → ct.par = par)
    (hv : ∀ p ∈ ct.c, p.Valid) :
    k.relinearizes ct ≠ Res.panic ∧ ((∃ r, k.relinearizes ct = Res.ok r) ↔ ct.validateFor par = Res.ok () ∧ ct.c.length = 3 ∧ ct.level = i) := by
  obtain ⟨n, hw, -⟩ := build_inv hb h
  obtain ⟨l, ha, hc, hp, -⟩ := KeySwitchingKey.IsFor.pair hw hk
  have hlevel : k.ksk.ciphertextLevel = i := hk.level
  obtain ⟨hnp, hiff⟩ := C48_validate hb h ct
  by_cases hgood : ct.validateFor par = Res.ok () ∧ ct.c.length = 3 ∧ ct.level = i
  · obtain ⟨g1, g2, g3⟩ := hgood
    obtain ⟨f1, f2, f3, f4⟩ := hiff.1 g1
    obtain ⟨m, v, he⟩ := Ciphertext.exists_encrypts hw s (hpar f1) f2 f3 f4 hv
    rw [g3] at he
    obtain ⟨r, W, e1, -⟩ := RelinearizationKey.relinearizes_eq hw hk he g2
    exact ⟨by rw [e1]; exact Res.noPanic_ok _, fun _ => ⟨g1, g2, g3⟩, fun _ => ⟨r, e1⟩⟩
  · have : ∃ e, k.relinearizes ct = Res.err e := by
      unfold RelinearizationKey.relinearizes
      rw [hp]
      rcases Res.cases (ct.validateFor par) with ⟨u, hu⟩ | ⟨e, hu⟩ | hu
      · rw [hu, Res.ok_bind]
        split
        · rename_i x0 x1 x2 hx
          rw [hlevel]
          by_cases hl : ct.level ≠ i
          · exact ⟨_, by rw [if_pos hl]⟩
          · exact absurd ⟨hu, by rw [hx]; rfl, by simpa using hl⟩ hgood
        · exact ⟨_, rfl⟩
      · exact ⟨e, by rw [hu, Res.err_bind]⟩
      · exact absurd hu hnp
    obtain ⟨e, he⟩ := this
    rw [he]
    exact ⟨Res.noPanic_err _, fun ⟨r, hr⟩ => absurd hr Res.err_ne_ok, fun hg => absurd hg hgood⟩

/-! ## C42: Galois keys -/

/-- C42: a Galois key can be made for every odd exponent, for ciphertexts at or below the level of the key; if that is the last level, for
ciphertexts of the last level only. -/
theorem C42_new (hb : b.OK) (h : build b st = Res.ok par.toBfvParameters) (h64 : par.moduli.length ≤ 64) (hk : sk.IsKey par s) {g : Prg} (hg : g.OK) (seed : Seed)
    {rngs : Nat → Nat → Nat} (hr : ∀ i, IsStream (rngs i)) (hi : i < par.moduli.length) (hj : j < par.moduli.length) :
    (x % 2 = 1 → j ≤ i → (j + 1 = par.moduli.length → i = j) → ∃ k, GaloisKey.new b g sk x i j seed rngs = Res.ok k ∧ k.IsFor par s x i j (2 * par.variance) ∧
      (k.ksk.logBase = 0 ↔ j + 1 < par.moduli.length) ∧ (j + 1 < par.moduli.length → k.ksk.digitSum = (par.moduli.take (par.moduli.length - i)).sum)) ∧
    (x % 2 = 0 → GaloisKey.new b g sk x i j seed rngs = Res.err (.math (.invalidSubstitutionExponent (x % (2 * par.degree)) par.degree))) := by
  obtain ⟨n, hw, -⟩ := build_inv hb h
  refine ⟨fun hx hij hone => ?_, fun hx => ?_⟩
  · obtain ⟨k, e1, e2, -, -, -, e3⟩ := GaloisKey.new_eq hw h64 hk hg hi hij hone hx seed hr
    exact ⟨k, e1, e2, e3, fun h1 => KeySwitchingKey.IsFor.digitSum_eq hw e2.switches (e3.2 h1)⟩
  · obtain ⟨l, ha⟩ := AtLevel.ofLt (par := par) hw hi
    obtain ⟨l', ha'⟩ := AtLevel.ofLt (par := par) hw hj
    unfold GaloisKey.new
    rw [hk.par_eq, ha'.contextAt, Res.ok_bind, ha.contextAt, Res.ok_bind, SubstExponent.new_even ha.wf hx, Res.math_err, Res.err_bind, ha.deg]

/-- C42: applying the key to a ciphertext of two parts substitutes `X^x` for `X` in the message and in the noise, and adds `t W` to it.  The
variant that reuses a ciphertext of valid polynomials for the result gives the same. -/
theorem C42_galois (hb : b.OK) (h : build b st = Res.ok par.toBfvParameters) {k : GaloisKey} (hk : k.IsFor par s x i j e) (h1 : ct.Encrypts par s i m v) (h2 : ct.c.length = 2) :
    ∃ (r : Ciphertext) (W : IntPoly par.degree), k.relinearize ct = Res.ok r ∧ (∀ out : Ciphertext, (∀ p ∈ out.c, p.Valid) → k.relinearizeInto ct out = Res.ok r) ∧
      r.Encrypts par s i (Nega.subst x m) (Nega.subst x v + C (par.plaintext.value : Int) * W) ∧ r.c.length = 2 ∧ r.seed = none ∧
      ∀ S, s.Bounded S → W.Bounded (k.ksk.errorBound par S e) := by
  obtain ⟨n, hw, -⟩ := build_inv hb h
  exact GaloisKey.relinearize_eq hw hk h1 h2

/-- C42, C48: on ciphertexts of valid polynomials the operation never panics, and succeeds exactly on those that `validate_for` accepts, that
have two parts and are at the level of the key. -/
theorem C42_rejects (hb : b.OK) (h : build b st = Res.ok par.toBfvParameters) {k : GaloisKey} (hk : k.IsFor par s x i j e) (hpar : ct.par.ptrEq par = true → ct.par = par)
    (hv : ∀ p ∈ ct.c, p.Valid) :
    k.relinearize ct ≠ Res.panic ∧ ((∃ r, k.relinearize ct = Res.ok r) ↔ ct.validateFor par = Res.ok () ∧ ct.c.length = 2 ∧ ct.level = i) := by
  obtain ⟨n, hw, -⟩ := build_inv hb h
  obtain ⟨l, ha, hc, hp, -⟩ := KeySwitchingKey.IsFor.pair hw hk.switches
  have hlevel : k.ksk.ciphertextLevel = i := hk.switches.level
  obtain ⟨hnp, hiff⟩ := C48_validate hb h ct
  by_cases hgood : ct.validateFor par = Res.ok () ∧ ct.c.length = 2 ∧ ct.level = i
  · obtain ⟨g1, g2, g3⟩ := hgood
    obtain ⟨f1, f2, f3, f4⟩ := hiff.1 g1
    obtain ⟨m, v, he⟩ := Ciphertext.exists_encrypts hw s (hpar f1) f2 f3 f4 hv
    rw [g3] at he
    obtain ⟨r, W, e1, -⟩ := GaloisKey.relinearize_eq hw hk he g2
    exact ⟨by rw [e1]; exact Res.noPanic_ok _, fun _ => ⟨g1, g2, g3⟩, fun _ => ⟨r, e1⟩⟩
  · have : ∃ e, k.validateCiphertext ct = Res.err e := by
      unfold GaloisKey.validateCiphertext
      rw [hp]
      rcases Res.cases (ct.validateFor par) with ⟨u, hu⟩ | ⟨e, hu⟩ | hu
      · rw [hu, Res.ok_bind]
        split
        · rename_i x0 x1 hx
          rw [hlevel]
          by_cases hl : ct.level ≠ i
          · exact ⟨_, by rw [if_pos hl]⟩
          · exact absurd ⟨hu, by rw [hx]; rfl, by simpa using hl⟩ hgood
        · exact ⟨_, rfl⟩
      · exact ⟨e, by rw [hu, Res.err_bind]⟩
      · exact absurd hu hnp
    obtain ⟨e, he⟩ := this
    unfold GaloisKey.relinearize
    rw [he, Res.err_bind]
    exact ⟨Res.noPanic_err _, fun ⟨r, hr⟩ => absurd hr Res.err_ne_ok, fun hg => absurd hg hgood⟩

/-- C42: what the substitution does to the slots: an exponent congruent to `3^k` modulo `2N` rotates both rows by `k` columns, and an exponent
congruent to `2N - 1` exchanges the rows.  Stated on what the decoder of the slots returns. -/
theorem C42_slots (hb : b.OK) (h : build b st = Res.ok par.toBfvParameters) (hop : par.nttOperator ≠ none) {pt pt' : Plaintext} {lv lv' : Nat} (hm : pt.Holds par i m)
    (hm' : pt'.Holds par j (Nega.subst x m)) (he : pt.encoding = none ∨ pt.encoding = some ⟨.simd, lv⟩) (he' : pt'.encoding = none ∨ pt'.encoding = some ⟨.simd, lv'⟩) :
    ∃ v : List Nat, v.length = par.degree ∧ pt.decodeU64 (some ⟨.simd, lv⟩) = Res.ok v ∧
      (∀ k, x % (2 * par.degree) = 3 ^ k % (2 * par.degree) → pt'.decodeU64 (some ⟨.simd, lv'⟩) = Res.ok ((List.range par.degree).map fun i => v.getD (rotateColumns par.degree k i) 0)) ∧
      (x % (2 * par.degree) = 2 * par.degree - 1 → pt'.decodeU64 (some ⟨.simd, lv'⟩) = Res.ok ((List.range par.degree).map fun i => v.getD (swapRows par.degree i) 0)) := by
  obtain ⟨n, hw, -⟩ := build_inv hb h
  obtain ⟨ζ, hζ, -⟩ := Plaintext.slots_inj hw hop
  have hneg := hζ.neg_one hw hop
  have hsm := Plaintext.small_of_op hw hop
  have ht := hw.t_pos
  have : NeZero par.plaintext.value := ⟨by omega⟩
  have hn : 3 ≤ n := hw.three_le
  have hN := hw.degree
  have h64 : ∀ m : par.Msg, ∀ x ∈ msgCoeffs m, x < 2 ^ 64 := fun m x hx => by have := msgCoeffs_lt m x hx; omega
  have dec : ∀ {pt : Plaintext} {level lv : Nat} {m : par.Msg}, pt.Holds par level m → (pt.encoding = none ∨ pt.encoding = some ⟨.simd, lv⟩) →
      pt.decodeU64 (some ⟨.simd, lv⟩) = Res.ok (tab par.degree fun i => (slotValue ζ m i).val) := by
    intro pt level lv m hm he
    have he' : pt.resolveEncoding (some ⟨.simd, lv⟩) = Res.ok ⟨.simd, lv⟩ :=
      Plaintext.resolveEncoding_ok (by rcases he with he | he <;> [exact Or.inr ⟨he, rfl⟩; exact Or.inl ⟨he, Or.inr rfl⟩])
    rw [Plaintext.decodeU64_eq hw hζ hm he' (fun _ => hop) (h64 _)]
    rfl
  refine ⟨_, length_tab _ _, dec hm he, fun k hk => ?_, fun hk => ?_⟩
  · rw [dec hm' he', Res.ok_inj]
    refine List.map_congr_left fun i hi => ?_
    have hi' : i < par.degree := by simpa using hi
    have hlt : rotateColumns par.degree k i < par.degree := rotateColumns_lt (by omega) hN
    rw [slot_subst hneg (by omega) hN x m i _ (slotPower_rotate (by omega) hN hk i), NttOperator.tab_getD _ hlt]
  · rw [dec hm' he', Res.ok_inj]
    refine List.map_congr_left fun i hi => ?_
    have hi' : i < par.degree := by simpa using hi
    have hlt : swapRows par.degree i < par.degree := Nat.mod_lt _ (by omega)
    rw [slot_subst hneg (by omega) hN x m i _ (slotPower_swap (by omega) hN hk hi'), NttOperator.tab_getD _ hlt]

/-- At the parameters of `exCipher`: a product of the two ciphertexts, relinearized with a key of the first level, decrypts to the product of
the messages; a rotation of a ciphertext one level down, with a key of the first level, decrypts to the rotated message; and a key of the last
level has digits in base 8. -/
example : ∃ (par : Par) (sk : SecretKey) (m m' : par.Msg) (ct ct' : Ciphertext), msgCoeffs m = [1, 2, 16, 0, 0, 0, 0, 0] ∧ msgCoeffs m' = [5, 4, 3, 0, 0, 0, 0, 0] ∧ par.nttOperator ≠ none ∧
    (∃ k r r' pt, RelinearizationKey.newLeveled luckyBuild exPrg sk 0 0 (List.replicate 32 3) (fun _ => exRng) = Res.ok k ∧ ct.mul ct' = some r ∧ k.relinearizes r = Res.ok r' ∧ r'.c.length = 2 ∧
      sk.tryDecrypt luckyBuild r' = Res.ok pt ∧ pt.Holds par 0 (m * m')) ∧
    (∃ k r r' pt, GaloisKey.new luckyBuild exPrg sk 3 1 0 (List.replicate 32 3) (fun _ => exRng) = Res.ok k ∧ ct.switchDown = Res.ok r ∧ k.relinearize r = Res.ok r' ∧
      sk.tryDecrypt luckyBuild r' = Res.ok pt ∧ pt.Holds par 1 (Nega.subst 3 m)) ∧
    ∃ k, GaloisKey.new luckyBuild exPrg sk 15 2 2 (List.replicate 32 3) (fun _ => exRng) = Res.ok k ∧ k.ksk.logBase ≠ 0 := by
  obtain ⟨par, sk, s, pt, pt', m, m', ct, ct', v, v', h, hd, ht, hm, hrel, hk, hs, e2, e2', em, em', f1, f1', f2, f2', f3, f3', f4, f4', f5, f6, h0, hvar⟩ := exCipher
  have hb := luckyBuild_ok
  have h64 : par.moduli.length ≤ 64 := by rw [hm]; decide
  have h1 : par.modulusAt 1 = 10961 := by unfold BfvParameters.modulusAt; rw [hm]; rfl
  refine ⟨par, sk, m, m', ct, ct', em, em', ?_, ?_, ?_, ?_⟩
  · exact (C34_available hb h).2 luckyBuild_lucky (by rw [ht]; norm_num) (by rw [ht]; norm_num) (by rw [ht, hd])
  · obtain ⟨k, g1, g2, g3⟩ := (C41_new (i := 0) (j := 0) hb h h64 hk exPrg_ok (List.replicate 32 3) (rngs := fun _ => exRng) (fun _ => exRng_ok)).1 (by rw [hm]; decide) (le_refl _) (by rw [hm]; decide)
    obtain ⟨r, v'', r1, r2, r3, r4⟩ := C39_bound hb h hrel.count hrel.sum f2 f2' (by rw [f4]; norm_num) hs f3 f3'
    rw [f4, f4'] at r3 r4
    obtain ⟨r', W, k1, k2, k3, k4⟩ := C41_relinearize hb h g2 r2 r3
    have k5 := r4.add ((k4 2 hs).C_mul (par.plaintext.value : Int))
    obtain ⟨pt, k6, k7, -⟩ := C37_decrypt hb h hrel hk k2 (small_of_bounded k5 (by
      unfold mulNoise mulHeight KeySwitchingKey.errorBound KeySwitchingKey.ratio
      rw [g3, g2.level, g2.keyLevel, h0, ht, hd, hm, hvar]
      decide))
    exact ⟨k, r, r', pt, g1, r1, k1, k3, k6, k7⟩
  · obtain ⟨k, g1, g2, -, g3⟩ := (C42_new (x := 3) (i := 1) (j := 0) hb h h64 hk exPrg_ok (List.replicate 32 3) (rngs := fun _ => exRng) (fun _ => exRng_ok) (by rw [hm]; decide) (by rw [hm]; decide)).1 rfl (by omega)
      (by rw [hm]; decide)
    replace g3 := g3 (by rw [hm]; decide)
    obtain ⟨r, v', q, r1, r2, hq, r3⟩ := C46_switch_down_bound hb h f2 (by rw [hm]; decide) hs f3
    obtain rfl : 193 = q := by rw [hm] at hq; simpa using hq
    have hrel1 : par.toBfvParameters.Reliable 1 := ⟨hrel.count, hrel.sum, by rw [h1, ht]; decide, hrel.first⟩
    obtain ⟨r', W, k1, -, k2, k3, -, k4⟩ := C42_galois hb h g2 r2 (by
      obtain ⟨r', _, _, _, a1, _, a3, _⟩ := C46_switch_down hb h f2 (by rw [hm]; decide)
      rw [r1, Res.ok_inj] at a1
      rw [a1, a3, f4])
    have k5 := (r3.subst (e := 3) rfl ⟨3, hd⟩).add ((k4 2 hs).C_mul (par.plaintext.value : Int))
    obtain ⟨pt, k6, k7, -⟩ := C37_decrypt hb h hrel1 hk k2 (small_of_bounded k5 (by
      unfold KeySwitchingKey.errorBound KeySwitchingKey.ratio
      rw [g3, g2.switches.level, g2.switches.keyLevel, h0, h1, ht, hd, hm, hvar, f4]
      decide))
    exact ⟨k, r, r', pt, g1, r1, k1, k6, k7⟩
  · obtain ⟨k, g1, g2, g3, -⟩ := (C42_new (x := 15) (i := 2) (j := 2) hb h h64 hk exPrg_ok (List.replicate 32 3) (rngs := fun _ => exRng) (fun _ => exRng_ok) (by rw [hm]; decide) (by rw [hm]; decide)).1 rfl (by omega)
      (by omega)
    exact ⟨k, g1, fun h0 => absurd (g3.1 h0) (by rw [hm]; decide)⟩

end Fhe.Props
