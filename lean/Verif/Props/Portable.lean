import Verif.Lemmas.Portable
import Verif.Props.Wire
import Verif.Props.BfvCipher
/-!
# Programs that are built differently
-/
namespace Fhe.Props
open Nega ParamsBuilder Ciphertext

variable {b b' : Build} {st st' : ParamsBuilder} {par par' : Par} {g' : Prg} {i : Nat}

/-- C72: parameters keep their degree, moduli, plaintext modulus and variance. -/
theorem C72_parameters (hb : b.OK) (hb' : b'.OK) {par par' : BfvParameters} (h : build b st = Res.ok par) (hl : par.toBytes.length < 2 ^ 64) (h' : BfvParameters.fromBytes b' par.toBytes = Res.ok par') : par.Agree par' := by
  obtain ⟨-, m, h1, h2, h3, h4, h5⟩ := (C62_parameters_any hb par.toBytes).1 par (C62_parameters hb h hl).2
  obtain ⟨-, m', h1', h2', h3', h4', h5'⟩ := (C62_parameters_any hb' par.toBytes).1 par' h'
  rw [h1, Option.some.injEq] at h1'
  subst h1'
  refine ⟨by rw [h2, h2'], ?_, by rw [h3, h3'], by rw [h4, h4']⟩
  rcases h5 with h5 | ⟨p, h5, h6⟩ <;> rcases h5' with h5' | ⟨p', h5', h6'⟩ <;> rw [h5] at h5' <;> simp only [Option.some.injEq, PlaintextMsg.word.injEq, PlaintextMsg.big.injEq, reduceCtorEq] at h5'
  · exact h5'
  · rw [← h6, ← h6', h5']

theorem agree_wf (hb : b.OK) (hb' : b'.OK) (h : build b st = Res.ok par.toBfvParameters) (h' : build b' st' = Res.ok par'.toBfvParameters) (hag : par.toBfvParameters.Agree par'.toBfvParameters) :
    ∃ n, ParWF b n par.toBfvParameters ∧ ParWF b' n par'.toBfvParameters := by
  obtain ⟨n, hw, -⟩ := build_inv hb h
  obtain ⟨n', hw', -⟩ := build_inv hb' h'
  have : n = n' := by
    have := hag.degree
    rw [hw.degree, hw'.degree] at this
    exact Nat.pow_right_injective (le_refl 2) this
  subst this
  exact ⟨n, hw, hw'⟩

/-- C72: a secret key keeps its coefficients. -/
theorem C72_secret_key (hb' : b'.OK) (h' : build b' st' = Res.ok par'.toBfvParameters) (hag : par.toBfvParameters.Agree par'.toBfvParameters) {sk : SecretKey} {s : IntPoly par.degree} (hk : sk.IsKey par s) :
    ∃ (sk' : SecretKey) (s' : IntPoly par'.degree), SecretKey.fromBytes sk.toBytes par' = Res.ok sk' ∧ sk'.IsKey par' s' ∧ List.ofFn s' = List.ofFn s := by
  have hl : sk.coeffs.length = par'.degree := by rw [hk.length, hag.degree]
  refine ⟨⟨par', sk.coeffs⟩, IntPoly.ofList par'.degree sk.coeffs, (C62_secret_key (sk := ⟨par', sk.coeffs⟩) hb' h' rfl hl hk.word).2, ⟨rfl, hl, hk.word, rfl⟩, ?_⟩
  rw [hk.poly]
  show List.ofFn (fun j : Fin par'.degree => sk.coeffs.getD j 0) = List.ofFn fun j : Fin par.degree => sk.coeffs.getD j 0
  rw [hag.degree]

/-- C72: a ciphertext without a seed is the same ciphertext for the other program. -/
theorem C72_ciphertext (hb : b.OK) (hb' : b'.OK) (h : build b st = Res.ok par.toBfvParameters) (h' : build b' st' = Res.ok par'.toBfvParameters) (hag : par.toBfvParameters.Agree par'.toBfvParameters)
    (h32 : par.moduli.length ≤ 2 ^ 32) {ct : Ciphertext} (hct : ct.Usable par) (hs : ct.seed = none) :
    ∃ bytes ct', ct.toBytes = some bytes ∧ Ciphertext.fromBytes g' bytes par' = Res.ok ct' ∧ ct'.seed = none ∧ ct'.Usable par' ∧ ct.Agree ct' := by
  obtain ⟨n, hw, hw'⟩ := agree_wf hb hb' h h' hag
  obtain ⟨l, F, ha, hF⟩ := hct.parts_eq hw
  obtain ⟨l', ha'⟩ := AtLevel.ofLt hw' (i := ct.level) (by rw [← hag.moduli]; exact ha.lt)
  have hm := agree_level hag ha ha'
  have hN' : l'.ctx.degree = par.degree := by rw [ha'.deg, hag.degree]
  have hlen : (moveTo par' l'.ctx ct.level F).c.length = ct.c.length := by
    show (F.map _).length = _
    rw [List.length_map, hF.length_eq]
  have hP := parts_moveTo (par' := par') (i := ct.level) (c' := l'.ctx) F
  have hu : (moveTo par' l'.ctx ct.level F).Usable par' := by
    refine ⟨rfl, ha'.lt, by rw [hlen]; exact hct.parts, fun p hp => ⟨hP.valid ha'.wf p hp, ?_⟩⟩
    rw [hP.ctx p hp]; exact ha'.contextAt
  obtain ⟨bytes, ct', e1, -, e2, e3, e4⟩ := C62_ciphertext (g := g') (ct := moveTo par' l'.ctx ct.level F) hb' h' (by rw [← hag.moduli]; exact h32) ⟨hu.par_eq, hu.level, hu.parts, hu.valid, fun s hs => by cases hs⟩
  obtain ⟨q1, q2, q3, q4⟩ := parts_of_beq ha'.wf hN' hP e3
  refine ⟨bytes, ct', ?_, e2, q3, ⟨e4, by rw [q2]; exact hu.level, by rw [q4]; exact hu.parts, fun p hp => ⟨q1.valid ha'.wf p hp, ?_⟩⟩, q2.symm, agree_of_parts ha.wf ha'.wf hm ha.deg hF q1⟩
  · unfold Ciphertext.toBytes at e1 ⊢
    rw [toMsg_moveTo ha.wf ha'.wf hm ha.deg hF hs rfl]; exact e1
  · rw [q1.ctx p hp, q2]; exact ha'.contextAt

/-- C72: ciphertexts that agree encrypt the same messages under the same secrets with the same noise. -/
theorem C72_meaning (hb : b.OK) (hb' : b'.OK) (h : build b st = Res.ok par.toBfvParameters) (h' : build b' st' = Res.ok par'.toBfvParameters) (hag : par.toBfvParameters.Agree par'.toBfvParameters)
    {ct ct' : Ciphertext} (hu : ct'.Usable par') (ha : ct.Agree ct') {s v : IntPoly par.degree} {m : par.Msg} {s' v' : IntPoly par'.degree} {m' : par'.Msg} (hs : List.ofFn s' = List.ofFn s)
    (hm : msgCoeffs m' = msgCoeffs m) (hv : List.ofFn v' = List.ofFn v) (he : ct.Encrypts par s i m v) : ct'.Encrypts par' s' i m' v' := by
  obtain ⟨n, hw, hw'⟩ := agree_wf hb hb' h h' hag
  exact he.agree hw hw' hag hu ha hs hm hv

/-- C72: the results of the linear operations and of going down a level have no seed. -/
theorem C72_no_seed {x y r : Ciphertext} {pt : Plaintext} (hx : x.c ≠ []) (hy : y.c ≠ []) :
    (x.add y = some r → r.seed = none) ∧ (x.sub y = some r → r.seed = none) ∧ (x.neg = some r → r.seed = none) ∧ (x.addPlain pt = some r → r.seed = none) ∧ (x.subPlain pt = some r → r.seed = none) ∧
      (Ciphertext.plainSub pt x = some r → r.seed = none) ∧ (x.mulPlain pt = some r → r.seed = none) ∧ (x.switchDown = Res.ok r → r.seed = none) ∧
      ∀ i, x.switchToLevel i = Res.ok r → x.level < i → r.seed = none := by
  have hdown : ∀ {x r : Ciphertext}, x.switchDown = Res.ok r → r.seed = none := by
    intro x r h
    unfold Ciphertext.switchDown at h
    obtain ⟨mx, -, h⟩ := Res.bind_eq_ok.1 h
    split at h
    · cases h
    · obtain ⟨c, -, h⟩ := Res.bind_eq_ok.1 h
      cases h; rfl
  have hneg : ∀ {x r : Ciphertext}, x.neg = some r → r.seed = none := by
    intro x r h
    unfold Ciphertext.neg at h
    obtain ⟨c, -, h⟩ := Option.bind_eq_some_iff.1 h
    cases h; rfl
  refine ⟨fun h => ?_, fun h => ?_, hneg, fun h => ?_, fun h => ?_, fun h => ?_, fun h => ?_, hdown, fun i h hi => ?_⟩
  · unfold Ciphertext.add at h
    obtain ⟨_, -, h⟩ := Option.bind_eq_some_iff.1 h
    rw [if_neg hx, if_neg hy] at h
    obtain ⟨_, -, h⟩ := Option.bind_eq_some_iff.1 h
    obtain ⟨_, -, h⟩ := Option.bind_eq_some_iff.1 h
    obtain ⟨_, -, h⟩ := Option.bind_eq_some_iff.1 h
    cases h; rfl
  · unfold Ciphertext.sub at h
    obtain ⟨_, -, h⟩ := Option.bind_eq_some_iff.1 h
    rw [if_neg hx, if_neg hy] at h
    obtain ⟨_, -, h⟩ := Option.bind_eq_some_iff.1 h
    obtain ⟨_, -, h⟩ := Option.bind_eq_some_iff.1 h
    obtain ⟨_, -, h⟩ := Option.bind_eq_some_iff.1 h
    cases h; rfl
  · unfold Ciphertext.addPlain at h
    obtain ⟨_, -, h⟩ := Option.bind_eq_some_iff.1 h
    split at h
    · cases h
    · obtain ⟨_, -, h⟩ := Option.bind_eq_some_iff.1 h
      obtain ⟨_, -, h⟩ := Option.bind_eq_some_iff.1 h
      obtain ⟨_, -, h⟩ := Option.bind_eq_some_iff.1 h
      obtain ⟨_, -, h⟩ := Option.bind_eq_some_iff.1 h
      cases h; rfl
  · unfold Ciphertext.subPlain at h
    obtain ⟨_, -, h⟩ := Option.bind_eq_some_iff.1 h
    split at h
    · cases h
    · obtain ⟨_, -, h⟩ := Option.bind_eq_some_iff.1 h
      obtain ⟨_, -, h⟩ := Option.bind_eq_some_iff.1 h
      obtain ⟨_, -, h⟩ := Option.bind_eq_some_iff.1 h
      obtain ⟨_, -, h⟩ := Option.bind_eq_some_iff.1 h
      cases h; rfl
  · unfold Ciphertext.plainSub at h
    obtain ⟨_, -, h⟩ := Option.bind_eq_some_iff.1 h
    exact hneg h
  · unfold Ciphertext.mulPlain at h
    obtain ⟨_, -, h⟩ := Option.bind_eq_some_iff.1 h
    rw [if_neg hx] at h
    obtain ⟨_, -, h⟩ := Option.bind_eq_some_iff.1 h
    obtain ⟨_, -, h⟩ := Option.bind_eq_some_iff.1 h
    obtain ⟨_, -, h⟩ := Option.bind_eq_some_iff.1 h
    cases h; rfl
  · have hloop : ∀ (k : Nat) (x : Ciphertext), x.seed = none → ∀ r, Ciphertext.switchLoop k x = Res.ok r → r.seed = none := by
      intro k
      induction k with
      | zero => intro x hx r h; cases h; exact hx
      | succ k ih =>
        intro x _ r h
        obtain ⟨y, h1, h2⟩ := Res.bind_eq_ok.1 h
        exact ih y (hdown h1) r h2
    unfold Ciphertext.switchToLevel at h
    obtain ⟨mx, -, h⟩ := Res.bind_eq_ok.1 h
    split at h
    · cases h
    split at h
    · cases h
    obtain ⟨k, hk⟩ : ∃ k, i - x.level = k + 1 := ⟨i - x.level - 1, by omega⟩
    rw [hk] at h
    obtain ⟨y, h1, h2⟩ := Res.bind_eq_ok.1 h
    exact hloop k y (hdown h1) r h2

/-- C72: what one program computes without leaving a seed, the other decrypts with the key it was sent. -/
theorem C72_decrypt (hb : b.OK) (hb' : b'.OK) (h : build b st = Res.ok par.toBfvParameters) (h' : build b' st' = Res.ok par'.toBfvParameters) (hag : par.toBfvParameters.Agree par'.toBfvParameters)
    (hr : par.toBfvParameters.Reliable i) {sk : SecretKey} {s v : IntPoly par.degree} {m : par.Msg} (hk : sk.IsKey par s) {ct : Ciphertext} (hct : ct.Encrypts par s i m v) (hs : ct.seed = none)
    (hv : v.Small (par.modulusAt i)) :
    ∃ bytes ct' sk' pt', ct.toBytes = some bytes ∧ Ciphertext.fromBytes g' bytes par' = Res.ok ct' ∧ SecretKey.fromBytes sk.toBytes par' = Res.ok sk' ∧ sk'.tryDecrypt b' ct' = Res.ok pt' ∧
      pt'.decodeBigUint (some ⟨.poly, i⟩) = Res.ok (msgCoeffs m) := by
  obtain ⟨n, hw, hw'⟩ := agree_wf hb hb' h h' hag
  obtain ⟨bytes, ct', e1, e2, e3, e4, e5⟩ := C72_ciphertext (g' := g') hb hb' h h' hag (by have := hr.count; omega) (hct.usable hw) hs
  obtain ⟨sk', s', f1, f2, f3⟩ := C72_secret_key hb' h' hag hk
  have hv' : (v.move hag.degree).Small (par'.modulusAt i) := fun j => by
    rw [← agree_modulusAt hag]; exact hv _
  obtain ⟨m', hm'⟩ : ∃ m' : par'.Msg, msgCoeffs m' = msgCoeffs m := exists_moved hag.degree hag.plaintext m
  have henc := hct.agree hw hw' hag e4 e5 (v' := v.move hag.degree) f3 hm' (ofFn_move hag.degree v)
  have hr' : par'.toBfvParameters.Reliable i := by
    refine ⟨by rw [← hag.moduli]; exact hr.count, by rw [← hag.moduli]; exact hr.sum, by rw [← hag.plaintext, ← agree_modulusAt hag]; exact hr.modulus, ?_⟩
    rw [← hag.plaintext, ← hag.moduli]; exact hr.first
  obtain ⟨pt', g1, g2, g3⟩ := C37_decrypt hb' h' hr' f2 henc hv'
  refine ⟨bytes, ct', sk', pt', e1, e2, f1, g1, ?_⟩
  rw [(C35_decode hb' h' g2 (.inl g3)).1, hm']

/-- C72: a ciphertext with a seed is read as well; all of its polynomials but the last are the same, and the last is what the program that
reads makes of the seed. -/
theorem C72_seeded {g : Prg} (hb : b.OK) (hb' : b'.OK) (h : build b st = Res.ok par.toBfvParameters) (h' : build b' st' = Res.ok par'.toBfvParameters) (hag : par.toBfvParameters.Agree par'.toBfvParameters)
    (h32 : par.moduli.length ≤ 2 ^ 32) (hg : g.OK) {ct : Ciphertext} (hct : ct.WellFormed g par) {seed : Seed} (hs : ct.seed = some seed) :
    ∃ bytes ct' ps qs p q a, ct.toBytes = some bytes ∧ Ciphertext.fromBytes g bytes par' = Res.ok ct' ∧ ct'.seed = some seed ∧ ct'.Usable par' ∧ ct.level = ct'.level ∧
      ct.c = ps ++ [p] ∧ ct'.c = qs ++ [q] ∧ List.Forall₂ (fun p q => p.Agree q) ps qs ∧ g.poly .ntt q.ctx seed = some a ∧ q.beq a = true := by
  obtain ⟨n, hw, hw'⟩ := agree_wf hb hb' h h' hag
  have hct' : ct.Usable par := ⟨hct.par_eq, hct.level, hct.parts, hct.valid⟩
  obtain ⟨l, F, ha, hF⟩ := hct'.parts_eq hw
  obtain ⟨l', ha'⟩ := AtLevel.ofLt hw' (i := ct.level) (by rw [← hag.moduli]; exact ha.lt)
  have hm := agree_level hag ha ha'
  have hN' : l'.ctx.degree = par.degree := by rw [ha'.deg, hag.degree]
  rcases List.eq_nil_or_concat F with rfl | ⟨F, f, rfl⟩
  · have := hF.length_eq
    have := hct.parts
    simp_all
  rw [List.concat_eq_append] at hF
  obtain ⟨ps, p, hc, hF', -⟩ := parts_concat hF
  obtain ⟨A, hA⟩ := Prg.poly_encI hg ha'.wf hN' .ntt seed
  have hP := parts_moveSeeded (par' := par') (i := ct.level) (c' := l'.ctx) (seed := seed) F A
  have hlen : (moveSeeded par' l'.ctx ct.level seed F A).c.length = ct.c.length := by
    rw [hP.length_eq, hF.length_eq]; simp
  have hu : (moveSeeded par' l'.ctx ct.level seed F A).Usable par' := by
    refine ⟨rfl, ha'.lt, by rw [hlen]; exact hct.parts, fun p hp => ⟨hP.valid ha'.wf p hp, ?_⟩⟩
    rw [hP.ctx p hp]; exact ha'.contextAt
  obtain ⟨bytes, ct', e1, -, e2, e3, e4⟩ := C62_ciphertext (g := g) (ct := moveSeeded par' l'.ctx ct.level seed F A) hb' h' (by rw [← hag.moduli]; exact h32) ⟨hu.par_eq, hu.level, hu.parts, hu.valid, fun s hs' => by
    cases hs'
    refine ⟨(hct.seed seed hs).1, fun last hl => ?_⟩
    have : last = encI l'.ctx .ntt false A := by
      rw [show (moveSeeded par' l'.ctx ct.level seed F A).c = (F.map fun f => encI l'.ctx .ntt true f) ++ [encI l'.ctx .ntt false A] from rfl, List.getLast?_concat] at hl
      exact (Option.some.inj hl).symm
    subst this
    exact ⟨_, hA, beq_iff.2 rfl⟩⟩
  obtain ⟨q1, q2, q3, q4⟩ := parts_of_beq ha'.wf hN' hP e3
  obtain ⟨qs, q, hc', hG, vt, rfl⟩ := parts_concat q1
  refine ⟨bytes, ct', ps, qs, p, _, _, ?_, e2, q3, ⟨e4, by rw [q2]; exact hu.level, by rw [q4]; exact hu.parts, fun p hp => ⟨q1.valid ha'.wf p hp, ?_⟩⟩, q2.symm, hc, hc', agree_of_parts ha.wf ha'.wf hm ha.deg hF' hG, hA, ?_⟩
  · unfold Ciphertext.toBytes at e1 ⊢
    rw [toMsg_moveSeeded (par' := par') (a := A) ha.wf ha'.wf hm ha.deg hc hF' hs rfl]; exact e1
  · rw [q1.ctx p hp, q2]; exact ha'.contextAt
  · exact beq_iff.2 (by cases vt <;> rfl)

/-! ## A seed does not stand for the same polynomial everywhere -/

/-- A build whose stream yields `v` for the modulus 97. -/
noncomputable def rootBuild (v : Nat) : Build := ⟨true, true, fun p i => if p = 97 then v else luckyBuild.rng p i⟩

theorem rootBuild_ok {v : Nat} (hv : v < 97) : (rootBuild v).OK := by
  intro p i hp
  show (if p = 97 then v else luckyBuild.rng p i) < p
  split
  · omega
  · exact luckyBuild_ok p i hp

theorem rootBuild_lucky {v : Nat} (hv : ¬ IsSquare (v : ZMod 97)) : (rootBuild v).Lucky := by
  intro p hp h2 h
  by_cases e : p = 97
  · subst e
    exact ⟨0, by norm_num, hv⟩
  · obtain ⟨i, h1, h3⟩ := luckyBuild_lucky p hp h2 h
    refine ⟨i, h1, ?_⟩
    show ¬ IsSquare ((if p = 97 then v else luckyBuild.rng p i : Nat) : ZMod p)
    rw [if_neg e]; exact h3

theorem rootPar {v : Nat} (hv : v < 97) (hq : ¬ IsSquare (v : ZMod 97)) : ∃ par : Par, build (rootBuild v) exBuilder = Res.ok par.toBfvParameters ∧ par.degree = 8 ∧ par.plaintext.value = 17 ∧
    par.moduli = [97, 113, 193] ∧ par.variance = 1 ∧ ∃ c, par.contextAtLevel 2 = Res.ok c ∧ Context.new (rootBuild v) [97] 8 = some (.ok c) := by
  obtain ⟨par, h⟩ : ∃ par, build (rootBuild v) exBuilder = Res.ok par := by
    refine C31_complete (rootBuild_ok hv) (rootBuild_lucky hq) rfl exBuilder_valid (by decide) fun l hl => ?_
    by_contra hc
    push Not at hc
    exact enough_primes (n := 3) (by norm_num) (moduli := exBuilder.moduli) (by decide) (by decide) (l := l) (by omega) fun p h1 h2 => hc p h1 h2
  obtain ⟨-, e1, e4, e3, e2 | e2⟩ := C31_sound (rootBuild_ok hv) h
  swap
  · exact absurd e2.1 (by decide)
  have hm : par.moduli = [97, 113, 193] := e2.2
  obtain ⟨c, f1, f2, -⟩ := (C31_levels (rootBuild_ok hv) h 2).1 (by rw [hm]; decide)
  refine ⟨⟨par, 0⟩, h, e1, e3, hm, e4, c, f1, ?_⟩
  rw [hm, e1] at f2
  exact f2

/-- The coefficients of the polynomial that a program makes of a seed modulo 97. -/
def seedCoeffs (b : Build) (vt : Bool) : Option (List Nat) :=
  match Context.new b [97] 8 with
  | some (.ok c) => do
    let p ← exPrg.poly .ntt c (List.replicate 32 7)
    (← ({ p with vt } : Poly .ntt).toPowerBasis).toBigUint
  | _ => none

theorem seedCoeffs_ne : ∀ vt vt', seedCoeffs (rootBuild 5) vt ≠ seedCoeffs (rootBuild 7) vt' := by
  decide +kernel

theorem nonsquare_mod97 : ¬ IsSquare ((5 : Nat) : ZMod 97) ∧ ¬ IsSquare ((7 : Nat) : ZMod 97) := by
  constructor <;> · rintro ⟨x, hx⟩; revert x; decide +kernel

theorem seed_agree {v : Nat} {c : Context} (hc : Context.new (rootBuild v) [97] 8 = some (.ok c)) {p a : Poly .ntt} (hp : p.ctx = c) (ha : exPrg.poly .ntt p.ctx (List.replicate 32 7) = some a) (he : p.beq a = true) :
    (do (← p.toPowerBasis).toBigUint) = seedCoeffs (rootBuild v) p.vt := by
  unfold seedCoeffs
  rw [hc]
  subst hp
  show _ = (do
    let p' ← exPrg.poly .ntt p.ctx (List.replicate 32 7)
    (← ({ p' with vt := p.vt } : Poly .ntt).toPowerBasis).toBigUint)
  rw [ha]
  have he' := beq_iff.1 he
  have : p = { a with vt := p.vt } := by
    obtain ⟨c1, l1, v1, r1, s1⟩ := p
    obtain ⟨c2, l2, v2, r2, s2⟩ := a
    simp only [Poly.mk.injEq] at he' ⊢
    tauto
  conv_lhs => rw [this]
  rfl

/-- C72, a limitation of the code: a seed is expanded to the values of a polynomial at the powers of the root of unity, so that two programs
with different roots make different polynomials of it.  Here a fresh ciphertext is sent from one to the other, is read without an error,
and is not the same ciphertext. -/
theorem C72_seeded_differs : ∃ (par par' : Par) (sk : SecretKey) (s v : IntPoly par.degree) (m : par.Msg) (pt : Plaintext) (ct ct' : Ciphertext) (bytes : List Nat),
    (rootBuild 5).OK ∧ (rootBuild 7).OK ∧ build (rootBuild 5) exBuilder = Res.ok par.toBfvParameters ∧ build (rootBuild 7) exBuilder = Res.ok par'.toBfvParameters ∧
    par.toBfvParameters.Agree par'.toBfvParameters ∧ sk.IsKey par s ∧ pt.Holds par 2 m ∧ sk.tryEncrypt exPrg pt (List.replicate 32 7) exRng = Res.ok ct ∧ ct.Encrypts par s 2 m v ∧
    ct.toBytes = some bytes ∧ Ciphertext.fromBytes exPrg bytes par' = Res.ok ct' ∧ ct'.Usable par' ∧ ct.level = ct'.level ∧ ¬ ct.Agree ct' := by
  have hb := rootBuild_ok (v := 5) (by norm_num)
  have hb' := rootBuild_ok (v := 7) (by norm_num)
  obtain ⟨par, h, hd, ht, hm, hv, c, hc, hn⟩ := rootPar (v := 5) (by norm_num) nonsquare_mod97.1
  obtain ⟨par', h', hd', ht', hm', hv', c', hc', hn'⟩ := rootPar (v := 7) (by norm_num) nonsquare_mod97.2
  have hag : par.toBfvParameters.Agree par'.toBfvParameters := ⟨by rw [hd, hd'], by rw [ht, ht'], by rw [hm, hm'], by rw [hv, hv']⟩
  have h2 : par.modulusAt 2 = 97 := by unfold BfvParameters.modulusAt; rw [hm]; rfl
  obtain ⟨sk, s, -, hk, -⟩ := C37_secret_key hb h exRng_ok
  obtain ⟨m, -, e1, ⟨pt, -, e2, -⟩, -⟩ := C35_poly hb h (level := 2) (by rw [hm]; decide) (by rw [h2, ht]; decide) (v := [1, 2, 16]) (by rw [hd]; decide) (by rw [ht]; decide)
  obtain ⟨ct, v, f1, f2, -, f4, f5, f6⟩ := C37_encrypt hb h hk exPrg_ok (by rw [h2, ht]; decide) e2 (seed := List.replicate 32 7) rfl exRng_ok
  obtain ⟨bytes, ct', ps, qs, p, q, a, g1, g2, g3, g4, g5, g6, g7, g8, g9, g10⟩ := C72_seeded hb hb' h h' hag (by rw [hm]; decide) exPrg_ok f6 f5
  refine ⟨par, par', sk, s, v, m, pt, ct, ct', bytes, hb, hb', h, h', hag, hk, e2, f1, f2, g1, g2, g4, g5, fun hA => ?_⟩
  have hl : ct.level = 2 := f2.level_eq
  have hpc := (f6.valid p (by rw [g6]; simp)).2
  have hqc := (g4.valid q (by rw [g7]; simp)).2
  rw [hl, hc, Res.ok_inj] at hpc
  rw [← g5, hl, hc', Res.ok_inj] at hqc
  obtain ⟨a0, k1, k2⟩ := (f6.seed _ f5).2 p (by rw [g6, List.getLast?_concat])
  have hlast : p.Agree q := by
    have := hA.parts
    rw [g6, g7, ← List.forall₂_reverse_iff] at this
    simp only [List.reverse_append, List.reverse_cons, List.reverse_nil, List.nil_append, List.singleton_append] at this
    exact (List.forall₂_cons.1 this).1
  have := hlast.coeffs
  rw [seed_agree hn hpc.symm k1 k2, seed_agree hn' hqc.symm g9 g10] at this
  exact seedCoeffs_ne _ _ this

/-! ## A concrete instance -/

/-- A difference of two fresh ciphertexts, which has no seed, travels from one program to the other and is decrypted there. -/
example : ∃ (par par' : Par) (m m' : par.Msg) (ct : Ciphertext) (bytes : List Nat) (ct' : Ciphertext) (sk sk' : SecretKey) (pt' : Plaintext), build luckyBuild exBuilder = Res.ok par.toBfvParameters ∧
    build (rootBuild 7) exBuilder = Res.ok par'.toBfvParameters ∧ msgCoeffs m = [1, 2, 16, 0, 0, 0, 0, 0] ∧ msgCoeffs m' = [5, 4, 3, 0, 0, 0, 0, 0] ∧ ct.toBytes = some bytes ∧
    Ciphertext.fromBytes exPrg bytes par' = Res.ok ct' ∧ SecretKey.fromBytes sk.toBytes par' = Res.ok sk' ∧ sk'.tryDecrypt (rootBuild 7) ct' = Res.ok pt' ∧
    pt'.decodeBigUint (some ⟨.poly, 0⟩) = Res.ok (msgCoeffs (m - m')) := by
  obtain ⟨par, sk, s, pt, pt', m, m', ct, ct', v, v', h, hd, ht, hm, hrel, hk, hs, e2, e2', em, em', f1, f1', f2, f2', f3, f3', f4, f4', f5, f6, h0, hvar⟩ := exCipher
  obtain ⟨par', h', hd', ht', hm', hv', -⟩ := rootPar (v := 7) (by norm_num) nonsquare_mod97.2
  have hag : par.toBfvParameters.Agree par'.toBfvParameters := ⟨by rw [hd, hd'], by rw [ht, ht'], by rw [hm, hm'], by rw [hvar, hv']⟩
  obtain ⟨r, d1, d2, -⟩ := C38_sub luckyBuild_ok h f2 f2' (by rw [f4, f4'])
  have hn := (C72_no_seed (pt := pt) (by intro e; rw [e] at f4; cases f4) (by intro e; rw [e] at f4'; cases f4')).2.1 d1
  obtain ⟨bytes, r', sk', q, k1, k2, k3, k4, k5⟩ := C72_decrypt (g' := exPrg) luckyBuild_ok (rootBuild_ok (by norm_num)) h h' hag hrel hk d2 hn (small_of_bounded (f3.sub f3') (by rw [h0]; norm_num))
  exact ⟨par, par', m, m', r, bytes, r', sk, sk', q, h, h', em, em', k1, k2, k3, k4, k5⟩

end Fhe.Props
