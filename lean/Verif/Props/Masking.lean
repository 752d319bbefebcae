import Verif.Lemmas.Masking
import Verif.Props.Laws
/-!
# The message enters a ciphertext only as a summand
-/
namespace Fhe.Props
open Nega ParamsBuilder Ciphertext

variable {b : Build} {st : ParamsBuilder} {par : Par} {i : Nat} {m m' : par.Msg} {pt pt' : Plaintext}

/-- C69: two encryptions with a secret key, with the same randomness: they differ exactly by their messages, and have the same second part and seed. -/
theorem C69_secret (hb : b.OK) (h : build b st = Res.ok par.toBfvParameters) {sk : SecretKey} {s : IntPoly par.degree} (hk : sk.IsKey par s) {g : Prg} (hg : g.OK)
    (hQ : par.plaintext.value ≤ par.modulusAt i) (hpt : pt.Holds par i m) (hpt' : pt'.Holds par i m') (seed : Seed) {rng : Nat → Nat} (hr : IsStream rng) :
    ∃ ct ct' r r', sk.tryEncrypt g pt seed rng = Res.ok ct ∧ sk.tryEncrypt g pt' seed rng = Res.ok ct' ∧ ct.subPlain pt = some r ∧ ct'.subPlain pt' = some r' ∧ r.beq r' = true ∧
      ct.c.tail = ct'.c.tail ∧ ct.seed = ct'.seed ∧ (ct.beq ct' = true ↔ m = m') := by
  obtain ⟨n, hw, -⟩ := build_inv hb h
  obtain ⟨l, hl, -⟩ := ParWF.contextAtLevel_iff.1 hpt.ctx
  have ha := AtLevel.ofGet hw hl
  obtain ⟨X, A, hX⟩ := SecretKey.tryEncrypt_mask hw ha hk hg hQ seed hr
  have i1 : ∀ m : par.Msg, Is par i l { par, seed := some seed, c := [encI l.ctx .ntt true (X + scaleMsg (par.modulusAt i) m), encI l.ctx .ntt true A], level := i }
    [X + scaleMsg (par.modulusAt i) m, A] := fun m => ⟨rfl, rfl, .cons ⟨_, rfl⟩ (.cons ⟨_, rfl⟩ .nil)⟩
  obtain ⟨r, e1, s1, j1⟩ := (i1 m).subPlain hw ha hQ hpt
  obtain ⟨r', e2, s2, j2⟩ := (i1 m').subPlain hw ha hQ hpt'
  rw [add_sub_cancel_right] at j1 j2
  exact ⟨_, _, r, r', hX hpt, hX hpt', e1, e2, j1.beq j2 (by rw [s1, s2]), (tail_same ..).1, (tail_same ..).2, mask_injective hw ha hQ _ _⟩

/-- C69: the same for a public key, which may be any ciphertext of at least two parts. -/
theorem C69_public (hb : b.OK) (h : build b st = Res.ok par.toBfvParameters) {pk : PublicKey} (hp : pk.par = par) (hpk : pk.c.Usable par) (hi : pk.c.level ≤ i)
    (hQ : par.plaintext.value ≤ par.modulusAt i) (hpt : pt.Holds par i m) (hpt' : pt'.Holds par i m') {rngU rng1 rng2 : Nat → Nat} (hU : IsStream rngU) (h1 : IsStream rng1)
    (h2 : IsStream rng2) :
    ∃ ct ct' r r', pk.tryEncrypt pt rngU rng1 rng2 = Res.ok ct ∧ pk.tryEncrypt pt' rngU rng1 rng2 = Res.ok ct' ∧ ct.subPlain pt = some r ∧ ct'.subPlain pt' = some r' ∧ r.beq r' = true ∧
      ct.c.tail = ct'.c.tail ∧ ct.seed = ct'.seed ∧ (ct.beq ct' = true ↔ m = m') := by
  obtain ⟨n, hw, -⟩ := build_inv hb h
  obtain ⟨l, hl, -⟩ := ParWF.contextAtLevel_iff.1 hpt.ctx
  have ha := AtLevel.ofGet hw hl
  obtain ⟨X, A, hX⟩ := PublicKey.tryEncrypt_mask hw ha hp hpk hi hQ hU h1 h2
  have i1 : ∀ m : par.Msg, Is par i l { par, seed := none, c := [encI l.ctx .ntt true (X + scaleMsg (par.modulusAt i) m), encI l.ctx .ntt true A], level := i }
    [X + scaleMsg (par.modulusAt i) m, A] := fun m => ⟨rfl, rfl, .cons ⟨_, rfl⟩ (.cons ⟨_, rfl⟩ .nil)⟩
  obtain ⟨r, e1, s1, j1⟩ := (i1 m).subPlain hw ha hQ hpt
  obtain ⟨r', e2, s2, j2⟩ := (i1 m').subPlain hw ha hQ hpt'
  rw [add_sub_cancel_right] at j1 j2
  exact ⟨_, _, r, r', hX hpt, hX hpt', e1, e2, j1.beq j2 (by rw [s1, s2]), (tail_same ..).1, (tail_same ..).2, mask_injective hw ha hQ _ _⟩

/-- C69: any ciphertext hides any message under exactly one mask: for every ciphertext `x` without seed and every plaintext there is exactly one ciphertext that, with
the plaintext added, gives `x`. -/
theorem C69_one_mask (hb : b.OK) (h : build b st = Res.ok par.toBfvParameters) {x : Ciphertext} (hx : x.Usable par) (hs : x.seed = none) (hQ : par.plaintext.value ≤ par.modulusAt x.level)
    (hpt : pt.Holds par x.level m) :
    ∃ y : Ciphertext, y.Usable par ∧ y.seed = none ∧ (∃ r, y.addPlain pt = some r ∧ r.beq x = true) ∧
      ∀ y' : Ciphertext, y'.Usable par → y'.seed = none → (∃ r, y'.addPlain pt = some r ∧ r.beq x = true) → y'.beq y = true := by
  obtain ⟨n, hw, -⟩ := build_inv hb h
  obtain ⟨l, ha⟩ := AtLevel.ofLt hw hx.level
  obtain ⟨F, iF, lF, F2⟩ := hx.is hw ha
  obtain ⟨f, F, rfl⟩ := List.exists_cons_of_ne_nil (ne_nil_of_two F2)
  obtain ⟨y, e1, s1, j1⟩ := iF.subPlain hw ha hQ hpt
  obtain ⟨r, e2, s2, j2⟩ := j1.addPlain hw ha hQ hpt
  rw [sub_add_cancel] at j2
  refine ⟨y, j1.usable ha (by simpa using F2), s1, ⟨r, e2, j2.beq iF (by rw [s2, hs])⟩, fun y' hy' hs' ⟨r', e3, hr'⟩ => ?_⟩
  -- the level of `y'` is that of the plaintext
  have hlev : y'.level = x.level := by
    by_contra hne
    have := (C67_plain hb h hQ hy' hpt).1.2 hne
    rw [this] at e3; cases e3
  obtain ⟨G, iG, lG, G2⟩ := hy'.is hw (hlev ▸ ha)
  rw [hlev] at iG
  obtain ⟨g, G, rfl⟩ := List.exists_cons_of_ne_nil (ne_nil_of_two G2)
  obtain ⟨r'', e4, s4, j4⟩ := iG.addPlain hw ha hQ hpt
  obtain rfl : r'' = r' := by rw [e3] at e4; simpa using e4.symm
  -- `r' == x` has the parts of `y' + pt`; subtract the plaintext on both sides
  have iX : x.Is par x.level l ((g + scaleMsg (par.modulusAt x.level) m) :: G) := by
    unfold Ciphertext.beq at hr'
    simp only [Bool.and_eq_true, decide_eq_true_eq] at hr'
    exact ⟨hx.par_eq, rfl, Parts.of_beq ha.wf ha.deg j4.parts hr'.1.1.2 hr'.1.2⟩
  obtain ⟨y2, e5, s5, j5⟩ := iX.subPlain hw ha hQ hpt
  rw [add_sub_cancel_right] at j5
  obtain rfl : y2 = y := by rw [e1] at e5; simpa using e5.symm
  exact iG.beq j5 (by rw [hs', s1])

/-- The hypotheses are met: two different messages, a secret key and a public key. -/
example : ∃ (par : Par) (sk : SecretKey) (m m' : par.Msg) (pt pt' : Plaintext) (x y r r' : Ciphertext), build luckyBuild exBuilder = Res.ok par.toBfvParameters ∧
    msgCoeffs m = [1, 2, 16, 0, 0, 0, 0, 0] ∧ msgCoeffs m' = [5, 4, 3, 0, 0, 0, 0, 0] ∧ pt.Holds par 0 m ∧ pt'.Holds par 0 m' ∧
    sk.tryEncrypt exPrg pt (List.replicate 32 7) exRng = Res.ok x ∧ sk.tryEncrypt exPrg pt' (List.replicate 32 7) exRng = Res.ok y ∧ x.subPlain pt = some r ∧ y.subPlain pt' = some r' ∧
    r.beq r' = true ∧ x.beq y = false ∧
    (∃ pk x y, PublicKey.new exPrg sk (List.replicate 32 1) exRng = some pk ∧ pk.tryEncrypt pt exRng exRng exRng = Res.ok x ∧ pk.tryEncrypt pt' exRng exRng exRng = Res.ok y ∧ x.c.tail = y.c.tail ∧
      x.beq y = false) ∧
    ∃ y : Ciphertext, y.Usable par ∧ ∃ z, y.addPlain pt = some z ∧ z.beq r = true := by
  obtain ⟨par, sk, s, pt, pt', m, m', ct, ct', v, v', h, hd, ht, hm, hrel, hk, hs, e2, e2', em, em', f1, f1', f2, f2', f3, f3', f4, f4', f5, f6, h0, hvar⟩ := exCipher
  have hb := luckyBuild_ok
  obtain ⟨n, hw, -⟩ := build_inv hb h
  have hQ : par.plaintext.value ≤ par.modulusAt 0 := by rw [h0, ht]; decide
  have hne : m ≠ m' := fun hc => by rw [hc, em'] at em; simp at em
  obtain ⟨x, y, r, r', g1, g2, g3, g4, g5, -, -, g6⟩ := C69_secret hb h hk exPrg_ok hQ e2 e2' (List.replicate 32 7) exRng_ok
  obtain ⟨pk, w, k1, k2, k3, -⟩ := C37_public_key hb h hk exPrg_ok (seed := List.replicate 32 1) rfl exRng_ok
  obtain ⟨x', y', q, q', g7, g8, -, -, -, g9, -, g10⟩ := C69_public hb h k2 (k3.usable hw) (by rw [k3.level_eq]) hQ e2 e2' exRng_ok exRng_ok exRng_ok
  have hxE : x = ct := by rw [f1, Res.ok_inj] at g1; exact g1.symm
  subst hxE
  obtain ⟨r2, e5, u2, hlr⟩ : ∃ r2, x.subPlain pt = some r2 ∧ r2.Usable par ∧ r2.level = 0 ∧ r2.seed = none := by
    obtain ⟨l, ha⟩ := AtLevel.ofLt hw (f2.usable hw).level
    obtain ⟨F, iF, lF, F2⟩ := (f2.usable hw).is hw ha
    rw [f2.level_eq] at iF ha
    obtain ⟨f, F, rfl⟩ := List.exists_cons_of_ne_nil (ne_nil_of_two F2)
    obtain ⟨r2, k4, k5, k6⟩ := iF.subPlain hw ha hQ e2
    exact ⟨r2, k4, k6.usable ha (by simpa using F2), k6.level_eq, k5⟩
  obtain rfl : r2 = r := by rw [g3] at e5; simpa using e5.symm
  obtain ⟨z, hz, -, ⟨z', g11, g12⟩, -⟩ := C69_one_mask hb h u2 hlr.2 (by rw [hlr.1]; exact hQ) (m := m) (hlr.1 ▸ e2)
  exact ⟨par, sk, m, m', pt, pt', x, y, r2, r', h, em, em', e2, e2', g1, g2, g3, g4, g5, by rw [← Bool.not_eq_true, g6]; exact hne,
    ⟨pk, x', y', k1, g7, g8, g9, by rw [← Bool.not_eq_true, g10]; exact hne⟩, z, hz, z', g11, g12⟩

end Fhe.Props
