import Verif.Spec.Open
import Verif.Lemmas.Laws
import Verif.Witness.Scene
/-!
# Ciphertexts that everybody can read
-/
namespace Fhe.Props
open Nega ParamsBuilder Ciphertext Poly

variable {b : Build} {st : ParamsBuilder} {par : Par} {n : Nat} {c : Context} {N : Nat}

theorem blank_encI (h : c.WF b n) (hN : c.degree = N) {vt : Bool} : (encI c .ntt vt (0 : IntPoly N)).Blank := by
  have e : (encI c .ntt vt (0 : IntPoly N)).coeffs = (Poly.zero .ntt c).coeffs := by rw [zero_encI h hN]; rfl
  intro row hr x hx
  rw [e] at hr
  obtain ⟨-, rfl⟩ := List.mem_replicate.1 hr
  exact (List.mem_replicate.1 hx).2

theorem eq_of_blank (h : c.WF b n) (hN : c.degree = N) {p : Poly .ntt} (hc : p.ctx = c) (hv : p.Valid) (hb : p.Blank) : p = encI c .ntt p.vt (0 : IntPoly N) := by
  have e : (encI c .ntt p.vt (0 : IntPoly N)) = { Poly.zero .ntt c with vt := p.vt } := by rw [zero_encI h hN]; rfl
  rw [e]
  have h1 := hv.notLazy
  have h2 := hv.shoup
  have h3 : p.coeffs = zeroRows c.q.length c.degree := by
    refine List.eq_replicate_iff.2 ⟨?_, fun row hr => List.eq_replicate_iff.2 ⟨?_, fun x hx => hb row hr x hx⟩⟩
    · rw [hv.rows, hc, h.level.q, h.level.moduli, List.length_map, List.length_map]
    · rw [hv.columns row hr, hc]
  rcases p with ⟨pc, pl, pv, pco, ps⟩
  simp only at hc h1 h2 h3
  subst hc h1 h2 h3
  rfl

theorem phase_zeros (s f : IntPoly N) (k : Nat) : Fhe.phase s (f :: List.replicate k 0) = f := by
  have h0 : ∀ k, Fhe.phase s (List.replicate k 0) = 0 := fun k => by
    induction k with
    | zero => rfl
    | succ k ih => rw [List.replicate_succ, Fhe.phase, ih, MulZeroClass.mul_zero, add_zero]
  rw [Fhe.phase, h0, MulZeroClass.mul_zero, add_zero]

/-- The parts of an open ciphertext. -/
theorem open_parts {i : Nat} {l : ContextLevel} (ha : AtLevel b n par i l) {ct : Ciphertext} {F : List (IntPoly par.degree)} (hi : ct.Is par i l F) (hu : ∀ p ∈ ct.c, p.Valid) (ho : ct.Open) (h2 : 2 ≤ ct.c.length) :
    ∃ f, ct.Is par i l (f :: List.replicate (ct.c.length - 1) 0) := by
  obtain ⟨h1, h2', h3⟩ := hi
  rcases ct with ⟨p, sd, cs, lv⟩
  rcases cs with _ | ⟨c0, cs⟩
  · simp at h2
  rcases h3 with _ | ⟨⟨vt, e⟩, h3⟩
  refine ⟨_, h1, h2', .cons ⟨vt, e⟩ ?_⟩
  have hb : ∀ p ∈ cs, p.Blank := ho
  have hv : ∀ p ∈ cs, p.Valid := fun p hp => hu p (List.mem_cons_of_mem _ hp)
  simp only [List.length_cons, Nat.add_sub_cancel]
  have hc := Parts.ctx h3
  clear h3 ho hu h2 h1 h2'
  induction cs with
  | nil => exact .nil
  | cons q cs ih =>
    exact .cons ⟨_, eq_of_blank ha.wf ha.deg (hc q (by simp)) (hv q (by simp)) (hb q (by simp))⟩ (ih (fun p hp => hb p (by simp [hp])) (fun p hp => hv p (by simp [hp])) fun p hp => hc p (by simp [hp]))

/-- C103: all secret keys decrypt an open ciphertext to the same plaintext. -/
theorem C103_open (hb : b.OK) (h : build b st = Res.ok par.toBfvParameters) {ct : Ciphertext} (hu : ct.Usable par) (ho : ct.Open) {sk sk' : SecretKey} {s s' : IntPoly par.degree}
    (hk : sk.IsKey par s) (hk' : sk'.IsKey par s') : sk.tryDecrypt b ct = sk'.tryDecrypt b ct := by
  obtain ⟨n, hw, -⟩ := build_inv hb h
  obtain ⟨l, ha⟩ := AtLevel.ofLt hw hu.level
  obtain ⟨F, iF, -, -⟩ := hu.is hw ha
  obtain ⟨f, iF⟩ := open_parts ha iF (fun p hp => (hu.valid p hp).1) ho hu.parts
  have hne : ct.c ≠ [] := fun h0 => by have := hu.parts; rw [h0] at this; simp at this
  unfold SecretKey.tryDecrypt
  rw [hk.par_eq, hk'.par_eq, SecretKey.phase_eq hk ha.wf ha.deg iF.parts hne, SecretKey.phase_eq hk' ha.wf ha.deg iF.parts hne, phase_zeros, phase_zeros]

/-- Parts that are zero are blank. -/
theorem open_of_is {i : Nat} {l : ContextLevel} (ha : AtLevel b n par i l) {ct : Ciphertext} {f : IntPoly par.degree} {F : List (IntPoly par.degree)} (hi : ct.Is par i l (f :: F)) (h0 : ∀ g ∈ F, g = 0) :
    ct.Open := by
  have h := hi.parts
  unfold Ciphertext.Open
  cases hc : ct.c with
  | nil => rw [hc] at h; cases h
  | cons p ps =>
    rw [hc] at h
    obtain _ | ⟨-, h⟩ := h
    clear hi hc
    intro q hq
    replace hq : q ∈ ps := hq
    induction h with
    | nil => cases hq
    | cons h1 _ ih =>
      rcases List.mem_cons.1 hq with rfl | hq
      · obtain ⟨vt, rfl⟩ := h1
        rw [h0 _ (List.mem_cons_self ..)]
        exact blank_encI ha.wf ha.deg
      · exact ih (fun g hg => h0 g (List.mem_cons_of_mem _ hg)) hq

/-- If the first part is zero too, all are blank. -/
theorem blank_of_is {i : Nat} {l : ContextLevel} (ha : AtLevel b n par i l) {ct : Ciphertext} {F : List (IntPoly par.degree)} (hi : ct.Is par i l (0 :: F)) (ho : ct.Open) : ∀ p ∈ ct.c, p.Blank := by
  intro p hp
  cases hc : ct.c with
  | nil => rw [hc] at hp; cases hp
  | cons q qs =>
    have hr := hi.parts
    rw [hc] at hr hp
    obtain _ | ⟨⟨vt, rfl⟩, -⟩ := hr
    rcases List.mem_cons.1 hp with rfl | hp
    · exact blank_encI ha.wf ha.deg
    · exact ho p (by rw [hc]; exact hp)

/-- A ciphertext with all parts zero, and what adding a plaintext to it gives. -/
theorem all_zero (hb : b.OK) (h : build b st = Res.ok par.toBfvParameters) (hw : ParWF b n par.toBfvParameters) {i : Nat} {l : ContextLevel} (ha : AtLevel b n par i l) {d : Ciphertext} {k : Nat}
    (hi : d.Is par i l (0 :: List.replicate (k + 1) 0)) (hrel : par.toBfvParameters.Reliable i) (hroom : 2 ^ 62 * par.plaintext.value ≤ (2 ^ 61 - 1) * par.modulusAt i) :
    d.Open ∧ (∀ p ∈ d.c, p.Blank) ∧ d.Usable par ∧ d.level = i ∧ (∀ {sk : SecretKey} {s : IntPoly par.degree}, sk.IsKey par s → ∃ r, sk.tryDecrypt b d = Res.ok r ∧ r.Holds par i 0) ∧
    ∀ {pt : Plaintext} {m : par.Msg}, pt.Holds par i m → ∃ e, d.addPlain pt = some e ∧ e.Open ∧ e.Usable par ∧
      ∀ {sk : SecretKey} {s : IntPoly par.degree}, sk.IsKey par s → ∃ r, sk.tryDecrypt b e = Res.ok r ∧ r.Holds par i m := by
  have ht := hw.t_pos
  have hQ : par.plaintext.value ≤ par.modulusAt i := by have := hrel.modulus; omega
  have hz : ∀ g ∈ List.replicate (k + 1) (0 : IntPoly par.degree), g = 0 := fun g hg => (List.mem_replicate.1 hg).2
  have hlen : 2 ≤ d.c.length := by rw [hi.parts.length_eq]; simp
  have henc : ∀ s : IntPoly par.degree, d.Encrypts par s i 0 0 := fun s => by
    refine Encrypts.intro ha hi.par_eq hi.level_eq hlen hi.parts (M := 0) (by funext j; simp [red]) ?_
    rw [phase_zeros]
    simp
  refine ⟨open_of_is ha hi hz, blank_of_is ha hi (open_of_is ha hi hz), hi.usable ha (by simp), hi.level_eq, fun {sk s} hk => ?_, fun {pt m} hpt => ?_⟩
  · obtain ⟨r, h1, h2, -⟩ := C37_decrypt hb h hrel hk (henc s) (small_of_bounded (B := 0) (fun j => by simp) (by simp))
    exact ⟨r, h1, h2⟩
  · obtain ⟨e, h1, -, h2⟩ := hi.addPlain hw ha hQ hpt
    refine ⟨e, h1, open_of_is ha h2 hz, h2.usable ha (by simp), fun {sk s} hk => ?_⟩
    obtain ⟨w, g1, ⟨e', g2, g3, -⟩, -⟩ := C38_plain hb h hQ (henc s) hpt
    obtain rfl : e = e' := Option.some.inj (h1.symm.trans g2)
    have hw : (0 - w).Bounded par.plaintext.value := fun j => by
      rw [zero_sub, Nega.neg_apply, abs_neg, g1, Nat.abs_cast]
      exact_mod_cast (Nat.mod_lt _ (by omega)).le
    obtain ⟨r, k1, k2, -⟩ := C37_decrypt hb h hrel hk g3 (small_of_bounded hw hroom)
    rw [zero_add] at k2
    exact ⟨r, k1, k2⟩

/-- C103: a ciphertext minus itself is open.  Every secret key decrypts it to zero, and after the addition of a plaintext to that plaintext. -/
theorem C103_self (hb : b.OK) (h : build b st = Res.ok par.toBfvParameters) {x : Ciphertext} (hx : x.Usable par) (hrel : par.toBfvParameters.Reliable x.level)
    (hroom : 2 ^ 62 * par.plaintext.value ≤ (2 ^ 61 - 1) * par.modulusAt x.level) :
    ∃ d, x.sub x = some d ∧ d.Open ∧ (∀ p ∈ d.c, p.Blank) ∧ d.Usable par ∧ d.level = x.level ∧ (∀ {sk : SecretKey} {s : IntPoly par.degree}, sk.IsKey par s → ∃ r, sk.tryDecrypt b d = Res.ok r ∧ r.Holds par x.level 0) ∧
    ∀ {pt : Plaintext} {m : par.Msg}, pt.Holds par x.level m → ∃ e, d.addPlain pt = some e ∧ e.Open ∧ e.Usable par ∧
      ∀ {sk : SecretKey} {s : IntPoly par.degree}, sk.IsKey par s → ∃ r, sk.tryDecrypt b e = Res.ok r ∧ r.Holds par x.level m := by
  obtain ⟨n, hw, -⟩ := build_inv hb h
  obtain ⟨l, ha⟩ := AtLevel.ofLt hw hx.level
  obtain ⟨F, iF, -, F2⟩ := hx.is hw ha
  obtain ⟨d, e1, -, iD⟩ := iF.sub ha iF F2 rfl
  have e : List.zipWith (· - ·) F F = (0 : IntPoly par.degree) :: List.replicate (F.length - 2 + 1) 0 := by
    rw [← List.replicate_succ, show F.length - 2 + 1 + 1 = F.length by omega]
    clear iF iD F2
    induction F with
    | nil => rfl
    | cons f F ih => rw [List.zipWith_cons_cons, sub_self, ih]; rfl
  rw [e] at iD
  exact ⟨d, e1, all_zero hb h hw ha iD hrel hroom⟩

/-- C103: the product of a ciphertext and a plaintext that holds zero is open.  Every secret key decrypts it to zero, and after the addition of a plaintext to that plaintext. -/
theorem C103_zero (hb : b.OK) (h : build b st = Res.ok par.toBfvParameters) {x : Ciphertext} (hx : x.Usable par) (hrel : par.toBfvParameters.Reliable x.level)
    (hroom : 2 ^ 62 * par.plaintext.value ≤ (2 ^ 61 - 1) * par.modulusAt x.level) {z : Plaintext} (hz : z.Holds par x.level 0) :
    ∃ d, x.mulPlain z = some d ∧ d.Open ∧ (∀ p ∈ d.c, p.Blank) ∧ d.Usable par ∧ d.level = x.level ∧ (∀ {sk : SecretKey} {s : IntPoly par.degree}, sk.IsKey par s → ∃ r, sk.tryDecrypt b d = Res.ok r ∧ r.Holds par x.level 0) ∧
    ∀ {pt : Plaintext} {m : par.Msg}, pt.Holds par x.level m → ∃ e, d.addPlain pt = some e ∧ e.Open ∧ e.Usable par ∧
      ∀ {sk : SecretKey} {s : IntPoly par.degree}, sk.IsKey par s → ∃ r, sk.tryDecrypt b e = Res.ok r ∧ r.Holds par x.level m := by
  obtain ⟨n, hw, -⟩ := build_inv hb h
  obtain ⟨l, ha⟩ := AtLevel.ofLt hw hx.level
  obtain ⟨F, iF, -, F2⟩ := hx.is hw ha
  obtain ⟨d, e1, -, iD⟩ := iF.mulPlain hw ha F2 hz
  have h0 : msgInt (0 : par.Msg) = 0 := funext fun j => by
    show (((0 : ZMod par.plaintext.value).val : Nat) : Int) = 0
    rw [ZMod.val_zero]
    rfl
  have e : F.map (· * msgInt (0 : par.Msg)) = (0 : IntPoly par.degree) :: List.replicate (F.length - 2 + 1) 0 := by
    rw [← List.replicate_succ, show F.length - 2 + 1 + 1 = F.length by omega, h0]
    refine List.eq_replicate_iff.2 ⟨List.length_map _, fun g hg => ?_⟩
    obtain ⟨f, -, rfl⟩ := List.mem_map.1 hg
    exact MulZeroClass.mul_zero f
  rw [e] at iD
  exact ⟨d, e1, all_zero hb h hw ha iD hrel hroom⟩

/-- C103: what is computed from open ciphertexts and plaintexts by additions, subtractions, negations and products with plaintexts is open. -/
theorem C103_stays (hb : b.OK) (h : build b st = Res.ok par.toBfvParameters) {x y : Ciphertext} (hx : x.Usable par) (hy : y.Usable par) (hox : x.Open) (hoy : y.Open) (hyl : y.level = x.level)
    (hyc : y.c.length = x.c.length) (hQ : par.plaintext.value ≤ par.modulusAt x.level) {pt : Plaintext} {m : par.Msg} (hpt : pt.Holds par x.level m) :
    (∃ r, x.add y = some r ∧ r.Open ∧ r.Usable par) ∧ (∃ r, x.sub y = some r ∧ r.Open ∧ r.Usable par) ∧ (∃ r, x.neg = some r ∧ r.Open ∧ r.Usable par) ∧
    (∃ r, x.addPlain pt = some r ∧ r.Open ∧ r.Usable par) ∧ (∃ r, x.subPlain pt = some r ∧ r.Open ∧ r.Usable par) ∧ ∃ r, x.mulPlain pt = some r ∧ r.Open ∧ r.Usable par := by
  obtain ⟨n, hw, -⟩ := build_inv hb h
  obtain ⟨l, ha⟩ := AtLevel.ofLt hw hx.level
  obtain ⟨F, iF, -, -⟩ := hx.is hw ha
  obtain ⟨G, iG, -, -⟩ := hy.is hw (hyl ▸ ha)
  rw [hyl] at iG
  obtain ⟨f, iF⟩ := open_parts ha iF (fun p hp => (hx.valid p hp).1) hox hx.parts
  obtain ⟨g, iG⟩ := open_parts ha iG (fun p hp => (hy.valid p hp).1) hoy hy.parts
  rw [hyc] at iG
  have h2 := hx.parts
  have hz : ∀ g ∈ List.replicate (x.c.length - 1) (0 : IntPoly par.degree), g = 0 := fun g hg => (List.mem_replicate.1 hg).2
  have l2 : 2 ≤ (f :: List.replicate (x.c.length - 1) (0 : IntPoly par.degree)).length := by rw [List.length_cons, List.length_replicate]; omega
  refine ⟨?_, ?_, ?_, ?_, ?_, ?_⟩
  · obtain ⟨r, e1, -, e2⟩ := iF.add ha iG l2 (by simp)
    rw [List.zipWith_cons_cons, List.zipWith_replicate, Nat.min_self, add_zero] at e2
    exact ⟨r, e1, open_of_is ha e2 hz, e2.usable ha l2⟩
  · obtain ⟨r, e1, -, e2⟩ := iF.sub ha iG l2 (by simp)
    rw [List.zipWith_cons_cons, List.zipWith_replicate, Nat.min_self, sub_zero] at e2
    exact ⟨r, e1, open_of_is ha e2 hz, e2.usable ha l2⟩
  · obtain ⟨r, e1, -, e2⟩ := iF.neg ha
    rw [List.map_cons, List.map_replicate, neg_zero] at e2
    exact ⟨r, e1, open_of_is ha e2 hz, e2.usable ha l2⟩
  · obtain ⟨r, e1, -, e2⟩ := iF.addPlain hw ha hQ hpt
    exact ⟨r, e1, open_of_is ha e2 hz, e2.usable ha l2⟩
  · obtain ⟨r, e1, -, e2⟩ := iF.subPlain hw ha hQ hpt
    exact ⟨r, e1, open_of_is ha e2 hz, e2.usable ha l2⟩
  · obtain ⟨r, e1, -, e2⟩ := iF.mulPlain hw ha l2 hpt
    rw [List.map_cons, List.map_replicate, MulZeroClass.zero_mul] at e2
    exact ⟨r, e1, open_of_is ha e2 hz, e2.usable ha l2⟩

theorem partsPoly_zeros (k : Nat) : partsPoly (List.replicate k (0 : IntPoly N)) = 0 := by
  induction k with
  | zero => rfl
  | succ k ih => rw [List.replicate_succ, partsPoly, ih, MulZeroClass.mul_zero, add_zero, map_zero]

/-- C103, products: the product of open ciphertexts is open, and so is the product of any ciphertext and one that is zero, such as a ciphertext minus itself. -/
theorem C103_product (hb : b.OK) (h : build b st = Res.ok par.toBfvParameters) (hcount : par.moduli.length ≤ 31) (hsum : par.moduli.sum ≤ 2 ^ 65) {x y : Ciphertext} (hx : x.Usable par) (hy : y.Usable par)
    (hyl : y.level = x.level) (hxo : x.Open) (hor : y.Open ∨ ∀ p ∈ x.c, p.Blank) :
    ∃ r, x.mul y = some r ∧ r.Open ∧ r.Usable par ∧ ((∀ p ∈ x.c, p.Blank) → ∀ p ∈ r.c, p.Blank) := by
  obtain ⟨n, hw, -⟩ := build_inv hb h
  obtain ⟨l, ha⟩ := AtLevel.ofLt hw hx.level
  obtain ⟨F, iF, -, -⟩ := hx.is hw ha
  obtain ⟨G, iG, -, G2⟩ := hy.is hw (hyl ▸ ha)
  rw [hyl] at iG
  obtain ⟨f, iF⟩ := open_parts ha iF (fun p hp => (hx.valid p hp).1) hxo hx.parts
  obtain ⟨ext, down, e0, d0, -, -, hmul⟩ := Is.mul_scalers_zero hw hcount hsum ha
  have h2 := hx.parts
  have l2 : ∀ f, 2 ≤ (f :: List.replicate (x.c.length - 1) (0 : IntPoly par.degree)).length := fun f => by rw [List.length_cons, List.length_replicate]; omega
  have hsplit : ∀ (f : IntPoly par.degree) (G : List (IntPoly par.degree)), 2 ≤ G.length → ∀ g : IntPoly par.degree, Polynomial.C (ext f) * partsPoly (G.map ext) = Polynomial.C g →
      (mulAllI ((f :: List.replicate (x.c.length - 1) 0).map ext) (G.map ext) (List.replicate ((f :: List.replicate (x.c.length - 1) (0 : IntPoly par.degree)).length + G.length - 1) 0)).map down =
        down g :: List.replicate (x.c.length + G.length - 2) 0 := by
    intro f G hG g hg
    have hlen : (f :: List.replicate (x.c.length - 1) (0 : IntPoly par.degree)).length = x.c.length := by rw [List.length_cons, List.length_replicate]; omega
    have hne : G.map ext ≠ [] := ne_nil_of_two (by rw [List.length_map]; exact hG)
    have hle : ((f :: List.replicate (x.c.length - 1) 0).map ext).length + (G.map ext).length ≤
        (List.replicate ((f :: List.replicate (x.c.length - 1) (0 : IntPoly par.degree)).length + G.length - 1) (0 : IntPoly par.degree)).length + 1 := by
      rw [List.length_map, List.length_map, List.length_replicate]; omega
    rw [partsPoly_inj (F := mulAllI _ _ _) (G := g :: List.replicate (x.c.length + G.length - 2) 0) (by
        rw [mulAllI_length _ _ _ hne hle, List.length_replicate, hlen, List.length_cons, List.length_replicate]; omega) (by
        rw [mulAllI_poly _ _ _ hne hle, partsPoly_zeros, zero_add, List.map_cons, List.map_replicate, e0, partsPoly, partsPoly, partsPoly_zeros, partsPoly_zeros, MulZeroClass.mul_zero, add_zero, add_zero, hg]),
      List.map_cons, List.map_replicate, d0]
  have hz : ∀ k, ∀ g ∈ List.replicate k (0 : IntPoly par.degree), g = 0 := fun k g hg => (List.mem_replicate.1 hg).2
  have hblank : (∀ p ∈ x.c, p.Blank) → ∃ r, x.mul y = some r ∧ r.Open ∧ r.Usable par ∧ ∀ p ∈ r.c, p.Blank := by
    intro hbl
    have iZ : x.Is par x.level l (0 :: List.replicate (x.c.length - 1) 0) := by
      refine ⟨iF.par_eq, iF.level_eq, ?_⟩
      have hp := iF.parts
      cases hc : x.c with
      | nil => rw [hc] at h2; simp at h2
      | cons p ps =>
        rw [hc] at hp
        obtain _ | ⟨-, hp⟩ := hp
        have hm : p ∈ x.c := by rw [hc]; simp
        exact .cons ⟨_, eq_of_blank ha.wf ha.deg (by
          have := (hx.valid p hm).2
          rw [ha.contextAt, Res.ok_inj] at this
          exact this.symm) (hx.valid p hm).1 (hbl p hm)⟩ hp
    obtain ⟨r, r1, -, r2⟩ := hmul iZ iG (l2 0) G2
    rw [hsplit 0 G G2 0 (by rw [e0, map_zero, MulZeroClass.zero_mul]), d0] at r2
    have ho := open_of_is ha r2 (hz _)
    exact ⟨r, r1, ho, r2.usable ha (by rw [List.length_cons, List.length_replicate]; omega), blank_of_is ha r2 ho⟩
  by_cases hbl : ∀ p ∈ x.c, p.Blank
  · obtain ⟨r, r1, r2, r3, r4⟩ := hblank hbl
    exact ⟨r, r1, r2, r3, fun _ => r4⟩
  · have hyo := hor.resolve_right hbl
    obtain ⟨g, iG⟩ := open_parts ha iG (fun p hp => (hy.valid p hp).1) hyo hy.parts
    have g2 : 2 ≤ (g :: List.replicate (y.c.length - 1) (0 : IntPoly par.degree)).length := by have := hy.parts; rw [List.length_cons, List.length_replicate]; omega
    obtain ⟨r, r1, -, r2⟩ := hmul iF iG (l2 f) g2
    rw [hsplit f _ g2 (ext f * ext g) (by rw [List.map_cons, List.map_replicate, e0, partsPoly, partsPoly_zeros, MulZeroClass.mul_zero, add_zero, map_mul])] at r2
    exact ⟨r, r1, open_of_is ha r2 (hz _), r2.usable ha (by have := hy.parts; simp only [List.length_cons, List.length_replicate]; omega), fun hc => absurd hc hbl⟩

/-- C103, levels: an open ciphertext stays open when it is switched to the next level. -/
theorem C103_switch (hb : b.OK) (h : build b st = Res.ok par.toBfvParameters) {x : Ciphertext} (hx : x.Usable par) (hox : x.Open) (hi : x.level + 1 < par.moduli.length) :
    ∃ r, x.switchDown = Res.ok r ∧ r.Open ∧ r.Usable par ∧ r.level = x.level + 1 := by
  obtain ⟨n, hw, -⟩ := build_inv hb h
  obtain ⟨l, ha⟩ := AtLevel.ofLt hw hx.level
  obtain ⟨l', ha'⟩ := AtLevel.ofLt (par := par) hw hi
  obtain ⟨F, iF, -, -⟩ := hx.is hw ha
  obtain ⟨f, iF⟩ := open_parts ha iF (fun p hp => (hx.valid p hp).1) hox hx.parts
  obtain ⟨rs, e, hp⟩ := mapM_switch ha ha' iF.parts
  obtain ⟨-, -, hq⟩ := switchPoly_eq ha ha' (vt := false) 0
  have h0 : roundI (l.ctx.moduli.getLastD 0) (0 : IntPoly par.degree) = 0 := funext fun j => by
    show ((0 : Int) + ((l.ctx.moduli.getLastD 0 / 2 : Nat) : Int)) / (l.ctx.moduli.getLastD 0 : Int) = 0
    rw [zero_add]
    exact Int.ediv_eq_zero_of_lt (by positivity) (by exact_mod_cast Nat.div_lt_self hq (by norm_num))
  rw [List.map_cons, List.map_replicate, h0] at hp
  have hr : ({ x with seed := none, c := rs, level := x.level + 1 } : Ciphertext).Is par (x.level + 1) l' (roundI (l.ctx.moduli.getLastD 0) f :: List.replicate (x.c.length - 1) 0) := ⟨hx.par_eq, rfl, hp⟩
  have h2 := hx.parts
  refine ⟨_, ?_, open_of_is ha' hr fun g hg => (List.mem_replicate.1 hg).2, hr.usable ha' (by rw [List.length_cons, List.length_replicate]; omega), rfl⟩
  unfold Ciphertext.switchDown BfvParameters.maxLevel
  rw [hx.par_eq, hw.length, subU_eq (by omega), Res.lift_some, Res.ok_bind, if_neg (by omega), e, Res.ok_bind, Res.pure_eq]

private theorem open_loop (hb : b.OK) (h : build b st = Res.ok par.toBfvParameters) : ∀ (k : Nat) {x : Ciphertext}, x.Usable par → x.Open → x.level + k < par.moduli.length →
    ∃ r, x.switchLoop k = Res.ok r ∧ r.Open ∧ r.Usable par ∧ r.level = x.level + k
  | 0, x, hx, hox, _ => ⟨x, rfl, hox, hx, rfl⟩
  | k + 1, x, hx, hox, hi => by
    obtain ⟨y, e, h1, h2, h3⟩ := C103_switch hb h hx hox (by omega)
    obtain ⟨r, e', k1, k2, k3⟩ := open_loop hb h k h2 h1 (by omega)
    refine ⟨r, ?_, k1, k2, by omega⟩
    rw [Ciphertext.switchLoop, e, Res.ok_bind, e']

/-- C103, levels: an open ciphertext stays open when it is switched to any later level of the parameters. -/
theorem C103_switch_to (hb : b.OK) (h : build b st = Res.ok par.toBfvParameters) {x : Ciphertext} (hx : x.Usable par) (hox : x.Open) {target : Nat} (hle : x.level ≤ target)
    (hi : target < par.moduli.length) : ∃ r, x.switchToLevel target = Res.ok r ∧ r.Open ∧ r.Usable par ∧ r.level = target := by
  obtain ⟨n, hw, -⟩ := build_inv hb h
  obtain ⟨r, e, h1, h2, h3⟩ := open_loop hb h (target - x.level) hx hox (by omega)
  refine ⟨r, ?_, h1, h2, by omega⟩
  unfold Ciphertext.switchToLevel BfvParameters.maxLevel
  rw [hx.par_eq, hw.length, subU_eq (by omega), Res.lift_some, Res.ok_bind, if_neg (by omega), if_neg (by omega), e]

/-- The hypotheses are met: the difference of the ciphertext of the scene and itself, and what comes of adding a plaintext, are decrypted by a key that has nothing to do with that of the scene. -/
example (S : Scene) : ∃ (sk' : SecretKey) (d e : Ciphertext) (r : Plaintext), sk' ≠ S.sk ∧ S.ct.sub S.ct = some d ∧ d.Open ∧ d.addPlain S.pt' = some e ∧ sk'.tryDecrypt luckyBuild e = Res.ok r ∧
    r.Holds S.par 0 S.m' ∧ S.sk.tryDecrypt luckyBuild e = Res.ok r := by
  let sk' : SecretKey := { par := S.par, coeffs := List.replicate S.par.degree 100 }
  have hk' : sk'.IsKey S.par (IntPoly.ofList S.par.degree (List.replicate S.par.degree 100)) :=
    ⟨rfl, List.length_replicate, fun x hx => by obtain ⟨-, rfl⟩ := List.mem_replicate.1 hx; norm_num, rfl⟩
  have hl : S.ct.level = 0 := S.enc.level_eq
  obtain ⟨d, h1, h2, -, h3, hd, -, h4⟩ := C103_self luckyBuild_ok S.h S.use (by rw [hl]; exact S.hrel) (by rw [hl, S.h0, S.ht]; decide)
  rw [hl] at h4
  obtain ⟨e, h5, h6, -, h7⟩ := h4 S.hpt'
  obtain ⟨r, h8, h9⟩ := h7 hk'
  obtain ⟨-, -, -, ⟨e', g1, g2, g3⟩, -⟩ := C103_stays luckyBuild_ok S.h h3 h3 h2 h2 rfl rfl (pt := S.pt') (m := S.m') (by rw [hd, hl, S.h0, S.ht]; decide) (by rw [hd, hl]; exact S.hpt')
  obtain rfl : e = e' := Option.some.inj (h5.symm.trans g1)
  refine ⟨sk', d, e, r, ?_, h1, h2, h5, h8, h9, by rw [C103_open luckyBuild_ok S.h g3 h6 S.hk hk', h8]⟩
  intro hc
  have := S.hs ⟨0, by rw [S.hd]; decide⟩
  rw [congrFun S.hk.poly _, ← hc] at this
  have h1 : |(List.replicate S.par.degree (100 : Int)).getD 0 0| ≤ 2 := this
  rw [S.hd] at h1
  norm_num at h1

example (S : Scene) : ∃ (z : Plaintext) (d : Ciphertext), Plaintext.tryEncodeBigUint [] ⟨.poly, 0⟩ S.par = Res.ok z ∧ S.ct.mulPlain z = some d ∧ d.Open := by
  have hl : S.ct.level = 0 := S.enc.level_eq
  obtain ⟨m, e0, -, ⟨z, e1, e2, -⟩, -⟩ := C35_poly luckyBuild_ok S.h (level := 0) (v := []) (by rw [S.hm]; decide) (by rw [S.h0, S.ht]; decide) (by simp) (by simp)
  obtain rfl : m = 0 := Nega.ext fun j => by simpa using e0 j
  obtain ⟨d, h1, h2, -⟩ := C103_zero luckyBuild_ok S.h S.use (by rw [hl]; exact S.hrel) (by rw [hl, S.h0, S.ht]; decide) (z := z) (by rw [hl]; exact e2)
  exact ⟨z, d, e1, h1, h2⟩

example (S : Scene) : ∃ d r, S.ct.sub S.ct = some d ∧ d.mul S.ct' = some r ∧ r.Open ∧ ∀ p ∈ r.c, p.Blank := by
  have hl : S.ct.level = 0 := S.enc.level_eq
  obtain ⟨d, h1, h2, h3, h4, hd, -⟩ := C103_self luckyBuild_ok S.h S.use (by rw [hl]; exact S.hrel) (by rw [hl, S.h0, S.ht]; decide)
  obtain ⟨r, k1, k2, -, k3⟩ := C103_product luckyBuild_ok S.h (by rw [S.hm]; decide) (by rw [S.hm]; decide) h4 S.use' (by rw [hd, hl]; exact S.enc'.level_eq) h2 (Or.inr h3)
  exact ⟨d, r, h1, k1, k2, k3 h3⟩

example (S : Scene) : ∃ d r, S.ct.sub S.ct = some d ∧ d.switchDown = Res.ok r ∧ r.Open := by
  have hl : S.ct.level = 0 := S.enc.level_eq
  obtain ⟨d, h1, h2, -, h4, hd, -⟩ := C103_self luckyBuild_ok S.h S.use (by rw [hl]; exact S.hrel) (by rw [hl, S.h0, S.ht]; decide)
  obtain ⟨r, k1, k2, -⟩ := C103_switch luckyBuild_ok S.h h4 h2 (by rw [hd, hl, S.hm]; decide)
  exact ⟨d, r, h1, k1, k2⟩

example (S : Scene) : ∃ d r, S.ct.sub S.ct = some d ∧ d.switchToLevel 1 = Res.ok r ∧ r.Open ∧ r.level = 1 := by
  have hl : S.ct.level = 0 := S.enc.level_eq
  obtain ⟨d, h1, h2, -, h4, hd, -⟩ := C103_self luckyBuild_ok S.h S.use (by rw [hl]; exact S.hrel) (by rw [hl, S.h0, S.ht]; decide)
  obtain ⟨r, k1, k2, -, k3⟩ := C103_switch_to luckyBuild_ok S.h h4 h2 (target := 1) (by rw [hd, hl]; decide) (by rw [S.hm]; decide)
  exact ⟨d, r, h1, k1, k2, k3⟩

end Fhe.Props
