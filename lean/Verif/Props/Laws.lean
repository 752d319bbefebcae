import Verif.Lemmas.Laws
import Verif.Props.Robust
/-!
# Laws of the operations on ciphertexts

The laws hold exactly, for the equality `==` of ciphertexts, and for all ciphertexts that can be used, also for those whose noise is so large that they
do not decrypt.
-/
namespace Fhe.Props
open Nega ParamsBuilder Ciphertext

variable {b : Build} {st : ParamsBuilder} {par : Par} {x y z : Ciphertext} {i : Nat} {m m' : par.Msg} {pt pt' : Plaintext}

/-- C68: addition is commutative and associative. -/
theorem C68_add (hb : b.OK) (h : build b st = Res.ok par.toBfvParameters) (hx : x.Usable par) (hy : y.Usable par) (hz : z.Usable par) (hyl : y.level = x.level) (hzl : z.level = x.level)
    (hyc : y.c.length = x.c.length) (hzc : z.c.length = x.c.length) :
    ∃ xy yx yz xy_z x_yz, x.add y = some xy ∧ y.add x = some yx ∧ xy.beq yx = true ∧
      y.add z = some yz ∧ xy.add z = some xy_z ∧ x.add yz = some x_yz ∧ xy_z.beq x_yz = true := by
  obtain ⟨n, hw, -⟩ := build_inv hb h
  obtain ⟨l, ha⟩ := AtLevel.ofLt hw hx.level
  obtain ⟨F, iF, lF, F2⟩ := hx.is hw ha
  obtain ⟨G, iG, lG, G2⟩ := hy.is hw (hyl ▸ ha)
  obtain ⟨H, iH, lH, H2⟩ := hz.is hw (hzl ▸ ha)
  rw [hyl] at iG
  rw [hzl] at iH
  obtain ⟨xy, e1, s1, j1⟩ := iF.add ha iG F2 (by omega)
  obtain ⟨yx, e2, s2, j2⟩ := iG.add ha iF G2 (by omega)
  obtain ⟨yz, e3, s3, j3⟩ := iG.add ha iH G2 (by omega)
  have l1 : (List.zipWith (· + ·) F G).length = F.length := by rw [List.length_zipWith]; omega
  have l3 : (List.zipWith (· + ·) G H).length = F.length := by rw [List.length_zipWith]; omega
  obtain ⟨r, e4, s4, j4⟩ := j1.add ha iH (by omega) (by omega)
  obtain ⟨r', e5, s5, j5⟩ := iF.add ha j3 F2 (by omega)
  refine ⟨xy, yx, yz, r, r', e1, e2, ?_, e3, e4, e5, ?_⟩
  · rw [zipWith_comm'] at j2
    exact j1.beq j2 (by rw [s1, s2])
  · rw [zipWith_assoc'] at j4
    exact j4.beq j5 (by rw [s4, s5])

/-- C68: subtraction undoes addition, is the addition of the negation, and negating twice changes nothing.  (The results have no seed, so the
comparison is with the ciphertext without its seed.) -/
theorem C68_sub (hb : b.OK) (h : build b st = Res.ok par.toBfvParameters) (hx : x.Usable par) (hy : y.Usable par) (hyl : y.level = x.level) (hyc : y.c.length = x.c.length) :
    ∃ xy r ny d e nx nnx, x.add y = some xy ∧ xy.sub y = some r ∧ r.beq { x with seed := none } = true ∧
      y.neg = some ny ∧ x.sub y = some d ∧ x.add ny = some e ∧ d.beq e = true ∧
      x.neg = some nx ∧ nx.neg = some nnx ∧ nnx.beq { x with seed := none } = true := by
  obtain ⟨n, hw, -⟩ := build_inv hb h
  obtain ⟨l, ha⟩ := AtLevel.ofLt hw hx.level
  obtain ⟨F, iF, lF, F2⟩ := hx.is hw ha
  obtain ⟨G, iG, lG, G2⟩ := hy.is hw (hyl ▸ ha)
  rw [hyl] at iG
  obtain ⟨xy, e1, s1, j1⟩ := iF.add ha iG F2 (by omega)
  have l1 : (List.zipWith (· + ·) F G).length = F.length := by rw [List.length_zipWith]; omega
  obtain ⟨r, e2, s2, j2⟩ := j1.sub ha iG (by omega) (by omega)
  obtain ⟨ny, e3, s3, j3⟩ := iG.neg ha
  obtain ⟨d, e4, s4, j4⟩ := iF.sub ha iG F2 (by omega)
  obtain ⟨e, e5, s5, j5⟩ := iF.add ha j3 F2 (by rw [List.length_map]; omega)
  obtain ⟨nx, e6, s6, j6⟩ := iF.neg ha
  obtain ⟨nnx, e7, s7, j7⟩ := j6.neg ha
  refine ⟨xy, r, ny, d, e, nx, nnx, e1, e2, ?_, e3, e4, e5, ?_, e6, e7, ?_⟩
  · rw [zipWith_sub_add F G (by omega)] at j2
    exact j2.beq iF.clear s2
  · rw [zipWith_sub_eq] at j4
    exact j4.beq j5 (by rw [s4, s5])
  · rw [List.map_map, show ((- ·) : IntPoly par.degree → IntPoly par.degree) ∘ (- ·) = id from funext fun f => neg_neg f, List.map_id] at j7
    exact j7.beq iF.clear s7

/-- C68: adding a plaintext can be undone and may be done before or after an addition; a plaintext minus a ciphertext is the negation of the ciphertext
minus the plaintext. -/
theorem C68_plain (hb : b.OK) (h : build b st = Res.ok par.toBfvParameters) (hx : x.Usable par) (hy : y.Usable par) (hyl : y.level = x.level) (hyc : y.c.length = x.c.length)
    (hQ : par.plaintext.value ≤ par.modulusAt x.level) (hpt : pt.Holds par x.level m) :
    ∃ xp r xy xy_p yp x_yp d nd pd, x.addPlain pt = some xp ∧ xp.subPlain pt = some r ∧ r.beq { x with seed := none } = true ∧
      x.add y = some xy ∧ xy.addPlain pt = some xy_p ∧ y.addPlain pt = some yp ∧ x.add yp = some x_yp ∧ xy_p.beq x_yp = true ∧
      x.subPlain pt = some d ∧ d.neg = some nd ∧ plainSub pt x = some pd ∧ pd.beq nd = true := by
  obtain ⟨n, hw, -⟩ := build_inv hb h
  obtain ⟨l, ha⟩ := AtLevel.ofLt hw hx.level
  obtain ⟨F, iF, lF, F2⟩ := hx.is hw ha
  obtain ⟨G, iG, lG, G2⟩ := hy.is hw (hyl ▸ ha)
  rw [hyl] at iG
  obtain ⟨xy, e1, s1, j1⟩ := iF.add ha iG F2 (by omega)
  obtain ⟨f, F, rfl⟩ := List.exists_cons_of_ne_nil (ne_nil_of_two F2)
  obtain ⟨g, G, rfl⟩ := List.exists_cons_of_ne_nil (ne_nil_of_two G2)
  obtain ⟨xp, e2, s2, j2⟩ := iF.addPlain hw ha hQ hpt
  obtain ⟨r, e3, s3, j3⟩ := j2.subPlain hw ha hQ hpt
  rw [List.zipWith_cons_cons] at j1
  obtain ⟨q, e4, s4, j4⟩ := j1.addPlain hw ha hQ hpt
  obtain ⟨yp, e5, s5, j5⟩ := iG.addPlain hw ha hQ hpt
  obtain ⟨q', e6, s6, j6⟩ := iF.add ha j5 F2 (by simp only [List.length_cons] at lF lG ⊢; omega)
  obtain ⟨d, e7, s7, j7⟩ := iF.subPlain hw ha hQ hpt
  obtain ⟨nd, e8, s8, j8⟩ := j7.neg ha
  refine ⟨xp, r, xy, q, yp, q', d, nd, nd, e2, e3, ?_, e1, e4, e5, e6, ?_, e7, e8, ?_, j8.beq j8 rfl⟩
  · rw [add_sub_cancel_right] at j3
    exact j3.beq iF.clear s3
  · rw [List.zipWith_cons_cons, ← add_assoc] at j6
    exact j4.beq j6 (by rw [s4, s6])
  · unfold plainSub
    rw [e7, Option.bind_eq_bind, Option.bind_some, e8]

/-- C68: multiplying by a plaintext distributes over addition, and two plaintext factors may be exchanged. -/
theorem C68_mul_plain (hb : b.OK) (h : build b st = Res.ok par.toBfvParameters) (hx : x.Usable par) (hy : y.Usable par) (hyl : y.level = x.level) (hyc : y.c.length = x.c.length)
    (hpt : pt.Holds par x.level m) (hpt' : pt'.Holds par x.level m') :
    ∃ xy r xp yp r' xp' q q', x.add y = some xy ∧ xy.mulPlain pt = some r ∧ x.mulPlain pt = some xp ∧ y.mulPlain pt = some yp ∧ xp.add yp = some r' ∧ r.beq r' = true ∧
      x.mulPlain pt' = some xp' ∧ xp.mulPlain pt' = some q ∧ xp'.mulPlain pt = some q' ∧ q.beq q' = true := by
  obtain ⟨n, hw, -⟩ := build_inv hb h
  obtain ⟨l, ha⟩ := AtLevel.ofLt hw hx.level
  obtain ⟨F, iF, lF, F2⟩ := hx.is hw ha
  obtain ⟨G, iG, lG, G2⟩ := hy.is hw (hyl ▸ ha)
  rw [hyl] at iG
  obtain ⟨xy, e1, s1, j1⟩ := iF.add ha iG F2 (by omega)
  have l1 : (List.zipWith (· + ·) F G).length = F.length := by rw [List.length_zipWith]; omega
  obtain ⟨r, e2, s2, j2⟩ := j1.mulPlain hw ha (by omega) hpt
  obtain ⟨xp, e3, s3, j3⟩ := iF.mulPlain hw ha F2 hpt
  obtain ⟨yp, e4, s4, j4⟩ := iG.mulPlain hw ha G2 hpt
  obtain ⟨r', e5, s5, j5⟩ := j3.add ha j4 (by rw [List.length_map]; exact F2) (by rw [List.length_map, List.length_map]; omega)
  obtain ⟨xp', e6, s6, j6⟩ := iF.mulPlain hw ha F2 hpt'
  obtain ⟨q, e7, s7, j7⟩ := j3.mulPlain hw ha (by rw [List.length_map]; exact F2) hpt'
  obtain ⟨q', e8, s8, j8⟩ := j6.mulPlain hw ha (by rw [List.length_map]; exact F2) hpt
  refine ⟨xy, r, xp, yp, r', xp', q, q', e1, e2, e3, e4, e5, ?_, e6, e7, e8, ?_⟩
  · rw [zipWith_mul] at j2
    exact j2.beq j5 (by rw [s2, s5])
  · rw [List.map_map, show ((· * msgInt m') : IntPoly par.degree → IntPoly par.degree) ∘ (· * msgInt m) = (· * msgInt m) ∘ (· * msgInt m') from funext fun f => mul_right_comm f _ _,
      ← List.map_map] at j7
    exact j7.beq j8 (by rw [s7, s8])

/-- C68: a list of ciphertexts may be added up in any order. -/
theorem C68_sum (hb : b.OK) (h : build b st = Res.ok par.toBfvParameters) {ys zs : List Ciphertext} (hx : x.Usable par)
    (hys : ∀ y ∈ ys, y.Usable par ∧ y.level = x.level ∧ y.c.length = x.c.length) (hp : ys.Perm zs) :
    ∃ r r', ys.foldlM (fun s y => s.add y) x = some r ∧ zs.foldlM (fun s y => s.add y) x = some r' ∧ r.beq r' = true := by
  obtain ⟨n, hw, -⟩ := build_inv hb h
  obtain ⟨l, ha⟩ := AtLevel.ofLt hw hx.level
  obtain ⟨F, iF, lF, F2⟩ := hx.is hw ha
  have hrep : ∀ y, ∃ G, y ∈ ys → y.Is par x.level l G ∧ G.length = F.length := fun y => by
    by_cases hy : y ∈ ys
    · obtain ⟨h1, h2, h3⟩ := hys y hy
      obtain ⟨G, iG, lG, -⟩ := h1.is hw (h2 ▸ ha)
      exact ⟨G, fun _ => ⟨h2 ▸ iG, by omega⟩⟩
    · exact ⟨[], fun h => absurd h hy⟩
  choose rep hrep using hrep
  obtain ⟨r, e1, s1, j1⟩ := Is.sum ha rep iF F2 hrep
  obtain ⟨r', e2, s2, j2⟩ := Is.sum ha rep (ds := zs) iF F2 fun y hy => hrep y (hp.mem_iff.2 hy)
  refine ⟨r, r', e1, e2, ?_⟩
  have hc : RightCommutative (fun x y : List (IntPoly par.degree) => List.zipWith (· + ·) x y) :=
    ⟨fun a b c => by rw [zipWith_assoc', zipWith_assoc', zipWith_comm' b c]⟩
  rw [(hp.map rep).foldl_eq (f := fun x y => List.zipWith (· + ·) x y) F] at j1
  refine j1.beq j2 ?_
  rw [s1, s2]
  by_cases hn : ys = []
  · subst hn
    rw [hp.symm.eq_nil]
  · rw [if_neg hn, if_neg fun hz => hn (by subst hz; exact hp.eq_nil)]

/-- C68: multiplication is commutative, for factors of any numbers of parts. -/
theorem C68_mul (hb : b.OK) (h : build b st = Res.ok par.toBfvParameters) (hcount : par.moduli.length ≤ 31) (hsum : par.moduli.sum ≤ 2 ^ 65) (hx : x.Usable par) (hy : y.Usable par)
    (hyl : y.level = x.level) : ∃ xy yx, x.mul y = some xy ∧ y.mul x = some yx ∧ xy.beq yx = true := by
  obtain ⟨n, hw, -⟩ := build_inv hb h
  obtain ⟨l, ha⟩ := AtLevel.ofLt hw hx.level
  obtain ⟨F, iF, lF, F2⟩ := hx.is hw ha
  obtain ⟨G, iG, lG, G2⟩ := hy.is hw (hyl ▸ ha)
  rw [hyl] at iG
  obtain ⟨ext, down, hmul⟩ := Is.mul hw hcount hsum ha
  obtain ⟨r, e1, s1, j1⟩ := hmul iF iG F2 G2
  obtain ⟨r', e2, s2, j2⟩ := hmul iG iF G2 F2
  refine ⟨r, r', e1, e2, ?_⟩
  rw [mulAllI_comm (ne_nil_of_two (by rw [List.length_map]; exact F2)) (ne_nil_of_two (by rw [List.length_map]; exact G2)) (by rw [List.length_map, List.length_map, List.length_replicate]; omega)] at j1
  rw [Nat.add_comm G.length] at j2
  exact j1.beq j2 (by rw [s1, s2])

/-- C68: equal ciphertexts are interchangeable: what `==` does not see, the flags of the parts, does not change a sum or a product. -/
theorem C68_congr (hb : b.OK) (h : build b st = Res.ok par.toBfvParameters) (hcount : par.moduli.length ≤ 31) (hsum : par.moduli.sum ≤ 2 ^ 65) (hx : x.Usable par) (hy : y.Usable par)
    (hz : z.Usable par) (hxz : x.beq z = true) (hyl : y.level = x.level) :
    (∃ xy zy, x.mul y = some xy ∧ z.mul y = some zy ∧ xy.beq zy = true) ∧
    (y.c.length = x.c.length → ∃ xy zy, x.add y = some xy ∧ z.add y = some zy ∧ xy.beq zy = true) ∧
    (∃ r r', x.neg = some r ∧ z.neg = some r' ∧ r.beq r' = true) := by
  obtain ⟨n, hw, -⟩ := build_inv hb h
  obtain ⟨l, ha⟩ := AtLevel.ofLt hw hx.level
  obtain ⟨F, iF, lF, F2⟩ := hx.is hw ha
  obtain ⟨G, iG, lG, G2⟩ := hy.is hw (hyl ▸ ha)
  rw [hyl] at iG
  have iZ : z.Is par x.level l F := by
    unfold Ciphertext.beq at hxz
    simp only [Bool.and_eq_true, decide_eq_true_eq] at hxz
    exact ⟨hz.par_eq, hxz.2.symm, Parts.of_beq ha.wf ha.deg iF.parts hxz.1.1.2 hxz.1.2⟩
  obtain ⟨ext, down, hmul⟩ := Is.mul hw hcount hsum ha
  obtain ⟨r, e1, s1, j1⟩ := hmul iF iG F2 G2
  obtain ⟨r', e2, s2, j2⟩ := hmul iZ iG F2 G2
  obtain ⟨p, e3, s3, j3⟩ := iF.neg ha
  obtain ⟨p', e4, s4, j4⟩ := iZ.neg ha
  refine ⟨⟨r, r', e1, e2, j1.beq j2 (by rw [s1, s2])⟩, fun hl => ?_, p, p', e3, e4, j3.beq j4 (by rw [s3, s4])⟩
  obtain ⟨q, e5, s5, j5⟩ := iF.add ha iG F2 (by omega)
  obtain ⟨q', e6, s6, j6⟩ := iZ.add ha iG F2 (by omega)
  exact ⟨q, q', e5, e6, j5.beq j6 (by rw [s5, s6])⟩

/-- Two ciphertexts of non-zero messages satisfy the hypotheses, and so does their product, which has three parts. -/
example : ∃ (par : Par) (x y xy yx p q : Ciphertext), build luckyBuild exBuilder = Res.ok par.toBfvParameters ∧ x.c.length = 2 ∧ x.mul y = some xy ∧ y.mul x = some yx ∧ xy.beq yx = true ∧
    xy.c.length = 3 ∧ xy.mul x = some p ∧ x.mul xy = some q ∧ p.beq q = true ∧
    (∃ s s', [x, y, y].foldlM (fun s y => s.add y) y = some s ∧ [y, y, x].foldlM (fun s y => s.add y) y = some s' ∧ s.beq s' = true) ∧
    ∃ (m : par.Msg) (pt : Plaintext) (xp r : Ciphertext), pt.Holds par 0 m ∧ msgCoeffs m = [1, 2, 16, 0, 0, 0, 0, 0] ∧ x.addPlain pt = some xp ∧ xp.subPlain pt = some r ∧
      r.beq { x with seed := none } = true := by
  obtain ⟨par, sk, s, pt, pt', m, m', ct, ct', v, v', h, hd, ht, hm, hrel, hk, hs, e2, e2', em, em', f1, f1', f2, f2', f3, f3', f4, f4', f5, f6, h0, hvar⟩ := exCipher
  have hb := luckyBuild_ok
  obtain ⟨n, hw, -⟩ := build_inv hb h
  have h31 : par.moduli.length ≤ 31 := by rw [hm]; decide
  have hsum : par.moduli.sum ≤ 2 ^ 65 := by rw [hm]; decide
  have hl : ct'.level = ct.level := by rw [f2.level_eq, f2'.level_eq]
  obtain ⟨xy, yx, g1, g2, g3⟩ := C68_mul hb h h31 hsum (f2.usable hw) (f2'.usable hw) hl
  obtain ⟨r, _, _, _, _, k1, k2, k3, -⟩ := mul_eq hw h31 hsum f2 f2' (by rw [f4]; norm_num)
  obtain rfl : r = xy := by rw [g1] at k1; simpa using k1.symm
  obtain ⟨p, q, g4, g5, g6⟩ := C68_mul hb h h31 hsum (k2.usable hw) (f2.usable hw) (by rw [f2.level_eq, k2.level_eq])
  obtain ⟨t, t', g7, g8, g9⟩ := C68_sum hb h (x := ct') (ys := [ct, ct', ct']) (zs := [ct', ct', ct]) (f2'.usable hw) (by
    intro y hy
    simp only [List.mem_cons, List.not_mem_nil, or_false] at hy
    rcases hy with rfl | rfl | rfl
    exacts [⟨f2.usable hw, hl.symm, by rw [f4, f4']⟩, ⟨f2'.usable hw, rfl, rfl⟩, ⟨f2'.usable hw, rfl, rfl⟩]) (List.perm_append_comm (l₁ := [ct]) (l₂ := [ct', ct']))
  obtain ⟨xp, u, -, -, -, -, -, -, -, g10, g11, g12, -⟩ := C68_plain hb h (f2.usable hw) (f2'.usable hw) hl (by rw [f4, f4']) (by rw [f2.level_eq, h0, ht]; decide) (m := m) (f2.level_eq ▸ e2)
  exact ⟨par, ct, ct', r, yx, p, q, h, f4, g1, g2, g3, by rw [k3, f4, f4'], g4, g5, g6, ⟨t, t', g7, g8, g9⟩, m, pt, xp, u, e2, em, g10, g11, g12⟩

end Fhe.Props
