import Verif.Lemmas.SameRest
import Verif.Props.Laws
import Verif.Props.BfvSer
/-!
# Equal objects are interchangeable

`==` on ciphertexts, plaintexts and keys ignores whether computations in variable time are allowed, and where the parameters are stored.  Replacing
arguments by equal ones never changes a result: either both calls panic, or both return the same error, or both return equal results.
-/
namespace Fhe.Props
open Nega ParamsBuilder Ciphertext

variable {b : Build} {st : ParamsBuilder} {par : Par} {x x' y y' : Ciphertext} {i j : Nat} {m m' : par.Msg} {pt pt' : Plaintext} {g g' : Prg}

/-- C75: operations on ciphertexts. -/
theorem C75_arithmetic (hb : b.OK) (h : build b st = Res.ok par.toBfvParameters) (hx : x.Usable par) (hy : y.Usable par) (he : x.beq y = true) (hx' : x'.Usable par) (hy' : y'.Usable par) (he' : x'.beq y' = true) :
    Option.Rel (fun r r' => r.beq r' = true) (x.add x') (y.add y') ∧ Option.Rel (fun r r' => r.beq r' = true) (x.sub x') (y.sub y') ∧ Option.Rel (fun r r' => r.beq r' = true) x.neg y.neg ∧
    (par.moduli.length ≤ 31 → par.moduli.sum ≤ 2 ^ 65 → Option.Rel (fun r r' => r.beq r' = true) (x.mul x') (y.mul y')) := by
  obtain ⟨n, hw, -⟩ := build_inv hb h
  obtain ⟨c, hc, ha⟩ := hx.alike hw hy he
  obtain ⟨c', hc', ha'⟩ := hx'.alike hw hy' he'
  have n1 : x.c ≠ [] := fun e => by have := hx.parts; rw [e] at this; simp at this
  have n2 : y.c ≠ [] := fun e => by have := hy.parts; rw [e] at this; simp at this
  have n1' : x'.c ≠ [] := fun e => by have := hx'.parts; rw [e] at this; simp at this
  have n2' : y'.c ≠ [] := fun e => by have := hy'.parts; rw [e] at this; simp at this
  refine ⟨?_, ?_, ?_, fun h31 hsum => ?_⟩
  · by_cases hl : x'.level = x.level
    · rw [hl] at ha'
      have : Res.ok c = Res.ok c' := ha.ctx_eq.symm.trans ha'.ctx_eq
      rw [Res.ok_inj] at this
      subst this
      exact rel_imp (ha.add hc ha') fun _ _ e => e.beq
    · have hl' : y'.level ≠ y.level := by rw [ha.level_eq.2, ha'.level_eq.2]; exact hl
      unfold Ciphertext.add
      rw [if_neg n1, if_neg n1', if_neg n2, if_neg n2', show check (x.level = x'.level) = none from if_neg fun e => hl e.symm, show check (y.level = y'.level) = none from if_neg fun e => hl' e.symm, ha.par_eq.1,
        ha.par_eq.2, ha'.par_eq.1, ha'.par_eq.2]
      exact rel_check _ fun _ => .none
  · by_cases hl : x'.level = x.level
    · rw [hl] at ha'
      have : Res.ok c = Res.ok c' := ha.ctx_eq.symm.trans ha'.ctx_eq
      rw [Res.ok_inj] at this
      subst this
      exact rel_imp (ha.sub hc ha') fun _ _ e => e.beq
    · have hl' : y'.level ≠ y.level := by rw [ha.level_eq.2, ha'.level_eq.2]; exact hl
      unfold Ciphertext.sub
      rw [if_neg n1, if_neg n1', if_neg n2, if_neg n2', show check (x.level = x'.level) = none from if_neg fun e => hl e.symm, show check (y.level = y'.level) = none from if_neg fun e => hl' e.symm, ha.par_eq.1,
        ha.par_eq.2, ha'.par_eq.1, ha'.par_eq.2]
      exact rel_check _ fun _ => .none
  · exact rel_imp (ha.neg hc) fun _ _ e => e.beq
  · exact rel_imp (ha.mul hw h31 hsum ha' hx.parts hx'.parts) fun _ _ e => e.beq

/-- C75: operations with plaintexts. -/
theorem C75_plain (hb : b.OK) (h : build b st = Res.ok par.toBfvParameters) (hx : x.Usable par) (hy : y.Usable par) (he : x.beq y = true) (hp : pt.Holds par i m) (hp' : pt'.Holds par j m') (hep : pt.beq pt' = true)
    (hQ : par.plaintext.value ≤ par.modulusAt i) :
    Option.Rel (fun r r' => r.beq r' = true) (x.mulPlain pt) (y.mulPlain pt') ∧ Option.Rel (fun r r' => r.beq r' = true) (x.addPlain pt) (y.addPlain pt') ∧
    Option.Rel (fun r r' => r.beq r' = true) (x.subPlain pt) (y.subPlain pt') ∧ Option.Rel (fun r r' => r.beq r' = true) (Ciphertext.plainSub pt x) (Ciphertext.plainSub pt' y) := by
  obtain ⟨n, hw, -⟩ := build_inv hb h
  obtain ⟨c, hc, ha⟩ := hx.alike hw hy he
  obtain ⟨c', ha'⟩ := hp.alike hw hp' hep
  have hP : ∀ s, pt.toPoly = some s → s.Valid ∧ s.ctx = c' := fun s hs => by
    obtain ⟨l, hal, rfl⟩ := AtLevel.ofContext hw ha'.ctx_eq
    rw [Plaintext.toPoly_encI hw hal hQ hp, Option.some.injEq] at hs
    subst hs
    exact ⟨Poly.valid_enc hal.wf _, rfl⟩
  have h2 := ha.addPlain hw ha' hP
  exact ⟨rel_imp (ha.mulPlain hw ha') fun _ _ e => e.beq, rel_imp h2.1 fun _ _ e => e.beq, rel_imp h2.2 fun _ _ e => e.beq, rel_imp (ha.plainSub hw ha' hP) fun _ _ e => e.beq⟩

/-- C75: going down in the chain of levels. -/
theorem C75_switch (hb : b.OK) (h : build b st = Res.ok par.toBfvParameters) (hx : x.Usable par) (hy : y.Usable par) (he : x.beq y = true) (target : Nat) :
    Res.Same (fun r r' => r.beq r' = true) x.switchDown y.switchDown ∧ Res.Same (fun r r' => r.beq r' = true) (x.switchToLevel target) (y.switchToLevel target) := by
  obtain ⟨n, hw, -⟩ := build_inv hb h
  obtain ⟨c, hc, ha⟩ := hx.alike hw hy he
  exact ⟨(ha.switchDown hw).imp fun _ _ ⟨_, e⟩ => e.beq, (ha.switchToLevel hw target).imp fun _ _ ⟨_, e⟩ => e.beq⟩

/-- C75: relinearization. -/
theorem C75_relinearize (hb : b.OK) (h : build b st = Res.ok par.toBfvParameters) (hx : x.Usable par) (hy : y.Usable par) (he : x.beq y = true) {k k' : RelinearizationKey} (hk : k.ksk.WellFormed g par)
    (hk' : k'.ksk.WellFormed g' par) (hek : k.beq k' = true) : Res.Same (fun r r' => r.beq r' = true) (k.relinearizes x) (k'.relinearizes y) := by
  obtain ⟨n, hw, -⟩ := build_inv hb h
  obtain ⟨c, hc, ha⟩ := hx.alike hw hy he
  exact (RelinearizationKey.relinearizes_alike hw (hk.alike hw hk' hek) ha).imp fun _ _ e => e.beq

/-- C75: the operations with an evaluation key, and the questions about what it supports. -/
theorem C75_evaluation_key (hb : b.OK) (h : build b st = Res.ok par.toBfvParameters) (hx : x.Usable par) (hy : y.Usable par) (he : x.beq y = true) {k k' : EvaluationKey} (hk : k.WellFormed b g par)
    (hk' : k'.WellFormed b g' par) (hek : k.beq k' = true) :
    Res.Same (fun r r' => r.beq r' = true) (k.rotatesRows x) (k'.rotatesRows y) ∧ (∀ a, Res.Same (fun r r' => r.beq r' = true) (k.rotatesColumnsBy x a) (k'.rotatesColumnsBy y a)) ∧
    Res.Same (fun r r' => r.beq r' = true) (k.computesInnerSum x) (k'.computesInnerSum y) ∧ (∀ size, Res.Same (List.Forall₂ fun r r' => r.beq r' = true) (k.expands x size) (k'.expands y size)) ∧
    k.supportsInnerSum = k'.supportsInnerSum ∧ k.supportsRowRotation = k'.supportsRowRotation ∧ (∀ a, k.supportsColumnRotationBy a = k'.supportsColumnRotationBy a) ∧
    ∀ level, k.supportsExpansion level = k'.supportsExpansion level := by
  obtain ⟨n, hw, -⟩ := build_inv hb h
  obtain ⟨c, hc, ha⟩ := hx.alike hw hy he
  have hkk := hk.alike hw hk' hek
  refine ⟨(hkk.rotatesRows hw ha).imp fun _ _ e => e.beq, fun a => (hkk.rotatesColumnsBy hw ha a).imp fun _ _ e => e.beq, (hkk.computesInnerSum hw ha).imp fun _ _ e => e.beq, fun size => ?_, hkk.supports⟩
  refine (hkk.expands hw hk.monomials ha size).imp fun _ _ e => e.imp fun u w e => ?_
  rcases e with e | ⟨rfl, rfl⟩
  · exact e.beq
  · simp [Ciphertext.beq, Ciphertext.zero]

/-- C75: the product with an RGSW ciphertext. -/
theorem C75_external_product (hb : b.OK) (h : build b st = Res.ok par.toBfvParameters) (hx : x.Usable par) (hy : y.Usable par) (he : x.beq y = true) {k k' : RgswCiphertext} (hk : k.WellFormed g par)
    (hk' : k'.WellFormed g' par) (hek : k.beq k' = true) : Option.Rel (fun r r' => r.beq r' = true) (x.mulRgsw k) (y.mulRgsw k') := by
  obtain ⟨n, hw, -⟩ := build_inv hb h
  obtain ⟨c, hc, ha⟩ := hx.alike hw hy he
  unfold RgswCiphertext.beq at hek
  rw [Bool.and_eq_true] at hek
  obtain ⟨l1, l2, l3⟩ := hk.levels
  have e1 := hk.fst.ctxKsk
  have e2 := hk.snd.ctxKsk
  rw [l1] at e1
  rw [l3, e1, Res.ok_inj] at e2
  exact rel_imp (ha.mulRgsw hw (hk.fst.alike hw hk'.fst hek.1) (hk.snd.alike hw hk'.snd hek.2) ⟨e1, e2.symm⟩) fun _ _ e => e.beq

/-- C75: a multiplicator made from a relinearization key, with or without modulus switching. -/
theorem C75_multiplicator (hb : b.OK) (h : build b st = Res.ok par.toBfvParameters) (hcount : par.moduli.length ≤ 31) (hsum : par.moduli.sum ≤ 2 ^ 65) (hx : x.Usable par) (hy : y.Usable par) (he : x.beq y = true)
    (hx' : x'.Usable par) (hy' : y'.Usable par) (he' : x'.beq y' = true) {k k' : RelinearizationKey} (hk : k.ksk.WellFormed g par) (hk' : k'.ksk.WellFormed g' par) (hek : k.beq k' = true) :
    Res.Same (fun r r' => r.beq r' = true) (do (← Multiplicator.default b k).multiply x x') (do (← Multiplicator.default b k').multiply y y') ∧
    Res.Same (fun r r' => r.beq r' = true) (do (← (← Multiplicator.default b k).enableModSwitching).multiply x x') (do (← (← Multiplicator.default b k').enableModSwitching).multiply y y') := by
  obtain ⟨n, hw, -⟩ := build_inv hb h
  obtain ⟨c, hc, ha⟩ := hx.alike hw hy he
  obtain ⟨c', hc', ha'⟩ := hx'.alike hw hy' he'
  obtain ⟨l, hal, -⟩ := AtLevel.ofContext hw hk.ctx
  have hinv := (Multiplicator.default_inv hw hcount hsum hal hk.par_eq rfl).1
  have key : ∀ mp, Multiplicator.default b k = Res.ok mp → ∃ σ, mp.Follows par.degree σ par k.ksk.ciphertextLevel l := fun mp hmp => by
    obtain ⟨ext, -, -, -, hf⟩ := hinv mp hmp
    exact ⟨_, hf⟩
  have hd := Multiplicator.default_alike (hk.alike hw hk' hek)
  rcases Res.cases (Multiplicator.default b k) with ⟨mp, e⟩ | ⟨e', e⟩ | e <;> rw [e] at hd ⊢ <;>
    rcases Res.cases (Multiplicator.default b k') with ⟨mp', f⟩ | ⟨f', f⟩ | f <;> rw [f] at hd ⊢ <;> cases hd
  · rename_i hd
    obtain ⟨σ, hf⟩ := key mp e
    simp only [Res.ok_bind]
    refine ⟨(Multiplicator.multiply_alike hw hd hf hal ha ha').imp fun _ _ ⟨_, _, e⟩ => e.beq, ?_⟩
    have hms := hd.enableModSwitching
    have key' : ∀ mp1, mp.enableModSwitching = Res.ok mp1 → mp1.Follows par.degree σ par k.ksk.ciphertextLevel l := by
      intro mp1 h1
      unfold Multiplicator.enableModSwitching at h1
      obtain ⟨_, -, h1⟩ := Res.bind_eq_ok.1 h1
      obtain ⟨_, -, h1⟩ := Res.bind_eq_ok.1 h1
      split at h1
      · cases h1
      · rw [Res.pure_eq, Res.ok_inj] at h1
        subst h1
        exact ⟨hf.par_eq, hf.level, hf.base, hf.lhs, hf.rhs, hf.post, hf.wf, hf.deg, hf.modulus⟩
    rcases Res.cases mp.enableModSwitching with ⟨mp1, e⟩ | ⟨e', e⟩ | e <;> rw [e] at hms ⊢ <;>
      rcases Res.cases mp'.enableModSwitching with ⟨mp1', f⟩ | ⟨f', f⟩ | f <;> rw [f] at hms ⊢ <;> cases hms
    · rename_i hms
      simp only [Res.ok_bind]
      exact (Multiplicator.multiply_alike hw hms (key' mp1 e) hal ha ha').imp fun _ _ ⟨_, _, e⟩ => e.beq
    · exact .err _
    · exact .panic
  · exact ⟨.err _, .err _⟩
  · exact ⟨.panic, .panic⟩

/-- C75: the dot product. -/
theorem C75_dot_product (hb : b.OK) (h : build b st = Res.ok par.toBfvParameters) {cts cts' : List Ciphertext} {pts pts' : List Plaintext}
    (hc : List.Forall₂ (fun x y => x.Usable par ∧ y.Usable par ∧ x.beq y = true) cts cts')
    (hp : List.Forall₂ (fun p q => (∃ i m, p.Holds par i m) ∧ (∃ i m, q.Holds par i m) ∧ p.beq q = true) pts pts') :
    Res.Same (fun r r' => r.beq r' = true) (dotProductScalar cts pts) (dotProductScalar cts' pts') := by
  obtain ⟨n, hw, -⟩ := build_inv hb h
  have h1 := hc.length_eq
  have h2 := hp.length_eq
  by_cases h0 : cts.length = 0 ∨ pts.length = 0
  · unfold dotProductScalar
    rw [if_pos h0, if_pos (by rwa [← h1, ← h2])]; exact .err _
  by_cases hl : cts.length = pts.length
  · have hz : List.Forall₂ (DotAlike par) (cts.zip pts) (cts'.zip pts') :=
      (forall2_zip hc hp).imp fun u w ⟨⟨e1, e2, e3⟩, ⟨i, m, e4⟩, ⟨j, m', e5⟩, e6⟩ => by
        obtain ⟨c, -, a1⟩ := e1.alike hw e2 e3
        obtain ⟨c', a2⟩ := e4.alike hw e5 e6
        exact ⟨⟨_, c, a1⟩, _, c', a2⟩
    have := dotProduct_alike hw hz
    rw [List.map_fst_zip (by omega), List.map_snd_zip (by omega), List.map_fst_zip (by omega), List.map_snd_zip (by omega)] at this
    exact this.imp fun _ _ ⟨_, _, e⟩ => e.beq
  · unfold dotProductScalar
    rw [if_neg h0, if_pos hl, ← h1, ← h2, if_neg h0, if_pos hl]; exact .err _

/-- C75: equal ciphertexts decrypt to the same plaintext and have the same noise. -/
theorem C75_decrypt (hb : b.OK) (h : build b st = Res.ok par.toBfvParameters) (hx : x.Usable par) (hy : y.Usable par) (he : x.beq y = true) (sk : SecretKey) :
    sk.tryDecrypt b x = sk.tryDecrypt b y ∧ sk.measureNoise b x = sk.measureNoise b y := by
  obtain ⟨n, hw, -⟩ := build_inv hb h
  obtain ⟨c, hc, ha⟩ := hx.alike hw hy he
  exact ha.tryDecrypt hw sk

/-- C75: with the same randomness, equal plaintexts and equal public keys give the same ciphertext. -/
theorem C75_encrypt (hb : b.OK) (h : build b st = Res.ok par.toBfvParameters) (hp : pt.Holds par i m) (hp' : pt'.Holds par j m') (hep : pt.beq pt' = true) (hQ : par.plaintext.value ≤ par.modulusAt i) :
    (∀ (g : Prg) (sk : SecretKey) (seed : Seed) (rng : Nat → Nat), sk.tryEncrypt g pt seed rng = sk.tryEncrypt g pt' seed rng) ∧
    ∀ (k k' : PublicKey), k.par = par → k'.par = par → k.c.Usable par → k'.c.Usable par → k.beq k' = true → ∀ rngU rng1 rng2 : Nat → Nat, IsStream rngU → IsStream rng1 → IsStream rng2 →
      k.tryEncrypt pt rngU rng1 rng2 = k'.tryEncrypt pt' rngU rng1 rng2 := by
  obtain ⟨n, hw, -⟩ := build_inv hb h
  obtain ⟨c', ha'⟩ := hp.alike hw hp' hep
  refine ⟨ha'.encrypt_secret hw, fun k k' e1 e2 e3 e4 e5 rngU rng1 rng2 hU h1 h2 => ?_⟩
  unfold PublicKey.beq at e5
  rw [Bool.and_eq_true] at e5
  obtain ⟨c, hc, ha⟩ := e3.alike hw e4 e5.2
  refine PublicKey.tryEncrypt_alike hw ha' (fun s hs => ?_) e1 e2 ha hU h1 h2
  obtain ⟨l, hal, rfl⟩ := AtLevel.ofContext hw ha'.ctx_eq
  rw [Plaintext.toPoly_encI hw hal hQ hp, Option.some.injEq] at hs
  subst hs
  exact ⟨Poly.valid_enc hal.wf _, rfl⟩

/-- C75: equal objects are written as the same bytes.  (Not so for evaluation keys: the order of their Galois keys in the message is arbitrary.) -/
theorem C75_bytes (hb : b.OK) (h : build b st = Res.ok par.toBfvParameters) :
    (∀ x y : Ciphertext, x.Usable par → y.Usable par → x.beq y = true → x.toBytes = y.toBytes) ∧
    (∀ k k' : PublicKey, k.c.Usable par → k'.c.Usable par → k.beq k' = true → k.toBytes = k'.toBytes) ∧
    (∀ k k' : RelinearizationKey, k.ksk.WellFormed g par → k'.ksk.WellFormed g' par → k.beq k' = true → k.toBytes = k'.toBytes) ∧
    (∀ k k' : GaloisKey, k.WellFormed g par → k'.WellFormed g' par → k.beq k' = true → k.toMsg = k'.toMsg) ∧
    ∀ k k' : RgswCiphertext, k.WellFormed g par → k'.WellFormed g' par → k.beq k' = true → k.toBytes = k'.toBytes := by
  obtain ⟨n, hw, -⟩ := build_inv hb h
  refine ⟨fun x y h1 h2 h3 => ?_, fun k k' h1 h2 h3 => ?_, fun k k' h1 h2 h3 => ?_, fun k k' h1 h2 h3 => ?_, fun k k' h1 h2 h3 => ?_⟩
  · obtain ⟨c, hc, ha⟩ := h1.alike hw h2 h3
    unfold Ciphertext.toBytes; rw [ha.toMsg hw]
  · unfold PublicKey.beq at h3
    rw [Bool.and_eq_true] at h3
    obtain ⟨c, hc, ha⟩ := h1.alike hw h2 h3.2
    unfold PublicKey.toBytes PublicKey.toMsg; rw [ha.toMsg hw]
  · unfold RelinearizationKey.toBytes RelinearizationKey.toMsg; rw [(h1.alike hw h2 h3).toMsg]
  · have hkk := h1.alike hw h2 h3
    unfold GaloisKey.beq at h3
    rw [Bool.and_eq_true, decide_eq_true_eq] at h3
    unfold GaloisKey.toMsg; rw [(h1.ksk.alike hw h2.ksk h3.2).toMsg, h3.1]
  · unfold RgswCiphertext.beq at h3
    rw [Bool.and_eq_true] at h3
    unfold RgswCiphertext.toBytes RgswCiphertext.toMsg; rw [(h1.fst.alike hw h2.fst h3.1).toMsg, (h1.snd.alike hw h2.snd h3.2).toMsg]

/-- C75: a polynomial that is allowed or not allowed variable time. -/
theorem beq_flag {r : Rep} (p : Poly r) (v : Bool) : ({ p with vt := v } : Poly r).beq p = true := beq_iff.2 rfl

/-- C75: allowing or forbidding variable time in any of the polynomials of a ciphertext gives an equal ciphertext; so, by the other theorems, it never changes a result. -/
theorem C75_flags (hx : x.Usable par) (vt : Poly .ntt → Bool) : ({ x with c := x.c.map fun p => { p with vt := vt p } } : Ciphertext).Usable par ∧
    ({ x with c := x.c.map fun p => { p with vt := vt p } } : Ciphertext).beq x = true := by
  refine ⟨⟨hx.par_eq, hx.level, by simpa using hx.parts, fun p hp => ?_⟩, ?_⟩
  · obtain ⟨q, hq, rfl⟩ := List.mem_map.1 hp
    obtain ⟨h1, h2⟩ := hx.valid q hq
    exact ⟨⟨h1.notLazy, h1.rows, h1.columns, h1.reduced, h1.shoup⟩, h2⟩
  · unfold Ciphertext.beq
    simp only [decide_true, Bool.true_and, List.length_map, Bool.and_true]
    generalize x.c = l
    induction l with
    | nil => rfl
    | cons p l ih => rw [List.map_cons, List.zip_cons_cons, List.all_cons, ih, beq_flag]; rfl

theorem listBeq_iff {r : Rep} : ∀ {l l' : List (Poly r)}, (decide (l.length = l'.length) && (l.zip l').all fun x => x.1.beq x.2) = true ↔
    l.map (fun p => ({ p with vt := false } : Poly r)) = l'.map fun p => ({ p with vt := false } : Poly r)
  | [], [] => by simp
  | [], _ :: _ => by simp
  | _ :: _, [] => by simp
  | p :: l, q :: l' => by
    have ih := listBeq_iff (l := l) (l' := l')
    simp only [List.length_cons, List.zip_cons_cons, List.all_cons, List.map_cons, List.cons.injEq, ← ih, ← beq_iff, Bool.and_eq_true, decide_eq_true_eq]
    constructor
    · rintro ⟨h1, h2, h3⟩; exact ⟨h2, by omega, h3⟩
    · rintro ⟨h2, h1, h3⟩; exact ⟨by omega, h2, h3⟩

theorem cipherBeq_iff : x.beq y = true ↔ x.par.toBfvParameters = y.par.toBfvParameters ∧ x.seed = y.seed ∧ x.level = y.level ∧
    x.c.map (fun p => ({ p with vt := false } : Poly .ntt)) = y.c.map fun p => ({ p with vt := false } : Poly .ntt) := by
  rw [← listBeq_iff]
  unfold Ciphertext.beq
  simp only [Bool.and_eq_true, decide_eq_true_eq]
  constructor
  · rintro ⟨⟨⟨⟨h1, h2⟩, h3⟩, h4⟩, h5⟩; exact ⟨h1, h2, h5, h3, h4⟩
  · rintro ⟨h1, h2, h5, h3, h4⟩; exact ⟨⟨⟨⟨h1, h2⟩, h3⟩, h4⟩, h5⟩

theorem kskBeq_iff {k k' : KeySwitchingKey} : k.beq k' = true ↔ k.par.toBfvParameters = k'.par.toBfvParameters ∧
    (k.seed, k.ciphertextLevel, k.ctxCiphertext, k.kskLevel, k.ctxKsk, k.logBase) = (k'.seed, k'.ciphertextLevel, k'.ctxCiphertext, k'.kskLevel, k'.ctxKsk, k'.logBase) ∧
    k.c0.map (fun p => ({ p with vt := false } : Poly .nttShoup)) = k'.c0.map (fun p => ({ p with vt := false } : Poly .nttShoup)) ∧
    k.c1.map (fun p => ({ p with vt := false } : Poly .nttShoup)) = k'.c1.map fun p => ({ p with vt := false } : Poly .nttShoup) := by
  rw [← listBeq_iff, ← listBeq_iff]
  unfold KeySwitchingKey.beq
  simp only [Bool.and_eq_true, decide_eq_true_eq, Prod.mk.injEq]
  tauto

/-- C75: `==` is an equivalence on ciphertexts and on keys. -/
theorem C75_equivalence : Equivalence (fun x y : Ciphertext => x.beq y = true) ∧ Equivalence (fun x y : PublicKey => x.beq y = true) ∧ Equivalence (fun x y : RelinearizationKey => x.beq y = true) ∧
    Equivalence (fun x y : GaloisKey => x.beq y = true) ∧ Equivalence (fun x y : RgswCiphertext => x.beq y = true) := by
  have hc : Equivalence (fun x y : Ciphertext => x.beq y = true) := by
    constructor
    · intro x; rw [cipherBeq_iff]; exact ⟨rfl, rfl, rfl, rfl⟩
    · intro x y; rw [cipherBeq_iff, cipherBeq_iff]; rintro ⟨h1, h2, h3, h4⟩; exact ⟨h1.symm, h2.symm, h3.symm, h4.symm⟩
    · intro x y z; rw [cipherBeq_iff, cipherBeq_iff, cipherBeq_iff]; rintro ⟨h1, h2, h3, h4⟩ ⟨g1, g2, g3, g4⟩; exact ⟨h1.trans g1, h2.trans g2, h3.trans g3, h4.trans g4⟩
  have hk : Equivalence (fun x y : KeySwitchingKey => x.beq y = true) := by
    constructor
    · intro x; rw [kskBeq_iff]; exact ⟨rfl, rfl, rfl, rfl⟩
    · intro x y; rw [kskBeq_iff, kskBeq_iff]; rintro ⟨h1, h2, h3, h4⟩; exact ⟨h1.symm, h2.symm, h3.symm, h4.symm⟩
    · intro x y z; rw [kskBeq_iff, kskBeq_iff, kskBeq_iff]; rintro ⟨h1, h2, h3, h4⟩ ⟨g1, g2, g3, g4⟩; exact ⟨h1.trans g1, h2.trans g2, h3.trans g3, h4.trans g4⟩
  have hp : ∀ {k k' : PublicKey}, k.beq k' = true ↔ k.par.toBfvParameters = k'.par.toBfvParameters ∧ k.c.beq k'.c = true := by
    intro k k'; unfold PublicKey.beq; rw [Bool.and_eq_true, decide_eq_true_eq]
  have hg : ∀ {k k' : GaloisKey}, k.beq k' = true ↔ k.element = k'.element ∧ k.ksk.beq k'.ksk = true := by
    intro k k'; unfold GaloisKey.beq; rw [Bool.and_eq_true, decide_eq_true_eq]
  have hr : ∀ {k k' : RgswCiphertext}, k.beq k' = true ↔ k.ksk0.beq k'.ksk0 = true ∧ k.ksk1.beq k'.ksk1 = true := by
    intro k k'; unfold RgswCiphertext.beq; rw [Bool.and_eq_true]
  refine ⟨hc, ⟨fun x => ?_, fun {x y} => ?_, fun {x y z} => ?_⟩, ⟨fun x => hk.refl _, fun e => hk.symm e, fun e f => hk.trans e f⟩, ⟨fun x => ?_, fun {x y} => ?_, fun {x y z} => ?_⟩, ⟨fun x => ?_, fun {x y} => ?_, fun {x y z} => ?_⟩⟩
  · exact hp.2 ⟨rfl, hc.refl _⟩
  · rw [hp, hp]; exact fun e => ⟨e.1.symm, hc.symm e.2⟩
  · rw [hp, hp, hp]; exact fun e f => ⟨e.1.trans f.1, hc.trans e.2 f.2⟩
  · exact hg.2 ⟨rfl, hk.refl _⟩
  · rw [hg, hg]; exact fun e => ⟨e.1.symm, hk.symm e.2⟩
  · rw [hg, hg, hg]; exact fun e f => ⟨e.1.trans f.1, hk.trans e.2 f.2⟩
  · exact hr.2 ⟨hk.refl _, hk.refl _⟩
  · rw [hr, hr]; exact fun e => ⟨hk.symm e.1, hk.symm e.2⟩
  · rw [hr, hr, hr]; exact fun e f => ⟨hk.trans e.1 f.1, hk.trans e.2 f.2⟩

/-- C75: two plaintexts that hold messages are equal exactly if level and message are the same and there are not two different encodings; if they are equal and have the same encoding, all ways of
decoding them give the same. -/
theorem C75_plaintexts (hb : b.OK) (h : build b st = Res.ok par.toBfvParameters) (hp : pt.Holds par i m) (hp' : pt'.Holds par j m') :
    (pt.beq pt' = true ↔ i = j ∧ m = m' ∧ ∀ e e', pt.encoding = some e → pt'.encoding = some e' → e = e') ∧
    (pt.beq pt' = true → pt.encoding = pt'.encoding → ∀ e, pt.decodeU64 e = pt'.decodeU64 e ∧ pt.decodeI64 e = pt'.decodeI64 e ∧ pt.decodeBigUint e = pt'.decodeBigUint e) := by
  obtain ⟨n, hw, -⟩ := build_inv hb h
  refine ⟨⟨fun hbq => ?_, ?_⟩, fun hbq he e => ?_⟩
  · obtain ⟨c, ha⟩ := hp.alike hw hp' hbq
    obtain ⟨l, hal, rfl⟩ := AtLevel.ofContext hw ha.ctx_eq
    obtain ⟨l', hal', hl'⟩ := AtLevel.ofContext hw hp'.ctx
    have hij : i = j := by
      have e1 := hal.length
      have e2 := hal'.length
      rw [hl', ha.poly.ctx.2, e1] at e2
      have := hal.lt
      have := hal'.lt
      omega
    subst hij
    refine ⟨rfl, ?_, fun e e' h1 h2 => ?_⟩
    · have h1 := hp.coeffs
      have h2 := hp'.coeffs
      have := rel_eq (rel_bind (R := Poly.Alike l.ctx) (S := fun a b => a = b) (ha.poly.toPowerBasis hal.wf) (f := fun p => p.toBigUint) (g := fun p => p.toBigUint) fun u w e => by
        rw [e.toBigUint]; exact rel_refl (fun _ => rfl) _)
      rw [h1, h2, Option.some.injEq] at this
      have hcf := this
      have ht := hw.t_pos
      have : NeZero par.plaintext.value := ⟨by omega⟩
      apply Nega.ext
      intro k
      have := congrArg (fun l => l[k.val]?) hcf
      simp only [msgCoeffs, List.getElem?_ofFn, k.isLt, dite_true, Option.some.injEq] at this
      exact ZMod.val_injective _ this
    · unfold Plaintext.beq at hbq
      rw [Bool.and_eq_true, h1, h2] at hbq
      simpa using hbq.2
  · rintro ⟨rfl, rfl, henc⟩
    obtain ⟨l, hal, -⟩ := AtLevel.ofContext hw hp.ctx
    unfold Plaintext.beq
    rw [hp.par_eq, hp'.par_eq, Plaintext.polyNtt_encI hw hal hp, Plaintext.polyNtt_encI hw hal hp', Bool.and_eq_true, Bool.and_eq_true]
    refine ⟨⟨by simp, beq_iff.2 rfl⟩, ?_⟩
    split
    · rename_i hs
      obtain ⟨e, h1⟩ := Option.isSome_iff_exists.1 hs.1
      obtain ⟨e', h2⟩ := Option.isSome_iff_exists.1 hs.2
      rw [h1, h2, henc e e' h1 h2]; simp
    · rfl
  · obtain ⟨c, ha⟩ := hp.alike hw hp' hbq
    exact ha.decode hw (by unfold Plaintext.resolveEncoding; rw [he])

/-- C75, a finding: `==` is not transitive on plaintexts, since a missing encoding is equal to every encoding; and equal plaintexts can decode differently.  `p` and `q` are zero plaintexts of the two
encodings and `r` comes from a decryption. -/
theorem C75_not_transitive : ∃ (par : Par) (sk : SecretKey) (ct : Ciphertext) (p q r : Plaintext), build luckyBuild exBuilder = Res.ok par.toBfvParameters ∧ Plaintext.zero ⟨.poly, 0⟩ par = Res.ok p ∧
    Plaintext.zero ⟨.simd, 0⟩ par = Res.ok q ∧ sk.tryDecrypt luckyBuild ct = Res.ok r ∧ p.beq r = true ∧ r.beq q = true ∧ p.beq q = false ∧
    p.decodeU64 none = Res.ok (List.replicate 8 0) ∧ r.decodeU64 none = Res.err .missingEncoding := by
  obtain ⟨par, sk, s, pt, pt', m, m', ct, ct', v, v', h, hd, ht, hm, hrel, hk, hs, e2, e2', em, em', f1, f1', f2, f2', f3, f3', f4, f4', f5, f6, h0, hvar⟩ := exCipher
  have hb := luckyBuild_ok
  obtain ⟨n, hw, -⟩ := build_inv hb h
  obtain ⟨d, k1, k2, -⟩ := Ciphertext.sub_eq hw f2 f2 rfl
  rw [sub_self, sub_self] at k2
  obtain ⟨r, r1, r2, r3⟩ := C37_decrypt hb h hrel hk k2 (fun j => by
    show 2 ^ 62 * |((0 : IntPoly par.degree) j)| ≤ _
    rw [Nega.zero_apply]; simp)
  obtain ⟨p, p1, p2, p3⟩ := C35_zero hb h (e := ⟨.poly, 0⟩) (by rw [hm]; decide)
  obtain ⟨q, q1, q2, q3⟩ := C35_zero hb h (e := ⟨.simd, 0⟩) (by rw [hm]; decide)
  refine ⟨par, sk, d, p, q, r, h, p1, q1, r1, ?_, ?_, ?_, ?_, ?_⟩
  · exact (C75_plaintexts hb h p2 r2).1.2 ⟨rfl, rfl, fun e e' _ h2 => by rw [r3] at h2; cases h2⟩
  · exact (C75_plaintexts hb h r2 q2).1.2 ⟨rfl, rfl, fun e e' h1 _ => by rw [r3] at h1; cases h1⟩
  · by_contra hc
    rw [Bool.not_eq_false] at hc
    have := ((C75_plaintexts hb h p2 q2).1.1 hc).2.2 _ _ p3 q3
    cases this
  · have hres : p.resolveEncoding none = p.resolveEncoding (some ⟨.poly, 0⟩) := by unfold Plaintext.resolveEncoding; rw [p3]; simp
    have hdec : p.decodeU64 none = p.decodeU64 (some ⟨.poly, 0⟩) := by unfold Plaintext.decodeU64; rw [hres]
    have hz : msgCoeffs (0 : par.Msg) = List.replicate 8 0 := by
      rw [← hd]
      unfold msgCoeffs
      simp only [Nega.zero_apply, ZMod.val_zero, List.ofFn_const]
    rw [hdec, (C35_decode hb h p2 (Or.inr p3)).2, hz]
    simp
  · unfold Plaintext.decodeU64 Plaintext.resolveEncoding
    rw [r3]; rfl

/-- C75: what comes back from the other side of a serialization of keys is equal to what was sent, so it can be used instead. -/
theorem C75_roundtrip (hb : b.OK) (h : build b st = Res.ok par.toBfvParameters) (h32 : par.moduli.length ≤ 2 ^ 32) :
    (∀ k : RelinearizationKey, k.ksk.WellFormed g par → ∃ msg k', k.toMsg = some msg ∧ RelinearizationKey.fromMsg g msg par = Res.ok k' ∧ k'.ksk.WellFormed g par ∧ k'.beq k = true) ∧
    (∀ k : EvaluationKey, k.WellFormed b g par → ∃ msg k', k.toMsg = some msg ∧ EvaluationKey.fromMsg b g msg par = Res.ok k' ∧ k'.WellFormed b g par ∧ k'.beq k = true) ∧
    ∀ k : RgswCiphertext, k.WellFormed g par → ∃ msg k', k.toMsg = some msg ∧ RgswCiphertext.fromMsg g msg par = Res.ok k' ∧ k'.WellFormed g par ∧ k'.beq k = true := by
  refine ⟨fun k hk => ?_, fun k hk => ?_, fun k hk => ?_⟩
  · obtain ⟨msg, k', h1, h2, h3, -, h5, -⟩ := C55_relin_roundtrip hb h h32 hk
    exact ⟨msg, k', h1, h2, h5, h3⟩
  · obtain ⟨msg, k', h1, h2, h3, h4, h5, h6, h7, h8, h9, -⟩ := C55_evaluation_roundtrip hb h h32 hk
    refine ⟨msg, k', h1, h2, h9, ?_⟩
    have hkeys : ∀ {m : List (Nat × GaloisKey)} {x : Nat}, x ∈ m.map Prod.fst ↔ ∃ v, m.lookup x = some v := fun {m x} =>
      ⟨lookup_isSome_of_mem, fun ⟨v, hv⟩ => List.mem_map.2 ⟨(x, v), mem_of_lookup hv, rfl⟩⟩
    have hlen : k'.gk.length = k.gk.length := by
      have : (k'.gk.map Prod.fst).Perm (k.gk.map Prod.fst) := (List.perm_ext_iff_of_nodup h9.nodup hk.nodup).2 fun x => by
        rw [hkeys, hkeys]
        rcases h8 x with ⟨e1, e2⟩ | ⟨gk, gk', e1, e2, -⟩
        · rw [e1, e2]
        · rw [e1, e2]; simp
      simpa using this.length_eq
    have hnd : ∀ {α : Type} (eq : α → α → Bool) {m m' : List (Nat × α)}, (m.map Prod.fst).Nodup → m.length = m'.length → (∀ x v, m.lookup x = some v → ∃ v', m'.lookup x = some v' ∧ eq v v' = true) → mapBeq eq m m' = true := by
      intro α eq m m' hn hl he
      unfold mapBeq
      rw [Bool.and_eq_true, decide_eq_true_eq, List.all_eq_true]
      refine ⟨hl, fun x hx => ?_⟩
      obtain ⟨v', e1, e2⟩ := he x.1 x.2 (lookup_of_mem hn hx)
      rw [e1]; exact e2
    unfold EvaluationKey.beq
    simp only [Bool.and_eq_true, decide_eq_true_eq]
    refine ⟨⟨⟨⟨⟨by rw [h3, hk.par_eq], h4⟩, h5⟩, hnd _ h9.nodup hlen fun x v hv => ?_⟩, ?_⟩, ?_⟩
    · rcases h8 x with ⟨e1, -⟩ | ⟨gk, gk', e1, e2, e3, e4⟩
      · rw [e1] at hv; cases hv
      · rw [e2] at hv; cases hv
        exact ⟨gk, e1, by unfold GaloisKey.beq; rw [e3, e4]; simp⟩
    · rw [h6]
      obtain ⟨n, hw, -⟩ := build_inv hb h
      refine hnd _ ?_ rfl fun x v hv => ⟨v, hv, by simp⟩
      have := hk.rot
      rw [EvaluationKey.constructRot_eq hw, Option.some.injEq] at this
      rw [← this, List.map_map]
      exact List.nodup_range.map fun a b e => by simpa using e
    · rw [h7]
      unfold vecBeq
      simp only [decide_true, Bool.true_and]
      generalize k.monomials = ms
      induction ms with
      | nil => rfl
      | cons p ms ih => rw [List.zip_cons_cons, List.all_cons, ih, beq_iff.2 rfl]; rfl
  · obtain ⟨msg, k', h1, h2, h3, h4, h5, -⟩ := C55_rgsw_roundtrip hb h h32 hk
    exact ⟨msg, k', h1, h2, h5, by unfold RgswCiphertext.beq; rw [h3, h4]; rfl⟩

/-! ## Examples -/

/-- A ciphertext and the one with the opposite flags, which is another value, and a relinearization key and the one read from its message: their products, relinearized, are equal, and decrypt to the same. -/
example : ∃ (par : Par) (sk : SecretKey) (x y r r' t t' : Ciphertext) (k k' : RelinearizationKey) (msg : Option KeySwitchingKeyMsg), build luckyBuild exBuilder = Res.ok par.toBfvParameters ∧ x ≠ y ∧
    k.toMsg = some msg ∧ RelinearizationKey.fromMsg exPrg msg par = Res.ok k' ∧ x.mul x = some r ∧ y.mul y = some r' ∧ r.beq r' = true ∧ k.relinearizes r = Res.ok t ∧ k'.relinearizes r' = Res.ok t' ∧
    t.beq t' = true ∧ sk.tryDecrypt luckyBuild t = sk.tryDecrypt luckyBuild t' ∧ x.toBytes = y.toBytes := by
  obtain ⟨par, sk, s, pt, pt', m, m', ct, ct', v, v', h, hd, ht, hm, hrel, hk, hs, e2, e2', em, em', f1, f1', f2, f2', f3, f3', f4, f4', f5, f6, h0, hvar⟩ := exCipher
  have hb := luckyBuild_ok
  obtain ⟨n, hw, -⟩ := build_inv hb h
  have h31 : par.moduli.length ≤ 31 := by rw [hm]; decide
  have hsum : par.moduli.sum ≤ 2 ^ 65 := by rw [hm]; decide
  have hu := f2.usable hw
  obtain ⟨g1, g2⟩ := C75_flags hu fun p => !p.vt
  have g3 := C75_equivalence.1.symm g2
  generalize hy : ({ ct with c := ct.c.map fun p => { p with vt := !p.vt } } : Ciphertext) = y at g1 g2 g3
  obtain ⟨r, w, _, _, _, k1, k2, k3, -⟩ := mul_eq hw h31 hsum f2 f2 (by rw [f4]; norm_num)
  have fy : y.Encrypts par s 0 m v := f2.of_beq hw g2 g1.par_eq
  have hy2 : y.c.length = 2 := by rw [← hy]; simpa using f4
  obtain ⟨r', w', _, _, _, l1, l2, l3, -⟩ := mul_eq hw h31 hsum fy fy (by rw [hy2]; norm_num)
  have hmul := (C75_arithmetic hb h hu g1 g3 hu g1 g3).2.2.2 h31 hsum
  rw [k1, l1] at hmul
  cases hmul with
  | some hmul =>
  obtain ⟨k, q1, q2⟩ := C55_relin_generated (i := 0) (j := 0) hb h (by rw [hm]; decide) hk exPrg_ok (seed := List.replicate 32 3) rfl (rngs := fun _ => exRng) (fun _ => exRng_ok) (by rw [hm]; decide) (by omega) (by rw [hm]; decide)
  obtain ⟨k0, p3, p4, -⟩ := (C41_new (i := 0) (j := 0) hb h (by rw [hm]; decide) hk exPrg_ok (List.replicate 32 3) (rngs := fun _ => exRng) (fun _ => exRng_ok)).1 (by rw [hm]; decide) (by omega) (by rw [hm]; decide)
  rw [q1, Res.ok_inj] at p3
  subst p3
  obtain ⟨msg, k', q3, q4, q5, -, q6, q7⟩ := C55_relin_roundtrip hb h (by rw [hm]; decide) q2
  obtain ⟨t, _, t1, t2, -⟩ := RelinearizationKey.relinearizes_eq hw p4 k2 (by rw [k3, f4])
  obtain ⟨t', _, t1', t2', -⟩ := RelinearizationKey.relinearizes_eq hw (q7 _ _ _ _ p4) l2 (by rw [l3, hy2])
  have hek : k.beq k' = true := C75_equivalence.2.2.1.symm q5
  have ht := C75_relinearize hb h (k2.usable hw) (l2.usable hw) hmul q2 q6 hek
  rw [t1, t1'] at ht
  cases ht with
  | ok ht =>
  refine ⟨par, sk, ct, y, r, r', t, t', k, k', msg, h, fun e => ?_, q3, q4, k1, l1, hmul, t1, t1', ht, (C75_decrypt hb h (t2.usable hw) (t2'.usable hw) ht sk).1, (C75_bytes (g := exPrg) (g' := exPrg) hb h).1 _ _ hu g1 g3⟩
  rw [← hy] at e
  have := congrArg Ciphertext.c e
  match hc : ct.c, f4 with
  | [p0, p1], _ =>
    rw [hc] at this
    simp only [List.map_cons, List.cons.injEq] at this
    have := congrArg Poly.vt this.1
    simp at this

/-- An evaluation key, one read from its message, and an RGSW ciphertext and one read from its message, meet the hypotheses. -/
example : ∃ (par : Par) (k k' : EvaluationKey) (r r' : RgswCiphertext), build luckyBuild exBuilder = Res.ok par.toBfvParameters ∧ k.WellFormed luckyBuild exPrg par ∧ k'.WellFormed luckyBuild exPrg par ∧ k'.beq k = true ∧
    r.WellFormed exPrg par ∧ r'.WellFormed exPrg par ∧ r'.beq r = true := by
  obtain ⟨par, sk, s, pt, pt', m, m', ct, ct', v, v', h, hd, ht, hm, hrel, hk, hs, e2, e2', em, em', f1, f1', f2, f2', f3, f3', f4, f4', f5, f6, h0, hvar⟩ := exCipher
  have hb := luckyBuild_ok
  obtain ⟨bd, bd', k, -, -, -, h1⟩ := C55_evaluation_generated (i := 0) (j := 0) hb h (by rw [hm]; decide) hk exPrg_ok (by rw [hm]; decide) (le_refl 0) [.columns 3, .innerSum] (seeds := fun _ => List.replicate 32 3) (fun _ => rfl)
    (rngs := fun _ _ => exRng) (fun _ _ => exRng_ok)
  obtain ⟨r, -, h2⟩ := C55_rgsw_generated hb h hk exPrg_ok e2 (seed0 := List.replicate 32 3) (seed1 := List.replicate 32 4) rfl rfl (rngs0 := fun _ => exRng) (rngs1 := fun _ => exRng) (fun _ => exRng_ok) (fun _ => exRng_ok)
  obtain ⟨-, h3, h4⟩ := C75_roundtrip (g := exPrg) hb h (by rw [hm]; decide)
  obtain ⟨-, k', -, -, k1, k2⟩ := h3 k h1
  obtain ⟨-, r', -, -, r1, r2⟩ := h4 r h2
  exact ⟨par, k, k', r, r', h, h1, k1, k2, h2, r1, r2⟩

end Fhe.Props
