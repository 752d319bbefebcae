import Verif.Lemmas.Unreduced
import Verif.Props.BfvPlain
import Verif.Props.BfvCipher
/-!
# C85: values that are not reduced modulo the plaintext modulus

The encoders accept any words, and any big numbers, and do not reduce them modulo the plaintext modulus.
-/
namespace Fhe.Props
open Fhe Poly Nega ParamsBuilder

variable {b : Build} {s : ParamsBuilder} {par : Par}

/-- C85, slots: values below twice the plaintext modulus are encoded as their remainders; larger ones make the encoder panic (in builds
with debug assertions).  With big numbers that are words the encoder does the same as with words. -/
theorem C85_slots (hb : b.OK) (h : build b s = Res.ok par.toBfvParameters) (hop : par.nttOperator ≠ none) {level : Nat} (hlev : level < par.moduli.length)
    {v : List Nat} (hv : v.length ≤ par.degree) (vt : Bool) :
    ((∀ x ∈ v, x < 2 * par.plaintext.value) →
      Plaintext.tryEncodeU64 v ⟨.simd, level⟩ par vt = Plaintext.tryEncodeU64 (v.map (· % par.plaintext.value)) ⟨.simd, level⟩ par vt) ∧
    ((∃ x ∈ v, 2 * par.plaintext.value ≤ x) → Plaintext.tryEncodeU64 v ⟨.simd, level⟩ par vt = Res.panic) ∧
    ((∀ x ∈ v, x < 2 ^ 64) → Plaintext.tryEncodeBigUint v ⟨.simd, level⟩ par = Plaintext.tryEncodeU64 v ⟨.simd, level⟩ par false) := by
  obtain ⟨n, hw, -⟩ := build_inv hb h
  have hN : par.degree ≠ 0 := by rw [hw.degree]; positivity
  obtain ⟨l, hl⟩ := hw.exists_level hlev
  rw [Plaintext.tryEncodeU64_single hN hv (encoding := ⟨.simd, level⟩) hl (fun _ => hop),
    Plaintext.tryEncodeU64_single hN (v := v.map (· % par.plaintext.value)) (by simpa using hv) (encoding := ⟨.simd, level⟩) hl (fun _ => hop),
    Plaintext.tryEncodeU64_single hN hv (encoding := ⟨.simd, level⟩) hl (fun _ => hop), Plaintext.tryEncodeBig_single hN hv (encoding := ⟨.simd, level⟩) hl (fun _ => hop)]
  refine ⟨fun hlt => ?_, fun hx => ?_, fun h64 => ?_⟩
  · simp only [PlaintextVec.encodeU64Chunk]
    rw [PlaintextVec.chunkCoefficients_mod hw hop hv hlt vt]
  · simp only [PlaintextVec.encodeU64Chunk]
    rw [PlaintextVec.chunkCoefficients_panic hw hop hv hx vt]; rfl
  · simp only [PlaintextVec.encodeBigUintChunk]
    have : v.mapM toU64OrErr = Res.ok v := by
      clear hv
      induction v with
      | nil => rfl
      | cons a v ih =>
        rw [List.mapM_cons, ih (fun x hx => h64 x (List.mem_cons_of_mem _ hx)), toU64OrErr, if_pos (h64 a (by simp))]; rfl
    rw [this, Res.ok_bind]

/-- C85, coefficients: the plaintext carries the values themselves, modulo the modulus of the level.  For words at the last level, where
there is one ciphertext modulus `q`, see `C85_last_level`. -/
theorem C85_coefficients (hb : b.OK) (h : build b s = Res.ok par.toBfvParameters) {level : Nat} (hlev : level < par.moduli.length) {v : List Nat} (hv : v.length ≤ par.degree) :
    (∃ pt, Plaintext.tryEncodeBigUint v ⟨.poly, level⟩ par = Res.ok pt ∧ pt.encoding = some ⟨.poly, level⟩ ∧
      pt.Carries par level (IntPoly.ofList par.degree (v.map fun x : Nat => ((x % par.modulusAt level : Nat) : Int)))) ∧
    ((∀ x ∈ v, x < 2 ^ 64) → level + 2 ≤ par.moduli.length ∨ (∀ x ∈ v, x < par.modulusAt level) → ∀ vt,
      ∃ pt, Plaintext.tryEncodeU64 v ⟨.poly, level⟩ par vt = Res.ok pt ∧ pt.encoding = some ⟨.poly, level⟩ ∧
        pt.Carries par level (IntPoly.ofList par.degree (v.map fun x : Nat => ((x % par.modulusAt level : Nat) : Int)))) := by
  obtain ⟨n, hw, -⟩ := build_inv hb h
  have hN : par.degree ≠ 0 := by rw [hw.degree]; positivity
  obtain ⟨l, hl⟩ := hw.exists_level hlev
  have ha := AtLevel.ofGet hw hl
  obtain ⟨h1, h2, h3⟩ := hw.ctxWF hl
  have hQ := hw.modulusAt_eq hl
  have key : ofNats l.ctx (padTo par.degree v) = ofInt l.ctx (IntPoly.ofList par.degree (v.map fun x : Nat => ((x % par.modulusAt level : Nat) : Int))) := by
    apply Nega.ext; intro j
    show (((padTo par.degree v).getD j 0 : Nat) : ZMod l.ctx.modulus) = ((coeff (IntPoly.ofList par.degree (v.map fun x : Nat => ((x % par.modulusAt level : Nat) : Int))) j : Int) : ZMod l.ctx.modulus)
    have hj : j.val < par.degree := by have := j.isLt; omega
    rw [coeff_of_lt _ hj, padTo_eq_tab, NttOperator.tab_getD _ hj]
    show _ = (((v.map fun x : Nat => ((x % par.modulusAt level : Nat) : Int)).getD j 0 : Int) : ZMod l.ctx.modulus)
    by_cases hi : j.val < v.length
    · rw [List.getD_eq_getElem _ _ hi, List.getD_eq_getElem _ _ (by simpa using hi), List.getElem_map, Int.cast_natCast, ← hQ, ZMod.natCast_mod]
    · rw [List.getD_eq_default _ _ (by simpa using hi), List.getD_eq_default _ _ (by simpa using hi)]; simp
  have hcar : ∀ vt, Plaintext.Carries par { par, encoding := some ⟨.poly, level⟩, polyNtt := enc l.ctx .ntt vt (ofNats l.ctx (padTo par.degree v)) } level
      (IntPoly.ofList par.degree (v.map fun x : Nat => ((x % par.modulusAt level : Nat) : Int))) := by
    intro vt
    refine ⟨rfl, l.ctx, ha.contextAt, ?_⟩
    rw [key]; exact isMod_encI ha.wf ha.deg _
  refine ⟨⟨_, ?_, rfl, hcar false⟩, fun h64 hor vt => ⟨_, ?_, rfl, hcar vt⟩⟩
  · rw [Plaintext.tryEncodeBig_single hN hv (encoding := ⟨.poly, level⟩) hl (fun h => by cases h)]
    simp only [PlaintextVec.encodeBigUintChunk]
    rw [copyPrefix_eq hv, Res.lift_some, Res.ok_bind, ← padTo_eq_tab, tryFromBigUint_eq h1 (by rw [padTo_length, h3]), Res.math_ok, Res.ok_bind, intoNtt_enc h1, Res.lift_some, Res.ok_bind]
    rfl
  · rw [Plaintext.tryEncodeU64_single hN hv (encoding := ⟨.poly, level⟩) hl (fun h => by cases h)]
    simp only [PlaintextVec.encodeU64Chunk, PlaintextVec.chunkCoefficients]
    have e : tryFromU64 (padTo par.degree v) l.ctx vt = some (.ok (enc l.ctx .powerBasis vt (ofNats l.ctx (padTo par.degree v)))) := by
      rcases hor with hor | hor
      · refine tryFromU64_short h1 (by rw [padTo_length, h3]) ?_ (padTo_lt (by norm_num) h64)
        rw [padTo_length, h2, List.length_take, Nat.min_eq_left (by omega), h3]
        intro hc
        have : 2 * par.degree ≤ (par.moduli.length - level) * par.degree := Nat.mul_le_mul_right _ (by omega)
        omega
      · have := h1.neZero
        exact tryFromU64_full h1 (by rw [padTo_length, h3]) (padTo_lt (by norm_num) h64) (padTo_lt (NeZero.pos _) (by rw [hQ]; exact hor))
    rw [copyPrefix_eq hv, Res.lift_some, Res.ok_bind, ← padTo_eq_tab, e, Res.math_ok, Res.ok_bind, intoNtt_enc h1, Res.lift_some, Res.ok_bind]
    rfl

/-- C85, the last level: with one ciphertext modulus `q` left, words below `4q` are encoded as their remainders modulo `q`, and larger ones
make the encoder panic (in builds with debug assertions). -/
theorem C85_last_level (hb : b.OK) (h : build b s = Res.ok par.toBfvParameters) {level q : Nat} (hlev : level + 1 = par.moduli.length) (hq : par.moduli.head? = some q)
    {v : List Nat} (hv : v.length ≤ par.degree) (vt : Bool) :
    ((∀ x ∈ v, x < 4 * q) → Plaintext.tryEncodeU64 v ⟨.poly, level⟩ par vt = Plaintext.tryEncodeU64 (v.map (· % q)) ⟨.poly, level⟩ par vt) ∧
    ((∃ x ∈ v, 4 * q ≤ x) → Plaintext.tryEncodeU64 v ⟨.poly, level⟩ par vt = Res.panic) := by
  obtain ⟨n, hw, -⟩ := build_inv hb h
  have hN : par.degree ≠ 0 := by rw [hw.degree]; positivity
  obtain ⟨l, hl⟩ := hw.exists_level (i := level) (by omega)
  obtain ⟨op, ω, ωi, hwf, rfl, e1⟩ := Plaintext.last_chunk hw hl hlev hq
  have hs : (padTo par.degree v).length = op.size := by rw [padTo_length, hw.degree, hwf.size]
  have hpos := hwf.modulus.pos
  rw [Plaintext.tryEncodeU64_single hN hv (encoding := ⟨.poly, level⟩) hl (fun h => by cases h),
    Plaintext.tryEncodeU64_single hN (v := v.map (· % op.p.p)) (by simpa using hv) (encoding := ⟨.poly, level⟩) hl (fun h => by cases h)]
  refine ⟨fun hlt => ?_, fun hx => ?_⟩
  · have hmod : padTo par.degree (v.map (· % op.p.p)) = (padTo par.degree v).map (· % op.p.p) := by
      unfold padTo
      rw [List.map_map]
      refine List.map_congr_left fun i _ => ?_
      simp only [Function.comp]
      rw [List.getD_eq_getElem?_getD, List.getD_eq_getElem?_getD, List.getElem?_map]
      cases v[i]? <;> simp
    obtain ⟨g1, g2⟩ := NttOperator.forward_mod hwf hs (padTo_lt (by omega) hlt)
    simp only []
    rw [e1 v hv, e1 _ (by simpa using hv), hmod, g1, g2]
  · simp only []
    rw [e1 v hv]
    obtain ⟨x, hx, hB⟩ := hx
    have hmem : x ∈ padTo par.degree v := by
      obtain ⟨i, hi, rfl⟩ := List.mem_iff_getElem.1 hx
      exact List.mem_map.2 ⟨i, List.mem_range.2 (by omega), by rw [List.getD_eq_getElem _ _ hi]⟩
    obtain ⟨g1, g2⟩ := NttOperator.forward_none hwf hs ⟨x, hmem, hB⟩
    rw [g1, g2]
    cases vt <;> rfl

/-- C85, reading: whatever polynomial `P` a plaintext carries, with coefficients in the range of the level, decoding, encrypting with the
secret or the public key, adding and subtracting treat it as the plaintext of a message: that of the coefficients modulo `t`, but if
`t` is below the first ciphertext modulus `q`, of the coefficients modulo `q` and then modulo `t`. -/
theorem C85_read (hb : b.OK) (h : build b s = Res.ok par.toBfvParameters) {pt : Plaintext} {level q : Nat} {P : IntPoly par.degree} (hpt : pt.Carries par level P)
    (hP : ∀ j, 0 ≤ P j ∧ P j < (par.modulusAt level : Int)) (hq : par.moduli.head? = some q) :
    ∃ (pt' : Plaintext) (m' : par.Msg), pt'.Holds par level m' ∧ pt'.encoding = pt.encoding ∧
      (∀ j, m' j = (readCoefficient par.plaintext.value q (P j).toNat : ZMod par.plaintext.value)) ∧
      (∀ e, pt.decodeU64 e = pt'.decodeU64 e ∧ pt.decodeBigUint e = pt'.decodeBigUint e ∧ pt.decodeI64 e = pt'.decodeI64 e) ∧
      (∀ ct : Ciphertext, ct.addPlain pt = ct.addPlain pt' ∧ ct.subPlain pt = ct.subPlain pt' ∧ Ciphertext.plainSub pt ct = Ciphertext.plainSub pt' ct) ∧
      (∀ (g : Prg) (sk : SecretKey) (seed : Seed) (rng : Nat → Nat), sk.tryEncrypt g pt seed rng = sk.tryEncrypt g pt' seed rng) ∧
      ∀ (pk : PublicKey) (rngU rng1 rng2 : Nat → Nat), pk.tryEncrypt pt rngU rng1 rng2 = pk.tryEncrypt pt' rngU rng1 rng2 := by
  obtain ⟨n, hw, -⟩ := build_inv hb h
  obtain ⟨pt', m', h1, h2, h3⟩ := hpt.read hw hP hq
  exact ⟨pt', m', h1, h2.encoding.symm, h3, fun e => ⟨h2.decodeU64 e, h2.decodeBigUint e, h2.decodeI64 e⟩, fun ct => ⟨h2.addPlain ct, h2.subPlain ct, h2.plainSub ct⟩,
    fun g sk seed rng => h2.skEncrypt g sk seed rng, fun pk rngU rng1 rng2 => h2.pkEncrypt pk rngU rng1 rng2⟩

/-- C85, multiplying: multiplication by a plaintext that carries `P` multiplies the message by `P` modulo `t`, whatever the size of the
coefficients, and the noise by `P`. -/
theorem C85_multiply (hb : b.OK) (h : build b s = Res.ok par.toBfvParameters) {sk : IntPoly par.degree} {ct : Ciphertext} {level : Nat} {m : par.Msg} {v P : IntPoly par.degree}
    (hct : ct.Encrypts par sk level m v) {pt : Plaintext} (hpt : pt.Carries par level P) :
    ∃ (r : Ciphertext) (m' : par.Msg), ct.mulPlain pt = some r ∧ (∀ j, m' j = ((P j : Int) : ZMod par.plaintext.value)) ∧ r.Encrypts par sk level (m * m') (v * P) := by
  obtain ⟨n, hw, -⟩ := build_inv hb h
  obtain ⟨r, h1, h2, -⟩ := Ciphertext.mulPlain_any hw hct hpt
  exact ⟨r, _, h1, fun j => rfl, h2⟩

/-- C85: with coefficients below the first ciphertext modulus, or with a plaintext modulus at or above it, both agree on the remainder
modulo `t`. -/
theorem C85_agree {t q x : Nat} (h : x < q ∨ q ≤ t) : readCoefficient t q x = x % t := by
  unfold readCoefficient
  split
  · rw [Nat.mod_eq_of_lt (a := x) (b := q) (by omega)]
  · rfl

/-- C85, otherwise they do not: at the parameters of degree 8 with plaintext modulus 17 and moduli 97, 113, 193, the plaintext made of the
value 100 decodes to 3 and adds 3, but multiplies by 15. -/
theorem C85_two_messages : ∃ (par : Par) (pt : Plaintext) (m3 m15 : par.Msg), build luckyBuild exBuilder = Res.ok par.toBfvParameters ∧
    Plaintext.tryEncodeU64 [100] ⟨.poly, 0⟩ par true = Res.ok pt ∧ pt.decodeU64 none = Res.ok [3, 0, 0, 0, 0, 0, 0, 0] ∧
    m3 = const 3 ∧ m15 = const 15 ∧ m3 ≠ m15 ∧
    ∀ (sk : IntPoly par.degree) (ct : Ciphertext) (m : par.Msg) (v : IntPoly par.degree), ct.Encrypts par sk 0 m v →
      (∃ r v', ct.addPlain pt = some r ∧ r.Encrypts par sk 0 (m + m3) v') ∧ ∃ r v', ct.mulPlain pt = some r ∧ r.Encrypts par sk 0 (m * m15) v' := by
  obtain ⟨par, h, hd, ht, hm, -, h0, -, -⟩ := exParams
  have hpos : 0 < par.degree := by rw [hd]; norm_num
  have hq : par.moduli.head? = some 97 := by rw [hm]; rfl
  obtain ⟨pt, e1, -, hc⟩ := (C85_coefficients luckyBuild_ok h (level := 0) (by rw [hm]; decide) (v := [100]) (by rw [hd]; decide)).2 (by decide) (Or.inl (by rw [hm]; decide)) true
  obtain ⟨pt2, e2, e3⟩ := C35_unreduced luckyBuild_ok h (level := 0) (q := 97) (by rw [hm]; decide) hq (by rw [ht]; norm_num) (by rw [ht]; norm_num) (v := [100])
    (by rw [hd]; decide) (by decide) true
  obtain rfl : pt = pt2 := by rw [e1, Res.ok_inj] at e2; exact e2
  have hP : ∀ j : Fin par.degree, IntPoly.ofList par.degree ([100].map fun x : Nat => ((x % par.modulusAt 0 : Nat) : Int)) j = if j.val = 0 then 100 else 0 := by
    intro j
    rw [h0]
    show ([100] : List Int).getD j.val 0 = _
    split
    · rename_i hj; rw [hj]; rfl
    · rename_i hj; exact List.getD_eq_default _ _ (by simp; omega)
  obtain ⟨pt', m3, g1, -, g2, -, g3, -⟩ := C85_read luckyBuild_ok h hc (fun j => by rw [hP, h0]; split <;> norm_num) hq
  have r100 : readCoefficient par.plaintext.value 97 (100 : Int).toNat = 3 := by rw [ht]; rfl
  refine ⟨par, pt, m3, const 15, h, e1, by rw [e3, hd, ht]; rfl, ?_, rfl, ?_, fun sk ct m v hct => ⟨?_, ?_⟩⟩
  · apply Nega.ext; intro j
    rw [g2, hP]
    unfold const
    split
    · rw [r100]; norm_num
    · rw [show readCoefficient par.plaintext.value 97 (0 : Int).toNat = 0 by rw [ht]; rfl, Nat.cast_zero]
  · intro he
    have h1 := g2 ⟨0, hpos⟩
    rw [he, hP] at h1
    have h2 : (15 : ZMod par.plaintext.value) = ((3 : Nat) : ZMod par.plaintext.value) := by
      rw [← r100]; simpa [const] using h1
    rw [show (15 : ZMod par.plaintext.value) = ((15 : Nat) : ZMod par.plaintext.value) by norm_num, ZMod.natCast_eq_natCast_iff', ht] at h2
    exact absurd h2 (by decide)
  · obtain ⟨w, -, ⟨r, r1, r2, -⟩, -⟩ := C38_plain luckyBuild_ok h (by rw [h0, ht]; decide) hct g1
    exact ⟨r, _, by rw [(g3 ct).1, r1], r2⟩
  · obtain ⟨r, m', r1, r2, r3⟩ := C85_multiply luckyBuild_ok h hct hc
    have : m' = const 15 := by
      apply Nega.ext; intro j
      rw [r2, hP]
      unfold const
      split
      · rw [show (15 : ZMod par.plaintext.value) = ((15 : Nat) : ZMod par.plaintext.value) by norm_num,
          show (((100 : Int)) : ZMod par.plaintext.value) = ((100 : Nat) : ZMod par.plaintext.value) by norm_num, ZMod.natCast_eq_natCast_iff', ht]
      · simp
    exact ⟨r, _, r1, this ▸ r3⟩

/-- Slots: 20 is encoded as 3, and 40 makes the encoder panic; the last level: 386 is encoded as 95, and 388 makes the encoder panic. -/
example : ∃ par : Par, build luckyBuild exBuilder = Res.ok par.toBfvParameters ∧
    Plaintext.tryEncodeU64 [20, 1] ⟨.simd, 1⟩ par true = Plaintext.tryEncodeU64 [3, 1] ⟨.simd, 1⟩ par true ∧
    (∃ pt, Plaintext.tryEncodeU64 [20, 1] ⟨.simd, 1⟩ par true = Res.ok pt) ∧
    Plaintext.tryEncodeU64 [40, 1] ⟨.simd, 1⟩ par false = Res.panic ∧
    Plaintext.tryEncodeU64 [386] ⟨.poly, 2⟩ par false = Plaintext.tryEncodeU64 [95] ⟨.poly, 2⟩ par false ∧
    (∃ pt, Plaintext.tryEncodeU64 [386] ⟨.poly, 2⟩ par false = Res.ok pt) ∧
    Plaintext.tryEncodeU64 [388] ⟨.poly, 2⟩ par false = Res.panic := by
  obtain ⟨par, h, hd, ht, hm, hop, h0, h1, h2⟩ := exParams
  have hq : par.moduli.head? = some 97 := by rw [hm]; rfl
  have a1 := (C85_slots luckyBuild_ok h hop (level := 1) (by rw [hm]; decide) (v := [20, 1]) (by rw [hd]; decide) true).1 (by rw [ht]; decide)
  have a2 := (C85_slots luckyBuild_ok h hop (level := 1) (by rw [hm]; decide) (v := [40, 1]) (by rw [hd]; decide) false).2.1 (by rw [ht]; decide)
  have a3 := (C85_last_level luckyBuild_ok h (level := 2) (by rw [hm]; rfl) hq (v := [386]) (by rw [hd]; decide) false).1 (by decide)
  have a4 := (C85_last_level luckyBuild_ok h (level := 2) (by rw [hm]; rfl) hq (v := [388]) (by rw [hd]; decide) false).2 (by decide)
  rw [ht] at a1
  have a1 : Plaintext.tryEncodeU64 [20, 1] ⟨.simd, 1⟩ par true = Plaintext.tryEncodeU64 [3, 1] ⟨.simd, 1⟩ par true := a1
  have a3 : Plaintext.tryEncodeU64 [386] ⟨.poly, 2⟩ par false = Plaintext.tryEncodeU64 [95] ⟨.poly, 2⟩ par false := a3
  refine ⟨par, h, a1, ?_, a2, a3, ?_, a4⟩
  · obtain ⟨ζ, -, hh, -⟩ := C34_simd luckyBuild_ok h hop
    obtain ⟨m, -, hh, -⟩ := hh [3, 1] 1 (by rw [hd]; decide) (by rw [ht]; decide) (by rw [hm]; decide) (by rw [h1, ht]; decide)
    obtain ⟨pt, e1, -⟩ := hh true
    exact ⟨pt, a1.trans e1⟩
  · obtain ⟨pt, e1, -⟩ := (C85_coefficients luckyBuild_ok h (level := 2) (by rw [hm]; decide) (v := [95]) (by rw [hd]; decide)).2 (by decide) (Or.inr (by rw [h2]; decide)) false
    exact ⟨pt, a3.trans e1⟩

end Fhe.Props
